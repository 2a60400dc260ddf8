import Verif.Spec.Passing
import Verif.Spec.Dependents
import Verif.Model.ExecDependents

/-! # Accepted tests that get the results of others, and commands with or without workers (C131) -/

namespace Verif.Spec
open Verif.Py Verif.Model

/-- How a command can end (compare `Does`). -/
inductive DoesD (fl : Durations) (S : Site) (D : DProject) (args : List Str) (w : World) : CommandEnd → Prop
  | here (ans : List Str) (dur : Str → fl.D) (h : ∀ k, (booktestD S D args ans dur w).status ≠ .workers k) :
      DoesD fl S D args w (booktestD S D args ans dur w)
  | workers (ans : List Str) (dur : Str → fl.D) (zero : fl.D) (c : DConf fl) (records : List (Rec fl)) (σ : Nat → DSt fl)
      (i : Nat) (x : Bool) (hc : workersRunD S D args dur zero (fun _ _ => False) w = some (c, records))
      (hf : FairRunD c 8 (mkdirs w.fs D.dirs.out) ans σ) (hx : (σ i).r.run.rpc = .ended x) :
      DoesD fl S D args w (workersEndD w c records (σ i))

/-- The files are in order, the tests pass with their snapshots if they are called with the stored values, and
what they return then is stored. -/
structure AllPassD (fl : Durations) (S : Site) (D : DProject) (w : World) (ns : List Str) : Prop where
  known : ∀ n ∈ ns, n ∈ S.names
  files : SoundTree D.root S.names w.fs
  report : ∃ records, ofFile D.u fl w.report = some records
  passes : ∀ n ∈ ns, Passes (DProject.with D w.fs) w.fs n
  values : ∀ n ∈ ns, storedValue D.root w.fs n = ((DProject.with D w.fs).tests n).returns

/-- Any number of commands that run some of the tests `ns` (compare `Checked`). -/
inductive CheckedD (fl : Durations) (S : Site) (D : DProject) (ns : List Str) : World → World → Prop
  | none (w : World) : CheckedD fl S D ns w w
  | more {w w1 : World} (args : List Str) (uses : List (Str × CVal)) (cases : Option (List Str)) (e : CommandEnd) :
      CheckedD fl S D ns w w1 → Reads S.N (testChoices S.names) args uses cases → Checks (S.over D.dirs) w1 uses cases ns →
      DoesD fl S D args w1 e → CheckedD fl S D ns w e.world

/-- Values that the tests `ds` may have returned. -/
def Possible (may : Str → Str → Prop) (ds vs : List Str) : Prop :=
  vs.length = ds.length ∧ ∀ p ∈ ds.zip vs, may p.1 p.2

/-- Tests that can be repeated with all values that they may get: these are values that are stored, and what such tests
return when they get such values. -/
structure RepeatableD (D : DProject) (fs : FS) (may : Str → Str → Prop) (ns : List Str) : Prop where
  stored : ∀ n v, storedValue D.root fs n = some v → may n v
  test : ∀ n ∈ ns, ∀ vs, Possible may (D.deps n) vs → RepeatableTest D.u (D.fn n (vs.map some)).body
  returns : ∀ n ∈ ns, ∀ vs, Possible may (D.deps n) vs → ∀ v, (D.fn n (vs.map some)).returns = some v → may n v

end Verif.Spec
