import Verif.Spec.Project
import Verif.Spec.Cache
import Verif.Spec.ParallelRun
import Verif.Model.Dependents

/-! # Specification vocabulary for runs of tests with dependencies (C128, C129) -/

namespace Verif.Spec
open Verif.Py Verif.Model

/-- The value of a test that is stored. -/
def storedValue (root : Path) (fs : FS) (n : Str) : Option Str :=
  match fs.get (slot root true n ".bin".toList) with
  | some (.file v) => some v
  | _ => none

/-- All values, or the first test without one. -/
def valuesOf (val : Str → Option Str) : List Str → Values
  | [] => .ok []
  | d :: ds =>
    match val d, valuesOf val ds with
    | none, _ => .error d
    | some v, .ok vs => .ok (some v :: vs)
    | some _, .error e => .error e

/-- The tests with the values that are stored in `fs`. -/
def DProject.with (D : DProject) (fs : FS) : Project :=
  D.filled fun n => valuesOf (storedValue D.root fs) (D.deps n)

/-- Tests that can be executed in this order: the tests that a test depends on do not come later, and
those that others depend on return something. -/
structure DepsFirst (D : DProject) (ns todo : List Str) : Prop where
  names : ∀ n ∈ todo, ∀ d ∈ D.deps n, d ∈ ns
  before : ∀ l1 n l2, todo = l1 ++ n :: l2 → ∀ d ∈ D.deps n, d ∉ n :: l2
  returns : ∀ n ∈ todo, ∀ d ∈ D.deps n, d ∈ todo → ∀ vs, (D.fn d vs).returns ≠ none

/-- A cache at the beginning of a run: a dictionary or a `LruCache` that can hold something (`NoCache` cannot be
used, C42). -/
def EmptyCache : Cache Str → Prop
  | .dict d => d = []
  | .lru n d => 0 < n ∧ d = []
  | .noCache => False

/-- The tests with the values that are stored when they have been executed one after the other. -/
def calledIn {fl : Durations} (c : DConf fl) (fs : FS) (ans : List Str) (cache : Cache Str) : Project :=
  DProject.with c.D (runCasesD c.D c.cfg c.todo ((mkdirs fs c.D.dirs.out, ans), cache)).1.1

/-- Tests with dependencies that can be executed by workers: a test waits for those it depends on, the names can be
told apart, and nothing but the operations of the tests fails. -/
structure Parallelizable {fl : Durations} (c : DConf fl) (ns selected : List Str) (fs : FS) : Prop where
  names : Tidy (c.conf c.D.dirs)
  quiet : NotAsking c.cfg
  update : c.cfg.update = false
  plain : PlainNames ns
  sound : SoundTree c.D.root ns fs
  sub : ∀ n ∈ selected, n ∈ ns
  nodup : selected.Nodup
  first : DepsFirst c.D ns selected
  waits : ∀ n ∈ c.todo, ∀ d ∈ c.D.deps n, d ∈ c.todo → d ∈ c.waits n
  breaks : ∀ n b, ¬ c.breaks n b

/-- The worker of the test does something: it is given to a process, loads a result or does what `Moves` says. -/
def MovesD {fl : Durations} (n : Str) (s s' : DSt fl) : Prop :=
  Moves n s.r s'.r ∨ s'.proc n ≠ s.proc n ∨ s'.call n ≠ s.call n

/-- Executions in which everybody who can go on does so (compare `FairRun`). -/
structure FairRunD {fl : Durations} (c : DConf fl) (size : Nat) (fs : FS) (ans : List Str) (σ : Nat → DSt fl) : Prop where
  init : σ 0 = DSt.init c size fs ans
  step : ∀ i, DStep c (σ i) (σ (i + 1)) ∨ σ (i + 1) = σ i
  undisturbed : ∀ i, (σ i).r.run.abort = true → ∃ x, (σ i).r.run.rpc = .ended x
  workers : ∀ i n, (σ i).r.Works n → (∃ s, DStep c (σ i) s ∧ MovesD n (σ i) s) → ∃ j, i ≤ j ∧ MovesD n (σ j) (σ (j + 1))
  scheduler : ∀ i, (σ i).r.run.spc ≠ .stopped → (σ i).r.run.spc ≠ .crashed → ∃ j, i ≤ j ∧ (σ j).r.run.spc ≠ (σ i).r.run.spc
  main : ∀ i, (∀ x, (σ i).r.run.rpc ≠ .ended x) → ((σ i).r.run.rpc = .waiting → (σ i).r.run.queue ≠ []) →
    ∃ j, i ≤ j ∧ ((σ j).r.run.rpc ≠ (σ i).r.run.rpc ∨ ∃ v t, (σ j).r.review = some v ∧
      v.task.step (σ j).r.fs = some ((σ (j + 1)).r.fs, t) ∧ (σ (j + 1)).r.review = some { v with task := t })

end Verif.Spec
