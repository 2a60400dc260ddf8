import Verif.Spec.TmpFiles

/-! # A run in which the user is asked, without file system and loop (C133) -/

namespace Verif.Spec
open Verif.Py Verif.Model

/-- The user is asked about a test with this result: always with `-I`, and with `-i` if the test is not `OK`. -/
def IsAsked (cfg : Config) (v : Result) : Prop := cfg.alwaysInteractive = true ∨ (v ≠ .OK ∧ cfg.interactive = true)

instance (cfg : Config) (v : Result) : Decidable (IsAsked cfg v) := by unfold IsAsked; infer_instance

/-- The answers after which no more is asked about a test: `c`, `q`, and `a` unless the test has failed. -/
def Decides (v : Result) (a : Str) : Prop := (a = "a".toList ∧ v ≠ .FAIL) ∨ a = "c".toList ∨ a = "q".toList

instance (v : Result) (a : Str) : Decidable (Decides v a) := by unfold Decides; infer_instance

/-- What such an answer means. -/
def meant (a : Str) : Request := if a = "a".toList then .FREEZE else if a = "q".toList then .ABORT else .NONE

/-- The first answer that decides, and the lines that the user has not been asked for yet. -/
def reply (v : Result) (lines : List Str) : Option (Request × List Str) :=
  match lines.dropWhile (fun a => !decide (Decides v a)) with
  | [] => none
  | a :: rest => some (meant a, rest)

/-- A test with questions: how it ends, the snapshot afterwards, and the lines that are left. -/
def caseAsked (P : Project) (cfg : Config) (n : Str) (snap : Option Str) (lines : List Str) :
    Option ((Result × Request) × Option Str × List Str) :=
  match runTest (P.env snap) (P.tests n).body with
  | none => none
  | some s =>
    let v := verdict (P.env snap) s
    match (if IsAsked cfg v then reply v lines else some (.NONE, lines)) with
    | none => none
    | some (q, rest) =>
      if q = .FREEZE ∨ AutoAccepted cfg v then some ((.OK, q), some s.out, rest) else some ((v, q), snap, rest)

/-- How a run has gone: the tests that have been executed with their results, the snapshots, and the lines that are
left. -/
structure Dialogue where
  ends : List (Str × Result)
  snaps : Str → Option Str
  rest : List Str
  /-- nothing has made the run stop before its end -/
  whole : Bool

/-- The snapshot of a test becomes another one. -/
def putSnap (snaps : Str → Option Str) (n : Str) (s : Option Str) : Str → Option Str :=
  fun m => if m = n then s else snaps m

/-- A run with questions; `none` if a test does not end or the user gives no more answers. -/
def dialogue (P : Project) (cfg : Config) : List Str → (Str → Option Str) → List Str → Option Dialogue
  | [], snaps, lines => some ⟨[], snaps, lines, true⟩
  | n :: ns, snaps, lines =>
    match caseAsked P cfg n (snaps n) lines with
    | none => none
    | some ((r, q), s, rest) =>
      if q = .ABORT ∨ (cfg.failFast = true ∧ r ≠ .OK) then some ⟨[(n, r)], putSnap snaps n s, rest, false⟩
      else (dialogue P cfg ns (putSnap snaps n s) rest).map fun d => ⟨(n, r) :: d.ends, d.snaps, d.rest, d.whole⟩

/-- The worst of some results. -/
def worst (rs : List Result) : Result := if .FAIL ∈ rs then .FAIL else if .DIFF ∈ rs then .DIFF else .OK

/-- Runs one after the other, each of which ends with success and changes no snapshot. -/
def PassOn {fl : Durations} (P : Project) (ns all : List Str) : List (Rerun fl) → FS → Option Bytes → Prop
  | [], _, _ => True
  | x :: xs, fs, report =>
    let r := runProject P x.cfg x.dur all x.selected fs x.answers report
    r.result = some .OK ∧ (∀ n ∈ ns, snapshot P.root r.fs n = snapshot P.root fs n) ∧ PassOn P ns all xs r.fs r.report

end Verif.Spec
