import Verif.Spec.Parallel
import Verif.Spec.Selection
import Verif.Spec.Reports

/-! # Specification vocabulary for comparing parallel and sequential runs (C90) -/

namespace Verif.Spec
open Verif.Py Verif.Model

variable {fl : Durations}

/-- The result of a test depends on no other test of the run than those it depends on. -/
def Local (deps : Str → List Str) (verdict : List Str → Str → Option Result) : Prop :=
  ∀ n ex ex', (∀ d ∈ deps n, d ∈ ex ↔ d ∈ ex') → verdict ex n = verdict ex' n

/-- The report that the worker of a test leaves, which finds the results of the tests `ex`: the one of
a run of this test alone, whatever time it takes. -/
def WorkerReport (u : Unicode) (cfg : Config) (verdict : List Str → Str → Option Result)
    (ex : List Str) (n : Str) (b : Option Bytes) : Prop :=
  ∃ o : Outcome fl, o.map (·.1) = verdict ex n ∧
    b = applyEvs none (runAsync u fl { cfg with cont := false } (fun _ _ => o) [n] none).1

/-- The states of a parallel run in which every worker leaves the report of its test.  The test finds
the results of all tests that had ended when it was started (for which `g` accounts), and perhaps of
others that were started before it ends. -/
inductive Works (c : PConf fl) (cfg : Config) (verdict : List Str → Str → Option Result) :
    PSt fl → (Str → List Str) → Prop
  | init : Works c cfg verdict (PSt.init c) (fun _ => [])
  | step {s t : PSt fl} {g : Str → List Str} : Works c cfg verdict s g → PStep c s t →
      (∀ n, n ∈ t.ready → n ∉ s.ready → ∃ ex, (∀ x ∈ g n, x ∈ ex) ∧ (∀ x ∈ ex, x ∈ s.started) ∧
        WorkerReport (fl := fl) c.u cfg verdict ex n (t.files (batchName n))) →
      Works c cfg verdict t (fun n => if n ∈ s.started then g n else s.ready)

/-- The records are reviewed by `case_review` without a user (runs.py:338-349). -/
def ReviewedBy (cfg : Config) (exp out : Path) (c : PConf fl) : Prop :=
  ∀ r rv ab, c.review r rv ab → ∃ fs fs' q,
    caseReview cfg exp out r.1 r.2.1 [] fs = (fs', .done rv q, [])

end Verif.Spec
