import Verif.Model.Parallel

/-! # Executions of parallel runs -/

namespace Verif.Spec
open Verif.Py Verif.Model

variable {fl : Durations}

/-- An execution (with pauses) of a parallel run that is not aborted, in which every started test
finishes, and no thread that can go on is kept waiting forever. -/
structure Fair (c : PConf fl) (σ : Nat → PSt fl) : Prop where
  init : σ 0 = PSt.init c
  step : ∀ i, PStep c (σ i) (σ (i + 1)) ∨ σ (i + 1) = σ i
  /-- The only thing that sets `abort` is the end of the run. -/
  undisturbed : ∀ i, (σ i).abort = true → ∃ x, (σ i).rpc = .ended x
  workers : ∀ i n, n ∈ (σ i).started → ∃ j, n ∈ (σ j).ready
  scheduler : ∀ i, (σ i).spc ≠ .stopped → (σ i).spc ≠ .crashed → ∃ j, i ≤ j ∧ (σ j).spc ≠ (σ i).spc
  main : ∀ i, (∀ x, (σ i).rpc ≠ .ended x) → ((σ i).rpc = .waiting → (σ i).queue ≠ []) →
    ∃ j, i ≤ j ∧ (σ j).rpc ≠ (σ i).rpc

/-- Reviews of the records that workers leave end with a result, without exception. -/
structure Calm (c : PConf fl) : Prop where
  review : ∀ n b r, c.leaves n b → collectOne c n b = some r → ∀ rv ab, c.review r rv ab →
    ∃ res, rv = .res res
  raises : ∀ n b r, c.leaves n b → collectOne c n b = some r → ¬ c.reviewRaises r

end Verif.Spec
