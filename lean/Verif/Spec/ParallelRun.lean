import Verif.Model.ParallelRun
import Verif.Spec.Reports

/-! # Specification vocabulary for parallel runs with their files (C118) -/

namespace Verif.Spec
open Verif.Py Verif.Model

/-- Tests with different names that can be written to reports, and different directories for their workers. -/
structure Tidy {fl : Durations} (c : RConf fl) : Prop where
  todo : c.todo.Nodup
  batches : ∀ a ∈ c.todo, ∀ b ∈ c.todo, batchName a = batchName b → a = b
  names : ∀ n ∈ c.todo, CleanName n

/-- Nobody is asked about a test whose worker has left no report. -/
def AsksReported {fl : Durations} (c : RConf fl) : Prop :=
  ∀ n, c.breaks n false → c.cfg.interactive = false ∧ c.cfg.alwaysInteractive = false

/-- The worker of the test does something: it executes an operation, opens or writes its report, writes the index or
ends. -/
def Moves {fl : Durations} (n : Str) (s s' : RSt fl) : Prop :=
  s'.ran = s.ran ++ [n] ∨ s'.reports n ≠ s.reports n ∨ s'.indexed n ≠ s.indexed n ∨
    (n ∉ s.run.ready ∧ n ∈ s'.run.ready)

/-- Infinite executions of a parallel run with its files (which may do nothing in between) that nobody interrupts and in
which no process that can go on is kept waiting forever. -/
structure FairRun {fl : Durations} (c : RConf fl) (fs : FS) (ans : List Str) (σ : Nat → RSt fl) : Prop where
  init : σ 0 = RSt.init c fs ans
  step : ∀ i, RStep c (σ i) (σ (i + 1)) ∨ σ (i + 1) = σ i
  /-- The only thing that sets `abort` is the end of the run. -/
  undisturbed : ∀ i, (σ i).run.abort = true → ∃ x, (σ i).run.rpc = .ended x
  workers : ∀ i n, (σ i).Works n → (∃ s, RStep c (σ i) s ∧ Moves n (σ i) s) → ∃ j, i ≤ j ∧ Moves n (σ j) (σ (j + 1))
  scheduler : ∀ i, (σ i).run.spc ≠ .stopped → (σ i).run.spc ≠ .crashed → ∃ j, i ≤ j ∧ (σ j).run.spc ≠ (σ i).run.spc
  /-- The main thread goes on, or executes an operation of a review. -/
  main : ∀ i, (∀ x, (σ i).run.rpc ≠ .ended x) → ((σ i).run.rpc = .waiting → (σ i).run.queue ≠ []) →
    ∃ j, i ≤ j ∧ ((σ j).run.rpc ≠ (σ i).run.rpc ∨ ∃ v t, (σ j).review = some v ∧
      v.task.step (σ j).fs = some ((σ (j + 1)).fs, t) ∧ (σ (j + 1)).review = some { v with task := t })

end Verif.Spec
