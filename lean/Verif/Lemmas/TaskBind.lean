import Verif.Model.ParallelRun

/-! # Tasks one after the other -/

namespace Verif.Lemmas
open Verif.Py Verif.Model

/-- First a task, then another one, which depends on how the first one ends. -/
def bindTask : Task → (CaseEnd → Task) → Task
  | .done e, f => f e
  | .act o k, f => .act o (fun a => bindTask (k a) f)

variable {f : CaseEnd → Task}

theorem bind_mkdirs (k : Task) : ∀ (cs : List Str) (base : Path),
    bindTask (mkdirsTask base cs k) f = mkdirsTask base cs (bindTask k f) := by
  intro cs
  induction cs with
  | nil => intro base; rfl
  | cons c cs ih =>
    intro base
    simp only [mkdirsTask, bindTask]
    congr 1
    funext a
    cases a with
    | none => exact ih _
    | some x =>
      cases x with
      | dir => exact ih _
      | file t => rfl

theorem bind_ite {p : Prop} [Decidable p] (a b : Task) :
    bindTask (if p then a else b) f = if p then bindTask a f else bindTask b f := by
  split <;> rfl

theorem bind_remove (d : Path) (k : Task) : bindTask (removeTask d k) f = removeTask d (bindTask k f) := by
  unfold removeTask
  simp only [bindTask, bind_ite]

theorem bind_outputs (out : Path) (name md txt log : Str) (k : Task) :
    bindTask (outputsTask out name md txt log k) f = outputsTask out name md txt log (bindTask k f) := rfl

theorem bind_files (out : Path) (name : Str) (k : Task) : ∀ files : List (Str × Str),
    bindTask (filesTask out name files k) f = filesTask out name files (bindTask k f) := by
  intro files
  induction files with
  | nil => rfl
  | cons x rest ih =>
    simp only [filesTask, bindTask, bind_ite, ih]

theorem bind_freeze (exp out : Path) (name : Str) (k : Task) :
    bindTask (freezeTask exp out name k) f = freezeTask exp out name (bindTask k f) := by
  unfold freezeTask
  rw [bind_remove]
  simp only [bindTask, bind_ite]

theorem bind_save (out : Path) (name : Str) (v : Option Str) (k : Task) :
    bindTask (saveTask out name v k) f = saveTask out name v (bindTask k f) := by
  cases v with
  | none => simp only [saveTask, bindTask, bind_ite]
  | some v => rfl

theorem bind_review (P : Project) (cfg : Config) (name : Str) (ans : List Str) (v : Result)
    (yes no : Request → List Str → Task) (hf : f .eof = .done .eof) :
    bindTask (reviewTask P cfg name ans v yes no) f =
      reviewTask P cfg name ans v (fun q l => bindTask (yes q l) f) (fun q l => bindTask (no q l) f) := by
  unfold reviewTask
  dsimp only
  generalize (if (cfg.alwaysInteractive || (decide (v ≠ .OK) && cfg.interactive)) = true then interact (.res v) ans
    else some (.NONE, ans)) = x
  cases x with
  | none => exact hf
  | some c =>
    obtain ⟨q, rest⟩ := c
    dsimp only
    rw [bind_ite, bind_freeze]

theorem bind_case (P : Project) (cfg : Config) (name : Str) (ans : List Str) (k : Result → Request → List Str → Task)
    (he : f .eof = .done .eof) (hx : ∀ x, f (.error x) = .done (.error x)) (hh : f .hangs = .done .hangs) :
    bindTask (caseTask P cfg name ans k) f = caseTask P cfg name ans (fun r q l => bindTask (k r q l) f) := by
  unfold caseTask
  rw [bind_mkdirs, bind_mkdirs]
  congr 2
  rw [bindTask]
  congr 1
  funext a
  rw [bind_remove, bind_remove, bind_outputs, bind_ite]
  congr 3
  congr 1
  · exact hx _
  · dsimp only
    generalize P.env (match a with | some (.file c) => some c | _ => none) = e
    cases runTest e (P.tests name).body with
    | none => exact hh
    | some s =>
      dsimp only
      rw [bind_files, bind_outputs]
      congr 2
      unfold endTask
      rw [bind_review _ _ _ _ _ _ _ he]
      congr 1
      · funext q l
        rw [bind_save]
      · funext q l
        rw [bind_ite, bind_save]

/-- What comes after the test does not change what has happened before. -/
theorem inter_bind {T : Str → Task} {ns trace : List Str} {fs g : FS} {t : Str → Task}
    (H : Interleaved T ns fs trace g t) (n : Str) (hx : ∀ x, f (.error x) = .done (.error x)) :
    Interleaved (fun m => if m = n then bindTask (T m) f else T m) ns fs trace g
      (fun m => if m = n then bindTask (t m) f else t m) := by
  induction H with
  | init => exact .init
  | @step trace g g' t task m H hm hst ih =>
    have hst' : (if m = n then bindTask (t m) f else t m).step g =
        some (g', if m = n then bindTask task f else task) := by
      by_cases e : m = n
      · rw [if_pos e, if_pos e]
        cases ht : t m with
        | done x => rw [ht] at hst; cases hst
        | act o k =>
          rw [ht] at hst
          simp only [bindTask, Task.step] at hst ⊢
          cases hr : o.run g with
          | error x =>
            rw [hr] at hst
            cases hst
            simp only [bindTask, hx]
          | ok y =>
            rw [hr] at hst
            cases hst
            rfl
      · rw [if_neg e, if_neg e]
        exact hst
    have := ih.step (task := if m = n then bindTask task f else task) m hm hst'
    have e : (fun m_1 => if m_1 = n then bindTask ((fun m_2 => if m_2 = m then task else t m_2) m_1) f
        else (fun m_2 => if m_2 = m then task else t m_2) m_1) =
        fun m_1 => if m_1 = m then (if m = n then bindTask task f else task)
          else (fun m => if m = n then bindTask (t m) f else t m) m_1 := by
      funext k
      dsimp only
      by_cases e1 : k = m
      · subst e1; simp only [if_true]
      · simp only [if_neg e1]
    rw [e]
    exact this

end Verif.Lemmas
