import Verif.Lemmas.Runs
import Verif.Lemmas.Reports

/-! # The lines of a case report contain no newline, and a carriage return only if it was printed -/

namespace Verif.Lemmas
open Verif.Py Verif.Model Verif.Spec

variable (e : Env)

/-- The invariant. -/
structure RepOk (s : St) : Prop where
  open_ : '\n' ∉ s.outLine
  rep : ∀ l ∈ s.rep, '\n' ∉ l ∧ ('\r' ∈ l → '\r' ∈ s.out)
  expLine : ∀ l, s.expLine = some l → '\n' ∉ l ∧ '\r' ∉ l
  exp : ∀ r, s.exp = some r → '\r' ∉ r

theorem readline_mem (s : Str) : ∀ c, (c ∈ (readline s).1 ∨ c ∈ (readline s).2) → c ∈ s := by
  induction s with
  | nil => intro c h; simpa [readline] using h
  | cons x xs ih =>
    intro c h
    unfold readline at h
    split at h
    · rename_i hx
      simpa using h
    · rcases h with h | h
      · simp only [List.mem_cons] at h ⊢
        rcases h with h | h
        · exact Or.inl h
        · exact Or.inr (ih c (Or.inl h))
      · exact List.mem_cons_of_mem _ (ih c (Or.inr h))

theorem repOk_of_core {s s' : St} (h : RepOk s) (hc : core s' = core s)
    (h1 : ∀ l, s'.expLine = some l → '\n' ∉ l ∧ '\r' ∉ l) (h2 : ∀ r, s'.exp = some r → '\r' ∉ r) :
    RepOk s' := by
  have e1 : s'.outLine = s.outLine := congrArg Core.outLine hc
  have e2 : s'.rep = s.rep := congrArg Core.rep hc
  have e3 : s'.out = s.out := congrArg Core.out hc
  exact ⟨by rw [e1]; exact h.open_, by rw [e2, e3]; exact h.rep, h1, h2⟩

theorem repOk_next {s : St} (h : RepOk s) : RepOk (nextExpLine e s) := by
  refine repOk_of_core h (core_nextExpLine e s) ?_ ?_
  · intro l hl
    unfold nextExpLine at hl
    split at hl
    · split at hl
      · rename_i rest hr
        dsimp only at hl
        split at hl
        · simp at hl
        · simp only [Option.some.injEq] at hl
          subst hl
          exact ⟨readline_dropLast_newline_free _,
            fun hc => h.exp _ hr (readline_mem rest _ (Or.inl (List.dropLast_subset _ hc)))⟩
      · split at hl
        · simp at hl
        · exact h.expLine l hl
    · exact h.expLine l hl
  · intro r hr
    unfold nextExpLine at hr
    split at hr
    · split at hr
      · rename_i rest hrest
        dsimp only at hr
        split at hr
        · simp at hr
        · simp only [Option.some.injEq] at hr
          subst hr
          exact fun hc => h.exp _ hrest (readline_mem rest _ (Or.inr hc))
      · rename_i hn
        split at hr
        · exact h.exp r hr
        · exact h.exp r hr
    · exact h.exp r hr

theorem repOk_reset {s : St} (h : RepOk s) : RepOk (resetExpReader e s) := by
  unfold resetExpReader
  refine repOk_next e ⟨h.open_, h.rep, fun l hl => by simp at hl, ?_⟩
  intro r hr
  dsimp only at hr
  split at hr
  · cases hr; exact universalNewlines_no_cr _
  · cases hr

private theorem mem_ljust {c : Char} {n : Nat} {s : Str} (h : c ∈ ljust n s) : c ∈ s ∨ c = ' ' := by
  unfold ljust at h
  rcases List.mem_append.mp h with h | h
  · exact Or.inl h
  · exact Or.inr (List.eq_of_mem_replicate h)

/-- The state in which a line is written. -/
private theorem repOk_write {s : St} {rep : List Str} {d x : Nat} (h : RepOk s)
    (hr : ∀ l ∈ rep, '\n' ∉ l ∧ ('\r' ∈ l → '\r' ∈ s.out ++ s.outLine)) :
    RepOk (writeLine e { s with diffs := d, errors := x, rep := rep }) := by
  unfold writeLine
  dsimp only
  have h1 : RepOk { s with
      diffs := d, errors := x, rep := rep, out := s.out ++ s.outLine ++ ['\n'], outLine := [] } := by
    refine ⟨by simp, ?_, h.expLine, h.exp⟩
    intro l hl
    exact ⟨(hr l hl).1, fun hc => List.mem_append_left _ ((hr l hl).2 hc)⟩
  have h2 := repOk_next e h1
  exact ⟨h2.open_, h2.rep, h2.expLine, h2.exp⟩

theorem repOk_commit {s : St} (h : RepOk s) : RepOk (commitLine e s) := by
  have hold : ∀ l ∈ s.rep, '\n' ∉ l ∧ ('\r' ∈ l → '\r' ∈ s.out ++ s.outLine) :=
    fun l hl => ⟨(h.rep l hl).1, fun hc => List.mem_append_left _ ((h.rep l hl).2 hc)⟩
  unfold commitLine
  split
  · dsimp only
    have hshown : ∀ (sym : Str), '\n' ∉ sym → '\r' ∉ sym →
        '\n' ∉ (match s.expLine with
          | some l => sym ++ [' '] ++ ljust 60 s.outLine ++ [' ', '|', ' '] ++ l
          | none => sym ++ [' '] ++ ljust 60 s.outLine ++ [' ', '|', ' ', 'E', 'O', 'F']) ∧
        ('\r' ∈ (match s.expLine with
          | some l => sym ++ [' '] ++ ljust 60 s.outLine ++ [' ', '|', ' '] ++ l
          | none => sym ++ [' '] ++ ljust 60 s.outLine ++ [' ', '|', ' ', 'E', 'O', 'F']) →
          '\r' ∈ s.out ++ s.outLine) := by
      intro sym hs1 hs2
      have hj1 : '\n' ∉ ljust 60 s.outLine := by
        intro hc
        rcases mem_ljust hc with hc | hc
        · exact h.open_ hc
        · exact absurd hc (by decide)
      have hj2 : '\r' ∈ ljust 60 s.outLine → '\r' ∈ s.outLine := by
        intro hc
        rcases mem_ljust hc with hc | hc
        · exact hc
        · exact absurd hc (by decide)
      cases hx : s.expLine with
      | none =>
        refine ⟨by simp [hs1, hj1], ?_⟩
        intro hc
        simp only [List.mem_append, List.mem_cons, List.not_mem_nil, or_false] at hc
        rcases hc with ((hc | hc) | hc) | hc
        · exact absurd hc hs2
        · exact absurd hc (by decide)
        · exact List.mem_append_right _ (hj2 hc)
        · exact absurd hc (by decide)
      | some l =>
        have := h.expLine l hx
        refine ⟨by simp [hs1, hj1, this.1], ?_⟩
        intro hc
        simp only [List.mem_append, List.mem_cons, List.not_mem_nil, or_false] at hc
        rcases hc with (((hc | hc) | hc) | hc) | hc
        · exact absurd hc hs2
        · exact absurd hc (by decide)
        · exact List.mem_append_right _ (hj2 hc)
        · exact absurd hc (by decide)
        · exact absurd hc this.2
    have hcaret : ∀ l ∈ (if e.pointErrorPos then [[' ', ' '] ++ List.replicate
        (match s.lineError with | some p => p | none => s.lineDiff.getD 0) ' ' ++ ['^']] else []),
        '\n' ∉ l ∧ ('\r' ∈ l → '\r' ∈ s.out ++ s.outLine) := by
      intro l hl
      split at hl
      · obtain rfl := List.mem_singleton.mp hl
        refine ⟨by simp [List.mem_replicate], fun hc => ?_⟩
        simp [List.mem_replicate] at hc
      · cases hl
    have h1 := repOk_write e (s := s) (rep := s.rep ++
        [match s.expLine with
          | some l => (if s.lineError.isSome then ['!'] else ['?']) ++ [' '] ++ ljust 60 s.outLine ++
            [' ', '|', ' '] ++ l
          | none => (if s.lineError.isSome then ['!'] else ['?']) ++ [' '] ++ ljust 60 s.outLine ++
            [' ', '|', ' ', 'E', 'O', 'F']] ++
        (if e.pointErrorPos then [[' ', ' '] ++ List.replicate
          (match s.lineError with | some p => p | none => s.lineDiff.getD 0) ' ' ++ ['^']] else []))
      (d := if s.lineDiff.isSome then s.diffs + 1 else s.diffs)
      (x := if s.lineError.isSome then s.errors + 1 else s.errors) h (by
        intro l hl
        rcases List.mem_append.mp hl with hl | hl
        · rcases List.mem_append.mp hl with hl | hl
          · exact hold l hl
          · obtain rfl := List.mem_singleton.mp hl
            refine hshown _ ?_ ?_ <;> split <;> decide
        · exact hcaret l hl)
    exact ⟨h1.open_, h1.rep, h1.expLine, h1.exp⟩
  · refine repOk_write e (s := s) (d := s.diffs) (x := s.errors) h ?_
    intro l hl
    rcases List.mem_append.mp hl with hl | hl
    · exact hold l hl
    · obtain rfl := List.mem_singleton.mp hl
      refine ⟨by simp [h.open_], fun hc => ?_⟩
      simp only [List.mem_append, List.mem_cons, List.not_mem_nil, or_false] at hc
      rcases hc with hc | hc
      · exact absurd hc (by decide)
      · exact List.mem_append_right _ hc

theorem repOk_feed {s : St} {t : Str} {c : Bool} (ht : Tok t) (h : RepOk s) :
    RepOk (feedToken e s t c) := by
  have h1 : RepOk (compared e s t c) := by
    refine ⟨by rw [compared_outLine]; exact h.open_, ?_, ?_, ?_⟩
    · rw [compared_rep, compared_out]; exact h.rep
    · rw [compared_expLine]; exact h.expLine
    · rw [compared_exp]; exact h.exp
  rw [feedToken_eq]
  split
  · exact repOk_commit e h1
  · rename_i hne
    refine ⟨?_, h1.rep, h1.expLine, h1.exp⟩
    rcases ht with rfl | ht
    · exact absurd rfl hne
    · simp [h.open_, ht.2]

theorem repOk_diff {s : St} (h : RepOk s) : RepOk (diff s) := by
  unfold diff
  split
  · exact ⟨h.open_, h.rep, h.expLine, h.exp⟩
  · exact h

theorem repOk_fail {s : St} (h : RepOk s) : RepOk (fail s) := by
  unfold fail
  split
  · exact ⟨h.open_, h.rep, h.expLine, h.exp⟩
  · exact h

theorem repOk_start : RepOk (start e) := by
  refine repOk_reset e ⟨by simp [St.init], by simp [St.init], by simp [St.init], by simp [St.init]⟩

theorem repOk_execAll {os : List Op} {s s' : St} (h : execAll e os s = some s') (hs : RepOk s) :
    RepOk s' :=
  execAll_rel e (R := fun s s' => RepOk s → RepOk s') (fun _ => id) (fun _ _ _ h1 h2 h => h2 (h1 h))
    (fun _ => repOk_next e) (fun _ => repOk_reset e) (fun _ _ _ ht => repOk_feed e ht) os
    (fun _ _ => repOk_diff) (fun _ _ => repOk_fail) h hs

theorem repOk_iln {x : Str} {s s' : St} (h : opIln e x s = some s') (hs : RepOk s) : RepOk s' :=
  iln_rel e (R := fun s s' => RepOk s → RepOk s') (fun _ => id) (fun _ _ _ h1 h2 h => h2 (h1 h))
    (fun _ _ ht => repOk_feed e ht) h hs

theorem repOk_runTest {x : Test} {s : St} (h : runTest e x = some s) : RepOk s := by
  unfold runTest at h
  simp only [bind, Option.bind_eq_some_iff] at h
  obtain ⟨s1, h1, h2⟩ := h
  have hs1 := repOk_execAll e h1 (repOk_start e)
  split at h2
  · cases h2; exact hs1
  · unfold handler at h2
    simp only [bind, Option.bind_eq_some_iff] at h2
    obtain ⟨a, ha, b, hb, hc⟩ := h2
    exact repOk_iln e hc (repOk_iln e hb (repOk_fail (repOk_iln e ha hs1)))

end Verif.Lemmas
