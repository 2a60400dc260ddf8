import Verif.Spec.Lines

/-! # Reading a text line by line -/

namespace Verif.Lemmas
open Verif.Py Verif.Spec

theorem readline_length (s : Str) : (readline s).1.length + (readline s).2.length = s.length := by
  induction s with
  | nil => rfl
  | cons c cs ih =>
    unfold readline
    split
    · simp; omega
    · simp only [List.length_cons]; omega

theorem readline_ne_nil {s : Str} (h : s ≠ []) : (readline s).1 ≠ [] := by
  cases s with
  | nil => exact absurd rfl h
  | cons c cs => unfold readline; split <;> simp

theorem readline_rest_lt {s : Str} (h : s ≠ []) : (readline s).2.length < s.length := by
  have h1 := readline_length s
  have h2 := List.length_pos_iff.mpr (readline_ne_nil h)
  omega

/-- All lines a reader delivers, each without its last character. -/
def readLines (s : Str) : List Str :=
  if _h : s = [] then [] else (readline s).1.dropLast :: readLines (readline s).2
termination_by s.length
decreasing_by exact readline_rest_lt _h

/-- The unread rest after reading `n` lines. -/
def dropLines : Nat → Str → Str
  | 0, s => s
  | n + 1, s => dropLines n (readline s).2

theorem readLines_nil : readLines [] = [] := by unfold readLines; simp

theorem readLines_cons {s : Str} (h : s ≠ []) :
    readLines s = (readline s).1.dropLast :: readLines (readline s).2 := by
  rw [readLines]; simp [h]

theorem dropLines_nil (n : Nat) : dropLines n [] = [] := by
  induction n with
  | zero => rfl
  | succ n ih => simpa [dropLines, readline] using ih

theorem dropLines_succ' (n : Nat) (s : Str) : dropLines (n + 1) s = (readline (dropLines n s)).2 := by
  induction n generalizing s with
  | zero => rfl
  | succ n ih => rw [dropLines, ih, dropLines]

theorem readLines_dropLines (n : Nat) (s : Str) :
    readLines (dropLines n s) = (readLines s).drop n := by
  induction n generalizing s with
  | zero => rfl
  | succ n ih =>
    rw [dropLines, ih]
    by_cases h : s = []
    · subst h; simp [readline, readLines_nil]
    · rw [readLines_cons h]; simp

theorem dropLines_eq_nil_iff (n : Nat) (s : Str) :
    dropLines n s = [] ↔ (readLines s).length ≤ n := by
  constructor
  · intro h
    have := readLines_dropLines n s
    rw [h, readLines_nil] at this
    exact List.drop_eq_nil_iff.mp this.symm
  · intro h
    by_cases hd : dropLines n s = []
    · exact hd
    · have h1 := readLines_dropLines n s
      rw [readLines_cons hd, List.drop_eq_nil_of_le h] at h1
      cases h1

theorem readLines_length_le (s : Str) : (readLines s).length ≤ s.length := by
  induction hn : s.length using Nat.strongRecOn generalizing s with
  | _ n ih =>
    by_cases h : s = []
    · subst h; simp [readLines_nil]
    · rw [readLines_cons h]
      have h1 := readline_rest_lt h
      have := ih _ (by omega) (readline s).2 rfl
      simp only [List.length_cons]
      omega

theorem readline_dropLast_newline_free (s : Str) : '\n' ∉ (readline s).1.dropLast := by
  induction s with
  | nil => simp [readline]
  | cons c cs ih =>
    unfold readline
    split
    · simp
    · rename_i hc
      cases h : (readline cs).1 with
      | nil => simp
      | cons x xs =>
        rw [h] at ih
        simp only [List.dropLast_cons_of_ne_nil (List.cons_ne_nil x xs), List.mem_cons]
        rintro (h | h)
        · exact hc h.symm
        · exact ih h

theorem readLines_newline_free (s : Str) : ∀ l ∈ readLines s, '\n' ∉ l := by
  induction hn : s.length using Nat.strongRecOn generalizing s with
  | _ n ih =>
    by_cases h : s = []
    · subst h; simp [readLines_nil]
    · rw [readLines_cons h]
      intro l hl
      rcases List.mem_cons.mp hl with rfl | hl
      · exact readline_dropLast_newline_free s
      · exact ih _ (by have := readline_rest_lt h; omega) (readline s).2 rfl l hl

theorem split_ne_nil (c : Char) (s : Str) : split c s ≠ [] := by
  cases s with
  | nil => simp [split]
  | cons x xs =>
    unfold split
    split
    · simp
    · split <;> simp

theorem readline_of_newline (a b : Str) (h : '\n' ∉ a) : readline (a ++ '\n' :: b) = (a ++ ['\n'], b) := by
  induction a with
  | nil => simp [readline]
  | cons x xs ih =>
    simp only [List.mem_cons, not_or] at h
    simp [readline, Ne.symm h.1, ih h.2]

theorem readline_no_newline (a : Str) (h : '\n' ∉ a) : readline a = (a, []) := by
  induction a with
  | nil => simp [readline]
  | cons x xs ih =>
    simp only [List.mem_cons, not_or] at h
    simp [readline, Ne.symm h.1, ih h.2]

theorem split_append_sep (c : Char) (a b : Str) (h : c ∉ a) : split c (a ++ c :: b) = a :: split c b := by
  induction a with
  | nil => simp [split]
  | cons x xs ih =>
    simp only [List.mem_cons, not_or] at h
    simp [split, Ne.symm h.1, ih h.2]

theorem split_no_sep (c : Char) (a : Str) (h : c ∉ a) : split c a = [a] := by
  induction a with
  | nil => simp [split]
  | cons x xs ih =>
    simp only [List.mem_cons, not_or] at h
    simp [split, Ne.symm h.1, ih h.2]

theorem exists_first_newline {s : Str} (h : '\n' ∈ s) :
    ∃ a b, s = a ++ '\n' :: b ∧ '\n' ∉ a := by
  induction s with
  | nil => simp at h
  | cons y ys ih =>
    by_cases hy : y = '\n'
    · exact ⟨[], ys, by simp [hy], by simp⟩
    · have hm : '\n' ∈ ys := by
        rcases List.mem_cons.mp h with h | h
        · exact absurd h.symm hy
        · exact h
      obtain ⟨a, b, h1, h2⟩ := ih hm
      exact ⟨y :: a, b, by simp [h1], by simp [h2, Ne.symm hy]⟩

/-- The reader delivers the lines of the specification. -/
theorem readLines_eq_fileLines (raw : Str) :
    readLines (universalNewlines raw) = fileLines raw := by
  unfold fileLines
  generalize universalNewlines raw = s
  induction hn : s.length using Nat.strongRecOn generalizing s with
  | _ n ih =>
    by_cases hm : '\n' ∈ s
    · obtain ⟨a, b, rfl, ha⟩ := exists_first_newline hm
      rw [readLines_cons (by simp), readline_of_newline a b ha, split_append_sep _ _ _ ha]
      have := ih b.length (by rw [← hn]; simp; omega) b rfl
      simp only at this ⊢
      rw [this]
      cases hs : split '\n' b with
      | nil => exact absurd hs (split_ne_nil _ _)
      | cons p ps => simp [List.dropLast, List.getLast?_cons_cons]
    · rw [split_no_sep _ _ hm]
      cases s with
      | nil => simp [readLines_nil]
      | cons c cs =>
        rw [readLines_cons (by simp), readline_no_newline _ hm]
        simp [readLines_nil]

theorem universalNewlines_mem {c : Char} (hc : c ≠ '\n') (s : Str) :
    c ∈ universalNewlines s → c ∈ s := by
  fun_induction universalNewlines s <;> simp_all <;> grind

theorem universalNewlines_of_no_cr (s : Str) (h : '\r' ∉ s) : universalNewlines s = s := by
  induction s with
  | nil => rfl
  | cons c cs ih =>
    simp only [List.mem_cons, not_or] at h
    unfold universalNewlines
    split
    · rename_i heq; cases heq
    · rename_i heq; cases heq; exact absurd rfl h.1
    · rename_i heq; cases heq; exact absurd rfl h.1
    · rename_i heq; cases heq; rw [ih h.2]

theorem readLines_unlines (ls : List Str) (h : ∀ l ∈ ls, '\n' ∉ l) : readLines (unlines ls) = ls := by
  induction ls with
  | nil => simp [unlines, readLines_nil]
  | cons l ls ih =>
    have e : unlines (l :: ls) = l ++ '\n' :: unlines ls := by simp [unlines]
    rw [e, readLines_cons (by simp), readline_of_newline _ _ (h l (by simp))]
    simp [ih (fun x hx => h x (by simp [hx]))]

/-- A file of CR-free lines is read back as these lines. -/
theorem fileLines_unlines (ls : List Str) (h : ∀ l ∈ ls, '\n' ∉ l ∧ '\r' ∉ l) :
    fileLines (unlines ls) = ls := by
  rw [← readLines_eq_fileLines, universalNewlines_of_no_cr, readLines_unlines _ (fun l hl => (h l hl).1)]
  unfold unlines
  simp only [List.mem_flatten, List.mem_map, not_exists, not_and]
  rintro x ⟨l, hl, rfl⟩ hx
  simp only [List.mem_append, List.mem_singleton] at hx
  rcases hx with hx | hx
  · exact (h l hl).2 hx
  · exact absurd hx (by decide)

end Verif.Lemmas
