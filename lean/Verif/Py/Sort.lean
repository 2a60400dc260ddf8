import Verif.Py.Basic

/-! # `sorted` and the order of strings -/

namespace Verif.Py

/-- Python's `s <= t` for strings: by code points. -/
def strLe : Str → Str → Bool
  | [], _ => true
  | _ :: _, [] => false
  | a :: s, b :: t => decide (a.val < b.val) || (a == b && strLe s t)

/-- `<=` for pairs of strings, as Python compares tuples. -/
def pairLe (p q : Str × Str) : Bool := (strLe p.1 q.1 && p.1 != q.1) || (p.1 == q.1 && strLe p.2 q.2)

/-- Insertion into a sorted list. -/
def insertBy {α : Type} (le : α → α → Bool) (a : α) : List α → List α
  | [] => [a]
  | b :: l => if le a b then a :: b :: l else b :: insertBy le a l

/-- `sorted`: the result of a stable sort (insertion sort, while Python uses another algorithm). -/
def sortedBy {α : Type} (le : α → α → Bool) (l : List α) : List α := l.foldr (insertBy le) []

theorem insertBy_perm {α : Type} (le : α → α → Bool) (a : α) (l : List α) :
    (insertBy le a l).Perm (a :: l) := by
  induction l with
  | nil => exact .refl _
  | cons b l ih =>
    simp only [insertBy]
    split
    · exact .refl _
    · exact (ih.cons b).trans (.swap a b l)

theorem sortedBy_perm {α : Type} (le : α → α → Bool) (l : List α) : (sortedBy le l).Perm l := by
  induction l with
  | nil => exact .refl _
  | cons a l ih => exact (insertBy_perm le a _).trans (ih.cons a)

theorem insertBy_sorted {α : Type} {le : α → α → Bool} (htr : ∀ a b c, le a b → le b c → le a c)
    (htot : ∀ a b, le a b ∨ le b a) (a : α) (l : List α) (h : l.Pairwise (fun a b => le a b)) :
    (insertBy le a l).Pairwise (fun a b => le a b) := by
  induction l with
  | nil => simp [insertBy]
  | cons b l ih =>
    rw [List.pairwise_cons] at h
    simp only [insertBy]
    split
    · rename_i hab
      rw [List.pairwise_cons]
      refine ⟨?_, List.pairwise_cons.mpr h⟩
      intro x hx
      rcases List.mem_cons.mp hx with rfl | hx
      · exact hab
      · exact htr _ _ _ hab (h.1 x hx)
    · rename_i hab
      rw [List.pairwise_cons]
      refine ⟨?_, ih h.2⟩
      intro x hx
      rcases List.mem_cons.mp ((insertBy_perm le a l).mem_iff.mp hx) with rfl | hx
      · rcases htot x b with h' | h'
        · exact absurd h' hab
        · exact h'
      · exact h.1 x hx

theorem sortedBy_sorted {α : Type} {le : α → α → Bool} (htr : ∀ a b c, le a b → le b c → le a c)
    (htot : ∀ a b, le a b ∨ le b a) (l : List α) : (sortedBy le l).Pairwise (fun a b => le a b) := by
  induction l with
  | nil => exact .nil
  | cons a l ih => exact insertBy_sorted htr htot a _ ih

theorem eq_of_perm_sorted {α : Type} {le : α → α → Bool} (hanti : ∀ a b, le a b → le b a → a = b)
    {l l' : List α} (hp : l.Perm l') (h : l.Pairwise (fun a b => le a b))
    (h' : l'.Pairwise (fun a b => le a b)) : l = l' := by
  induction l generalizing l' with
  | nil => exact (List.nil_perm.mp hp).symm
  | cons a l ih =>
    cases l' with
    | nil => exact absurd hp.length_eq (by simp)
    | cons b l' =>
      rw [List.pairwise_cons] at h h'
      have hab : a = b := by
        rcases List.mem_cons.mp (hp.mem_iff.mp List.mem_cons_self) with h1 | h1
        · exact h1
        · rcases List.mem_cons.mp (hp.mem_iff.mpr List.mem_cons_self) with h2 | h2
          · exact h2.symm
          · exact hanti _ _ (h.1 b h2) (h'.1 a h1)
      subst hab
      rw [ih (List.Perm.cons_inv hp) h.2 h'.2]

/-- Sorting by a total order forgets the original order. -/
theorem sortedBy_congr {α : Type} {le : α → α → Bool} (htr : ∀ a b c, le a b → le b c → le a c)
    (htot : ∀ a b, le a b ∨ le b a) (hanti : ∀ a b, le a b → le b a → a = b) {l l' : List α}
    (hp : l.Perm l') : sortedBy le l = sortedBy le l' :=
  eq_of_perm_sorted hanti (((sortedBy_perm le l).trans hp).trans (sortedBy_perm le l').symm)
    (sortedBy_sorted htr htot l) (sortedBy_sorted htr htot l')

theorem strLe_refl (s : Str) : strLe s s = true := by
  induction s with
  | nil => rfl
  | cons a s ih => simp [strLe, ih]

theorem strLe_total (s t : Str) : strLe s t ∨ strLe t s := by
  induction s generalizing t with
  | nil => exact .inl rfl
  | cons a s ih =>
    cases t with
    | nil => exact .inr rfl
    | cons b t =>
      simp only [strLe, Bool.or_eq_true, decide_eq_true_eq, Bool.and_eq_true, beq_iff_eq]
      by_cases hab : a = b
      · subst hab
        rcases ih t with h | h
        · exact .inl (.inr ⟨rfl, h⟩)
        · exact .inr (.inr ⟨rfl, h⟩)
      · have : a.val ≠ b.val := fun h => hab (Char.ext h)
        rcases UInt32.lt_or_lt_of_ne this with h | h
        · exact .inl (.inl h)
        · exact .inr (.inl h)

theorem strLe_trans (s t u : Str) : strLe s t → strLe t u → strLe s u := by
  induction s generalizing t u with
  | nil => intros; rfl
  | cons a s ih =>
    cases t with
    | nil => intro h; cases h
    | cons b t =>
      cases u with
      | nil => intro _ h; cases h
      | cons c u =>
        simp only [strLe, Bool.or_eq_true, decide_eq_true_eq, Bool.and_eq_true, beq_iff_eq]
        rintro (h1 | ⟨rfl, h1⟩) (h2 | ⟨rfl, h2⟩)
        · exact .inl (UInt32.lt_trans h1 h2)
        · exact .inl h1
        · exact .inl h2
        · exact .inr ⟨rfl, ih _ _ h1 h2⟩

theorem strLe_antisymm (s t : Str) : strLe s t → strLe t s → s = t := by
  induction s generalizing t with
  | nil => cases t with
    | nil => intros; rfl
    | cons => intro _ h; cases h
  | cons a s ih =>
    cases t with
    | nil => intro h; cases h
    | cons b t =>
      simp only [strLe, Bool.or_eq_true, decide_eq_true_eq, Bool.and_eq_true, beq_iff_eq]
      rintro (h1 | ⟨rfl, h1⟩) (h2 | ⟨h3, h2⟩)
      · exact absurd (UInt32.lt_trans h1 h2) (UInt32.lt_irrefl _)
      · subst h3; exact absurd h1 (UInt32.lt_irrefl _)
      · exact absurd h2 (UInt32.lt_irrefl _)
      · rw [ih _ h1 h2]

theorem pairLe_iff (p q : Str × Str) :
    pairLe p q = true ↔ (strLe p.1 q.1 ∧ p.1 ≠ q.1) ∨ (p.1 = q.1 ∧ strLe p.2 q.2) := by
  simp [pairLe, bne_iff_ne]

theorem pairLe_total (p q : Str × Str) : pairLe p q ∨ pairLe q p := by
  simp only [pairLe_iff]
  by_cases h : p.1 = q.1
  · rcases strLe_total p.2 q.2 with h2 | h2
    · exact .inl (.inr ⟨h, h2⟩)
    · exact .inr (.inr ⟨h.symm, h2⟩)
  · rcases strLe_total p.1 q.1 with h2 | h2
    · exact .inl (.inl ⟨h2, h⟩)
    · exact .inr (.inl ⟨h2, Ne.symm h⟩)

theorem pairLe_trans (p q r : Str × Str) : pairLe p q → pairLe q r → pairLe p r := by
  obtain ⟨p1, p2⟩ := p
  obtain ⟨q1, q2⟩ := q
  obtain ⟨r1, r2⟩ := r
  simp only [pairLe_iff]
  rintro (⟨h1, h2⟩ | ⟨rfl, h1⟩) (⟨h3, h4⟩ | ⟨rfl, h3⟩)
  · refine .inl ⟨strLe_trans _ _ _ h1 h3, ?_⟩
    intro he
    subst he
    exact h2 (strLe_antisymm _ _ h1 h3)
  · exact .inl ⟨h1, h2⟩
  · exact .inl ⟨h3, h4⟩
  · exact .inr ⟨rfl, strLe_trans _ _ _ h1 h3⟩

theorem pairLe_antisymm (p q : Str × Str) : pairLe p q → pairLe q p → p = q := by
  obtain ⟨p1, p2⟩ := p
  obtain ⟨q1, q2⟩ := q
  simp only [pairLe_iff]
  rintro (⟨h1, h2⟩ | ⟨rfl, h1⟩) (⟨h3, h4⟩ | ⟨h5, h3⟩)
  · exact absurd (strLe_antisymm _ _ h1 h3) h2
  · exact absurd h5.symm h2
  · exact absurd rfl h4
  · rw [strLe_antisymm _ _ h1 h3]

end Verif.Py
