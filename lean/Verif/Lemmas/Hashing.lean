import Verif.Spec.Hashing
import Verif.Lemmas.Json
import Verif.Lemmas.Console

/-! # Lemmas about `json.dumps` -/

namespace Verif.Lemmas
open Verif.Py Verif.Model Verif.Spec

/-- The characters of numbers, `true`, `false`, `null`, `NaN`, `Infinity`. -/
def atomChar (c : Char) : Bool := c.isAlphanum || c == '-' || c == '+' || c == '.'

/-- The text does not go on with such a character. -/
def AtomEnds (r : Str) : Prop := ∀ c s, r = c :: s → atomChar c = false

theorem atom_inj {x y r s : Str} (hx : ∀ c ∈ x, atomChar c = true) (hy : ∀ c ∈ y, atomChar c = true)
    (hr : AtomEnds r) (hs : AtomEnds s) (h : x ++ r = y ++ s) : x = y ∧ r = s := by
  induction x generalizing y with
  | nil =>
    cases y with
    | nil => exact ⟨rfl, h⟩
    | cons d y =>
      have := hr d (y ++ s) h
      rw [hy d List.mem_cons_self] at this
      cases this
  | cons c x ih =>
    cases y with
    | nil =>
      have := hs c (x ++ r) h.symm
      rw [hx c List.mem_cons_self] at this
      cases this
    | cons d y =>
      injection h with h1 h2
      obtain ⟨h3, h4⟩ := ih (fun e he => hx e (List.mem_cons_of_mem _ he))
        (fun e he => hy e (List.mem_cons_of_mem _ he)) h2
      exact ⟨by rw [h1, h3], h4⟩

theorem natText_inj {m n : Nat} (h : natText m = natText n) : m = n := by
  rw [← natText_read m, h, natText_read]

theorem natText_ne_nil (n : Nat) : natText n ≠ [] := by
  intro h
  have h0 : natText 0 = ['0'] := rfl
  have := natText_read n
  rw [h] at this
  have hn : n = 0 := this.symm
  rw [hn, h0] at h
  cases h

theorem natText_atom {n : Nat} {c : Char} (h : c ∈ natText n) : atomChar c = true := by
  have := natText_digit h
  simp [atomChar, Char.isAlphanum, this]

theorem intText_char {n : Int} {c : Char} (h : c ∈ intText n) : c.isDigit = true ∨ c = '-' := by
  cases n with
  | ofNat n => exact .inl (natText_digit h)
  | negSucc n =>
    rcases List.mem_cons.mp h with h | h
    · exact .inr h
    · exact .inl (natText_digit h)

theorem intText_digit (n : Int) : ∃ c ∈ intText n, c.isDigit = true := by
  cases n with
  | ofNat n =>
    obtain ⟨c, l, hl⟩ := List.exists_cons_of_ne_nil (natText_ne_nil n)
    have hm : c ∈ natText n := by rw [hl]; exact List.mem_cons_self
    exact ⟨c, hm, natText_digit hm⟩
  | negSucc n =>
    obtain ⟨c, l, hl⟩ := List.exists_cons_of_ne_nil (natText_ne_nil (n + 1))
    have hm : c ∈ natText (n + 1) := by rw [hl]; exact List.mem_cons_self
    exact ⟨c, List.mem_cons_of_mem _ hm, natText_digit hm⟩

theorem intText_inj {m n : Int} (h : intText m = intText n) : m = n := by
  cases m with
  | ofNat m =>
    cases n with
    | ofNat n => rw [natText_inj (show natText m = natText n from h)]
    | negSucc n =>
      have : '-' ∈ natText m := by
        rw [show natText m = '-' :: natText (n + 1) from h]; exact List.mem_cons_self
      exact absurd this (natText_no (by decide))
  | negSucc m =>
    cases n with
    | ofNat n =>
      have : '-' ∈ natText n := by
        rw [show natText n = '-' :: natText (m + 1) from h.symm]; exact List.mem_cons_self
      exact absurd this (natText_no (by decide))
    | negSucc n =>
      injection h with _ h2
      have := natText_inj h2
      rw [show m = n by omega]

/-- Which sort of value: an atom, a string, a list, or a dictionary. -/
def dataSort : PyData → Nat
  | .none => 0
  | .bool _ => 0
  | .int _ => 0
  | .float _ => 0
  | .str _ => 1
  | .list _ => 2
  | .tuple _ => 2
  | .dict _ => 3

/-- The sort told by the first character. -/
def charSort (c : Char) : Nat := if c = '"' then 1 else if c = '[' then 2 else if c = '{' then 3 else 0

theorem charSort_atom {c : Char} (h : atomChar c = true) : charSort c = 0 := by
  unfold charSort
  rw [if_neg, if_neg, if_neg] <;> (rintro rfl; revert h; decide)

theorem floatText_atom {t : Str} (h : FloatText t) : t ≠ [] ∧ ∀ c ∈ t, atomChar c = true := by
  rcases h with rfl | rfl | rfl | ⟨h1, ⟨d, hd, _⟩, _⟩
  · decide
  · decide
  · decide
  · refine ⟨List.ne_nil_of_mem hd, ?_⟩
    intro c hc
    rcases h1 c hc with h | rfl | rfl | rfl | rfl
    · simp [atomChar, Char.isAlphanum, h]
    · decide
    · decide
    · decide
    · decide

theorem atom_text {x : PyData} (hx : PlainData x) (h0 : dataSort x = 0) :
    dumps x ≠ [] ∧ ∀ c ∈ dumps x, atomChar c = true := by
  cases hx with
  | none => decide
  | bool b => cases b <;> decide
  | int n =>
    simp only [dumps]
    refine ⟨?_, ?_⟩
    · obtain ⟨c, hc, _⟩ := intText_digit n
      exact List.ne_nil_of_mem hc
    · intro c hc
      rcases intText_char hc with h | rfl
      · simp [atomChar, Char.isAlphanum, h]
      · decide
  | float t h => simp only [dumps]; exact floatText_atom h
  | str s => cases h0
  | list l h => cases h0
  | dict l hk h => cases h0

theorem dumps_head {x : PyData} (hx : PlainData x) : ∃ c l, dumps x = c :: l ∧ charSort c = dataSort x := by
  by_cases h0 : dataSort x = 0
  · obtain ⟨h1, h2⟩ := atom_text hx h0
    obtain ⟨c, l, hl⟩ := List.exists_cons_of_ne_nil h1
    exact ⟨c, l, hl, by rw [h0]; exact charSort_atom (h2 c (by rw [hl]; exact List.mem_cons_self))⟩
  · cases x with
    | none => exact absurd rfl h0
    | bool b => exact absurd rfl h0
    | int n => exact absurd rfl h0
    | float t => exact absurd rfl h0
    | str s => exact ⟨'"', s.flatMap jsonChar ++ "\"".toList, by simp only [dumps]; rfl, rfl⟩
    | list l => exact ⟨'[', dumpsItems true l, by simp only [dumps], rfl⟩
    | tuple l => exact ⟨'[', dumpsItems true l, by simp only [dumps], rfl⟩
    | dict l => exact ⟨'{', dumpsFields true l, by simp only [dumps], rfl⟩

theorem dumps_sort {x y : PyData} (hx : PlainData x) (hy : PlainData y) {r s : Str}
    (h : dumps x ++ r = dumps y ++ s) : dataSort x = dataSort y := by
  obtain ⟨c, l, h1, h2⟩ := dumps_head hx
  obtain ⟨d, m, h3, h4⟩ := dumps_head hy
  rw [h1, h3] at h
  injection h with h5 _
  rw [← h2, ← h4, h5]

theorem floatText_ne_int {t : Str} (h : FloatText t) (n : Int) : t ≠ intText n := by
  intro he
  have h1 : ∀ c ∈ t, c.isDigit = true ∨ c = '-' := fun c hc => intText_char (he ▸ hc)
  rcases h with rfl | rfl | rfl | ⟨_, _, hc | hc⟩
  · rcases h1 'N' (by decide) with h | h <;> revert h <;> decide
  · rcases h1 'I' (by decide) with h | h <;> revert h <;> decide
  · rcases h1 'I' (by decide) with h | h <;> revert h <;> decide
  · rcases h1 _ hc with h | h <;> revert h <;> decide
  · rcases h1 _ hc with h | h <;> revert h <;> decide

theorem floatText_ne_word {t w : Str} (h : FloatText t)
    (hw : w = "null".toList ∨ w = "true".toList ∨ w = "false".toList) : t ≠ w := by
  intro he
  subst he
  rcases h with h | h | h | ⟨_, ⟨c, hc, hd⟩, _⟩
  · rcases hw with hw | hw | hw <;> rw [hw] at h <;> revert h <;> decide
  · rcases hw with hw | hw | hw <;> rw [hw] at h <;> revert h <;> decide
  · rcases hw with hw | hw | hw <;> rw [hw] at h <;> revert h <;> decide
  · have : ∀ c ∈ t, c.isDigit = false := by
      rcases hw with rfl | rfl | rfl <;> decide
    rw [this c hc] at hd
    cases hd

theorem intText_ne_word {w : Str} (n : Int)
    (hw : w = "null".toList ∨ w = "true".toList ∨ w = "false".toList) : intText n ≠ w := by
  intro he
  obtain ⟨c, hc, hd⟩ := intText_digit n
  have : ∀ c ∈ w, c.isDigit = false := by
    rcases hw with rfl | rfl | rfl <;> decide
  rw [this c (he ▸ hc)] at hd
  cases hd

theorem boolText_word (b : Bool) :
    boolText b = "null".toList ∨ boolText b = "true".toList ∨ boolText b = "false".toList := by
  cases b
  · exact .inr (.inr rfl)
  · exact .inr (.inl rfl)

theorem atom_data {x y : PyData} (hx : PlainData x) (hy : PlainData y) (hx0 : dataSort x = 0)
    (hy0 : dataSort y = 0) (h : dumps x = dumps y) : x = y := by
  have hn : ("null".toList = "null".toList ∨ "null".toList = "true".toList ∨ "null".toList = "false".toList) :=
    .inl rfl
  cases hx with
  | str s => cases hx0
  | list l _ => cases hx0
  | dict l _ _ => cases hx0
  | none =>
    cases hy with
    | str s => cases hy0
    | list l _ => cases hy0
    | dict l _ _ => cases hy0
    | none => rfl
    | bool b => simp only [dumps] at h; exfalso; cases b <;> revert h <;> decide
    | int n => simp only [dumps] at h; exact absurd h.symm (intText_ne_word n hn)
    | float t ht => simp only [dumps] at h; exact absurd h.symm (floatText_ne_word ht hn)
  | bool a =>
    cases hy with
    | str s => cases hy0
    | list l _ => cases hy0
    | dict l _ _ => cases hy0
    | none => simp only [dumps] at h; exfalso; cases a <;> revert h <;> decide
    | bool b =>
      simp only [dumps] at h
      cases a <;> cases b
      · rfl
      · exfalso; revert h; decide
      · exfalso; revert h; decide
      · rfl
    | int n => simp only [dumps] at h; exact absurd h.symm (intText_ne_word n (boolText_word a))
    | float t ht => simp only [dumps] at h; exact absurd h.symm (floatText_ne_word ht (boolText_word a))
  | int m =>
    cases hy with
    | str s => cases hy0
    | list l _ => cases hy0
    | dict l _ _ => cases hy0
    | none => simp only [dumps] at h; exact absurd h (intText_ne_word m hn)
    | bool b => simp only [dumps] at h; exact absurd h (intText_ne_word m (boolText_word b))
    | int n => simp only [dumps] at h; rw [intText_inj h]
    | float t ht => simp only [dumps] at h; exact absurd h.symm (floatText_ne_int ht m)
  | float t ht =>
    cases hy with
    | str s => cases hy0
    | list l _ => cases hy0
    | dict l _ _ => cases hy0
    | none => simp only [dumps] at h; exact absurd h (floatText_ne_word ht hn)
    | bool b => simp only [dumps] at h; exact absurd h (floatText_ne_word ht (boolText_word b))
    | int n => simp only [dumps] at h; exact absurd h (floatText_ne_int ht n)
    | float u hu => simp only [dumps] at h; rw [h]

theorem items_ends (xs : List PyData) (r : Str) : AtomEnds (dumpsItems false xs ++ r) := by
  intro c s h
  cases xs with
  | nil => simp only [dumpsItems] at h; injection h with h _; rw [← h]; decide
  | cons x xs => simp only [dumpsItems] at h; injection h with h _; rw [← h]; decide

theorem fields_ends (xs : List (PyKey × PyData)) (r : Str) : AtomEnds (dumpsFields false xs ++ r) := by
  intro c s h
  cases xs with
  | nil => simp only [dumpsFields] at h; injection h with h _; rw [← h]; decide
  | cons x xs => obtain ⟨k, x⟩ := x; simp only [dumpsFields] at h; injection h with h _; rw [← h]; decide

theorem items_head {x : PyData} (hx : PlainData x) (xs : List PyData) (first : Bool) (r s : Str) :
    dumpsItems first (x :: xs) ++ r ≠ dumpsItems first [] ++ s := by
  intro h
  cases first with
  | false => simp only [dumpsItems] at h; injection h with h _; revert h; decide
  | true =>
    obtain ⟨c, l, h1, h2⟩ := dumps_head hx
    simp only [dumpsItems, if_true, List.nil_append, h1] at h
    injection h with h _
    rw [h] at h2
    cases hx with
    | none => simp only [dumps] at h1; injection h1 with h1 _; rw [← h1] at h; revert h; decide
    | bool b =>
      cases b
      · injection h1 with h1 _; rw [← h1] at h; revert h; decide
      · injection h1 with h1 _; rw [← h1] at h; revert h; decide
    | int n =>
      have := (atom_text (.int n) rfl).2 c (by rw [h1]; exact List.mem_cons_self)
      rw [h] at this
      revert this; decide
    | float t ht =>
      have := (atom_text (.float t ht) rfl).2 c (by rw [h1]; exact List.mem_cons_self)
      rw [h] at this
      revert this; decide
    | str s => cases h2
    | list l _ => cases h2
    | dict l _ _ => cases h2

mutual
/-- The text tells the value, and where it ends. -/
theorem dumps_inj : ∀ (x y : PyData) (_ : PlainData x) (_ : PlainData y) (r s : Str) (_ : AtomEnds r)
    (_ : AtomEnds s), dumps x ++ r = dumps y ++ s → x = y ∧ r = s
  | .none, y, hx, hy, r, s, hr, hs, h => by
    have h0 := (dumps_sort hx hy h).symm
    obtain ⟨h1, h2⟩ := atom_inj (atom_text hx rfl).2 (atom_text hy h0).2 hr hs h
    exact ⟨atom_data hx hy rfl h0 h1, h2⟩
  | .bool b, y, hx, hy, r, s, hr, hs, h => by
    have h0 := (dumps_sort hx hy h).symm
    obtain ⟨h1, h2⟩ := atom_inj (atom_text hx rfl).2 (atom_text hy h0).2 hr hs h
    exact ⟨atom_data hx hy rfl h0 h1, h2⟩
  | .int n, y, hx, hy, r, s, hr, hs, h => by
    have h0 := (dumps_sort hx hy h).symm
    obtain ⟨h1, h2⟩ := atom_inj (atom_text hx rfl).2 (atom_text hy h0).2 hr hs h
    exact ⟨atom_data hx hy rfl h0 h1, h2⟩
  | .float t, y, hx, hy, r, s, hr, hs, h => by
    have h0 := (dumps_sort hx hy h).symm
    obtain ⟨h1, h2⟩ := atom_inj (atom_text hx rfl).2 (atom_text hy h0).2 hr hs h
    exact ⟨atom_data hx hy rfl h0 h1, h2⟩
  | .str a, y, hx, hy, r, s, hr, hs, h => by
    have h0 := (dumps_sort hx hy h).symm
    cases y with
    | str b =>
      simp only [dumps] at h
      obtain ⟨rfl, h2⟩ := jsonStr_inj h
      exact ⟨rfl, h2⟩
    | none => cases h0
    | bool _ => cases h0
    | int _ => cases h0
    | float _ => cases h0
    | list _ => cases h0
    | tuple _ => cases h0
    | dict _ => cases h0
  | .list xs, y, hx, hy, r, s, hr, hs, h => by
    have h0 := (dumps_sort hx hy h).symm
    cases y with
    | list ys =>
      simp only [dumps] at h
      injection h with _ h
      cases hx with
      | list _ hx =>
        cases hy with
        | list _ hy =>
          obtain ⟨rfl, h2⟩ := dumpsItems_inj xs ys hx hy true r s h
          exact ⟨rfl, h2⟩
    | tuple _ => cases hy
    | str _ => cases h0
    | none => cases h0
    | bool _ => cases h0
    | int _ => cases h0
    | float _ => cases h0
    | dict _ => cases h0
  | .tuple xs, y, hx, hy, r, s, hr, hs, h => by cases hx
  | .dict xs, y, hx, hy, r, s, hr, hs, h => by
    have h0 := (dumps_sort hx hy h).symm
    cases y with
    | dict ys =>
      simp only [dumps] at h
      injection h with _ h
      cases hx with
      | dict _ hk hx =>
        cases hy with
        | dict _ hk' hy =>
          obtain ⟨rfl, h2⟩ := dumpsFields_inj xs ys hk hk' hx hy true r s h
          exact ⟨rfl, h2⟩
    | str _ => cases h0
    | none => cases h0
    | bool _ => cases h0
    | int _ => cases h0
    | float _ => cases h0
    | list _ => cases h0
    | tuple _ => cases h0
/-- The same for the items of a list. -/
theorem dumpsItems_inj : ∀ (xs ys : List PyData) (_ : ∀ x ∈ xs, PlainData x) (_ : ∀ y ∈ ys, PlainData y)
    (first : Bool) (r s : Str), dumpsItems first xs ++ r = dumpsItems first ys ++ s → xs = ys ∧ r = s
  | [], [], _, _, first, r, s, h => by
    simp only [dumpsItems] at h
    injection h with _ h
    exact ⟨rfl, h⟩
  | [], y :: ys, _, hy, first, r, s, h => absurd h.symm (items_head (hy y List.mem_cons_self) ys first s r)
  | x :: xs, [], hx, _, first, r, s, h => absurd h (items_head (hx x List.mem_cons_self) xs first r s)
  | x :: xs, y :: ys, hx, hy, first, r, s, h => by
    simp only [dumpsItems, List.append_assoc, List.append_cancel_left_eq] at h
    obtain ⟨rfl, h2⟩ := dumps_inj x y (hx x List.mem_cons_self) (hy y List.mem_cons_self) _ _
      (items_ends xs r) (items_ends ys s) h
    obtain ⟨rfl, h3⟩ := dumpsItems_inj xs ys (fun a ha => hx a (List.mem_cons_of_mem _ ha))
      (fun a ha => hy a (List.mem_cons_of_mem _ ha)) false r s h2
    exact ⟨rfl, h3⟩
/-- The same for the fields of a dictionary. -/
theorem dumpsFields_inj : ∀ (xs ys : List (PyKey × PyData)) (_ : ∀ p ∈ xs, ∃ s, p.1 = .str s)
    (_ : ∀ p ∈ ys, ∃ s, p.1 = .str s) (_ : ∀ p ∈ xs, PlainData p.2) (_ : ∀ p ∈ ys, PlainData p.2)
    (first : Bool) (r s : Str), dumpsFields first xs ++ r = dumpsFields first ys ++ s → xs = ys ∧ r = s
  | [], [], _, _, _, _, first, r, s, h => by
    simp only [dumpsFields] at h
    injection h with _ h
    exact ⟨rfl, h⟩
  | [], (k, y) :: ys, _, _, _, _, first, r, s, h => by
    simp only [dumpsFields] at h
    cases first
    · injection h with h _; exfalso; revert h; decide
    · injection h with h _; exfalso; revert h; decide
  | (k, x) :: xs, [], _, _, _, _, first, r, s, h => by
    simp only [dumpsFields] at h
    cases first
    · injection h with h _; exfalso; revert h; decide
    · injection h with h _; exfalso; revert h; decide
  | (k, x) :: xs, (k', y) :: ys, hk, hk', hx, hy, first, r, s, h => by
    simp only [dumpsFields, List.append_assoc, List.append_cancel_left_eq] at h
    obtain ⟨h1, h2⟩ := jsonStr_inj h
    obtain ⟨a, rfl⟩ : ∃ a, k = .str a := hk _ List.mem_cons_self
    obtain ⟨b, rfl⟩ : ∃ b, k' = .str b := hk' _ List.mem_cons_self
    have hab : a = b := h1
    subst hab
    rw [List.append_cancel_left_eq] at h2
    obtain ⟨rfl, h3⟩ := dumps_inj x y (hx _ List.mem_cons_self) (hy _ List.mem_cons_self) _ _
      (fields_ends xs r) (fields_ends ys s) h2
    obtain ⟨rfl, h4⟩ := dumpsFields_inj xs ys (fun p hp => hk p (List.mem_cons_of_mem _ hp))
      (fun p hp => hk' p (List.mem_cons_of_mem _ hp)) (fun p hp => hx p (List.mem_cons_of_mem _ hp))
      (fun p hp => hy p (List.mem_cons_of_mem _ hp)) false r s h3
    exact ⟨rfl, h4⟩
end

/-- Values with the same text are the same. -/
theorem dumps_eq {x y : PyData} (hx : PlainData x) (hy : PlainData y) (h : dumps x = dumps y) : x = y := by
  refine (dumps_inj x y hx hy [] [] ?_ ?_ (by rw [h])).1
  · intro c s h; cases h
  · intro c s h; cases h

end Verif.Lemmas
