import Verif.Model.Tokenizer

/-! # Helper lemmas about the tokenizer model -/

namespace Verif.Lemmas
open Verif.Py Verif.Model

theorem takeWhile_stop (p : Char → Bool) (a : Str) (c : Char) (b : Str) (h : p c = false) :
    (a ++ c :: b).takeWhile p = a.takeWhile p := by
  induction a with
  | nil => simp [h]
  | cons x xs ih => by_cases hx : p x <;> simp [hx, ih]

theorem dropWhile_stop (p : Char → Bool) (a : Str) (c : Char) (b : Str) (h : p c = false) :
    (a ++ c :: b).dropWhile p = a.dropWhile p ++ c :: b := by
  induction a with
  | nil => simp [h]
  | cons x xs ih => by_cases hx : p x <;> simp [hx, ih]

theorem takeWhile_forall (p : Char → Bool) (s : Str) : ∀ c ∈ s.takeWhile p, p c = true := by
  induction s with
  | nil => simp
  | cons x xs ih =>
    by_cases hx : p x
    · intro c hc
      simp only [List.takeWhile_cons, hx, if_true, List.mem_cons] at hc
      rcases hc with rfl | hc
      · exact hx
      · exact ih c hc
    · simp [hx]

/-- Split a list at the first occurrence of an element. -/
theorem exists_first {α : Type} [DecidableEq α] {x : α} {l : List α} (h : x ∈ l) :
    ∃ a b, l = a ++ x :: b ∧ x ∉ a := by
  induction l with
  | nil => simp at h
  | cons y ys ih =>
    by_cases hy : y = x
    · exact ⟨[], ys, by simp [hy], by simp⟩
    · have hm : x ∈ ys := by
        rcases List.mem_cons.mp h with h | h
        · exact absurd h.symm hy
        · exact h
      obtain ⟨a, b, h1, h2⟩ := ih hm
      exact ⟨y :: a, b, by simp [h1], by simp [h2, Ne.symm hy]⟩

variable (u : Unicode)

theorem numeric_false_of_alnum_false {c : Char} (h : u.isAlnum c = false) :
    u.isNumeric c = false := by
  by_cases hn : u.isNumeric c = true
  · have := u.numeric_alnum c hn; simp [h] at this
  · simpa using hn

theorem newline_not_alnum : u.isAlnum '\n' = false := u.space_not_alnum _ u.newline_space
theorem blank_not_alnum : u.isAlnum ' ' = false := u.space_not_alnum _ u.blank_space
theorem tab_not_alnum : u.isAlnum '\t' = false := u.space_not_alnum _ u.tab_space

theorem fraction_concat (s : Str) : (fraction u s).1 ++ (fraction u s).2 = s := by
  unfold fraction
  split
  · split
    · simp [List.takeWhile_append_dropWhile]
    · simp
  · simp

theorem number_concat {s t r : Str} (h : number u s = some (t, r)) : t ++ r = s := by
  unfold number at h
  split at h
  · simp at h
  · rename_i c cs
    split at h
    · by_cases hc : (decide (c = '+') || decide (c = '-')) = true
      · simp only [hc, if_true] at h
        split at h
        · split at h
          · simp only [Option.some.injEq, Prod.mk.injEq] at h
            obtain ⟨rfl, rfl⟩ := h
            simp only [List.append_assoc]
            rw [fraction_concat, List.takeWhile_append_dropWhile]
            simp
          · simp at h
        · simp at h
      · simp only [hc, if_false, Bool.false_eq_true] at h
        split at h
        · simp only [Option.some.injEq, Prod.mk.injEq] at h
          obtain ⟨rfl, rfl⟩ := h
          simp only [List.append_assoc]
          rw [fraction_concat, List.takeWhile_append_dropWhile]
          simp
        · simp at h
    · simp at h

theorem next_concat {s t r : Str} (h : Tokenizer.next u s = some (t, r)) : t ++ r = s := by
  unfold Tokenizer.next at h
  split at h
  · simp at h
  · rename_i c cs
    split at h
    · simp only [Option.some.injEq, Prod.mk.injEq] at h
      obtain ⟨rfl, rfl⟩ := h
      exact List.takeWhile_append_dropWhile
    · split at h
      · rename_i rr hn
        simp only [Option.some.injEq] at h
        subst h
        exact number_concat u hn
      · split at h
        · simp only [Option.some.injEq, Prod.mk.injEq] at h
          obtain ⟨rfl, rfl⟩ := h
          exact List.takeWhile_append_dropWhile
        · split at h
          · simp only [Option.some.injEq, Prod.mk.injEq] at h
            obtain ⟨rfl, rfl⟩ := h; simp
          · simp only [Option.some.injEq, Prod.mk.injEq] at h
            obtain ⟨rfl, rfl⟩ := h; simp

theorem next_nil : Tokenizer.next u [] = none := rfl

theorem next_eq_none {s : Str} : Tokenizer.next u s = none ↔ s = [] := by
  constructor
  · intro h
    unfold Tokenizer.next at h
    split at h
    · rfl
    · rename_i c cs
      split at h
      · simp at h
      · split at h
        · simp at h
        · split at h
          · simp at h
          · split at h <;> simp at h
  · rintro rfl; rfl

/-- The digits of a number token are never empty. -/
theorem number_ne_nil {s t r : Str} (h : number u s = some (t, r)) : t ≠ [] := by
  unfold number at h
  split at h
  · simp at h
  · rename_i c cs
    split at h
    · by_cases hc : (decide (c = '+') || decide (c = '-')) = true
      · simp only [hc, if_true] at h
        split at h
        · split at h
          · simp only [Option.some.injEq, Prod.mk.injEq] at h
            obtain ⟨rfl, rfl⟩ := h; simp
          · simp at h
        · simp at h
      · simp only [hc, if_false, Bool.false_eq_true] at h
        split at h
        · rename_i hd
          simp only [Option.some.injEq, Prod.mk.injEq] at h
          obtain ⟨rfl, rfl⟩ := h
          simp [hd]
        · simp at h
    · simp at h

theorem next_ne_nil {c : Char} {cs t r : Str} (hc : c ≠ '\x00')
    (h : Tokenizer.next u (c :: cs) = some (t, r)) : t ≠ [] := by
  unfold Tokenizer.next at h
  simp only at h
  split at h
  · rename_i hb
    simp only [Option.some.injEq, Prod.mk.injEq] at h
    obtain ⟨rfl, rfl⟩ := h
    simp [hb]
  · split at h
    · rename_i rr hn
      simp only [Option.some.injEq] at h
      subst h
      exact number_ne_nil u hn
    · split at h
      · rename_i ha
        simp only [Option.some.injEq, Prod.mk.injEq] at h
        obtain ⟨rfl, rfl⟩ := h
        simp [ha]
      · simp only [Option.some.injEq, Prod.mk.injEq] at h
        obtain ⟨rfl, rfl⟩ := h; simp

theorem number_nul (cs : Str) : number u ('\x00' :: cs) = none := by
  have h1 := numeric_false_of_alnum_false u u.nul_not_alnum
  have e1 : ('\x00' = '+') = False := by decide
  have e2 : ('\x00' = '-') = False := by decide
  simp [number, h1]

theorem next_nul (cs : Str) :
    Tokenizer.next u ('\x00' :: cs) = some ([], '\x00' :: cs) := by
  have h0 : isBlank '\x00' = false := by decide
  simp [Tokenizer.next, number_nul, u.nul_not_alnum, h0]

/-! ### Tokens stop at a separator character -/

/-- A character that ends every token in front of it: not alphanumeric, not blank, not a dot. -/
def Stop (c : Char) : Prop := u.isAlnum c = false ∧ isBlank c = false ∧ c ≠ '.'

theorem stop_newline : Stop u '\n' := ⟨newline_not_alnum u, by decide, by decide⟩
theorem stop_bar : Stop u '|' := ⟨u.bar_not_alnum, by decide, by decide⟩

theorem fraction_stop {c : Char} (hc : u.isNumeric c = false) (hd : c ≠ '.') (a b : Str) :
    fraction u (a ++ c :: b) = ((fraction u a).1, (fraction u a).2 ++ c :: b) := by
  match a with
  | [] =>
    cases b with
    | nil => simp [fraction]
    | cons x xs => simp [fraction, hd]
  | [x] => simp [fraction, hc]
  | x :: y :: ys =>
    simp only [List.cons_append, fraction]
    by_cases h : (decide (x = '.') && u.isNumeric y) = true
    · simp only [h, if_true]
      have e1 := takeWhile_stop u.isNumeric (y :: ys) c b hc
      have e2 := dropWhile_stop u.isNumeric (y :: ys) c b hc
      simp only [List.cons_append] at e1 e2
      rw [e1, e2]
    · simp [h]

theorem number_stop {c : Char} (hc : u.isNumeric c = false) (hd : c ≠ '.') (x : Char)
    (a b : Str) :
    number u ((x :: a) ++ c :: b) = (number u (x :: a)).map (fun p => (p.1, p.2 ++ c :: b)) := by
  simp only [List.cons_append, number]
  by_cases h1 : (decide (x = '+') || decide (x = '-') || u.isNumeric x) = true
  · simp only [h1, if_true]
    by_cases h2 : (decide (x = '+') || decide (x = '-')) = true
    · simp only [h2, if_true]
      cases a with
      | nil => simp [hc]
      | cons y ys =>
        simp only [List.cons_append]
        by_cases h3 : u.isNumeric y = true
        · simp only [h3, if_true]
          have e1 := takeWhile_stop u.isNumeric (y :: ys) c b hc
          have e2 := dropWhile_stop u.isNumeric (y :: ys) c b hc
          simp only [List.cons_append] at e1 e2
          rw [e1, e2, fraction_stop u hc hd]
          simp
        · simp [h3]
    · simp only [h2, Bool.false_eq_true, if_false]
      by_cases h3 : u.isNumeric x = true
      · simp only [h3, if_true]
        have e1 := takeWhile_stop u.isNumeric (x :: a) c b hc
        have e2 := dropWhile_stop u.isNumeric (x :: a) c b hc
        simp only [List.cons_append] at e1 e2
        rw [e1, e2, fraction_stop u hc hd]
        simp
      · simp [h3]
  · simp [h1]

/-- Text after a stop character does not influence the token in front of it. -/
theorem next_stop {c : Char} (h : Stop u c) (x : Char) (a b : Str) :
    Tokenizer.next u ((x :: a) ++ c :: b) =
      (Tokenizer.next u (x :: a)).map (fun p => (p.1, p.2 ++ c :: b)) := by
  obtain ⟨h1, h2, h3⟩ := h
  have hn := numeric_false_of_alnum_false u h1
  have en := number_stop u hn h3 x a b
  simp only [List.cons_append] at en ⊢
  simp only [Tokenizer.next]
  have t1 := takeWhile_stop isBlank (x :: a) c b h2
  have d1 := dropWhile_stop isBlank (x :: a) c b h2
  have t2 := takeWhile_stop u.isAlnum (x :: a) c b h1
  have d2 := dropWhile_stop u.isAlnum (x :: a) c b h1
  simp only [List.cons_append] at t1 d1 t2 d2
  rw [t1, d1, t2, d2, en]
  by_cases hb : isBlank x = true
  · simp [hb]
  · simp only [hb, Bool.false_eq_true, if_false]
    cases hnum : number u (x :: a) with
    | some r => simp
    | none =>
      simp only [Option.map_none]
      by_cases ha : u.isAlnum x = true
      · simp [ha]
      · by_cases hz : x = '\x00'
        · subst hz; simp [ha]
        · simp [ha, hz]

/-- A stop character that is not a sign is a token of its own. -/
theorem next_single {c : Char} (h : Stop u c) (hp : c ≠ '+') (hm : c ≠ '-') (hz : c ≠ '\x00')
    (b : Str) : Tokenizer.next u (c :: b) = some ([c], b) := by
  obtain ⟨h1, h2, h3⟩ := h
  have hn := numeric_false_of_alnum_false u h1
  simp [Tokenizer.next, h2, number, hp, hm, hn, h1, hz]

theorem next_newline (b : Str) : Tokenizer.next u ('\n' :: b) = some (['\n'], b) :=
  next_single u (stop_newline u) (by decide) (by decide) (by decide) b

/-! ### Iteration -/

theorem tokenizeFuel_of_le {n m : Nat} {s : Str} {ts : List Str}
    (h : tokenizeFuel u n s = some ts) (hle : n ≤ m) : tokenizeFuel u m s = some ts := by
  induction n generalizing m s ts with
  | zero =>
    simp only [tokenizeFuel] at h
    split at h
    · rename_i hs
      cases m with
      | zero => simpa [tokenizeFuel, hs] using h
      | succ m => simpa [tokenizeFuel, hs] using h
    · simp at h
  | succ n ih =>
    obtain ⟨m, rfl⟩ : ∃ k, m = k + 1 := ⟨m - 1, by omega⟩
    simp only [tokenizeFuel] at h ⊢
    split at h
    · rename_i hs; simpa [hs] using h
    · rename_i t r hs
      simp only [Option.map_eq_some_iff] at h
      obtain ⟨ts', h', rfl⟩ := h
      simp [ih h' (by omega : n ≤ m)]

theorem tokenizeFuel_nul_free {s : Str} (hs : '\x00' ∉ s) :
    ∃ ts, tokenizeFuel u s.length s = some ts := by
  induction hn : s.length using Nat.strongRecOn generalizing s with
  | _ n ih =>
    cases s with
    | nil => subst hn; exact ⟨[], rfl⟩
    | cons c cs =>
      subst hn
      simp only [List.length_cons, tokenizeFuel]
      cases hnx : Tokenizer.next u (c :: cs) with
      | none => simp
      | some p =>
        obtain ⟨t, r⟩ := p
        have hcat := next_concat u hnx
        have hne := next_ne_nil u (by intro h; apply hs; simp [h]) hnx
        have hlen : t.length + r.length = cs.length + 1 := by
          have := congrArg List.length hcat; simpa using this
        have htl : 0 < t.length := List.length_pos_iff.mpr hne
        have hr : '\x00' ∉ r := by
          intro h; apply hs; rw [← hcat]; simp [h]
        obtain ⟨ts, hts⟩ := ih r.length (by simp; omega) hr rfl
        exact ⟨t :: ts, by simp [tokenizeFuel_of_le u hts (by omega : r.length ≤ cs.length)]⟩

theorem tokenize_nul_free {s : Str} (hs : '\x00' ∉ s) : ∃ ts, tokenize u s = some ts :=
  tokenizeFuel_nul_free u hs

@[simp] theorem tokenize_nil : tokenize u [] = some [] := rfl

theorem tokenizeFuel_flatten {n : Nat} {s : Str} {ts : List Str}
    (h : tokenizeFuel u n s = some ts) : ts.flatten = s := by
  induction n generalizing s ts with
  | zero =>
    simp only [tokenizeFuel] at h
    split at h
    · rename_i hs
      simp only [Option.some.injEq] at h; subst h
      simp [(next_eq_none u).mp hs]
    · simp at h
  | succ n ih =>
    simp only [tokenizeFuel] at h
    split at h
    · rename_i hs
      simp only [Option.some.injEq] at h; subst h
      simp [(next_eq_none u).mp hs]
    · rename_i t r hs
      simp only [Option.map_eq_some_iff] at h
      obtain ⟨ts', h', rfl⟩ := h
      simp [ih h', next_concat u hs]

theorem tokenize_flatten {s : Str} {ts : List Str} (h : tokenize u s = some ts) :
    ts.flatten = s := tokenizeFuel_flatten u h

theorem tokenizeFuel_nul {n : Nat} {s : Str} (hs : '\x00' ∈ s) : tokenizeFuel u n s = none := by
  induction n generalizing s with
  | zero =>
    simp only [tokenizeFuel]
    cases hnx : Tokenizer.next u s with
    | none => rw [(next_eq_none u).mp hnx] at hs; simp at hs
    | some p => rfl
  | succ n ih =>
    simp only [tokenizeFuel]
    cases hnx : Tokenizer.next u s with
    | none => rw [(next_eq_none u).mp hnx] at hs; simp at hs
    | some p =>
      obtain ⟨t, r⟩ := p
      have hr : '\x00' ∈ r := by
        cases s with
        | nil => simp at hs
        | cons c cs =>
          by_cases hc : c = '\x00'
          · subst hc
            rw [next_nul] at hnx
            simp only [Option.some.injEq, Prod.mk.injEq] at hnx
            rw [← hnx.2]; simp
          · -- the token contains no NUL
            have hcat := next_concat u hnx
            rw [← hcat] at hs
            simp only [List.mem_append] at hs
            rcases hs with hs | hs
            · exfalso
              -- use the stop property at the first NUL
              have : '\x00' ∈ c :: cs := by rw [← hcat]; simp [hs]
              obtain ⟨a, b, hab, hna⟩ := exists_first this
              cases a with
              | nil => simp at hab; exact hc hab.1
              | cons x a =>
                rw [hab, next_stop u (c := '\x00') ⟨u.nul_not_alnum, by decide, by decide⟩] at hnx
                simp only [Option.map_eq_some_iff, Prod.mk.injEq] at hnx
                obtain ⟨⟨t', r'⟩, h1, h2, -⟩ := hnx
                have := next_concat u h1
                apply hna
                rw [← this]
                simp only at h2
                simp [h2, hs]
            · exact hs
      simp [ih hr]

theorem tokenize_nul {s : Str} (hs : '\x00' ∈ s) : tokenize u s = none := tokenizeFuel_nul u hs

theorem tokenize_isSome_iff {s : Str} : (tokenize u s).isSome ↔ '\x00' ∉ s := by
  constructor
  · intro h hs; simp [tokenize_nul u hs] at h
  · intro h; obtain ⟨ts, h'⟩ := tokenize_nul_free u h; simp [h']

theorem nul_free_of_tokenize {s : Str} {ts} (h : tokenize u s = some ts) : '\x00' ∉ s :=
  (tokenize_isSome_iff u).mp (by simp [h])

/-- One step of the loop, fuel-free. -/
theorem tokenize_cons_of_next {s t r : Str} (h : Tokenizer.next u s = some (t, r))
    (hs : '\x00' ∉ s) : tokenize u s = (tokenize u r).map (t :: ·) := by
  cases s with
  | nil => simp [Tokenizer.next] at h
  | cons c cs =>
    have hcat := next_concat u h
    have hne := next_ne_nil u (by intro h; apply hs; simp [h]) h
    have hlen : t.length + r.length = cs.length + 1 := by
      have := congrArg List.length hcat; simpa using this
    have htl : 0 < t.length := List.length_pos_iff.mpr hne
    have hr : '\x00' ∉ r := by intro h; apply hs; rw [← hcat]; simp [h]
    obtain ⟨ts, hts⟩ := tokenize_nul_free u hr
    unfold tokenize at hts ⊢
    simp only [List.length_cons, tokenizeFuel, h]
    rw [tokenizeFuel_of_le u hts (by omega : r.length ≤ cs.length), hts]

theorem tokenize_ne_nil {s : Str} {ts : List Str} (h : tokenize u s = some ts) :
    ∀ t ∈ ts, t ≠ [] := by
  induction ts generalizing s with
  | nil => simp
  | cons t ts ih =>
    have hz := nul_free_of_tokenize u h
    cases hnx : Tokenizer.next u s with
    | none => rw [(next_eq_none u).mp hnx] at h; simp at h
    | some p =>
      obtain ⟨t', r⟩ := p
      rw [tokenize_cons_of_next u hnx hz] at h
      simp only [Option.map_eq_some_iff, List.cons.injEq] at h
      obtain ⟨ts', h1, rfl, rfl⟩ := h
      cases s with
      | nil => simp [Tokenizer.next] at hnx
      | cons c cs =>
        have hne := next_ne_nil u (by intro h; apply hz; simp [h]) hnx
        intro x hx
        rcases List.mem_cons.mp hx with rfl | hx
        · exact hne
        · exact ih h1 x hx

/-- Tokenizing `a ++ c :: b`, where `c` stops tokens, tokenizes the two sides separately. -/
theorem tokenize_append_stop {c : Char} (h : Stop u c) (a b : Str) (ha : '\x00' ∉ a)
    (hb : '\x00' ∉ c :: b) {ta tb : List Str} (h1 : tokenize u a = some ta)
    (h2 : tokenize u (c :: b) = some tb) : tokenize u (a ++ c :: b) = some (ta ++ tb) := by
  induction ta generalizing a with
  | nil =>
    have := tokenize_flatten u h1
    simp only [List.flatten_nil] at this
    subst this; simpa using h2
  | cons t ta ih =>
    cases a with
    | nil => simp at h1
    | cons x a =>
      cases hnx : Tokenizer.next u (x :: a) with
      | none => simp [(next_eq_none u)] at hnx
      | some p =>
        obtain ⟨t', r⟩ := p
        rw [tokenize_cons_of_next u hnx ha] at h1
        simp only [Option.map_eq_some_iff, List.cons.injEq] at h1
        obtain ⟨ta', h1, rfl, rfl⟩ := h1
        have hcat := next_concat u hnx
        have hr : '\x00' ∉ r := by intro h; apply ha; rw [← hcat]; simp [h]
        have hstep : Tokenizer.next u ((x :: a) ++ c :: b) = some (t', r ++ c :: b) := by
          rw [next_stop u h]; simp [hnx]
        rw [tokenize_cons_of_next u hstep (by
          intro hm; rcases List.mem_append.mp hm with h | h
          · exact ha h
          · exact hb h), ih r hr h1]
        simp

theorem tokenize_newline_cons {b : Str} {tb : List Str} (hb : '\x00' ∉ b)
    (h : tokenize u b = some tb) : tokenize u ('\n' :: b) = some (['\n'] :: tb) := by
  rw [tokenize_cons_of_next u (next_newline u b) (by
    intro hm; rcases List.mem_cons.mp hm with h | h
    · exact absurd h (by decide)
    · exact hb h), h]
  rfl

/-- A token is the newline token or contains no newline. -/
theorem next_newline_free {s t r : Str} (h : Tokenizer.next u s = some (t, r)) :
    t = ['\n'] ∨ '\n' ∉ t := by
  by_cases hm : '\n' ∈ t
  · left
    have hcat := next_concat u h
    obtain ⟨a, b, h1, h2⟩ := exists_first hm
    have hs : s = a ++ '\n' :: (b ++ r) := by rw [← hcat, h1]; simp
    cases a with
    | nil =>
      rw [hs] at h
      simp only [List.nil_append, next_newline, Option.some.injEq, Prod.mk.injEq] at h
      exact h.1.symm
    | cons x a =>
      rw [hs, next_stop u (stop_newline u)] at h
      simp only [Option.map_eq_some_iff, Prod.mk.injEq] at h
      obtain ⟨⟨t', r'⟩, h3, h4, -⟩ := h
      simp only at h4
      subst h4
      exact absurd (by rw [← next_concat u h3]; simp [h1]) h2
  · exact Or.inr hm

theorem tokenize_newline_free {s : Str} {ts : List Str} (h : tokenize u s = some ts) :
    ∀ t ∈ ts, t = ['\n'] ∨ '\n' ∉ t := by
  induction ts generalizing s with
  | nil => simp
  | cons t ts ih =>
    have hz := nul_free_of_tokenize u h
    cases hnx : Tokenizer.next u s with
    | none => rw [(next_eq_none u).mp hnx] at h; simp at h
    | some p =>
      obtain ⟨t', r⟩ := p
      rw [tokenize_cons_of_next u hnx hz] at h
      simp only [Option.map_eq_some_iff, List.cons.injEq] at h
      obtain ⟨ts', h1, rfl, rfl⟩ := h
      intro x hx
      rcases List.mem_cons.mp hx with rfl | hx
      · exact next_newline_free u hnx
      · exact ih h1 x hx

end Verif.Lemmas
