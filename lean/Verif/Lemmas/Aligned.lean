import Verif.Lemmas.Repeat

/-! # Texts whose pieces are cut into the same tokens as the whole -/

namespace Verif.Lemmas
open Verif.Py Verif.Model Verif.Spec

variable (u : Unicode)

/-- The end of `a` and the beginning of `b` cannot be in one token. -/
def Cut (a b : Str) : Prop := ∀ ta tb, tokenize u a = some ta → tokenize u b = some tb →
  tokenize u (a ++ b) = some (ta ++ tb)

theorem aligned_nil : Aligned u [] := ⟨[], rfl, rfl⟩

theorem aligned_cons {p : Str} {ps : List Str} (hp : '\x00' ∉ p) (hc : Cut u p ps.flatten)
    (h : Aligned u ps) : Aligned u (p :: ps) := by
  obtain ⟨ts, h1, h2⟩ := h
  obtain ⟨tp, h3⟩ := tokenize_nul_free u hp
  refine ⟨tp ++ ts, ?_, ?_⟩
  · simp [pieceToks, h3, h1]
  · rw [List.flatten_cons]; exact hc tp ts h3 h2

theorem cut_nil (a : Str) : Cut u a [] := by
  intro ta tb h1 h2
  simp only [tokenize_nil, Option.some.injEq] at h2
  subst h2
  simpa using h1

theorem cut_nil_left (b : Str) : Cut u [] b := by
  intro ta tb h1 h2
  simp only [tokenize_nil, Option.some.injEq] at h1
  subst h1
  simpa using h2

theorem cut_stop (a : Str) {c : Char} (h : Stop u c) (b : Str) : Cut u a (c :: b) := by
  intro ta tb h1 h2
  exact tokenize_append_stop u h a b (nul_free_of_tokenize u h1) (nul_free_of_tokenize u h2) h1 h2

theorem cut_single {c : Char} (hn : ∀ b, Tokenizer.next u (c :: b) = some ([c], b))
    (b : Str) : Cut u [c] b := by
  intro ta tb h1 h2
  have hz := nul_free_of_tokenize u h1
  rw [tokenize_cons_of_next u (hn []) hz, tokenize_nil] at h1
  simp only [Option.map_some, Option.some.injEq] at h1
  subst h1
  have hz2 := nul_free_of_tokenize u h2
  rw [List.singleton_append, tokenize_cons_of_next u (hn b) (by
    simp only [List.mem_cons, not_or] at hz ⊢
    exact ⟨hz.1, hz2⟩), h2]
  rfl

theorem cut_newline (b : Str) : Cut u ['\n'] b := cut_single u (next_newline u) b

theorem next_bar (b : Str) : Tokenizer.next u ('|' :: b) = some (['|'], b) :=
  next_single u (stop_bar u) (by decide) (by decide) (by decide) b

theorem cut_bar (b : Str) : Cut u ['|'] b := cut_single u (next_bar u) b

theorem next_dot (b : Str) : Tokenizer.next u ('.' :: b) = some (['.'], b) := by
  have hn := numeric_false_of_alnum_false u u.dot_not_alnum
  simp [Tokenizer.next, isBlank, number, hn, u.dot_not_alnum]

/-! ### A blank behind a text that does not end with a blank -/

theorem takeWhile_inside {α : Type} (p : α → Bool) (a b : List α) (h : ∃ y ∈ a, p y = false) :
    (a ++ b).takeWhile p = a.takeWhile p ∧ (a ++ b).dropWhile p = a.dropWhile p ++ b := by
  induction a with
  | nil => simp at h
  | cons x xs ih =>
    by_cases hx : p x = true
    · have h' : ∃ y ∈ xs, p y = false := by
        obtain ⟨y, hy, hp⟩ := h
        rcases List.mem_cons.mp hy with h1 | h1
        · subst h1; rw [hx] at hp; cases hp
        · exact ⟨y, h1, hp⟩
      simp [hx, ih h']
    · simp [hx]

theorem next_blank {c : Char} (hc : isBlank c = true) (x : Char) (a b : Str)
    (hin : ∃ y ∈ x :: a, isBlank y = false) :
    Tokenizer.next u ((x :: a) ++ c :: b) =
      (Tokenizer.next u (x :: a)).map (fun p => (p.1, p.2 ++ c :: b)) := by
  have h1 : u.isAlnum c = false := by
    simp only [isBlank, Bool.or_eq_true, decide_eq_true_eq] at hc
    rcases hc with h | h
    · subst h; exact blank_not_alnum u
    · subst h; exact tab_not_alnum u
  have h3 : c ≠ '.' := by rintro rfl; simp [isBlank] at hc
  have hn := numeric_false_of_alnum_false u h1
  have en := number_stop u hn h3 x a b
  obtain ⟨t1, d1⟩ := takeWhile_inside isBlank (x :: a) (c :: b) hin
  have t2 := takeWhile_stop u.isAlnum (x :: a) c b h1
  have d2 := dropWhile_stop u.isAlnum (x :: a) c b h1
  simp only [List.cons_append] at en t1 d1 t2 d2 ⊢
  simp only [Tokenizer.next]
  rw [t1, d1, t2, d2, en]
  by_cases hb : isBlank x = true
  · simp [hb]
  · simp only [hb, Bool.false_eq_true, if_false]
    cases hnum : number u (x :: a) with
    | some r => simp
    | none =>
      simp only [Option.map_none]
      by_cases ha : u.isAlnum x = true
      · simp [ha]
      · by_cases hz : x = '\x00'
        · subst hz; simp [ha]
        · simp [ha, hz]

theorem cut_of_next (P : Str → Prop) (b : Str)
    (hP : ∀ x a, P (x :: a) → Tokenizer.next u ((x :: a) ++ b) =
      (Tokenizer.next u (x :: a)).map (fun p => (p.1, p.2 ++ b)))
    (hsuf : ∀ t r, t ≠ [] → r ≠ [] → P (t ++ r) → P r) (a : Str) (ha : a = [] ∨ P a) :
    Cut u a b := by
  intro ta tb h1 h2
  induction ta generalizing a with
  | nil =>
    have := tokenize_flatten u h1
    simp only [List.flatten_nil] at this
    subst this; simpa using h2
  | cons t ta ih =>
    obtain ⟨r, g1, g2, g3⟩ := tokenize_cons_inv u h1
    cases a with
    | nil => simp at h1
    | cons x a =>
      have hPa : P (x :: a) := by
        rcases ha with h | h
        · cases h
        · exact h
      have hz := nul_free_of_tokenize u h1
      have hz2 := nul_free_of_tokenize u h2
      have hstep : Tokenizer.next u ((x :: a) ++ b) = some (t, r ++ b) := by
        rw [hP x a hPa, g1]; rfl
      have ht : t ≠ [] := next_ne_nil u (by
        rintro rfl; exact hz (by simp)) g1
      have hr : r = [] ∨ P r := by
        by_cases hr : r = []
        · exact Or.inl hr
        · exact Or.inr (hsuf t r ht hr (g2 ▸ hPa))
      rw [tokenize_cons_of_next u hstep (by
        intro hm; rcases List.mem_append.mp hm with h | h
        · exact hz h
        · exact hz2 h), ih r hr g3]
      rfl

theorem cut_blank (a : Str) {c : Char} (hc : isBlank c = true) (b : Str)
    (ha : a = [] ∨ ∃ y, a.getLast? = some y ∧ isBlank y = false) : Cut u a (c :: b) := by
  refine cut_of_next u (fun a => ∃ y, a.getLast? = some y ∧ isBlank y = false) _ ?_ ?_ a ha
  · rintro x a ⟨y, h1, h2⟩
    exact next_blank u hc x a b ⟨y, List.mem_of_getLast? h1, h2⟩
  · rintro t r - hr ⟨y, h1, h2⟩
    exact ⟨y, by rw [← getLast?_app t hr]; exact h1, h2⟩

/-! ### Dots -/

theorem fraction_dots (a b : Str) :
    fraction u (a ++ '.' :: '.' :: b) = ((fraction u a).1, (fraction u a).2 ++ '.' :: '.' :: b) := by
  have hc := numeric_false_of_alnum_false u u.dot_not_alnum
  match a with
  | [] => simp [fraction, hc]
  | [x] => simp [fraction, hc]
  | x :: y :: ys =>
    simp only [List.cons_append, fraction]
    by_cases h : (decide (x = '.') && u.isNumeric y) = true
    · simp only [h, if_true]
      have e1 := takeWhile_stop u.isNumeric (y :: ys) '.' ('.' :: b) hc
      have e2 := dropWhile_stop u.isNumeric (y :: ys) '.' ('.' :: b) hc
      simp only [List.cons_append] at e1 e2
      rw [e1, e2]
    · simp [h]

theorem number_dots (x : Char) (a b : Str) :
    number u ((x :: a) ++ '.' :: '.' :: b) =
      (number u (x :: a)).map (fun p => (p.1, p.2 ++ '.' :: '.' :: b)) := by
  have hc := numeric_false_of_alnum_false u u.dot_not_alnum
  simp only [List.cons_append, number]
  by_cases h1 : (decide (x = '+') || decide (x = '-') || u.isNumeric x) = true
  · simp only [h1, if_true]
    by_cases h2 : (decide (x = '+') || decide (x = '-')) = true
    · simp only [h2, if_true]
      cases a with
      | nil => simp [hc]
      | cons y ys =>
        simp only [List.cons_append]
        by_cases h3 : u.isNumeric y = true
        · simp only [h3, if_true]
          have e1 := takeWhile_stop u.isNumeric (y :: ys) '.' ('.' :: b) hc
          have e2 := dropWhile_stop u.isNumeric (y :: ys) '.' ('.' :: b) hc
          simp only [List.cons_append] at e1 e2
          rw [e1, e2, fraction_dots u]
          simp
        · simp [h3]
    · simp only [h2, Bool.false_eq_true, if_false]
      by_cases h3 : u.isNumeric x = true
      · simp only [h3, if_true]
        have e1 := takeWhile_stop u.isNumeric (x :: a) '.' ('.' :: b) hc
        have e2 := dropWhile_stop u.isNumeric (x :: a) '.' ('.' :: b) hc
        simp only [List.cons_append] at e1 e2
        rw [e1, e2, fraction_dots u]
        simp
      · simp [h3]
  · simp [h1]

theorem next_dots (x : Char) (a b : Str) :
    Tokenizer.next u ((x :: a) ++ '.' :: '.' :: b) =
      (Tokenizer.next u (x :: a)).map (fun p => (p.1, p.2 ++ '.' :: '.' :: b)) := by
  have en := number_dots u x a b
  simp only [List.cons_append] at en ⊢
  simp only [Tokenizer.next]
  have t1 := takeWhile_stop isBlank (x :: a) '.' ('.' :: b) (by decide)
  have d1 := dropWhile_stop isBlank (x :: a) '.' ('.' :: b) (by decide)
  have t2 := takeWhile_stop u.isAlnum (x :: a) '.' ('.' :: b) u.dot_not_alnum
  have d2 := dropWhile_stop u.isAlnum (x :: a) '.' ('.' :: b) u.dot_not_alnum
  simp only [List.cons_append] at t1 d1 t2 d2
  rw [t1, d1, t2, d2, en]
  by_cases hb : isBlank x = true
  · simp [hb]
  · simp only [hb, Bool.false_eq_true, if_false]
    cases hnum : number u (x :: a) with
    | some r => simp
    | none =>
      simp only [Option.map_none]
      by_cases ha : u.isAlnum x = true
      · simp [ha]
      · by_cases hz : x = '\x00'
        · subst hz; simp [ha]
        · simp [ha, hz]

/-- Three dots at the end of a text are tokens of their own whatever follows. -/
theorem cut_dots (a b : Str) : Cut u (a ++ "...".toList) b := by
  intro ta tb h1 h2
  have hz := nul_free_of_tokenize u h1
  have hza : '\x00' ∉ a := fun h => hz (List.mem_append_left _ h)
  have hz2 := nul_free_of_tokenize u h2
  have dots : ∀ x tx, tokenize u x = some tx →
      tokenize u ('.' :: x) = some (['.'] :: tx) := by
    intro x tx hx
    rw [tokenize_cons_of_next u (next_dot u x) (by
      have := nul_free_of_tokenize u hx
      simp [this]), hx]
    rfl
  have h3 := dots _ _ (dots _ _ (dots _ _ h2))
  have h4 := dots _ _ (dots _ _ (dots _ _ (tokenize_nil u)))
  obtain ⟨tc, hc⟩ := tokenize_nul_free u hza
  have cut : ∀ x, Cut u a ('.' :: '.' :: x) := fun x =>
    cut_of_next u (fun _ => True) _ (fun y a _ => next_dots u y a x) (fun _ _ _ _ _ => trivial) a
      (Or.inr trivial)
  have h5 := cut _ tc _ hc h4
  have e1 : a ++ "...".toList = a ++ '.' :: '.' :: ['.'] := rfl
  rw [e1, h5] at h1
  cases h1
  have h6 := cut _ tc _ hc h3
  have e2 : a ++ "...".toList ++ b = a ++ '.' :: '.' :: '.' :: b := by simp
  rw [e2, h6]
  simp

/-! ### Calls that print whole lines -/

theorem aligned_line {x : Str} (hx : '\x00' ∉ x) {ps : List Str} (h : Aligned u ps) :
    Aligned u (x :: ['\n'] :: ps) :=
  aligned_cons u hx (cut_stop u x (stop_newline u) _)
    (aligned_cons u (by decide) (cut_newline u _) h)

theorem cellShown_last (x : Str) : cellShown u x = [] ∨
    ∃ y, (cellShown u x).getLast? = some y ∧ isBlank y = false := by
  unfold cellShown strip
  generalize (x.map (fun c => if c = '\r' ∨ c = '\n' then ' ' else c)).dropWhile u.isSpace = z
  cases hd : z.reverse.dropWhile u.isSpace with
  | nil => left; rfl
  | cons y ys =>
    right
    refine ⟨y, by simp, ?_⟩
    have h1 := List.head?_dropWhile_not u.isSpace z.reverse
    rw [hd] at h1
    have h2 : u.isSpace y = false := by simpa using h1
    cases hb : isBlank y with
    | false => rfl
    | true =>
      simp only [isBlank, Bool.or_eq_true, decide_eq_true_eq] at hb
      rcases hb with h | h
      · subst h; rw [u.blank_space] at h2; cases h2
      · subst h; rw [u.tab_space] at h2; cases h2

theorem cellShown_mem {c : Char} {x : Str} (h : c ∈ cellShown u x) :
    c ≠ '\r' ∧ c ≠ '\n' ∧ (c = ' ' ∨ c ∈ x) := by
  unfold cellShown strip at h
  have h1 := (List.dropWhile_sublist u.isSpace).mem (List.mem_reverse.mp h)
  have h2 := (List.dropWhile_sublist u.isSpace).mem (List.mem_reverse.mp h1)
  obtain ⟨d, hd, hc⟩ := List.mem_map.mp h2
  by_cases hd2 : d = '\r' ∨ d = '\n'
  · rw [if_pos hd2] at hc
    subst hc
    exact ⟨by decide, by decide, Or.inl rfl⟩
  · rw [if_neg hd2] at hc
    subst hc
    exact ⟨fun h => hd2 (Or.inl h), fun h => hd2 (Or.inr h), Or.inr hd⟩

theorem aligned_cell (x : Str) (n : Nat) (hx : '\x00' ∉ x) {ps : List Str} (h : Aligned u ps) :
    Aligned u (cellShown u x :: List.replicate n ' ' :: ['|'] :: ps) := by
  have h1 := aligned_cons u (p := ['|']) (by decide) (cut_bar u _) h
  have h2 : Aligned u (List.replicate n ' ' :: ['|'] :: ps) :=
    aligned_cons u (by
      intro hm; exact absurd (List.eq_of_mem_replicate hm) (by decide))
      (cut_stop u _ (stop_bar u) _) h1
  refine aligned_cons u ?_ ?_ h2
  · intro hm
    rcases (cellShown_mem u hm).2.2 with h | h
    · exact absurd h (by decide)
    · exact hx h
  · cases n with
    | zero => exact cut_stop u _ (stop_bar u) _
    | succ n => exact cut_blank u _ (c := ' ') (by decide) _ (cellShown_last u x)

theorem aligned_cells (w : Str × List Str → Nat) (i : Nat) (cs : List (Str × List Str))
    (hc : ∀ c ∈ cs, ∀ x ∈ c.2, '\x00' ∉ x) {ps : List Str} (h : Aligned u ps) :
    Aligned u (cs.flatMap (fun c => [cellShown u (c.2.getD i []),
      List.replicate (w c - (cellShown u (c.2.getD i [])).length) ' ', ['|']]) ++ ps) := by
  induction cs with
  | nil => exact h
  | cons c cs ih =>
    rw [List.flatMap_cons, List.append_assoc]
    refine aligned_cell u _ _ ?_ (ih (fun c hc' => hc c (by simp [hc'])))
    rw [List.getD_eq_getElem?_getD]
    cases hg : c.2[i]? with
    | none => simp
    | some x => exact hc c (by simp) x (List.mem_of_getElem? hg)

theorem barRow_free {z : Char} (hz : z ≠ '|') (hb : z ≠ ' ') (cells : List (Nat × Str))
    (h : ∀ c ∈ cells, z ∉ c.2) : z ∉ barRow cells := by
  intro hm
  simp only [barRow, List.mem_cons, List.mem_flatten, List.mem_map] at hm
  rcases hm with h1 | ⟨l, ⟨c, hc, rfl⟩, h1⟩
  · exact hz h1
  · simp only [List.append_assoc, List.mem_append, List.mem_replicate, List.mem_singleton] at h1
    rcases h1 with h1 | h1 | h1
    · exact h c hc h1
    · exact hb h1.2
    · exact hz h1

theorem aligned_table (tb : Table) (htb : PlainTable tb) {ps : List Str} (h : Aligned u ps) :
    Aligned u (pieces u (.tdf tb) ++ ps) := by
  have hrows : ∀ rs : List Nat, Aligned u (rs.flatMap (fun i => ['|'] ::
      tb.cols.flatMap (fun c => [cellShown u (c.2.getD i []),
        List.replicate (colWidth tb.rows c - (cellShown u (c.2.getD i [])).length) ' ', ['|']]) ++
      [[], ['\n']]) ++ ps) := by
    intro rs
    induction rs with
    | nil => exact h
    | cons i rs ih =>
      rw [List.flatMap_cons, List.append_assoc, List.cons_append, List.cons_append]
      refine aligned_cons u (by decide) (cut_bar u _) ?_
      rw [List.append_assoc]
      refine aligned_cells u _ i tb.cols (fun c hc => (htb c hc).2) ?_
      exact aligned_line u (by simp) ih
  have := aligned_line u (x := barRow (tb.cols.map (fun c => (colWidth tb.rows c,
      List.replicate (colWidth tb.rows c) '-')))) (by
    apply barRow_free (by decide) (by decide)
    intro c hc
    obtain ⟨c', -, rfl⟩ := List.mem_map.mp hc
    intro hm; exact absurd (List.eq_of_mem_replicate hm) (by decide)) (hrows (List.range tb.rows))
  exact aligned_line u (x := barRow (tb.cols.map (fun c => (colWidth tb.rows c, c.1)))) (by
    apply barRow_free (by decide) (by decide)
    intro c hc
    obtain ⟨c', hc', rfl⟩ := List.mem_map.mp hc
    exact (htb c' hc').1.1) this

end Verif.Lemmas
