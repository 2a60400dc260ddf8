import Verif.Lemmas.Tokenizer
import Verif.Spec.Tokenizer

/-! # C01–C03, C71: the tokenizer -/

namespace Verif.Props
open Verif.Py Verif.Model Verif.Spec Verif.Lemmas

variable (u : Unicode)

/-- The bounded loop of the model is the unbounded Python loop. -/
theorem tokenize_iff_yields (s : Str) (ts : List Str) :
    tokenize u s = some ts ↔ Yields u s ts := by
  constructor
  · intro h
    induction ts generalizing s with
    | nil =>
      have := tokenize_flatten u h
      simp only [List.flatten_nil] at this
      subst this; exact .stop rfl
    | cons t ts ih =>
      have hz := nul_free_of_tokenize u h
      cases hnx : Tokenizer.next u s with
      | none => rw [(next_eq_none u).mp hnx] at h; simp at h
      | some p =>
        obtain ⟨t', r⟩ := p
        rw [tokenize_cons_of_next u hnx hz] at h
        simp only [Option.map_eq_some_iff, List.cons.injEq] at h
        obtain ⟨ts', h1, rfl, rfl⟩ := h
        exact .step hnx (ih r h1)
  · intro h
    induction h with
    | stop h => rw [(next_eq_none u).mp h]; rfl
    | @step s t r ts h hr ih =>
      by_cases hz : '\x00' ∈ s
      · exfalso
        have hr' : '\x00' ∈ r := by
          have hnr := nul_free_of_tokenize u ih
          obtain ⟨ts', hts'⟩ := tokenize_nul_free u hnr
          have h1 : tokenizeFuel u (r.length + 1) s = none := tokenizeFuel_nul u hz
          simp only [tokenizeFuel, h] at h1
          unfold tokenize at hts'
          simp [hts'] at h1
        exact nul_free_of_tokenize u ih hr'
      · rw [tokenize_cons_of_next u h hz, ih]; rfl

/-- **C01.** Iterating the tokenizer over a NUL-free text yields non-empty tokens whose
concatenation is the text, and there is exactly one such token sequence. -/
theorem C01_lossless (s : Str) (hs : '\x00' ∉ s) :
    ∃ ts, Yields u s ts ∧ (∀ t ∈ ts, t ≠ []) ∧ ts.flatten = s ∧
      ∀ ts', Yields u s ts' → ts' = ts := by
  obtain ⟨ts, h⟩ := tokenize_nul_free u hs
  refine ⟨ts, (tokenize_iff_yields u s ts).mp h, tokenize_ne_nil u h, tokenize_flatten u h, ?_⟩
  intro ts' h'
  have := (tokenize_iff_yields u s ts').mpr h'
  rw [h] at this
  exact (Option.some.inj this).symm

example : '\x00' ∉ "size: -12.5 ms\n\tok".toList ∧
    tokenize ascii "size: -12.5 ms\n\tok".toList =
      some ["size".toList, ":".toList, " ".toList, "-12.5".toList, " ".toList, "ms".toList,
        "\n".toList, "\t".toList, "ok".toList] := by decide

/-- **C02 (refuted as stated).** Iterating over the one character text NUL never stops: no token
sequence is the complete output of the loop. -/
theorem C02_finishes_refuted : ¬ ∃ ts, Yields u ['\x00'] ts := by
  rintro ⟨ts, h⟩
  have := (tokenize_iff_yields u _ ts).mpr h
  exact nul_free_of_tokenize u this (by simp)

/-- **C02 (partial).** The loop finishes exactly for texts without NUL, after at most one
iteration per character.  Missing from the full claim: texts with a NUL character, for which it
is false (`C02_finishes_refuted`). -/
theorem C02_finishes_partial (s : Str) :
    (∃ ts, Yields u s ts) ↔ '\x00' ∉ s := by
  constructor
  · rintro ⟨ts, h⟩
    exact nul_free_of_tokenize u ((tokenize_iff_yields u s ts).mpr h)
  · intro h
    obtain ⟨ts, h⟩ := tokenize_nul_free u h
    exact ⟨ts, (tokenize_iff_yields u s ts).mp h⟩

/-- Number of iterations of C02: never more than the number of characters. -/
theorem C02_steps_partial (s : Str) (ts : List Str) (h : Yields u s ts) :
    ts.length ≤ s.length := by
  replace h := (tokenize_iff_yields u s ts).mpr h
  rw [← tokenize_flatten u h]
  have hne := tokenize_ne_nil u h
  clear h
  induction ts with
  | nil => simp
  | cons t ts ih =>
    have h1 : 0 < t.length := List.length_pos_iff.mpr (hne t (by simp))
    have h2 := ih (fun x hx => hne x (by simp [hx]))
    simp only [List.flatten_cons, List.length_cons, List.length_append]
    omega

example : ∃ ts, Yields ascii "a b\n".toList ts :=
  (C02_finishes_partial ascii _).mpr (by decide)

/-- **C03.** A newline is a token of its own, and the tokens of a text are the tokens of the part
before a newline, the newline, and the tokens of the part after it. -/
theorem C03_newline (a b : Str) (ta tb : List Str) (ha : Yields u a ta) (hb : Yields u b tb) :
    Yields u (a ++ '\n' :: b) (ta ++ ['\n'] :: tb) ∧
      ∀ t ∈ ta ++ ['\n'] :: tb, '\n' ∈ t → t = ['\n'] := by
  have ha := (tokenize_iff_yields u _ _).mpr ha
  have hb := (tokenize_iff_yields u _ _).mpr hb
  have za := nul_free_of_tokenize u ha
  have zb := nul_free_of_tokenize u hb
  have h1 := tokenize_newline_cons u zb hb
  have h2 := tokenize_append_stop u (stop_newline u) a b za (nul_free_of_tokenize u h1) ha h1
  refine ⟨(tokenize_iff_yields u _ _).mp h2, ?_⟩
  intro t ht hn
  rcases tokenize_newline_free u h2 t ht with h | h
  · exact h
  · exact absurd hn h

/-- **C03, whole texts.** The tokens of lines joined by newlines are the tokens of the lines with
newline tokens in between. -/
theorem C03_lines (ls : List Str) (hz : ∀ l ∈ ls, '\x00' ∉ l) :
    ∃ tss : List (List Str), tss.length = ls.length ∧
      (∀ i (h : i < ls.length) (h' : i < tss.length), Yields u ls[i] tss[i]) ∧
      Yields u (join ['\n'] ls) (List.intercalate [['\n']] tss) := by
  induction ls with
  | nil => exact ⟨[], rfl, by simp, .stop rfl⟩
  | cons l ls ih =>
    obtain ⟨tss, h1, h2, h3⟩ := ih (fun x hx => hz x (by simp [hx]))
    obtain ⟨ts, hts⟩ := tokenize_nul_free u (hz l (by simp))
    have hts := (tokenize_iff_yields u _ _).mp hts
    refine ⟨ts :: tss, by simp [h1], ?_, ?_⟩
    · intro i h h'
      cases i with
      | zero => exact hts
      | succ i => exact h2 i (by simpa using h) (by simpa using h')
    · cases ls with
      | nil =>
        cases tss with
        | nil => simpa [join, List.intercalate] using hts
        | cons _ _ => simp at h1
      | cons l' ls =>
        cases tss with
        | nil => simp at h1
        | cons ts' tss =>
          have := (C03_newline u l (join ['\n'] (l' :: ls)) ts _ hts h3).1
          simpa [join, List.intercalate] using this

example : Yields ascii "x".toList ["x".toList] ∧ Yields ascii "y 1".toList
    ["y".toList, " ".toList, "1".toList] :=
  ⟨(tokenize_iff_yields _ _ _).mp (by decide), (tokenize_iff_yields _ _ _).mp (by decide)⟩

theorem takeWhile_all {p : Char → Bool} {a : Str} (h : ∀ c ∈ a, p c = true) (b : Str) :
    (a ++ b).takeWhile p = a ++ b.takeWhile p ∧ (a ++ b).dropWhile p = b.dropWhile p := by
  induction a with
  | nil => simp
  | cons x xs ih =>
    have hx := h x (by simp)
    have := ih (fun c hc => h c (by simp [hc]))
    simp [hx, this]

/-- **C71.** A number (sign, digits, fraction) is one token, whatever follows it, as long as it is
not directly followed by another digit or a fraction. -/
theorem C71_number_token (n rest : Str) (hn : IsNumber u n)
    (h1 : ∀ c cs, rest = c :: cs → u.isNumeric c = false)
    (h2 : ∀ c cs, rest = '.' :: c :: cs → '.' ∈ n ∨ u.isNumeric c = false) :
    Tokenizer.next u (n ++ rest) = some (n, rest) := by
  obtain ⟨sign, int, frac, rfl, hsign, hint, hnum, hfrac⟩ := hn.shape
  have hdot : u.isNumeric '.' = false := numeric_false_of_alnum_false u u.dot_not_alnum
  have hplus : u.isNumeric '+' = false := numeric_false_of_alnum_false u u.plus_not_alnum
  have hminus : u.isNumeric '-' = false := numeric_false_of_alnum_false u u.minus_not_alnum
  cases int with
  | nil => exact absurd rfl hint
  | cons d ds =>
    have hd := hnum d (by simp)
    have hnb : ∀ c, u.isNumeric c = true → isBlank c = false := by
      intro c hc
      have hc := u.numeric_alnum c hc
      by_cases e1 : c = ' '
      · subst e1; rw [blank_not_alnum] at hc; cases hc
      · by_cases e2 : c = '\t'
        · subst e2; rw [tab_not_alnum] at hc; cases hc
        · simp [isBlank, e1, e2]
    -- what follows the integer digits
    have hfr : fraction u ((d :: ds ++ (frac ++ rest)).dropWhile u.isNumeric) = (frac, rest) ∧
        (d :: ds ++ (frac ++ rest)).takeWhile u.isNumeric = d :: ds := by
      have e := takeWhile_all hnum (frac ++ rest)
      rw [e.1, e.2]
      rcases hfrac with rfl | ⟨fs, rfl, hfs, hfn⟩
      · simp only [List.nil_append]
        cases rest with
        | nil => simp [fraction]
        | cons c cs =>
          have hc := h1 c cs rfl
          simp only [List.takeWhile_cons, List.dropWhile_cons, hc, Bool.false_eq_true, if_false,
            List.append_nil, and_true]
          cases cs with
          | nil => simp [fraction]
          | cons y ys =>
            by_cases hcd : c = '.'
            · subst hcd
              rcases h2 y ys rfl with h | h
              · exfalso
                simp only [List.append_nil, List.mem_append] at h
                rcases h with h | h
                · rcases hsign with rfl | rfl | rfl <;> simp at h
                · have := hnum _ h; rw [hdot] at this; cases this
              · simp [fraction, h]
            · simp [fraction, hcd]
      · cases fs with
        | nil => exact absurd rfl hfs
        | cons f fs =>
          have hf := hfn f (by simp)
          have e2 := takeWhile_all hfn rest
          have er : rest.takeWhile u.isNumeric = [] ∧ rest.dropWhile u.isNumeric = rest := by
            cases rest with
            | nil => simp
            | cons c cs => simp [h1 c cs rfl]
          simp only [List.cons_append] at e2
          simp only [List.cons_append, List.takeWhile_cons, List.dropWhile_cons, hdot,
            Bool.false_eq_true, if_false, List.append_nil, and_true, fraction, decide_true,
            hf, Bool.and_self, if_true]
          simp only [List.takeWhile_cons, List.dropWhile_cons, hf, if_true, List.cons.injEq,
            true_and] at e2
          rw [e2.1, e2.2, er.1, er.2]
          simp
    rcases hsign with rfl | rfl | rfl
    · have hnp : d ≠ '+' := by rintro rfl; rw [hplus] at hd; cases hd
      have hnm : d ≠ '-' := by rintro rfl; rw [hminus] at hd; cases hd
      simp only [List.cons_append] at hfr
      simp only [List.nil_append, List.cons_append, List.append_assoc, Tokenizer.next,
        hnb d hd, Bool.false_eq_true, if_false]
      simp [number, hd, hnp, hnm, hfr]
      simp only [List.dropWhile_cons, hd, if_true] at hfr
      simp [hfr.1]
    · simp only [List.cons_append] at hfr
      have : isBlank '+' = false := by decide
      simp only [List.nil_append, List.cons_append, List.append_assoc, Tokenizer.next, this,
        Bool.false_eq_true, if_false]
      simp only [number, decide_true, Bool.true_or, if_true, hd, hfr.1, hfr.2]
      simp
    · simp only [List.cons_append] at hfr
      have : isBlank '-' = false := by decide
      simp only [List.nil_append, List.cons_append, List.append_assoc, Tokenizer.next, this,
        Bool.false_eq_true, if_false]
      simp only [number, decide_true, Bool.or_true, Bool.true_or, if_true, hd, hfr.1, hfr.2]
      simp

example : IsNumber ascii "-12.50".toList :=
  ⟨"-".toList, "12".toList, ".50".toList, by decide, by decide, by decide, by decide,
    Or.inr ⟨"50".toList, by decide, by decide, by decide⟩⟩

/-! ## C74 -/

theorem isBlank_iff {c : Char} : isBlank c = true ↔ IsBlank c := by
  simp [isBlank, IsBlank]

theorem isBlank_false_iff {c : Char} : isBlank c = false ↔ ¬ IsBlank c := by
  rw [← isBlank_iff]; simp

theorem dropWhile_head {p : Char → Bool} {s r : Str} {c : Char} (h : s.dropWhile p = c :: r) :
    p c = false := by
  induction s with
  | nil => simp at h
  | cons x xs ih =>
    by_cases hx : p x = true
    · simp only [List.dropWhile_cons, hx, if_true] at h; exact ih h
    · simp only [List.dropWhile_cons, hx, if_false, Bool.false_eq_true, List.cons.injEq] at h
      rw [← h.1]; simpa using hx

theorem number_tokenAt {s t r : Str} (h : number u s = some (t, r)) : TokenAt u t r := by
  have hdot : u.isNumeric '.' = false := numeric_false_of_alnum_false u u.dot_not_alnum
  have core : ∀ (sign body : Str) (d : Char) (ds : Str), body = d :: ds → u.isNumeric d = true →
      (sign = [] ∨ sign = ['+'] ∨ sign = ['-']) →
      sign ++ body.takeWhile u.isNumeric ++ (fraction u (body.dropWhile u.isNumeric)).1 = t →
      (fraction u (body.dropWhile u.isNumeric)).2 = r → TokenAt u t r := by
    intro sign body d ds hb hd hs h1 h2
    have hint : body.takeWhile u.isNumeric ≠ [] := by subst hb; simp [hd]
    have hall := takeWhile_forall u.isNumeric body
    have hhead : ∀ c cs, body.dropWhile u.isNumeric = c :: cs → u.isNumeric c = false :=
      fun c cs hc => dropWhile_head hc
    generalize body.takeWhile u.isNumeric = int at *
    generalize body.dropWhile u.isNumeric = rest at *
    match rest, h1, h2, hhead with
    | [], h1, h2, _ =>
      simp only [fraction, List.append_nil] at h1 h2
      subst h1 h2
      exact .number ⟨sign, int, [], by simp, hs, hint, hall, Or.inl rfl⟩ (by simp) (by simp)
    | [x], h1, h2, hhead =>
      simp only [fraction, List.append_nil] at h1 h2
      subst h1 h2
      exact .number ⟨sign, int, [], by simp, hs, hint, hall, Or.inl rfl⟩ hhead (by simp)
    | x :: y :: ys, h1, h2, hhead =>
      simp only [fraction] at h1 h2
      by_cases hf : (decide (x = '.') && u.isNumeric y) = true
      · simp only [hf, if_true] at h1 h2
        simp only [Bool.and_eq_true, decide_eq_true_eq] at hf
        obtain ⟨rfl, hy⟩ := hf
        subst h1 h2
        refine .number ⟨sign, int, '.' :: (y :: ys).takeWhile u.isNumeric, rfl, hs, hint, hall,
          Or.inr ⟨_, rfl, by simp [hy], takeWhile_forall u.isNumeric _⟩⟩ ?_ ?_
        · intro c cs hc; exact dropWhile_head hc
        · intro c cs _; left; simp
      · simp only [hf, if_false, Bool.false_eq_true, List.append_nil] at h1 h2
        subst h1 h2
        refine .number ⟨sign, int, [], by simp, hs, hint, hall, Or.inl rfl⟩ hhead ?_
        intro c cs hc
        simp only [List.cons.injEq] at hc
        obtain ⟨rfl, rfl, rfl⟩ := hc
        right; simpa using hf
  unfold number at h
  split at h
  · cases h
  · rename_i c cs
    split at h
    · dsimp only at h
      split at h
      · rename_i d ds hb
        split at h
        · rename_i hd
          simp only [Option.some.injEq, Prod.mk.injEq] at h
          refine core _ _ d ds hb hd ?_ h.1 h.2
          split
          · rename_i hc; simp at hc; rcases hc with rfl | rfl <;> simp
          · simp
        · cases h
      · cases h
    · cases h

/-- **C74.** What `__next__` returns: for a text without NUL, `t` is the next token and `r` the
unread rest exactly if the text is `t ++ r` and `t` is a token in front of `r`: a maximal run of
blanks, a maximal number, a maximal word, or a single other character. -/
theorem C74_token (s t r : Str) (hs : '\x00' ∉ s) :
    Tokenizer.next u s = some (t, r) ↔ s = t ++ r ∧ TokenAt u t r := by
  have hplus : u.isNumeric '+' = false := numeric_false_of_alnum_false u u.plus_not_alnum
  have hminus : u.isNumeric '-' = false := numeric_false_of_alnum_false u u.minus_not_alnum
  constructor
  · intro h
    refine ⟨(next_concat u h).symm, ?_⟩
    unfold Tokenizer.next at h
    split at h
    · cases h
    · rename_i c cs
      split at h
      · rename_i hb
        simp only [Option.some.injEq, Prod.mk.injEq] at h
        obtain ⟨rfl, rfl⟩ := h
        refine .blanks (by simp [hb]) ?_ ?_
        · intro x hx; exact isBlank_iff.mp (takeWhile_forall isBlank _ x hx)
        · intro x xs hx; exact isBlank_false_iff.mp (dropWhile_head hx)
      · rename_i hb
        split at h
        · rename_i p hp
          obtain ⟨t', r'⟩ := p
          cases h
          exact number_tokenAt u hp
        · rename_i hn
          have hcn : u.isNumeric c = false := by
            cases hc : u.isNumeric c with
            | false => rfl
            | true =>
              exfalso
              have h1 : c ≠ '+' := by rintro rfl; rw [hplus] at hc; cases hc
              have h2 : c ≠ '-' := by rintro rfl; rw [hminus] at hc; cases hc
              simp [number, hc, h1, h2] at hn
          split at h
          · rename_i ha
            simp only [Option.some.injEq, Prod.mk.injEq] at h
            obtain ⟨rfl, rfl⟩ := h
            simp only [List.takeWhile_cons, ha, if_true]
            refine .word hcn ?_ ?_
            · intro x hx
              rcases List.mem_cons.mp hx with rfl | hx
              · exact ha
              · exact takeWhile_forall u.isAlnum _ x hx
            · intro x xs hx; exact dropWhile_head hx
          · rename_i ha
            split at h
            · rename_i hz
              simp only [Option.some.injEq, Prod.mk.injEq] at h
              obtain ⟨rfl, rfl⟩ := h
              refine .other (isBlank_false_iff.mp (by simpa using hb)) (by simpa using ha) hz ?_
              intro hsg x xs hx
              subst hx
              cases hxn : u.isNumeric x with
              | false => rfl
              | true =>
                rcases hsg with rfl | rfl <;> simp [number, hxn] at hn
            · rename_i hz
              exfalso; apply hs; simp at hz; simp [hz]
  · rintro ⟨rfl, h⟩
    cases h with
    | blanks hne ht hr =>
      cases t with
      | nil => exact absurd rfl hne
      | cons c cs =>
        have hall : ∀ x ∈ c :: cs, isBlank x = true := fun x hx => isBlank_iff.mpr (ht x hx)
        have hb := hall c (by simp)
        obtain ⟨e1, e2⟩ := takeWhile_all hall r
        have er : r.takeWhile isBlank = [] ∧ r.dropWhile isBlank = r := by
          cases r with
          | nil => simp
          | cons x xs => simp [isBlank_false_iff.mpr (hr x xs rfl)]
        simp only [List.cons_append] at e1 e2 ⊢
        unfold Tokenizer.next
        simp only [hb, if_true, e1, e2, er.1, er.2, List.append_nil]
    | number ht hr hd => exact C71_number_token u t r ht hr hd
    | @word c t _ hc ht hr =>
      have hca := ht c (by simp)
      have hnb : isBlank c = false := by
        rw [isBlank_false_iff]
        rintro (rfl | rfl)
        · rw [blank_not_alnum] at hca; cases hca
        · rw [tab_not_alnum] at hca; cases hca
      have h1 : c ≠ '+' := by rintro rfl; rw [u.plus_not_alnum] at hca; cases hca
      have h2 : c ≠ '-' := by rintro rfl; rw [u.minus_not_alnum] at hca; cases hca
      have hnum : number u (c :: (t ++ r)) = none := by simp [number, h1, h2, hc]
      obtain ⟨e1, e2⟩ := takeWhile_all ht r
      have er : r.takeWhile u.isAlnum = [] ∧ r.dropWhile u.isAlnum = r := by
        cases r with
        | nil => simp
        | cons x xs => simp [hr x xs rfl]
      simp only [List.cons_append] at e1 e2 ⊢
      unfold Tokenizer.next
      simp only [hnb, Bool.false_eq_true, if_false, hnum, hca, if_true, e1, e2, er.1, er.2,
        List.append_nil]
    | @other c _ hb ha hz hsg =>
      have hnb := isBlank_false_iff.mpr hb
      have hcn := numeric_false_of_alnum_false u ha
      have hnum : number u (c :: r) = none := by
        by_cases hs1 : c = '+' ∨ c = '-'
        · cases r with
          | nil => rcases hs1 with rfl | rfl <;> simp [number]
          | cons x xs =>
            have := hsg hs1 x xs rfl
            rcases hs1 with rfl | rfl <;> simp [number, this]
        · simp only [not_or] at hs1
          simp [number, hs1.1, hs1.2, hcn]
      simp only [List.singleton_append]
      unfold Tokenizer.next
      simp [hnb, hnum, ha, hz]

/-- **C74.** Every text without NUL that is not empty begins with a token, and it has only one
first token. -/
theorem C74_unique (s : Str) (hs : '\x00' ∉ s) (hne : s ≠ []) :
    ∃ t r, s = t ++ r ∧ TokenAt u t r ∧ ∀ t' r', s = t' ++ r' → TokenAt u t' r' → t' = t := by
  cases h : Tokenizer.next u s with
  | none => exact absurd ((next_eq_none u).mp h) hne
  | some p =>
    obtain ⟨t, r⟩ := p
    obtain ⟨h1, h2⟩ := (C74_token u s t r hs).mp h
    refine ⟨t, r, h1, h2, ?_⟩
    intro t' r' h3 h4
    have := (C74_token u s t' r' hs).mpr ⟨h3, h4⟩
    rw [h] at this
    simp only [Option.some.injEq, Prod.mk.injEq] at this
    exact this.1.symm

example : TokenAt ascii " \t".toList "x".toList ∧ TokenAt ascii "-1.5".toList ".2".toList ∧
    TokenAt ascii "ab1".toList "-".toList ∧ TokenAt ascii "-".toList "a".toList := by
  have h := fun s t r => (C74_token ascii s t r)
  exact ⟨((h " \tx".toList _ _ (by decide)).mp (by decide)).2,
    ((h "-1.5.2".toList _ _ (by decide)).mp (by decide)).2,
    ((h "ab1-".toList _ _ (by decide)).mp (by decide)).2,
    ((h "-a".toList _ _ (by decide)).mp (by decide)).2⟩

end Verif.Props
