import Verif.Lemmas.Loads

/-! # Reading JSON from a longer text -/

namespace Verif.Lemmas
open Verif.Py Verif.Model Verif.Spec

/-! ### More fuel -/

private theorem map_some {α β : Type} {f : α → β} {a b : Option α} {y : β} (h : ∀ x, a = some x → b = some x)
    (e : a.map f = some y) : b.map f = some y := by
  obtain ⟨x, hx, rfl⟩ := Option.map_eq_some_iff.mp e
  rw [h x hx]
  rfl

private theorem fuel_step (f : Nat) :
    (∀ s x, scanOnce f s = some x → scanOnce (f + 1) s = some x) ∧
    (∀ s x, scanItems f s = some x → scanItems (f + 1) s = some x) ∧
    (∀ s x, scanFields f s = some x → scanFields (f + 1) s = some x) := by
  induction f with
  | zero =>
    refine ⟨?_, ?_, ?_⟩
    · intro s x h; rw [scanOnce.eq_def] at h; cases h
    · intro s x h; rw [scanItems.eq_def] at h; cases h
    · intro s x h; rw [scanFields.eq_def] at h; cases h
  | succ f ih =>
    obtain ⟨i1, i2, i3⟩ := ih
    refine ⟨?_, ?_, ?_⟩
    · intro s x h
      cases s with
      | nil => rw [scanOnce.eq_def] at h; cases h
      | cons c s =>
        rw [scanOnce.eq_def] at h ⊢
        dsimp only at h ⊢
        by_cases h1 : c = '"'
        · rw [if_pos h1] at h ⊢; exact h
        rw [if_neg h1] at h ⊢
        by_cases h2 : c = '{'
        · rw [if_pos h2] at h ⊢
          cases hw : skipWs s with
          | nil => rw [hw] at h; cases h
          | cons d r =>
            rw [hw] at h
            dsimp only at h ⊢
            by_cases h3 : d = '}'
            · rw [if_pos h3] at h ⊢; exact h
            · rw [if_neg h3] at h ⊢; exact map_some (i3 _) h
        rw [if_neg h2] at h ⊢
        by_cases h4 : c = '['
        · rw [if_pos h4] at h ⊢
          cases hw : skipWs s with
          | nil => rw [hw] at h; cases h
          | cons d r =>
            rw [hw] at h
            dsimp only at h ⊢
            by_cases h3 : d = ']'
            · rw [if_pos h3] at h ⊢; exact h
            · rw [if_neg h3] at h ⊢; exact map_some (i2 _) h
        rw [if_neg h4] at h ⊢
        exact h
    · intro s x h
      rw [scanItems] at h ⊢
      cases hv : scanOnce f s with
      | none => rw [hv] at h; cases h
      | some y =>
        obtain ⟨v, r⟩ := y
        rw [hv] at h
        rw [i1 _ _ hv]
        dsimp only at h ⊢
        cases hw : skipWs r with
        | nil => rw [hw] at h; cases h
        | cons d r =>
          rw [hw] at h
          dsimp only at h ⊢
          by_cases h3 : d = ']'
          · rw [if_pos h3] at h ⊢; exact h
          rw [if_neg h3] at h ⊢
          by_cases h4 : d = ','
          · rw [if_pos h4] at h ⊢; exact map_some (i2 _) h
          · rw [if_neg h4] at h; cases h
    · intro s x h
      cases s with
      | nil => rw [scanFields.eq_def] at h; cases h
      | cons c s =>
        rw [scanFields.eq_def] at h ⊢
        dsimp only at h ⊢
        by_cases h1 : c = '"'
        · rw [if_pos h1] at h ⊢
          cases hs : scanString s with
          | none => rw [hs] at h; cases h
          | some y =>
            obtain ⟨k, r⟩ := y
            rw [hs] at h
            dsimp only at h ⊢
            cases hw : skipWs r with
            | nil => rw [hw] at h; cases h
            | cons d r =>
              rw [hw] at h
              dsimp only at h ⊢
              by_cases h2 : d = ':'
              · rw [if_pos h2] at h ⊢
                cases hv : scanOnce f (skipWs r) with
                | none => rw [hv] at h; cases h
                | some y =>
                  obtain ⟨v, r'⟩ := y
                  rw [hv] at h
                  rw [i1 _ _ hv]
                  dsimp only at h ⊢
                  cases hw : skipWs r' with
                  | nil => rw [hw] at h; cases h
                  | cons d r =>
                    rw [hw] at h
                    dsimp only at h ⊢
                    by_cases h3 : d = '}'
                    · rw [if_pos h3] at h ⊢; exact h
                    rw [if_neg h3] at h ⊢
                    by_cases h4 : d = ','
                    · rw [if_pos h4] at h ⊢; exact map_some (i3 _) h
                    · rw [if_neg h4] at h; cases h
              · rw [if_neg h2] at h; cases h
        · rw [if_neg h1] at h; cases h

theorem scanOnce_fuel {f g : Nat} (h : f ≤ g) {s : Str} {x : PyData × Str} (hs : scanOnce f s = some x) :
    scanOnce g s = some x := by
  induction h with
  | refl => exact hs
  | step _ ih => exact (fuel_step _).1 _ _ ih

/-! ### Longer texts -/

theorem skipWs_append {s r : Str} {d : Char} (h : skipWs s = d :: r) (q : Str) : skipWs (s ++ q) = d :: (r ++ q) := by
  induction s with
  | nil => cases h
  | cons c s ih =>
    rw [List.cons_append]
    unfold skipWs at h ⊢
    by_cases hc : c = ' ' ∨ c = '\t' ∨ c = '\n' ∨ c = '\r'
    · rw [if_pos hc] at h ⊢; exact ih h
    · rw [if_neg hc] at h ⊢
      injection h with h1 h2
      rw [h1, h2]

private theorem skipWs_ends {s r : Str} {d : Char} (h : skipWs s = d :: r) (hd : atomChar d = false) :
    s ≠ [] ∧ AtomEnds s := by
  cases s with
  | nil => cases h
  | cons c s =>
    refine ⟨by simp, ?_⟩
    intro x t e
    injection e with e _
    subst e
    unfold skipWs at h
    by_cases hc : c = ' ' ∨ c = '\t' ∨ c = '\n' ∨ c = '\r'
    · rcases hc with rfl | rfl | rfl | rfl <;> decide
    · rw [if_neg hc] at h
      injection h with h1 _
      rw [h1]
      exact hd

private theorem scanUnits_append (m : Nat) : ∀ (s : Str), s.length ≤ m → ∀ (ns : List Nat) (r q : Str),
    scanUnits s = some (ns, r) → scanUnits (s ++ q) = some (ns, r ++ q) := by
  induction m with
  | zero =>
    intro s hs ns r q h
    cases s with
    | nil => rw [scanUnits.eq_def] at h; cases h
    | cons c s => simp at hs
  | succ m ih =>
    intro s hs ns r q h
    cases s with
    | nil => rw [scanUnits.eq_def] at h; cases h
    | cons c s =>
      simp only [List.length_cons] at hs
      rw [List.cons_append]
      rw [scanUnits.eq_def] at h ⊢
      dsimp only at h ⊢
      by_cases h1 : c = '"'
      · rw [if_pos h1] at h ⊢
        simp only [Option.some.injEq, Prod.mk.injEq] at h ⊢
        exact ⟨h.1, by rw [h.2]⟩
      rw [if_neg h1] at h ⊢
      by_cases h2 : c = '\\'
      · rw [if_pos h2] at h ⊢
        cases s with
        | nil => cases h
        | cons e s =>
          simp only [List.length_cons] at hs
          rw [List.cons_append]
          dsimp only at h ⊢
          by_cases h3 : e = 'u'
          · rw [if_pos h3] at h ⊢
            match s, h, hs with
            | a :: b :: c :: d :: s, h, hs =>
              simp only [List.length_cons] at hs
              simp only [List.cons_append]
              dsimp only at h
              cases hx : hexValue4 a b c d with
              | none => rw [hx] at h; cases h
              | some n =>
                rw [hx] at h
                cases hu : scanUnits s with
                | none => rw [hu] at h; cases h
                | some y =>
                  obtain ⟨ns', r'⟩ := y
                  rw [hu] at h
                  rw [ih s (by omega) ns' r' q hu]
                  simp only [Option.some.injEq, Prod.mk.injEq] at h ⊢
                  exact ⟨h.1, by rw [h.2]⟩
          · rw [if_neg h3] at h ⊢
            cases hx : escaped e with
            | none => rw [hx] at h; cases h
            | some n =>
              rw [hx] at h
              cases hu : scanUnits s with
              | none => rw [hu] at h; cases h
              | some y =>
                obtain ⟨ns', r'⟩ := y
                rw [hu] at h
                rw [ih s (by omega) ns' r' q hu]
                simp only [Option.some.injEq, Prod.mk.injEq] at h ⊢
                exact ⟨h.1, by rw [h.2]⟩
      rw [if_neg h2] at h ⊢
      by_cases h4 : c.toNat < 32
      · rw [if_pos h4] at h; cases h
      rw [if_neg h4] at h ⊢
      cases hu : scanUnits s with
      | none => rw [hu] at h; cases h
      | some y =>
        obtain ⟨ns', r'⟩ := y
        rw [hu] at h
        rw [ih s (by omega) ns' r' q hu]
        simp only [Option.some.injEq, Prod.mk.injEq] at h ⊢
        exact ⟨h.1, by rw [h.2]⟩

private theorem scanString_append {s t r : Str} (h : scanString s = some (t, r)) (q : Str) :
    scanString (s ++ q) = some (t, r ++ q) := by
  unfold scanString at h ⊢
  cases hu : scanUnits s with
  | none => rw [hu] at h; cases h
  | some y =>
    obtain ⟨ns, r'⟩ := y
    rw [hu] at h
    rw [scanUnits_append s.length s (Nat.le_refl _) ns r' q hu]
    dsimp only at h ⊢
    obtain ⟨t', h1, h2⟩ := Option.map_eq_some_iff.mp h
    injection h2 with h3 h4
    rw [h1, Option.map_some, h3, h4]

private theorem takeDigits_longer {s : Str} (h : (takeDigits s).2 ≠ []) (q : Str) :
    takeDigits (s ++ q) = ((takeDigits s).1, (takeDigits s).2 ++ q) := by
  induction s with
  | nil => exact absurd rfl h
  | cons c s ih =>
    rw [List.cons_append]
    unfold takeDigits at h ⊢
    by_cases hc : c.isDigit = true
    · rw [if_pos hc] at h ⊢
      rw [if_pos hc, ih h]
    · rw [if_neg hc] at h ⊢
      rw [if_neg hc]
      rfl

private theorem wholePart_longer {s i r : Str} (h : wholePart s = some (i, r)) (hr : r ≠ []) (q : Str) :
    wholePart (s ++ q) = some (i, r ++ q) := by
  cases s with
  | nil => cases h
  | cons c s =>
    rw [List.cons_append]
    unfold wholePart at h ⊢
    dsimp only at h ⊢
    by_cases h0 : c = '0'
    · rw [if_pos h0] at h ⊢
      simp only [Option.some.injEq, Prod.mk.injEq] at h ⊢
      exact ⟨h.1, by rw [h.2]⟩
    rw [if_neg h0] at h ⊢
    by_cases hc : c.isDigit = true
    · rw [if_pos hc] at h ⊢
      simp only [Option.some.injEq, Prod.mk.injEq] at h
      rw [takeDigits_longer (by rw [h.2]; exact hr)]
      simp only [Option.some.injEq, Prod.mk.injEq]
      exact ⟨h.1, by rw [h.2]⟩
    · rw [if_neg hc] at h; cases h

private theorem intPart_longer {s i r : Str} (h : intPart s = some (i, r)) (hr : r ≠ []) (q : Str) :
    intPart (s ++ q) = some (i, r ++ q) := by
  cases s with
  | nil => cases h
  | cons c s =>
    rw [List.cons_append]
    unfold intPart at h ⊢
    dsimp only at h ⊢
    by_cases h0 : c = '-'
    · rw [if_pos h0] at h ⊢
      obtain ⟨⟨i', r'⟩, h1, h2⟩ := Option.map_eq_some_iff.mp h
      injection h2 with h3 h4
      dsimp only at h3 h4
      subst h4
      rw [wholePart_longer h1 hr, Option.map_some, h3]
    · rw [if_neg h0] at h ⊢
      have := wholePart_longer h hr q
      rwa [List.cons_append] at this

private theorem fracPart_longer {s : Str} (hr : (fracPart s).2 ≠ []) (hd : ∀ c t, (fracPart s).2 = c :: t → c ≠ '.')
    (q : Str) : fracPart (s ++ q) = ((fracPart s).1, (fracPart s).2 ++ q) := by
  cases s with
  | nil => exact absurd rfl hr
  | cons c s =>
    rw [List.cons_append]
    unfold fracPart at hr hd ⊢
    dsimp only at hr hd ⊢
    by_cases h : c = '.' ∧ (takeDigits s).1 ≠ []
    · rw [if_pos h] at hr
      rw [if_pos h, takeDigits_longer hr, if_pos h]
    · rw [if_neg h] at hd
      have hc := hd c s rfl
      rw [if_neg h, if_neg (fun x => hc x.1)]
      rfl

private theorem signPart_longer {s : Str} (hs : s ≠ []) (q : Str) :
    signPart (s ++ q) = ((signPart s).1, (signPart s).2 ++ q) := by
  cases s with
  | nil => exact absurd rfl hs
  | cons c s =>
    rw [List.cons_append]
    unfold signPart
    dsimp only
    by_cases h : c = '+' ∨ c = '-'
    · rw [if_pos h, if_pos h]
    · rw [if_neg h, if_neg h]; rfl

private theorem expPart_longer {s : Str} (hr : (expPart s).2 ≠ [])
    (hd : ∀ c t, (expPart s).2 = c :: t → c ≠ 'e' ∧ c ≠ 'E') (q : Str) :
    expPart (s ++ q) = ((expPart s).1, (expPart s).2 ++ q) := by
  cases s with
  | nil => exact absurd rfl hr
  | cons c s =>
    rw [List.cons_append]
    unfold expPart at hr hd ⊢
    dsimp only at hr hd ⊢
    by_cases h : (c = 'e' ∨ c = 'E') ∧ (takeDigits (signPart s).2).1 ≠ []
    · have hs : s ≠ [] := by
        rintro rfl
        exact h.2 rfl
      rw [if_pos h] at hr
      rw [if_pos h, signPart_longer hs]
      dsimp only
      rw [takeDigits_longer hr, if_pos h]
    · rw [if_neg h] at hd
      obtain ⟨h1, h2⟩ := hd c s rfl
      rw [if_neg h, if_neg]
      · rfl
      · rintro ⟨x | x, -⟩
        · exact h1 x
        · exact h2 x

private theorem scanNumber_longer {s : Str} {x : PyData} {r : Str} (h : scanNumber s = some (x, r)) (hne : r ≠ [])
    (hr : AtomEnds r) (q : Str) : scanNumber (s ++ q) = some (x, r ++ q) := by
  unfold scanNumber at h ⊢
  cases hi : intPart s with
  | none => rw [hi] at h; cases h
  | some y =>
    obtain ⟨i, r1⟩ := y
    rw [hi] at h
    dsimp only at h
    have hrest : (expPart (fracPart r1).2).2 = r := by
      split at h
      · injection h with h; injection h
      · injection h with h; injection h
    have hexp : expPart ((fracPart r1).2 ++ q) = ((expPart (fracPart r1).2).1, (expPart (fracPart r1).2).2 ++ q) := by
      apply expPart_longer
      · rw [hrest]; exact hne
      · rw [hrest]
        intro c t e
        have := hr c t e
        constructor
        · rintro rfl; revert this; decide
        · rintro rfl; revert this; decide
    have hne2 : (fracPart r1).2 ≠ [] := by
      intro e
      rw [e] at hrest
      exact hne hrest.symm
    have hdot : ∀ c t, (fracPart r1).2 = c :: t → c ≠ '.' := by
      rintro c t e rfl
      rw [e] at hrest
      have : expPart ('.' :: t) = ([], '.' :: t) := rfl
      rw [this] at hrest
      have := hr '.' t hrest.symm
      revert this
      decide
    have hfrac := fracPart_longer hne2 hdot q
    have hne1 : r1 ≠ [] := by
      rintro rfl
      exact hne2 rfl
    rw [intPart_longer hi hne1]
    dsimp only
    rw [hfrac]
    dsimp only
    rw [hexp]
    dsimp only
    split at h
    · rename_i hc
      rw [if_pos hc]
      injection h with h
      injection h with h1 h2
      rw [h1, h2]
    · rename_i hc
      rw [if_neg hc]
      injection h with h
      injection h with h1 h2
      rw [h1, h2]

private theorem starts_append {s w : Str} (h : startsWith s w = true) : ∃ t, s = w ++ t := by
  unfold startsWith at h
  obtain ⟨t, ht⟩ := List.isPrefixOf_iff_prefix.mp h
  exact ⟨t, ht.symm⟩

private theorem number_head {c : Char} {s : Str} {x : PyData × Str} (h : scanNumber (c :: s) = some x) :
    c.isDigit = true ∨ c = '-' := by
  by_cases h1 : c = '-'
  · exact .inr h1
  by_cases h2 : c.isDigit = true
  · exact .inl h2
  have h3 : c ≠ '0' := by
    rintro rfl
    exact h2 (by decide)
  have : intPart (c :: s) = none := by
    unfold intPart wholePart
    dsimp only
    rw [if_neg h1, if_neg h3, if_neg h2]
  unfold scanNumber at h
  rw [this] at h
  cases h

private theorem word1 (f : Nat) (t : Str) : scanOnce (f + 1) ("null".toList ++ t) = some (.none, t) := rfl

private theorem word2 (f : Nat) (t : Str) : scanOnce (f + 1) ("true".toList ++ t) = some (.bool true, t) := rfl

private theorem word3 (f : Nat) (t : Str) : scanOnce (f + 1) ("false".toList ++ t) = some (.bool false, t) := rfl

private theorem word4 (f : Nat) (t : Str) : scanOnce (f + 1) ("NaN".toList ++ t) = some (.float "NaN".toList, t) := rfl

private theorem word5 (f : Nat) (t : Str) : scanOnce (f + 1) ("Infinity".toList ++ t) = some (.float "Infinity".toList, t) := rfl

private theorem word6 (f : Nat) (t : Str) : scanOnce (f + 1) ("-Infinity".toList ++ t) = some (.float "-Infinity".toList, t) := rfl

private theorem word_longer {f : Nat} {w s : Str} {v x : PyData} {r : Str}
    (hw : ∀ t, scanOnce f (w ++ t) = some (v, t)) (hs : startsWith s w = true) (h : scanOnce f s = some (x, r))
    (q : Str) : scanOnce f (s ++ q) = some (x, r ++ q) := by
  obtain ⟨t, ht⟩ := starts_append hs
  subst ht
  rw [hw] at h
  injection h with h
  injection h with e1 e2
  rw [List.append_assoc, hw, e1, e2]

private theorem atom_longer {f : Nat} {c : Char} {s : Str} {x : PyData} {r : Str} (h1 : c ≠ '"') (h2 : c ≠ '{')
    (h4 : c ≠ '[') (h : scanOnce (f + 1) (c :: s) = some (x, r)) (hr : r ≠ [] ∧ AtomEnds r) (q : Str) :
    scanOnce (f + 1) (c :: (s ++ q)) = some (x, r ++ q) := by
  rw [← List.cons_append]
  by_cases w1 : startsWith (c :: s) "null".toList = true
  · exact word_longer (fun t => word1 f t) w1 h q
  by_cases w2 : startsWith (c :: s) "true".toList = true
  · exact word_longer (fun t => word2 f t) w2 h q
  by_cases w3 : startsWith (c :: s) "false".toList = true
  · exact word_longer (fun t => word3 f t) w3 h q
  cases hn : scanNumber (c :: s) with
  | some y =>
    have hy := scanOnce_number (number_head hn) hn f
    rw [h] at hy
    injection hy with hy
    subst hy
    have := scanNumber_longer hn hr.1 hr.2 q
    rw [List.cons_append] at this ⊢
    exact scanOnce_number (number_head hn) this f
  | none =>
    by_cases w4 : startsWith (c :: s) "NaN".toList = true
    · exact word_longer (fun t => word4 f t) w4 h q
    by_cases w5 : startsWith (c :: s) "Infinity".toList = true
    · exact word_longer (fun t => word5 f t) w5 h q
    by_cases w6 : startsWith (c :: s) "-Infinity".toList = true
    · exact word_longer (fun t => word6 f t) w6 h q
    rw [scanOnce.eq_def] at h
    dsimp only at h
    rw [if_neg h1, if_neg h2, if_neg h4, if_neg w1, if_neg w2, if_neg w3, hn] at h
    dsimp only at h
    rw [if_neg w4, if_neg w5, if_neg w6] at h
    cases h

private theorem longer (f : Nat) :
    (∀ s x r q, scanOnce f s = some (x, r) →
      ((∃ c t, s = c :: t ∧ (c = '"' ∨ c = '{' ∨ c = '[')) ∨ (r ≠ [] ∧ AtomEnds r)) →
      scanOnce f (s ++ q) = some (x, r ++ q)) ∧
    (∀ s x r q, scanItems f s = some (x, r) → scanItems f (s ++ q) = some (x, r ++ q)) ∧
    (∀ s x r q, scanFields f s = some (x, r) → scanFields f (s ++ q) = some (x, r ++ q)) := by
  induction f with
  | zero =>
    refine ⟨?_, ?_, ?_⟩
    · intro s x r q h; rw [scanOnce.eq_def] at h; cases h
    · intro s x r q h; rw [scanItems.eq_def] at h; cases h
    · intro s x r q h; rw [scanFields.eq_def] at h; cases h
  | succ f ih =>
    obtain ⟨i1, i2, i3⟩ := ih
    refine ⟨?_, ?_, ?_⟩
    · intro s x r q h hq
      cases s with
      | nil => rw [scanOnce.eq_def] at h; cases h
      | cons c s =>
        rw [List.cons_append]
        rw [scanOnce.eq_def] at h ⊢
        dsimp only at h ⊢
        by_cases h1 : c = '"'
        · rw [if_pos h1] at h ⊢
          obtain ⟨⟨t, r'⟩, e1, e2⟩ := Option.map_eq_some_iff.mp h
          injection e2 with e3 e4
          rw [scanString_append e1, Option.map_some, ← e3, ← e4]
        rw [if_neg h1] at h ⊢
        by_cases h2 : c = '{'
        · rw [if_pos h2] at h ⊢
          cases hw : skipWs s with
          | nil => rw [hw] at h; cases h
          | cons d r' =>
            rw [hw] at h
            rw [skipWs_append hw]
            dsimp only at h ⊢
            by_cases h3 : d = '}'
            · rw [if_pos h3] at h ⊢
              injection h with h; injection h with e1 e2
              rw [e1, e2]
            · rw [if_neg h3] at h ⊢
              obtain ⟨⟨t, r''⟩, e1, e2⟩ := Option.map_eq_some_iff.mp h
              injection e2 with e3 e4
              have := i3 _ _ _ q e1
              rw [List.cons_append] at this
              rw [this, Option.map_some, ← e3, ← e4]
        rw [if_neg h2] at h ⊢
        by_cases h4 : c = '['
        · rw [if_pos h4] at h ⊢
          cases hw : skipWs s with
          | nil => rw [hw] at h; cases h
          | cons d r' =>
            rw [hw] at h
            rw [skipWs_append hw]
            dsimp only at h ⊢
            by_cases h3 : d = ']'
            · rw [if_pos h3] at h ⊢
              injection h with h; injection h with e1 e2
              rw [e1, e2]
            · rw [if_neg h3] at h ⊢
              obtain ⟨⟨t, r''⟩, e1, e2⟩ := Option.map_eq_some_iff.mp h
              injection e2 with e3 e4
              have := i2 _ _ _ q e1
              rw [List.cons_append] at this
              rw [this, Option.map_some, ← e3, ← e4]
        rw [if_neg h4] at h ⊢
        have hr : r ≠ [] ∧ AtomEnds r := by
          rcases hq with ⟨c', t, e, hc⟩ | hq
          · injection e with e _
            subst e
            rcases hc with hc | hc | hc
            · exact absurd hc h1
            · exact absurd hc h2
            · exact absurd hc h4
          · exact hq
        have h0 : scanOnce (f + 1) (c :: s) = some (x, r) := by
          rw [scanOnce.eq_def]
          dsimp only
          rw [if_neg h1, if_neg h2, if_neg h4]
          exact h
        have := atom_longer h1 h2 h4 h0 hr q
        rw [scanOnce.eq_def] at this
        dsimp only at this
        rw [if_neg h1, if_neg h2, if_neg h4] at this
        exact this
    · intro s x r q h
      rw [scanItems] at h ⊢
      cases hv : scanOnce f s with
      | none => rw [hv] at h; cases h
      | some y =>
        obtain ⟨v, r'⟩ := y
        rw [hv] at h
        dsimp only at h ⊢
        cases hw : skipWs r' with
        | nil => rw [hw] at h; cases h
        | cons d r'' =>
          rw [hw] at h
          dsimp only at h ⊢
          have hext : atomChar d = false → scanOnce f (s ++ q) = some (v, r' ++ q) :=
            fun hd => i1 _ _ _ q hv (.inr (skipWs_ends hw hd))
          by_cases h3 : d = ']'
          · rw [if_pos h3] at h
            rw [hext (by rw [h3]; decide)]
            dsimp only
            rw [skipWs_append hw]
            dsimp only
            rw [if_pos h3]
            injection h with h; injection h with e1 e2
            rw [e1, e2]
          rw [if_neg h3] at h
          by_cases h4 : d = ','
          · rw [if_pos h4] at h
            rw [hext (by rw [h4]; decide)]
            dsimp only
            rw [skipWs_append hw]
            dsimp only
            rw [if_neg h3, if_pos h4]
            obtain ⟨⟨t, r3⟩, e1, e2⟩ := Option.map_eq_some_iff.mp h
            injection e2 with e3 e4
            cases hw2 : skipWs r'' with
            | nil =>
              rw [hw2] at e1
              cases f with
              | zero => rw [scanItems.eq_def] at e1; cases e1
              | succ f =>
                rw [scanItems.eq_def] at e1
                dsimp only at e1
                cases f with
                | zero => rw [scanOnce.eq_def] at e1; cases e1
                | succ f => rw [scanOnce.eq_def] at e1; cases e1
            | cons d' r4 =>
              rw [hw2] at e1
              have := i2 _ _ _ q e1
              rw [List.cons_append] at this
              rw [skipWs_append hw2, this, Option.map_some, ← e3, ← e4]
          · rw [if_neg h4] at h; cases h
    · intro s x r q h
      cases s with
      | nil => rw [scanFields.eq_def] at h; cases h
      | cons c s =>
        rw [List.cons_append]
        rw [scanFields.eq_def] at h ⊢
        dsimp only at h ⊢
        by_cases h1 : c = '"'
        · rw [if_pos h1] at h ⊢
          cases hs : scanString s with
          | none => rw [hs] at h; cases h
          | some y =>
            obtain ⟨k, r1⟩ := y
            rw [hs] at h
            rw [scanString_append hs]
            dsimp only at h ⊢
            cases hw : skipWs r1 with
            | nil => rw [hw] at h; cases h
            | cons d r2 =>
              rw [hw] at h
              rw [skipWs_append hw]
              dsimp only at h ⊢
              by_cases h2 : d = ':'
              · rw [if_pos h2] at h ⊢
                cases hw0 : skipWs r2 with
                | nil =>
                  rw [hw0] at h
                  cases f with
                  | zero => rw [scanOnce.eq_def] at h; cases h
                  | succ f => rw [scanOnce.eq_def] at h; cases h
                | cons d0 r0 =>
                rw [hw0] at h
                rw [skipWs_append hw0]
                cases hv : scanOnce f (d0 :: r0) with
                | none => rw [hv] at h; cases h
                | some y =>
                  obtain ⟨v, r'⟩ := y
                  rw [hv] at h
                  dsimp only at h ⊢
                  cases hw : skipWs r' with
                  | nil => rw [hw] at h; cases h
                  | cons d r'' =>
                    rw [hw] at h
                    dsimp only at h
                    have hext : atomChar d = false → scanOnce f (d0 :: (r0 ++ q)) = some (v, r' ++ q) :=
                      fun hd => i1 _ _ _ q hv (.inr (skipWs_ends hw hd))
                    by_cases h3 : d = '}'
                    · rw [if_pos h3] at h
                      rw [hext (by rw [h3]; decide)]
                      dsimp only
                      rw [skipWs_append hw]
                      dsimp only
                      rw [if_pos h3]
                      injection h with h; injection h with e1 e2
                      rw [e1, e2]
                    rw [if_neg h3] at h
                    by_cases h4 : d = ','
                    · rw [if_pos h4] at h
                      rw [hext (by rw [h4]; decide)]
                      dsimp only
                      rw [skipWs_append hw]
                      dsimp only
                      rw [if_neg h3, if_pos h4]
                      obtain ⟨⟨t, r3⟩, e1, e2⟩ := Option.map_eq_some_iff.mp h
                      injection e2 with e3 e4
                      cases hw2 : skipWs r'' with
                      | nil =>
                        rw [hw2] at e1
                        cases f with
                        | zero => rw [scanFields.eq_def] at e1; cases e1
                        | succ f => rw [scanFields.eq_def] at e1; cases e1
                      | cons d' r4 =>
                        rw [hw2] at e1
                        have := i3 _ _ _ q e1
                        rw [List.cons_append] at this
                        rw [skipWs_append hw2, this, Option.map_some, ← e3, ← e4]
                    · rw [if_neg h4] at h; cases h
              · rw [if_neg h2] at h; cases h
        · rw [if_neg h1] at h; cases h

/-- What has been read as a list or a dictionary is read in the same way when the text goes on. -/
theorem scanOnce_longer {f : Nat} {c : Char} {s : Str} {x : PyData} {r : Str} (hc : c = '"' ∨ c = '{' ∨ c = '[')
    (h : scanOnce f (c :: s) = some (x, r)) (q : Str) : scanOnce f (c :: s ++ q) = some (x, r ++ q) :=
  (longer f).1 _ _ _ q h (.inl ⟨c, s, rfl, hc⟩)

/-- No strict beginning of the text of a list, a dictionary or a string is read. -/
theorem loads_prefix {c : Char} {s q : Str} {x : PyData} {f : Nat} (hc : c = '"' ∨ c = '{' ∨ c = '[') (hq : q ≠ [])
    (h : scanOnce f (c :: s ++ q) = some (x, [])) : loads (c :: s) = none := by
  cases hl : loads (c :: s) with
  | none => rfl
  | some y =>
    exfalso
    unfold loads at hl
    have hw : skipWs (c :: s) = c :: s := by
      unfold skipWs
      rw [if_neg]
      rcases hc with rfl | rfl | rfl <;> decide
    rw [hw] at hl
    generalize 2 * (c :: s).length + 2 = g at hl
    cases ho : scanOnce g (c :: s) with
    | none => rw [ho] at hl; cases hl
    | some z =>
      obtain ⟨z, r⟩ := z
      have h1 := scanOnce_fuel (Nat.le_max_left g f) (scanOnce_longer hc ho q)
      have h2 := scanOnce_fuel (Nat.le_max_right g f) h
      rw [h1] at h2
      injection h2 with h2
      injection h2 with _ h2
      exact hq (List.append_eq_nil_iff.mp h2).2

end Verif.Lemmas
