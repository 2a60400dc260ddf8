import Verif.Model.CaseRun
import Verif.Lemmas.Lines

/-! # The snapshot cursor refines an index into the list of snapshot lines -/

namespace Verif.Lemmas
open Verif.Py Verif.Model Verif.Spec

variable (e : Env)

/-- The lines of the snapshot as the reader delivers them. -/
def snap : List Str := readLines e.text

theorem snap_eq_fileLines : snap e = fileLines (e.expFile.getD []) :=
  readLines_eq_fileLines _

theorem snap_newline_free : ∀ l ∈ snap e, '\n' ∉ l := readLines_newline_free _

theorem snap_length_fuel : (snap e).length + 2 ≤ e.fuel := by
  have := readLines_length_le e.text
  simp only [snap, Env.fuel]; omega

/-- The part of the state that cursor movements do not touch. -/
structure Core where
  out : Str
  outLine : Str
  rep : List Str
  lineDiff : Option Nat
  lineError : Option Nat
  lineNumber : Nat
  diffs : Nat
  errors : Nat
  lastChecked : Bool

def core (s : St) : Core :=
  ⟨s.out, s.outLine, s.rep, s.lineDiff, s.lineError, s.lineNumber, s.diffs, s.errors,
    s.lastChecked⟩

theorem core_nextExpLine (s : St) : core (nextExpLine e s) = core s := by
  unfold nextExpLine
  split
  · split
    · dsimp only; split <;> rfl
    · split <;> rfl
  · rfl

theorem core_resetExpReader (s : St) : core (resetExpReader e s) = core s := by
  unfold resetExpReader
  rw [core_nextExpLine]; rfl

theorem core_whileFuel (c : St → Bool) (n : Nat) (s : St) :
    core (whileFuel c (nextExpLine e) n s) = core s := by
  induction n generalizing s with
  | zero => rfl
  | succ n ih =>
    unfold whileFuel
    split
    · rw [ih, core_nextExpLine]
    · rfl

theorem core_jump (n : Nat) (s : St) : core (jump e n s) = core s := by
  unfold jump
  split
  · dsimp only
    rw [core_whileFuel]
    split
    · exact core_resetExpReader e s
    · rfl
  · rfl

theorem core_seek (p : Str → Bool) (b : Nat) (x : Option Nat) (s : St) :
    core (seek e p b x s) = core s := by
  unfold seek
  split
  · dsimp only
    split
    · rw [core_whileFuel, core_jump, core_whileFuel]
    · rw [core_whileFuel]
  · rfl

/-- The cursor of state `s` is on line `k` (0-based; the number of lines means end of file). -/
structure At (s : St) (k : Nat) : Prop where
  ex : e.exists_ = true
  num : s.expLineNumber = k + 1
  line : s.expLine = (snap e)[k]?
  le : k ≤ (snap e).length
  rd : s.exp = if k < (snap e).length then some (dropLines (k + 1) e.text) else none
  tok : s.expLine = none → s.expTokens = none

/-- No token of the current line has been consumed. -/
def Fresh (s : St) : Prop := s.expTokens = s.expLine.map (BufIter.of e.u)

theorem line_of_dropLines {k : Nat} (h : k < (snap e).length) :
    dropLines k e.text ≠ [] ∧
      (snap e)[k]? = some (readline (dropLines k e.text)).1.dropLast := by
  have h1 : dropLines k e.text ≠ [] := by
    intro hc
    have := (dropLines_eq_nil_iff k e.text).mp hc
    simp only [snap] at h; omega
  refine ⟨h1, ?_⟩
  have h2 := readLines_dropLines k e.text
  rw [readLines_cons h1] at h2
  have h3 : ((snap e).drop k)[0]? = (snap e)[k]? := by simp
  rw [← h3]
  simp only [snap, ← h2]
  rfl

theorem nextExpLine_at {s : St} {k : Nat} (h : At e s k) (hk : k < (snap e).length) :
    At e (nextExpLine e s) (k + 1) ∧ Fresh e (nextExpLine e s) := by
  have hrd : s.exp = some (dropLines (k + 1) e.text) := by rw [h.rd]; simp [hk]
  unfold nextExpLine
  simp only [h.ex, if_true, hrd]
  by_cases hk1 : k + 1 < (snap e).length
  · obtain ⟨h1, h2⟩ := line_of_dropLines e hk1
    have h3 : (readline (dropLines (k + 1) e.text)).1.length ≠ 0 := by
      have := List.length_pos_iff.mpr (readline_ne_nil h1); omega
    simp only [h3, if_false]
    refine ⟨⟨h.ex, ?_, ?_, by omega, ?_, ?_⟩, rfl⟩
    · simp [h.num]
    · exact h2.symm
    · simp only [hk1, if_true]
      rw [← dropLines_succ']
    · simp
  · have h1 : dropLines (k + 1) e.text = [] :=
      (dropLines_eq_nil_iff _ _).mpr (by simp only [snap] at hk1; omega)
    have hN : k + 1 = (snap e).length := by omega
    simp only [h1, readline, List.length_nil, if_true]
    refine ⟨⟨h.ex, by simp [h.num], ?_, by omega, ?_, ?_⟩, rfl⟩
    · simp [hN]
    · simp [hN]
    · simp

theorem nextExpLine_at_end {s : St} (h : At e s (snap e).length) :
    At e (nextExpLine e s) (snap e).length ∧ Fresh e (nextExpLine e s) := by
  have hrd : s.exp = none := by rw [h.rd]; simp
  have hl : s.expLine = none := by rw [h.line]; simp
  have ht := h.tok hl
  unfold nextExpLine
  simp only [h.ex, if_true, hrd]
  split
  · exact ⟨⟨h.ex, h.num, by simp, h.le, by simp, fun _ => rfl⟩, rfl⟩
  · exact ⟨h, by simp [Fresh, ht, hl]⟩

theorem nextExpLine_at_min {s : St} {k : Nat} (h : At e s k) :
    At e (nextExpLine e s) (min (k + 1) (snap e).length) ∧ Fresh e (nextExpLine e s) := by
  by_cases hk : k < (snap e).length
  · have := nextExpLine_at e h hk
    rwa [Nat.min_eq_left (by omega)]
  · have hN : k = (snap e).length := by have := h.le; omega
    subst hN
    rw [Nat.min_eq_right (by omega)]
    exact nextExpLine_at_end e h

theorem reset_at (hx : e.exists_ = true) (s : St) :
    At e (resetExpReader e s) 0 ∧ Fresh e (resetExpReader e s) := by
  unfold resetExpReader nextExpLine
  simp only [hx, if_true]
  by_cases h : e.text = []
  · have hs : snap e = [] := by simp [snap, h, readLines_nil]
    simp only [h, readline, List.length_nil, if_true]
    exact ⟨⟨hx, rfl, by simp [hs], by simp, by simp [hs], fun _ => rfl⟩, rfl⟩
  · have h0 : 0 < (snap e).length := by simp [snap, readLines_cons h]
    obtain ⟨h1, h2⟩ := line_of_dropLines e h0
    have h3 : (readline e.text).1.length ≠ 0 := by
      have := List.length_pos_iff.mpr (readline_ne_nil h); omega
    simp only [h3, if_false]
    refine ⟨⟨hx, rfl, ?_, by omega, ?_, ?_⟩, rfl⟩
    · simpa [dropLines] using h2.symm
    · simp [h0, dropLines]
    · simp

theorem start_at (hx : e.exists_ = true) : At e (start e) 0 ∧ Fresh e (start e) :=
  reset_at e hx _

/-- Walking forward from line `k` to line `m`. -/
theorem whileFuel_at {c : St → Bool} {k m : Nat} (hkm : k ≤ m) (hm : m ≤ (snap e).length)
    (hgo : ∀ s j, k ≤ j → j < m → At e s j → c s = true)
    (hstop : ∀ s, At e s m → c s = false) :
    ∀ (n : Nat) (s : St), m - k ≤ n → At e s k →
      At e (whileFuel c (nextExpLine e) n s) m ∧
      (k < m ∨ Fresh e s → Fresh e (whileFuel c (nextExpLine e) n s)) ∧
      (k = m → whileFuel c (nextExpLine e) n s = s) := by
  intro n
  induction n generalizing k with
  | zero =>
    intro s hn h
    have : k = m := by omega
    subst this
    exact ⟨h, fun hf => hf.elim (fun h => absurd h (by omega)) id, fun _ => rfl⟩
  | succ n ih =>
    intro s hn h
    unfold whileFuel
    by_cases hk : k = m
    · subst hk
      rw [hstop s h]
      simp only [Bool.false_eq_true, if_false, forall_const, and_true]
      exact ⟨h, fun hf => hf.elim (fun h => absurd h (by omega)) id⟩
    · rw [hgo s k (Nat.le_refl _) (by omega) h]
      simp only [if_true]
      have hn1 := nextExpLine_at e h (by omega)
      obtain ⟨i1, i2, -⟩ := ih (k := k + 1) (by omega) (fun s j h1 h2 => hgo s j (by omega) h2)
        (nextExpLine e s) (by omega) hn1.1
      exact ⟨i1, fun _ => i2 (Or.inr hn1.2), fun h => absurd h hk⟩

theorem jump_at {s : St} {k : Nat} (h : At e s k) (n : Nat) :
    At e (jump e n s) (min (n - 1) (snap e).length) ∧
      (Fresh e s ∨ k ≠ min (n - 1) (snap e).length → Fresh e (jump e n s)) := by
  have hc : ∀ (s : St) (j : Nat), At e s j →
      (s.expLine.isSome && decide (s.expLineNumber < n)) =
        (decide (j < (snap e).length) && decide (j + 1 < n)) := by
    intro s j hj
    rw [hj.line, hj.num]
    by_cases hl : j < (snap e).length
    · simp [hl]
    · simp [hl]
  have hf := snap_length_fuel e
  unfold jump
  simp only [h.ex, if_true]
  by_cases hn : n < s.expLineNumber
  · simp only [hn, if_true]
    have hr := reset_at e h.ex s
    obtain ⟨w1, w2, -⟩ := whileFuel_at e (c := fun s => s.expLine.isSome && decide (s.expLineNumber < n))
      (k := 0) (m := min (n - 1) (snap e).length) (by omega) (by omega)
      (fun s j _ h2 ha => by rw [hc s j ha]; simp; omega)
      (fun s ha => by rw [hc s _ ha]; simp; omega) e.fuel (resetExpReader e s) (by omega) hr.1
    exact ⟨w1, fun _ => w2 (Or.inr hr.2)⟩
  · simp only [hn, if_false]
    have hk := h.le
    have hnum := h.num
    obtain ⟨w1, w2, -⟩ := whileFuel_at e (c := fun s => s.expLine.isSome && decide (s.expLineNumber < n))
      (k := k) (m := min (n - 1) (snap e).length) (by omega) (by omega)
      (fun s j _ h2 ha => by rw [hc s j ha]; simp; omega)
      (fun s ha => by rw [hc s _ ha]; simp; omega) e.fuel s (by omega) h
    refine ⟨w1, fun h' => w2 ?_⟩
    rcases h' with h' | h'
    · exact Or.inr h'
    · left; omega

/-- Where a search with predicate `p` from line `k` ends: at the first matching line from `k` on,
else at the first matching line above, else at `k`. -/
def seekPos (p : Str → Bool) (ls : List Str) (k : Nat) : Nat :=
  let m := k + (ls.drop k).findIdx p
  if m < ls.length then m else (ls.take k).findIdx p

theorem seekCond_at {p : Str → Bool} {stop : Option Nat} {s : St} {j : Nat} (h : At e s j) :
    seekCond p stop s =
      match (snap e)[j]? with
      | none => false
      | some l => !p l && (match stop with | none => true | some n => decide (j + 1 < n)) := by
  unfold seekCond
  rw [h.line, h.num]
  cases (snap e)[j]? <;> rfl

theorem seek_at {s : St} {k : Nat} (h : At e s k) (p : Str → Bool) :
    At e (seek e p 0 none s) (seekPos p (snap e) k) ∧
      (Fresh e s → Fresh e (seek e p 0 none s)) ∧
      ((∃ l, (snap e)[k]? = some l ∧ p l = true) → seek e p 0 none s = s) ∧
      ((∀ l, (snap e)[k]? = some l → p l = false) → Fresh e (seek e p 0 none s)) := by
  have hf := snap_length_fuel e
  have hk := h.le
  have hm : k + ((snap e).drop k).findIdx p ≤ (snap e).length := by
    have := List.findIdx_le_length (p := p) (xs := (snap e).drop k)
    simp at this; omega
  obtain ⟨w1, w2, w3⟩ := whileFuel_at e (c := seekCond p none) (k := k)
    (m := k + ((snap e).drop k).findIdx p) (by omega) hm
    (fun s j h1 h2 ha => by
      rw [seekCond_at e ha]
      have hj : j < (snap e).length := by omega
      have hnp : p ((snap e)[j]) = false := by
        have h3 : j - k < ((snap e).drop k).findIdx p := by omega
        have := List.not_of_lt_findIdx h3
        simp only [List.getElem_drop] at this
        have e1 : k + (j - k) = j := by omega
        simpa [e1] using this
      simp [hj, hnp])
    (fun s ha => by
      rw [seekCond_at e ha]
      by_cases hj : k + ((snap e).drop k).findIdx p < (snap e).length
      · have hlt : ((snap e).drop k).findIdx p < ((snap e).drop k).length := by simp; omega
        have := List.findIdx_getElem (w := hlt)
        simp only [List.getElem_drop] at this
        simp [hj, this]
      · simp [hj])
    e.fuel s (by omega) h
  unfold seek
  simp only [h.ex, if_true]
  generalize hs1 : whileFuel (seekCond p none) (nextExpLine e) e.fuel s = s1 at w1 w2 w3
  by_cases hj : k + ((snap e).drop k).findIdx p < (snap e).length
  · -- found at or after the cursor
    have hl : s1.expLine.isNone = false := by rw [w1.line]; simp [hj]
    simp only [hl, Bool.false_eq_true, if_false]
    have hp : seekPos p (snap e) k = k + ((snap e).drop k).findIdx p := by
      simp [seekPos, hj]
    rw [hp]
    refine ⟨w1, fun hfr => w2 (Or.inr hfr), ?_, ?_⟩
    · rintro ⟨l, hl1, hl2⟩
      apply w3
      have hd : ((snap e).drop k) = l :: (snap e).drop (k + 1) := by
        have hlt : k < (snap e).length := by
          rcases Nat.lt_or_ge k (snap e).length with h | h
          · exact h
          · simp [h] at hl1
        rw [List.getElem?_eq_getElem hlt] at hl1
        cases hl1
        exact List.drop_eq_getElem_cons hlt
      rw [hd]; simp [List.findIdx_cons, hl2]
    · intro hnone
      apply w2; left
      have hlt : k < (snap e).length := by omega
      have hd : ((snap e).drop k) = (snap e)[k] :: (snap e).drop (k + 1) :=
        List.drop_eq_getElem_cons hlt
      have := hnone _ (List.getElem?_eq_getElem hlt)
      rw [hd, List.findIdx_cons, this]
      simp
  · -- not found: restart from the top
    have hmN : k + ((snap e).drop k).findIdx p = (snap e).length := by omega
    have hl : s1.expLine.isNone = true := by rw [w1.line]; simp [hmN]
    simp only [hl, if_true]
    rw [hmN] at w1
    have hp : seekPos p (snap e) k = ((snap e).take k).findIdx p := by
      simp [seekPos, hj]
    have hle : ((snap e).take k).findIdx p ≤ k := by
      have := List.findIdx_le_length (p := p) (xs := (snap e).take k)
      rw [List.length_take] at this; omega
    have hlt' : ∀ j, j < ((snap e).take k).findIdx p → ∀ hj : j < (snap e).length,
        p ((snap e)[j]) = false := by
      intro j h2 hj
      have := List.not_of_lt_findIdx h2
      simp only [List.getElem_take] at this
      simpa using this
    have hat' : ((snap e).take k).findIdx p < k →
        ∃ l, (snap e)[((snap e).take k).findIdx p]? = some l ∧ p l = true := by
      intro hx
      have hlt : ((snap e).take k).findIdx p < ((snap e).take k).length := by
        rw [List.length_take]; omega
      have := List.findIdx_getElem (w := hlt)
      rw [List.getElem_take] at this
      exact ⟨_, List.getElem?_eq_getElem (by omega), this⟩
    generalize hgen : ((snap e).take k).findIdx p = q at hp hle hlt' hat'
    -- jump to the top
    have hnum : (0 : Nat) < s1.expLineNumber := by rw [w1.num]; omega
    obtain ⟨j1, j2⟩ := jump_at e w1 0
    simp only [Nat.zero_sub, Nat.zero_min] at j1 j2
    have j2' : Fresh e (jump e 0 s1) := by
      unfold jump
      simp only [h.ex, if_true, hnum]
      have hr := reset_at e h.ex s1
      have hw : ∀ n, whileFuel (fun s => s.expLine.isSome && decide (s.expLineNumber < 0))
          (nextExpLine e) n (resetExpReader e s1) = resetExpReader e s1 := by
        intro n; cases n <;> simp [whileFuel]
      rw [hw]; exact hr.2
    obtain ⟨v1, v2, -⟩ := whileFuel_at e (c := seekCond p (some s.expLineNumber)) (k := 0)
      (m := q) (by omega) (by omega)
      (fun t j _ h2 ha => by
        rw [seekCond_at e ha, h.num]
        have hj' : j < (snap e).length := by omega
        have hnp := hlt' j h2 hj'
        simp only [List.getElem?_eq_getElem hj', hnp, Bool.not_false, Bool.true_and,
          decide_eq_true_eq]
        omega)
      (fun t ha => by
        rw [seekCond_at e ha, h.num]
        by_cases hx : q < k
        · obtain ⟨l, hl1, hl2⟩ := hat' hx
          simp [hl1, hl2]
        · cases (snap e)[q]? with
          | none => rfl
          | some l =>
            simp only [Bool.and_eq_false_iff, decide_eq_false_iff_not]
            right; omega)
      e.fuel (jump e 0 s1) (by omega) j1
    rw [hp]
    refine ⟨v1, fun _ => v2 (Or.inr j2'), ?_, fun _ => v2 (Or.inr j2')⟩
    rintro ⟨l, hl1, hl2⟩
    exfalso
    have hlt : k < (snap e).length := by
      rcases Nat.lt_or_ge k (snap e).length with h | h
      · exact h
      · simp [h] at hl1
    rw [List.getElem?_eq_getElem hlt] at hl1
    cases hl1
    have hd := List.drop_eq_getElem_cons hlt
    rw [hd, List.findIdx_cons, hl2] at hj
    simp at hj; omega

end Verif.Lemmas
