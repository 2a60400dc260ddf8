import Verif.Lemmas.Sections
import Verif.Spec.Repeat

/-! # A rerun against the accepted output stays in step -/

namespace Verif.Lemmas
open Verif.Py Verif.Model Verif.Spec

variable (e : Env)

theorem getLast?_app (a : Str) {b : Str} (h : b ≠ []) : (a ++ b).getLast? = b.getLast? := by
  rw [List.getLast?_append, List.getLast?_eq_some_getLast h]; rfl

theorem tokenize_cons_inv (u : Unicode) {t : Str} {ts : List Str} {x : Str}
    (h : tokenize u x = some (t :: ts)) :
    ∃ r, Tokenizer.next u x = some (t, r) ∧ x = t ++ r ∧ tokenize u r = some ts := by
  have hz := nul_free_of_tokenize u h
  cases hn : Tokenizer.next u x with
  | none => rw [(next_eq_none u).mp hn] at h; simp at h
  | some p =>
    obtain ⟨t0, r⟩ := p
    rw [tokenize_cons_of_next u hn hz] at h
    simp only [Option.map_eq_some_iff, List.cons.injEq] at h
    obtain ⟨ts', h1, rfl, rfl⟩ := h
    exact ⟨r, rfl, (next_concat u hn).symm, h1⟩

theorem tokenize_suffix (u : Unicode) {a b : List Str} {x : Str}
    (h : tokenize u x = some (a ++ b)) : tokenize u b.flatten = some b := by
  induction a generalizing x with
  | nil =>
    have h' : tokenize u x = some b := h
    rw [tokenize_flatten u h']; exact h'
  | cons t a ih =>
    obtain ⟨r, -, -, h3⟩ := tokenize_cons_inv u h
    exact ih h3

theorem firstLine_append {a b : Str} (h : '\n' ∉ a) : firstLine (a ++ b) = a ++ firstLine b := by
  unfold firstLine
  induction a with
  | nil => rfl
  | cons x xs ih =>
    simp only [List.mem_cons, not_or] at h
    have hx : decide (x ≠ '\n') = true := by simp [Ne.symm h.1]
    rw [List.cons_append, List.takeWhile_cons, hx, if_pos rfl, ih h.2]; rfl

theorem firstLine_newline (b : Str) : firstLine ('\n' :: b) = [] := by simp [firstLine]

theorem firstLine_split {x : Str} (h : '\n' ∈ x) :
    ∃ b, x = firstLine x ++ '\n' :: b ∧ '\n' ∉ firstLine x := by
  obtain ⟨a, b, rfl, ha⟩ := exists_first_newline h
  rw [firstLine_append ha, firstLine_newline, List.append_nil]
  exact ⟨b, rfl, ha⟩

theorem dropLines_count {a : Str} (ha : a = [] ∨ ∃ c, a = c ++ ['\n']) (b : Str) :
    dropLines (a.count '\n') (a ++ b) = b := by
  induction hn : a.length using Nat.strongRecOn generalizing a with
  | _ n ih =>
    by_cases h0 : a = []
    · subst h0; rfl
    · have hm : '\n' ∈ a := by
        rcases ha with h | ⟨c, h⟩
        · exact absurd h h0
        · rw [h]; simp
      obtain ⟨x, y, rfl, hx⟩ := exists_first_newline hm
      have hy : y = [] ∨ ∃ c, y = c ++ ['\n'] := by
        rcases ha with h | ⟨c, h⟩
        · simp at h
        · by_cases hy : y = []
          · exact Or.inl hy
          · right
            refine ⟨y.dropLast, ?_⟩
            have h1 := congrArg List.getLast? h
            rw [getLast?_app _ (by simp)] at h1
            simp only [List.getLast?_append, List.getLast?_singleton, Option.or_some] at h1
            have h2 : y.getLast? = some '\n' := by
              rw [List.getLast?_cons] at h1
              rw [List.getLast?_eq_some_getLast hy]
              rw [List.getLast?_eq_some_getLast hy] at h1
              simpa using h1
            rw [List.getLast?_eq_some_getLast hy] at h2
            have h3 := List.dropLast_concat_getLast hy
            rw [Option.some.inj h2] at h3
            exact h3.symm
      have hc : (x ++ '\n' :: y).count '\n' = y.count '\n' + 1 := by
        simp [List.count_eq_zero.mpr hx]
      rw [hc, dropLines]
      have : x ++ '\n' :: y ++ b = x ++ '\n' :: (y ++ b) := by simp
      rw [this, readline_of_newline _ _ hx]
      exact ih y.length (by simp at hn; omega) hy rfl

/-- In step with the snapshot: the cursor is on the line being printed and the unread tokens are
those of the text still to be printed on it. -/
structure InStep (s : St) (rest : Str) : Prop where
  at_ : At e s s.lineNumber
  tok : s.expTokens = some (BufIter.pull e.u (firstLine rest))
  lineDiff : s.lineDiff = none
  lineError : s.lineError = none

/-- The state of a rerun: `toks` are the tokens still to be printed, `tail` is the unfinished last
line of the test, which is not in the snapshot. -/
structure Sync (tail : Str) (s : St) (toks : List Str) : Prop where
  txt : e.text ++ tail = s.out ++ s.outLine ++ toks.flatten
  tk : tokenize e.u toks.flatten = some toks
  wf : WF s
  diffs : s.diffs = 0
  errors : s.errors = 0
  cur : toks.flatten.length ≤ tail.length ∨ InStep e s toks.flatten

/-- What is known about snapshot and tail. -/
structure Setting (tail : Str) : Prop where
  ex : e.exists_ = true
  tail : '\n' ∉ tail
  text : e.text = [] ∨ ∃ c, e.text = c ++ ['\n']

variable {e} {tail : Str}

/-- While in step, the rest of the text is a part of the snapshot ending with a newline, then the
tail. -/
theorem sync_mid (hS : Setting e tail) {s : St} {toks : List Str} (h : Sync e tail s toks)
    (hlt : tail.length < toks.flatten.length) :
    ∃ m, toks.flatten = m ++ ['\n'] ++ tail ∧ e.text = s.out ++ s.outLine ++ (m ++ ['\n']) := by
  have ht := h.txt
  generalize toks.flatten = rest at ht hlt
  have hsplit : rest = rest.take (rest.length - tail.length) ++ tail := by
    have hsuf : tail <:+ rest := List.suffix_of_suffix_length_le (l₃ := e.text ++ tail)
      (List.suffix_append _ _) ⟨_, ht.symm⟩ (by omega)
    obtain ⟨q, rfl⟩ := hsuf
    simp
  generalize hm : rest.take (rest.length - tail.length) = mid at hsplit
  have hmid : mid ≠ [] := by
    intro hc
    rw [hc] at hsplit
    rw [hsplit] at hlt
    simp at hlt
  have htext : e.text = s.out ++ s.outLine ++ mid := by
    rw [hsplit, ← List.append_assoc] at ht
    exact List.append_cancel_right ht
  rcases hS.text with h0 | ⟨c, hc⟩
  · rw [h0] at htext
    have := congrArg List.length htext
    simp only [List.length_append, List.length_nil] at this
    have := List.length_pos_iff.mpr hmid
    omega
  · refine ⟨mid.dropLast, ?_, ?_⟩
    · have hl : mid.getLast hmid = '\n' := by
        have h1 := congrArg List.getLast? (hc.symm.trans htext)
        rw [getLast?_app _ hmid] at h1
        rw [List.getLast?_eq_some_getLast hmid] at h1
        simpa using h1.symm
      have h3 := List.dropLast_concat_getLast hmid
      rw [hl] at h3
      rw [h3]; exact hsplit
    · have hl : mid.getLast hmid = '\n' := by
        have h1 := congrArg List.getLast? (hc.symm.trans htext)
        rw [getLast?_app _ hmid] at h1
        rw [List.getLast?_eq_some_getLast hmid] at h1
        simpa using h1.symm
      have h3 := List.dropLast_concat_getLast hmid
      rw [hl] at h3
      rw [h3]; exact htext

theorem snap_drop_eq {s : St} (hw : WF s) {r : Str} (ht : e.text = s.out ++ r) :
    (snap e).drop s.lineNumber = readLines r := by
  have h1 := dropLines_count hw.written r
  rw [← hw.count, ← ht] at h1
  rw [← h1, readLines_dropLines]; rfl

/-- While in step, the current snapshot line is the line being printed. -/
theorem sync_line (hS : Setting e tail) {s : St} {toks : List Str} (h : Sync e tail s toks)
    (hlt : tail.length < toks.flatten.length) :
    (snap e)[s.lineNumber]? = some (s.outLine ++ firstLine toks.flatten) := by
  obtain ⟨m, h1, h2⟩ := sync_mid hS h hlt
  have hd := snap_drop_eq h.wf (r := s.outLine ++ (m ++ ['\n'])) (by rw [h2]; simp)
  have hn : '\n' ∈ m ++ ['\n'] := by simp
  obtain ⟨b, hb, hb'⟩ := firstLine_split hn
  have hfl : firstLine toks.flatten = firstLine (m ++ ['\n']) := by
    rw [h1, hb, List.append_assoc, firstLine_append hb', List.cons_append, firstLine_newline]
    rw [firstLine_append hb', firstLine_newline]
  have hr : readline (s.outLine ++ (m ++ ['\n'])) =
      (s.outLine ++ firstLine (m ++ ['\n']) ++ ['\n'], b) := by
    rw [hb, ← List.append_assoc, readline_of_newline _ _ (by simp [h.wf.open_, hb'])]
    rw [← hb]
  have h0 := congrArg (·[0]?) hd
  simp only [List.getElem?_drop, Nat.add_zero] at h0
  rw [h0, readLines_cons (by simp), hr, hfl]
  simp

theorem inStep_of_fresh (hS : Setting e tail) {s : St} {toks : List Str} (h : Sync e tail s toks)
    (hlt : tail.length < toks.flatten.length) (ho : s.outLine = []) {j : Nat} (ha : At e s j)
    (hj : j = s.lineNumber) (hf : Fresh e s) (hd : s.lineDiff = none) (hr : s.lineError = none) :
    InStep e s toks.flatten := by
  subst hj
  refine ⟨ha, ?_, hd, hr⟩
  rw [hf, ha.line, sync_line hS h hlt, ho]; rfl

theorem tail_newline_free (hS : Setting e tail) {s : St} {toks : List Str} (h : Sync e tail s toks)
    (hle : toks.flatten.length ≤ tail.length) : '\n' ∉ toks.flatten := by
  have ht := h.txt
  have h2 : toks.flatten <:+ e.text ++ tail := ⟨_, ht.symm⟩
  have h3 : toks.flatten <:+ tail :=
    List.suffix_of_suffix_length_le h2 (List.suffix_append _ _) hle
  intro hm
  exact hS.tail (h3.subset hm)

/-- One token. -/
theorem feedToken_sync (hS : Setting e tail) {s : St} {t : Str} {toks : List Str} (c : Bool)
    (h : Sync e tail s (t :: toks)) : Sync e tail (feedToken e s t c) toks := by
  obtain ⟨r, hn, hx, htk⟩ := tokenize_cons_inv e.u h.tk
  have hr : r = toks.flatten := by
    rw [List.flatten_cons] at hx
    exact (List.append_cancel_left hx).symm
  subst hr
  have htok : Tok t := tok_of_tokenize e.u h.tk t (by simp)
  have htxt : e.text ++ tail = (feedToken e s t c).out ++ (feedToken e s t c).outLine ++
      toks.flatten := by
    rw [feedToken_text, h.txt]; simp
  have hwf := feedToken_wf e (c := c) htok h.wf
  by_cases hle : (t :: toks).flatten.length ≤ tail.length
  · -- the unfinished last line
    have hnl := tail_newline_free hS h hle
    have htn : t ≠ ['\n'] := by rintro rfl; apply hnl; simp
    have hs := feedToken_sameLine e (s := s) (c := c) htn
    refine ⟨htxt, htk, hwf, by rw [hs.diffs, h.diffs], by rw [hs.errors, h.errors], Or.inl ?_⟩
    rw [List.flatten_cons, List.length_append] at hle; omega
  · have hin : InStep e s (t :: toks).flatten := by
      rcases h.cur with h' | h'
      · exact absurd h' hle
      · exact h'
    have hlt : tail.length < (t :: toks).flatten.length := by omega
    rcases htok with htn | ⟨htne, htn⟩
    · -- a newline
      subst htn
      have htoks : s.expTokens = some (BufIter.pull e.u []) := by
        rw [hin.tok]; simp [firstLine]
      have hmis : mismatch e s ['\n'] = false := by
        simp [mismatch, nextExpToken_nil e htoks]
      have hld : (compared e s ['\n'] c).lineDiff = none := by
        rw [compared_lineDiff, hmis]; simp [hin.lineDiff]
      have heq : feedToken e s ['\n'] c = commitLine e (compared e s ['\n'] c) := by
        rw [feedToken_eq]; simp
      have hat := feedToken_at e hin.at_ ['\n'] c
      simp only [if_true] at hat
      have hfr : Fresh e (feedToken e s ['\n'] c) := by
        rw [heq]; exact (commitLine_at e (compared_at e hin.at_ ['\n'] c)).2
      have hD : (feedToken e s ['\n'] c).diffs = 0 := by
        rw [heq, commitLine_diffs, hld]; simp [h.diffs]
      have hE : (feedToken e s ['\n'] c).errors = 0 := by
        rw [heq, commitLine_errors]; simp [h.errors, hin.lineError]
      by_cases hle' : toks.flatten.length ≤ tail.length
      · exact ⟨htxt, htk, hwf, hD, hE, Or.inl hle'⟩
      · have hpre : ∀ cur, Sync e tail (feedToken e s ['\n'] c) toks ∨ cur →
            Sync e tail (feedToken e s ['\n'] c) toks ∨ cur := fun _ h => h
        clear hpre
        -- the next line exists
        have hlt' : tail.length < toks.flatten.length := by omega
        have hline : (snap e)[(feedToken e s ['\n'] c).lineNumber]? =
            some ((feedToken e s ['\n'] c).outLine ++ firstLine toks.flatten) := by
          -- `sync_line` does not look at the cursor
          have hmid : ∃ m, toks.flatten = m ++ ['\n'] ++ tail ∧
              e.text = (feedToken e s ['\n'] c).out ++ (feedToken e s ['\n'] c).outLine ++
                (m ++ ['\n']) := by
            obtain ⟨m0, g1, g2⟩ := sync_mid hS h hlt
            have g1' : '\n' :: toks.flatten = m0 ++ ['\n'] ++ tail := by simpa using g1
            cases m0 with
            | nil =>
              simp only [List.nil_append, List.singleton_append, List.cons.injEq, true_and] at g1'
              rw [g1'] at hlt'; omega
            | cons y ys =>
              simp only [List.cons_append, List.cons.injEq] at g1'
              refine ⟨ys, g1'.2, ?_⟩
              rw [feedToken_text, g2, ← g1'.1]; simp
          obtain ⟨m, g1, g2⟩ := hmid
          have hd := snap_drop_eq hwf (r := (feedToken e s ['\n'] c).outLine ++ (m ++ ['\n']))
            (by rw [g2]; simp)
          obtain ⟨b, hb, hb'⟩ := firstLine_split (x := m ++ ['\n']) (by simp)
          have hfl : firstLine toks.flatten = firstLine (m ++ ['\n']) := by
            rw [g1, hb, List.append_assoc, firstLine_append hb', List.cons_append,
              firstLine_newline]
            rw [firstLine_append hb', firstLine_newline]
          have hrd : readline ((feedToken e s ['\n'] c).outLine ++ (m ++ ['\n'])) =
              ((feedToken e s ['\n'] c).outLine ++ firstLine (m ++ ['\n']) ++ ['\n'], b) := by
            rw [hb, ← List.append_assoc, readline_of_newline _ _ (by simp [hwf.open_, hb'])]
            rw [← hb]
          have h0 := congrArg (·[0]?) hd
          simp only [List.getElem?_drop, Nat.add_zero] at h0
          rw [h0, readLines_cons (by simp), hrd, hfl]
          simp
        have hln : (feedToken e s ['\n'] c).lineNumber = s.lineNumber + 1 := by
          rw [heq, commitLine_lineNumber]; simp
        have hk : s.lineNumber + 1 < (snap e).length := by
          rw [hln] at hline
          rcases Nat.lt_or_ge (s.lineNumber + 1) (snap e).length with h | h
          · exact h
          · simp [h] at hline
        rw [Nat.min_eq_left (by omega)] at hat
        have ho : (feedToken e s ['\n'] c).outLine = [] := by rw [heq]; simp
        refine ⟨htxt, htk, hwf, hD, hE, Or.inr ⟨?_, ?_, ?_, ?_⟩⟩
        · rw [hln]; exact hat
        · rw [hfr, hat.line, ← hln, hline, ho]; rfl
        · rw [heq]; simp
        · rw [heq]; simp
    · -- a token inside the line
      have htn' : t ≠ ['\n'] := by rintro rfl; simp at htn
      have hs := feedToken_sameLine e (s := s) (c := c) htn'
      obtain ⟨m, g1, -⟩ := sync_mid hS h hlt
      have hnl : '\n' ∈ toks.flatten := by
        have hm : '\n' ∈ (t :: toks).flatten := by rw [g1]; simp
        rw [List.flatten_cons, List.mem_append] at hm
        rcases hm with hm | hm
        · exact absurd hm htn
        · exact hm
      obtain ⟨b, hb, hb'⟩ := firstLine_split hnl
      have hfl : firstLine (t :: toks).flatten = t ++ firstLine toks.flatten := by
        rw [List.flatten_cons, firstLine_append htn]
      have hnext : Tokenizer.next e.u (t ++ firstLine toks.flatten) =
          some (t, firstLine toks.flatten) := by
        rw [List.flatten_cons, hb, ← List.append_assoc] at hn
        obtain ⟨y, ys, hy⟩ : ∃ y ys, t ++ firstLine toks.flatten = y :: ys := by
          cases t with
          | nil => exact absurd rfl htne
          | cons y ys => exact ⟨y, _, rfl⟩
        rw [hy, next_stop e.u (stop_newline e.u)] at hn
        simp only [Option.map_eq_some_iff, Prod.mk.injEq] at hn
        obtain ⟨⟨a1, a2⟩, k1, k2, k3⟩ := hn
        rw [hy, k1]
        dsimp only at k2 k3
        rw [k2, List.append_cancel_right k3]
      have htoks : s.expTokens = some (BufIter.pull e.u (t ++ firstLine toks.flatten)) := by
        rw [hin.tok, hfl]
      have hmis : mismatch e s t = false := by
        simp [mismatch, nextExpToken_pull e htoks hnext]
      have hat := feedToken_at e hin.at_ t c
      simp only [htn', if_false] at hat
      refine ⟨htxt, htk, hwf, by rw [hs.diffs, h.diffs], by rw [hs.errors, h.errors],
        Or.inr ⟨by rw [hs.lineNumber]; exact hat, ?_, ?_, by rw [hs.lineError, hin.lineError]⟩⟩
      · rw [feedToken_eq]; simp only [htn', if_false]
        have : (compared e s t c).expTokens = some (BufIter.pull e.u (firstLine toks.flatten)) := by
          rw [compared_expTokens, nextExpToken_pull e htoks hnext]
        exact this
      · rw [feedToken_eq]; simp only [htn', if_false]
        have : (compared e s t c).lineDiff = none := by
          rw [compared_lineDiff, hmis]; simp [hin.lineDiff]
        exact this

theorem feedTokens_sync (hS : Setting e tail) (ts : List Str) {toks : List Str} {s : St} (c : Bool)
    (h : Sync e tail s (ts ++ toks)) : Sync e tail (feedTokens e s ts c) toks := by
  induction ts generalizing s with
  | nil => exact h
  | cons t ts ih => exact ih (feedToken_sync hS c h)

theorem feed_sync (hS : Setting e tail) {x : Str} {ts toks : List Str} {s : St} (c : Bool)
    (hts : tokenize e.u x = some ts) (h : Sync e tail s (ts ++ toks)) :
    ∃ s', feed e s x c = some s' ∧ Sync e tail s' toks :=
  ⟨_, by simp only [feed, hts]; rfl, feedTokens_sync hS ts c h⟩

/-! ### Calls as lists of pieces -/

variable (e) in
/-- Feeding pieces, each checked or not. -/
def feedAll (ps : List (Str × Bool)) (s : St) : Option St :=
  ps.foldlM (fun s p => feed e s p.1 p.2) s

variable (e) in
theorem feedAll_append (a b : List (Str × Bool)) (s : St) :
    feedAll e (a ++ b) s = (feedAll e a s).bind (feedAll e b) := by
  simp only [feedAll, List.foldlM_append]; rfl

variable (e) in
theorem feedAll_cons (p : Str × Bool) (b : List (Str × Bool)) (s : St) :
    feedAll e (p :: b) s = (feed e s p.1 p.2).bind (feedAll e b) := by
  simp only [feedAll, List.foldlM_cons]; rfl

variable (e) in
@[simp] theorem feedAll_nil (s : St) : feedAll e [] s = some s := rfl

variable (e) in
theorem foldlM_feedAll {α : Type} (f : St → α → Option St) (g : α → List (Str × Bool))
    (hf : ∀ s a, f s a = feedAll e (g a) s) (l : List α) (s : St) :
    l.foldlM f s = feedAll e (l.flatMap g) s := by
  induction l generalizing s with
  | nil => rfl
  | cons a l ih =>
    rw [List.foldlM_cons, List.flatMap_cons, feedAll_append, hf]
    show Option.bind _ _ = _
    congr 1
    funext s'
    exact ih s'

theorem pieceToks_append (u : Unicode) (a b : List Str) {ts : List Str} :
    pieceToks u (a ++ b) = some ts ↔
      ∃ x y, pieceToks u a = some x ∧ pieceToks u b = some y ∧ ts = x ++ y := by
  induction a generalizing ts with
  | nil => simp [pieceToks]
  | cons p a ih =>
    simp only [List.cons_append, pieceToks, bind, Option.bind_eq_some_iff, Option.some.injEq]
    constructor
    · rintro ⟨x, h1, y, h2, rfl⟩
      obtain ⟨x', y', h3, h4, rfl⟩ := ih.mp h2
      exact ⟨x ++ x', y', ⟨x, h1, x', h3, rfl⟩, h4, by simp⟩
    · rintro ⟨x, y, ⟨x1, h1, x2, h2, rfl⟩, h3, rfl⟩
      exact ⟨x1, h1, x2 ++ y, ih.mpr ⟨x2, y, h2, h3, rfl⟩, by simp⟩

theorem pieceToks_flatten (u : Unicode) {a ts : List Str} (h : pieceToks u a = some ts) :
    ts.flatten = a.flatten := by
  induction a generalizing ts with
  | nil => simp [pieceToks] at h; subst h; rfl
  | cons p a ih =>
    simp only [pieceToks, bind, Option.bind_eq_some_iff, Option.some.injEq] at h
    obtain ⟨x, h1, y, h2, rfl⟩ := h
    rw [List.flatten_append, tokenize_flatten u h1, ih h2, List.flatten_cons]

theorem feedAll_sync (hS : Setting e tail) (ps : List (Str × Bool)) {ts toks : List Str} {s : St}
    (hts : pieceToks e.u (ps.map (·.1)) = some ts) (h : Sync e tail s (ts ++ toks)) :
    ∃ s', feedAll e ps s = some s' ∧ Sync e tail s' toks := by
  induction ps generalizing s ts with
  | nil => simp [pieceToks] at hts; subst hts; exact ⟨s, rfl, h⟩
  | cons p ps ih =>
    simp only [List.map_cons, pieceToks, bind, Option.bind_eq_some_iff, Option.some.injEq] at hts
    obtain ⟨x, h1, y, h2, rfl⟩ := hts
    rw [List.append_assoc] at h
    obtain ⟨s1, g1, g2⟩ := feed_sync hS p.2 h1 h
    obtain ⟨s2, g3, g4⟩ := ih h2 g2
    exact ⟨s2, by rw [feedAll_cons, g1]; exact g3, g4⟩

/-! ### Anchors -/

theorem atLineStart_outLine {s : St} (hw : WF s) (h : AtLineStart (s.out ++ s.outLine)) :
    s.outLine = [] := by
  rcases h with h | ⟨b, h⟩
  · exact (List.append_eq_nil_iff.mp h).2
  · apply Classical.byContradiction
    intro hne
    have h1 := congrArg List.getLast? h
    rw [getLast?_app _ hne, getLast?_app _ (by simp)] at h1
    rw [List.getLast?_eq_some_getLast hne] at h1
    simp at h1
    exact hw.open_ (h1 ▸ List.getLast_mem hne)

theorem seek_sync (hS : Setting e tail) (p : Str → Bool) {toks : List Str} {s : St}
    (h : Sync e tail s toks) (ho : s.outLine = [])
    (hp : toks.flatten.length ≤ tail.length ∨ p (firstLine toks.flatten) = true ∨
      ∀ l ∈ snap e, p l = false) : Sync e tail (seek e p 0 none s) toks := by
  have hc := core_seek e p 0 none s
  have c1 : (seek e p 0 none s).out = s.out := congrArg Core.out hc
  have c2 : (seek e p 0 none s).outLine = s.outLine := congrArg Core.outLine hc
  have c3 : (seek e p 0 none s).diffs = s.diffs := congrArg Core.diffs hc
  have c4 : (seek e p 0 none s).errors = s.errors := congrArg Core.errors hc
  have c5 : (seek e p 0 none s).lineNumber = s.lineNumber := congrArg Core.lineNumber hc
  have c6 : (seek e p 0 none s).lineDiff = s.lineDiff := congrArg Core.lineDiff hc
  have c7 : (seek e p 0 none s).lineError = s.lineError := congrArg Core.lineError hc
  have base : ∀ hcur, Sync e tail (seek e p 0 none s) toks := fun hcur =>
    ⟨by rw [c1, c2]; exact h.txt, h.tk, wf_of_core hc h.wf, c3.trans h.diffs, c4.trans h.errors,
      hcur⟩
  by_cases hle : toks.flatten.length ≤ tail.length
  · exact base (Or.inl hle)
  · have hin : InStep e s toks.flatten := by
      rcases h.cur with h' | h'
      · exact absurd h' hle
      · exact h'
    have hline := sync_line hS h (by omega)
    rw [ho, List.nil_append] at hline
    obtain ⟨a1, a2, a3, -⟩ := seek_at e hin.at_ p
    by_cases hm : p (firstLine toks.flatten) = true
    · rw [a3 ⟨_, hline, hm⟩]; exact h
    · have hall : ∀ l ∈ snap e, p l = false := by
        rcases hp with h' | h' | h'
        · exact absurd h' hle
        · exact absurd h' hm
        · exact h'
      have hpos : seekPos p (snap e) s.lineNumber = s.lineNumber := by
        rcases seekPos_spec p (snap e) s.lineNumber hin.at_.le with ⟨l, -, g1, g2, -⟩ |
          ⟨-, l, g1, g2, -⟩ | ⟨-, g⟩
        · rw [hall l (List.mem_of_getElem? g1)] at g2; cases g2
        · rw [hall l (List.mem_of_getElem? g1)] at g2; cases g2
        · exact g
      rw [hpos] at a1
      have hf : Fresh e s := by
        unfold Fresh
        rw [hin.tok, hin.at_.line, hline]; rfl
      refine base (Or.inr ⟨by rw [c5]; exact a1, ?_, c6.trans hin.lineDiff, c7.trans hin.lineError⟩)
      rw [a2 hf, a1.line, hline]; rfl

theorem anchor_seek_sync (hS : Setting e tail) (a : Str) {toks : List Str} {s : St}
    {ts : List Str} (h : Sync e tail s (ts ++ toks)) (ho : s.outLine = [])
    (hts : ts.flatten = a) : Sync e tail (seekPrefix e a s) (ts ++ toks) := by
  apply seek_sync hS _ h ho
  by_cases hle : (ts ++ toks).flatten.length ≤ tail.length
  · exact Or.inl hle
  · right
    by_cases ha : '\n' ∈ a
    · right
      intro l hl
      have := snap_newline_free e l hl
      cases hc : startsWith l a with
      | false => rfl
      | true =>
        exact absurd ((List.isPrefixOf_iff_prefix.mp hc).subset ha) this
    · left
      rw [List.flatten_append, hts, firstLine_append ha]
      exact List.isPrefixOf_iff_prefix.mpr (List.prefix_append _ _)

theorem anchorln_seek_sync (hS : Setting e tail) (a : Str) {toks : List Str} {s : St}
    {ts : List Str} (h : Sync e tail s (ts ++ toks)) (ho : s.outLine = [])
    (hts : ts.flatten = a ++ ['\n']) : Sync e tail (seekLine e a 0 none s) (ts ++ toks) := by
  apply seek_sync hS _ h ho
  right
  by_cases ha : '\n' ∈ a
  · right
    intro l hl
    have := snap_newline_free e l hl
    simp only [decide_eq_false_iff_not]
    rintro rfl; exact this ha
  · left
    rw [List.flatten_append, hts, List.append_assoc, firstLine_append ha]
    simp [firstLine]

theorem tlnPieces_toks (u : Unicode) {a : Str} {ts : List Str}
    (h : pieceToks u [a, ['\n']] = some ts) : ts.flatten = a ++ ['\n'] := by
  simpa using pieceToks_flatten u h

theorem tln_feedAll (x : Str) (s : St) : opTln e x s = feedAll e [(x, true), (['\n'], true)] s := by
  rw [feedAll_cons]
  simp only [opTln, bind]
  congr 1
  funext s'
  rw [feedAll_cons]
  simp only
  cases feed e s' ['\n'] true <;> rfl

theorem iln_feedAll (x : Str) (s : St) :
    opIln e x s = feedAll e [(x, false), (['\n'], false)] s := by
  rw [feedAll_cons]
  simp only [opIln, bind]
  congr 1
  funext s'
  rw [feedAll_cons]
  simp only
  cases feed e s' ['\n'] false <;> rfl

theorem feed_feedAll (x : Str) (c : Bool) (s : St) : feed e s x c = feedAll e [(x, c)] s := by
  rw [feedAll_cons]
  cases feed e s x c <;> rfl

theorem anchorln_sync (hS : Setting e tail) (a : Str) {ts toks : List Str} {s : St}
    (ho : s.outLine = []) (hts : pieceToks e.u [a, ['\n']] = some ts)
    (h : Sync e tail s (ts ++ toks)) : ∃ s', opAnchorln e a s = some s' ∧ Sync e tail s' toks := by
  have h1 := anchorln_seek_sync hS a h ho (tlnPieces_toks e.u hts)
  obtain ⟨s', g1, g2⟩ := feedAll_sync hS [(a, true), (['\n'], true)] hts h1
  exact ⟨s', by rw [opAnchorln, tln_feedAll]; exact g1, g2⟩

/-! ### Sets -/

theorem out_eq_of_wf {s s' : St} (h : WF s) (h' : WF s')
    (ht : s'.out ++ s'.outLine = s.out ++ s.outLine) : s'.out = s.out := by
  rw [← upToLastNewline_of_wf h', ht, upToLastNewline_of_wf h]

theorem readLines_unlines_append (ls : List Str) (h : ∀ l ∈ ls, '\n' ∉ l) (b : Str) :
    readLines (unlines ls ++ b) = ls ++ readLines b := by
  induction ls with
  | nil => rfl
  | cons l ls ih =>
    have e1 : unlines (l :: ls) ++ b = l ++ '\n' :: (unlines ls ++ b) := by simp [unlines]
    rw [e1, readLines_cons (by simp), readline_of_newline _ _ (h l (by simp))]
    simp [ih (fun l hl => h l (by simp [hl]))]

theorem count_unlines (ls : List Str) (h : ∀ l ∈ ls, '\n' ∉ l) :
    (unlines ls).count '\n' = ls.length := by
  induction ls with
  | nil => rfl
  | cons l ls ih =>
    have e1 : unlines (l :: ls) = l ++ '\n' :: unlines ls := by simp [unlines]
    rw [e1]
    simp [List.count_eq_zero.mpr (h l (by simp)), ih (fun l hl => h l (by simp [hl]))]

theorem tset_sync (hS : Setting e tail) (items : List Str) (p : Str) {ts toks : List Str} {s : St}
    (ho : s.outLine = []) (hnd : items.Nodup) (hnl : ∀ i ∈ items, '\n' ∉ p ++ i)
    (hz : ∀ i ∈ items, '\x00' ∉ p ++ i)
    (hafter : '\n' ∉ toks.flatten ∨ ¬ p <+: firstLine toks.flatten)
    (hts : ts.flatten = unlines (items.map (p ++ ·)))
    (h : Sync e tail s (ts ++ toks)) :
    ∃ s', opTset e items p s = some s' ∧ Sync e tail s' toks := by
  have htk := tokenize_suffix e.u h.tk
  by_cases hle : (ts ++ toks).flatten.length ≤ tail.length
  · -- nothing printed
    have hnil : items = [] := by
      have := tail_newline_free hS h hle
      cases items with
      | nil => rfl
      | cons i is =>
        exfalso
        apply this
        rw [List.flatten_append, hts]
        simp [unlines]
    subst hnil
    have hts0 : ts.flatten = [] := by simpa [unlines] using hts
    have htot : ∃ s', opTset e [] p s = some s' := by
      unfold opTset
      split
      · exact ⟨_, rfl⟩
      · exact ⟨s, rfl⟩
    obtain ⟨s', h1⟩ := htot
    refine ⟨s', h1, ?_⟩
    have h1' : (Op.tset [] p).exec e s = some s' := h1
    have hem := exec_emits e rfl h1'
    have hw := exec_wf e h1' h.wf
    obtain ⟨ls, hl, -⟩ := exec_commits e h1'
    have hem' : s'.out ++ s'.outLine = s.out ++ s.outLine := by
      simpa [Emits, printed_tset] using hem
    have hout := out_eq_of_wf h.wf hw hem'
    have hls : ls = [] := by
      have h2 := hl.out
      rw [hout] at h2
      cases ls with
      | nil => rfl
      | cons l ls =>
        have := congrArg List.length h2
        simp at this
    subst hls
    refine ⟨?_, htk, hw, ?_, ?_, Or.inl ?_⟩
    · rw [hem', h.txt]; simp [hts0]
    · rw [hl.diffs, h.diffs]; rfl
    · rw [hl.errors, h.errors]; rfl
    · simpa [hts0] using hle
  · have hlt : tail.length < (ts ++ toks).flatten.length := by omega
    have hin : InStep e s (ts ++ toks).flatten := by
      rcases h.cur with h' | h'
      · exact absurd h' hle
      · exact h'
    have hline := sync_line hS h hlt
    rw [ho, List.nil_append] at hline
    have hk : s.lineNumber < (snap e).length := by
      rcases Nat.lt_or_ge s.lineNumber (snap e).length with h | h
      · exact h
      · simp [h] at hline
    have hstart : LineStart e s s.lineNumber := by
      refine ⟨hin.at_, ?_, ho, hin.lineDiff, hin.lineError⟩
      unfold Fresh
      rw [hin.tok, hin.at_.line, hline]; rfl
    -- what is listed at the cursor
    have htxt := h.txt
    rw [List.flatten_append, hts, ho, List.append_nil] at htxt
    have hlines : ∀ l ∈ items.map (p ++ ·), '\n' ∉ l := by
      intro l hl
      obtain ⟨i, hi, rfl⟩ := List.mem_map.mp hl
      exact hnl i hi
    obtain ⟨r, hr1, hr2, hr3⟩ : ∃ r, e.text = s.out ++ (unlines (items.map (p ++ ·)) ++ r) ∧
        toks.flatten = r ++ tail ∧ (r = [] ∨ ∃ c, r = c ++ ['\n']) := by
      obtain ⟨m, g1, g2⟩ := sync_mid hS h hlt
      rw [List.flatten_append, hts] at g1
      rw [ho, List.append_nil] at g2
      -- the tail is a suffix of the rest of the text
      have hlen : tail.length ≤ toks.flatten.length := by
        apply Classical.byContradiction
        intro hc
        have hsuf : toks.flatten <:+ tail := by
          refine List.suffix_of_suffix_length_le (l₃ := m ++ ['\n'] ++ tail) ⟨_, g1⟩
            (List.suffix_append _ _) (by omega)
        obtain ⟨q, hq⟩ := hsuf
        rw [← hq, ← List.append_assoc] at g1
        have g3 := List.append_cancel_right g1
        cases hit : items with
        | nil =>
          rw [hit] at g3
          have := congrArg List.length g3
          simp [unlines] at this
        | cons i is =>
          have hend : ∃ c, unlines (items.map (p ++ ·)) = c ++ ['\n'] := by
            have hne : items.map (p ++ ·) ≠ [] := by rw [hit]; simp
            have := List.dropLast_concat_getLast hne
            rw [← this]
            exact ⟨unlines (items.map (p ++ ·)).dropLast ++ (items.map (p ++ ·)).getLast hne, by
              simp [unlines]⟩
          obtain ⟨c, hc'⟩ := hend
          rw [hc'] at g3
          have hqne : q ≠ [] := by
            rintro rfl
            simp at hq
            rw [hq] at hc; omega
          have h4 := congrArg List.getLast? g3
          rw [getLast?_app _ hqne] at h4
          rw [List.getLast?_eq_some_getLast hqne] at h4
          simp at h4
          apply hS.tail
          rw [← hq]
          exact List.mem_append_left _ (h4.symm ▸ List.getLast_mem hqne)
      have hsuf : tail <:+ toks.flatten :=
        List.suffix_of_suffix_length_le (l₃ := unlines (items.map (p ++ ·)) ++ toks.flatten)
          ⟨m ++ ['\n'], g1.symm⟩ (List.suffix_append _ _) hlen
      obtain ⟨r, hr⟩ := hsuf
      rw [← hr, ← List.append_assoc] at g1
      have g3 := List.append_cancel_right g1
      refine ⟨r, by rw [g2, g3], hr.symm, ?_⟩
      by_cases hrn : r = []
      · exact Or.inl hrn
      · right
        refine ⟨r.dropLast, ?_⟩
        have h4 := congrArg List.getLast? g3
        rw [getLast?_app _ hrn, List.getLast?_eq_some_getLast hrn] at h4
        simp at h4
        have h5 := List.dropLast_concat_getLast hrn
        rw [h4] at h5
        exact h5.symm
    have hdrop : (snap e).drop s.lineNumber = items.map (p ++ ·) ++ readLines r := by
      rw [snap_drop_eq h.wf hr1, readLines_unlines_append _ hlines]
    have hlisted : listedFrom p (snap e) s.lineNumber = items.map (p ++ ·) := by
      unfold listedFrom
      rw [hdrop, List.takeWhile_append_of_pos]
      · have : (readLines r).takeWhile (fun l => p.isPrefixOf l) = [] := by
          rcases hr3 with h0 | ⟨c, hc⟩
          · rw [h0, readLines_nil]; rfl
          · have hrm : '\n' ∈ r := by rw [hc]; simp
            obtain ⟨b, hb, hb'⟩ := firstLine_split hrm
            have hfl : firstLine toks.flatten = firstLine r := by
              rw [hr2, hb, List.append_assoc, firstLine_append hb', List.cons_append,
                firstLine_newline]
              rw [firstLine_append hb', firstLine_newline]
            have hnp : ¬ p <+: firstLine r := by
              rcases hafter with h' | h'
              · exact absurd (by rw [hr2]; simp [hrm]) h'
              · rwa [hfl] at h'
            rw [readLines_cons (by rw [hc]; simp)]
            have hrd : readline r = (firstLine r ++ ['\n'], b) := by
              conv => lhs; rw [hb]
              rw [readline_of_newline _ _ hb']
            rw [hrd, List.takeWhile_cons]
            simp only [List.dropLast_concat]
            have : p.isPrefixOf (firstLine r) = false := by
              cases hc2 : p.isPrefixOf (firstLine r) with
              | false => rfl
              | true => exact absurd (List.isPrefixOf_iff_prefix.mp hc2) hnp
            rw [this]; simp
        rw [this, List.append_nil]
      · intro l hl
        obtain ⟨i, -, rfl⟩ := List.mem_map.mp hl
        exact List.isPrefixOf_iff_prefix.mpr (List.prefix_append _ _)
    obtain ⟨s', c, h1, h2, h3, h4, h5, h6, h7, h8, h9, h10, h11⟩ :=
      tset_run e p items (fun i hi => ⟨hnl i hi, hz i hi⟩) hstart hk
    rw [hlisted] at h2 h9
    have hsame := (items_same items c h8).mpr ⟨hnd, fun x => by
      rw [h9]
      constructor
      · intro hx; exact List.mem_map_of_mem hx
      · intro hx
        obtain ⟨i, hi, hxi⟩ := List.mem_map.mp hx
        rw [← List.append_cancel_left hxi]; exact hi⟩
    rw [hsame.1, Nat.add_zero] at h10
    rw [hsame.2] at h11
    have hld : s'.lineDiff = none := by simpa using h11
    have hw := exec_wf e (o := .tset items p) h1 h.wf
    have hln : s'.lineNumber = s.lineNumber + (items.map (p ++ ·)).length := by
      rw [hw.count, h7, List.count_append, count_unlines _ hlines, ← h.wf.count]
    refine ⟨s', h1, ?_⟩
    have htxt' : e.text ++ tail = s'.out ++ s'.outLine ++ toks.flatten := by
      rw [h7, h4, htxt]; simp
    by_cases hle' : toks.flatten.length ≤ tail.length
    · exact ⟨htxt', htk, hw, h10.trans h.diffs, h6.trans h.errors, Or.inl hle'⟩
    · refine ⟨htxt', htk, hw, h10.trans h.diffs, h6.trans h.errors, Or.inr ⟨?_, ?_, hld, h5⟩⟩
      · rw [hln]; exact h2
      · rw [h3, h2.line]
        have hrne : r ≠ [] := by
          rintro rfl
          rw [hr2] at hle'; simp at hle'
        have hrm : '\n' ∈ r := by
          rcases hr3 with h0 | ⟨c, hc⟩
          · exact absurd h0 hrne
          · rw [hc]; simp
        obtain ⟨b, hb, hb'⟩ := firstLine_split hrm
        have hfl : firstLine toks.flatten = firstLine r := by
          rw [hr2, hb, List.append_assoc, firstLine_append hb', List.cons_append,
            firstLine_newline]
          rw [firstLine_append hb', firstLine_newline]
        have hrd : readline r = (firstLine r ++ ['\n'], b) := by
          conv => lhs; rw [hb]
          rw [readline_of_newline _ _ hb']
        have hget : (snap e)[s.lineNumber + (items.map (p ++ ·)).length]? = some (firstLine r) := by
          rw [← List.getElem?_drop, hdrop, List.getElem?_append_right (Nat.le_refl _),
            Nat.sub_self, readLines_cons hrne, hrd]
          simp
        rw [hget, hfl]; rfl

/-! ### All calls -/

theorem cells_feedAll (tb : Table) (i : Nat) (s : St) :
    opRow e tb i s = feedAll e ((['|'], true) ::
      tb.cols.flatMap (fun c => [(cellShown e.u (c.2.getD i []), true),
        (List.replicate (colWidth tb.rows c - (cellShown e.u (c.2.getD i [])).length) ' ', false),
        (['|'], true)]) ++ [([], true), (['\n'], true)]) s := by
  rw [List.cons_append, feedAll_cons]
  simp only [opRow, bind]
  congr 1
  funext s1
  rw [feedAll_append]
  rw [foldlM_feedAll e (fun s c => opCell e tb.rows c i s)
    (fun c => [(cellShown e.u (c.2.getD i []), true),
        (List.replicate (colWidth tb.rows c - (cellShown e.u (c.2.getD i [])).length) ' ', false),
        (['|'], true)])]
  · congr 1
    funext s2
    exact tln_feedAll [] s2
  · intro s c
    simp only [opCell, bind, feedAll_cons, cellText_eq, colPad_eq, opT, opI]
    congr 1
    funext s3
    congr 1
    funext s4
    exact feed_feedAll ['|'] true s4

theorem tdf_feedAll (tb : Table) (s : St) :
    opTdf e tb s = feedAll e
      ([(headRow tb, false), (['\n'], false), (sepRow tb, true), (['\n'], true)] ++
      (List.range tb.rows).flatMap (fun i => (['|'], true) ::
      tb.cols.flatMap (fun c => [(cellShown e.u (c.2.getD i []), true),
        (List.replicate (colWidth tb.rows c - (cellShown e.u (c.2.getD i [])).length) ' ', false),
        (['|'], true)]) ++ [([], true), (['\n'], true)])) s := by
  have e1 : [(headRow tb, false), (['\n'], false), (sepRow tb, true), (['\n'], true)] =
    [(headRow tb, false), (['\n'], false)] ++ [(sepRow tb, true), (['\n'], true)] := rfl
  rw [e1, feedAll_append, feedAll_append, ← iln_feedAll]
  simp only [opTdf, bind, Option.bind_assoc]
  congr 1
  funext s1
  rw [← tln_feedAll]
  congr 1
  funext s2
  exact foldlM_feedAll e (fun s i => opRow e tb i s) _ (fun s i => cells_feedAll tb i s) _ s2

theorem pieces_tdf (u : Unicode) (tb : Table) : pieces u (.tdf tb) =
    ([(headRow tb, false), (['\n'], false), (sepRow tb, true), (['\n'], true)] ++
      (List.range tb.rows).flatMap (fun i => (['|'], true) ::
      tb.cols.flatMap (fun c => [(cellShown u (c.2.getD i []), true),
        (List.replicate (colWidth tb.rows c - (cellShown u (c.2.getD i [])).length) ' ', false),
        (['|'], true)]) ++ [([], true), (['\n'], true)])).map (·.1) := by
  rw [headRow_eq, sepRow_eq]
  simp only [List.map_append, List.map_cons, List.map_nil, List.map_flatMap]
  rfl

theorem lists_feedAll (is : List Str) (p : Str) (s : St) : opTlist e is p s =
    feedAll e (is.flatMap (fun i => [(p ++ i, true), (['\n'], true)])) s :=
  foldlM_feedAll e _ _ (fun s i => tln_feedAll (p ++ i) s) is s

theorem pieces_tset_flatten (is : List Str) (p : Str) :
    (is.flatMap (fun i => [p ++ i, ['\n']])).flatten = unlines (is.map (p ++ ·)) := by
  induction is with
  | nil => rfl
  | cons i is ih => simp [unlines] at ih ⊢; exact ih

theorem mem_pieceToks (u : Unicode) {ps ts : List Str} (h : pieceToks u ps = some ts) :
    ∀ p ∈ ps, '\x00' ∉ p := by
  induction ps generalizing ts with
  | nil => intro p hp; cases hp
  | cons q qs ih =>
    simp only [pieceToks, bind, Option.bind_eq_some_iff, Option.some.injEq] at h
    obtain ⟨x, h1, y, h2, rfl⟩ := h
    intro p hp
    rcases List.mem_cons.mp hp with hp | hp
    · subst hp; exact nul_free_of_tokenize u h1
    · exact ih h2 p hp

/-- Every call that can be repeated keeps the rerun in step. -/
theorem exec_sync (hS : Setting e tail) {o : Op} {ts toks : List Str} {s : St}
    (hr : Repeats (s.out ++ s.outLine) toks.flatten o)
    (hts : pieceToks e.u (lead (s.out ++ s.outLine) o ++ pieces e.u o) = some ts)
    (h : Sync e tail s (ts ++ toks)) :
    ∃ s', o.exec e s = some s' ∧ Sync e tail s' toks := by
  cases o with
  | t x =>
    obtain ⟨s', h1, h2⟩ := feedAll_sync hS [(x, true)] hts h
    exact ⟨s', (feed_feedAll x true s).trans h1, h2⟩
  | i x =>
    obtain ⟨s', h1, h2⟩ := feedAll_sync hS [(x, false)] hts h
    exact ⟨s', (feed_feedAll x false s).trans h1, h2⟩
  | tln x =>
    obtain ⟨s', h1, h2⟩ := feedAll_sync hS [(x, true), (['\n'], true)] hts h
    exact ⟨s', (tln_feedAll x s).trans h1, h2⟩
  | iln x =>
    obtain ⟨s', h1, h2⟩ := feedAll_sync hS [(x, false), (['\n'], false)] hts h
    exact ⟨s', (iln_feedAll x s).trans h1, h2⟩
  | anchor a =>
    have ho := atLineStart_outLine h.wf hr
    have hts' : pieceToks e.u [a] = some ts := hts
    have hfl : ts.flatten = a := by simpa using pieceToks_flatten e.u hts'
    have h1 := anchor_seek_sync hS a h ho hfl
    obtain ⟨s', g1, g2⟩ := feedAll_sync hS [(a, true)] hts' h1
    exact ⟨s', (feed_feedAll a true _).trans g1, g2⟩
  | anchorln a => exact anchorln_sync hS a (atLineStart_outLine h.wf hr) hts h
  | header x =>
    have hlead : 0 < s.lineNumber ↔ '\n' ∈ s.out ++ s.outLine := wf_lineNumber_pos h.wf
    -- after the leading newline
    have step : ∃ s1 ts1, (if 0 < s.lineNumber then
          feedToken e s ['\n'] (s.lastChecked && s.expLine.isSome) else s) = s1 ∧
        s1.outLine = [] ∧ pieceToks e.u (pieces e.u (.header x)) = some ts1 ∧
        Sync e tail s1 (ts1 ++ toks) := by
      by_cases hl : '\n' ∈ s.out ++ s.outLine
      · have hl' := hlead.mpr hl
        simp only [lead, hl, if_true] at hts
        rw [List.singleton_append] at hts
        simp only [pieceToks, bind, Option.bind_eq_some_iff, Option.some.injEq,
          tokenize_newline] at hts
        obtain ⟨_, rfl, ts1, h1, rfl⟩ := hts
        refine ⟨_, ts1, rfl, ?_, h1, ?_⟩
        · simp only [hl', if_true]; rw [feedToken_eq]; simp
        · simp only [hl', if_true]
          exact feedToken_sync hS _ (by simpa using h)
      · have hl' : ¬ 0 < s.lineNumber := fun hc => hl (hlead.mp hc)
        simp only [lead, hl, if_false, List.nil_append] at hts
        refine ⟨s, ts, by simp [hl'], ?_, hts, h⟩
        rcases hr with h' | h'
        · exact absurd h' hl
        · exact (List.append_eq_nil_iff.mp h').2
    obtain ⟨s1, ts1, e1, o1, t1, y1⟩ := step
    have t1' : pieceToks e.u ([x, ['\n']] ++ [[], ['\n']]) = some ts1 := t1
    rw [pieceToks_append] at t1'
    obtain ⟨a, b, ta, tb', rfl⟩ := t1'
    rw [List.append_assoc] at y1
    obtain ⟨s2, g1, g2⟩ := anchorln_sync hS x o1 ta y1
    obtain ⟨s3, g3, g4⟩ := feedAll_sync hS [([], true), (['\n'], true)] tb' g2
    refine ⟨s3, ?_, g4⟩
    simp only [Op.exec, opHeader, e1, g1, bind, Option.bind_some]
    exact (tln_feedAll [] s2).trans g3
  | diff => exact absurd hr (by simp [Repeats])
  | fail => exact absurd hr (by simp [Repeats])
  | assertln c m =>
    have hc : c = true := hr
    subst hc
    obtain ⟨s', h1, h2⟩ := feedAll_sync hS [("ok".toList, false), (['\n'], false)] hts h
    refine ⟨s', ?_, h2⟩
    simp only [Op.exec, opAssertln, if_true]
    exact (iln_feedAll _ s).trans h1
  | must x c m =>
    have hc : c = true := hr
    subst hc
    obtain ⟨s', h1, h2⟩ := feedAll_sync hS [(" * MUST ".toList ++ x ++ "...".toList, false),
      ("ok".toList, false), (['\n'], false)] hts h
    refine ⟨s', ?_, h2⟩
    simp only [Op.exec, opMust, opAssertln, if_true]
    rw [feedAll_cons] at h1
    rw [← h1]
    simp only [bind, opI]
    congr 1
    funext s2
    exact iln_feedAll _ s2
  | tlist is p =>
    obtain ⟨s', h1, h2⟩ := feedAll_sync hS (is.flatMap (fun i => [(p ++ i, true), (['\n'], true)]))
      (by
        have : (is.flatMap (fun i => [(p ++ i, true), (['\n'], true)])).map (·.1) =
            pieces e.u (.tlist is p) := by
          simp only [List.map_flatMap]; rfl
        rw [this]; exact hts) h
    exact ⟨s', (lists_feedAll is p s).trans h1, h2⟩
  | tset is p =>
    obtain ⟨r1, r2, r3, r4⟩ := hr
    have hts' : pieceToks e.u (is.flatMap (fun i => [p ++ i, ['\n']])) = some ts := hts
    refine tset_sync hS is p (atLineStart_outLine h.wf r1) r2 r3 ?_ r4 ?_ h
    · intro i hi
      exact mem_pieceToks e.u hts' _ (List.mem_flatMap.mpr ⟨i, hi, by simp⟩)
    · rw [pieceToks_flatten e.u hts', pieces_tset_flatten]
  | keyvalueln k v =>
    have ho := atLineStart_outLine h.wf hr
    have hts' : pieceToks e.u ([k] ++ [' ' :: v, ['\n']]) = some ts := hts
    rw [pieceToks_append] at hts'
    obtain ⟨a, b, ta, tb', rfl⟩ := hts'
    rw [List.append_assoc] at h
    have hfl : a.flatten = k := by simpa using pieceToks_flatten e.u ta
    have h1 := anchor_seek_sync hS k h ho hfl
    obtain ⟨s1, g1, g2⟩ := feedAll_sync hS [(k, true)] ta h1
    obtain ⟨s2, g3, g4⟩ := feedAll_sync hS [(' ' :: v, true), (['\n'], true)] tb' g2
    refine ⟨s2, ?_, g4⟩
    simp only [Op.exec, opKeyvalueln, opAnchor, opT]
    rw [feed_feedAll, g1]
    exact (tln_feedAll _ s1).trans g3
  | ifloatln x un => exact absurd hr (by simp [Repeats])
  | tmsln over f x => exact absurd hr (by simp [Repeats])
  | tdf tb =>
    have hts' : pieceToks e.u (pieces e.u (.tdf tb)) = some ts := hts
    rw [pieces_tdf] at hts'
    obtain ⟨s', h1, h2⟩ := feedAll_sync hS _ hts' h
    exact ⟨s', (tdf_feedAll tb s).trans h1, h2⟩

theorem printed_pieces (u : Unicode) {o : Op} {before after : Str} (hr : Repeats before after o) :
    printed u o = (pieces u o).flatten ∧ quotesOld o = false := by
  cases o with
  | t x => exact ⟨by simp [pieces]; rfl, rfl⟩
  | i x => exact ⟨by simp [pieces]; rfl, rfl⟩
  | tln x => exact ⟨by simp [pieces]; rfl, rfl⟩
  | iln x => exact ⟨by simp [pieces]; rfl, rfl⟩
  | anchor x => exact ⟨by simp [pieces]; rfl, rfl⟩
  | anchorln x => exact ⟨by simp [pieces]; rfl, rfl⟩
  | header x => exact ⟨by simp [pieces]; rfl, rfl⟩
  | diff => exact absurd hr (by simp [Repeats])
  | fail => exact absurd hr (by simp [Repeats])
  | assertln c m =>
    have hc : c = true := hr
    subst hc
    exact ⟨by rw [printed_assert_true]; rfl, rfl⟩
  | must x c m =>
    have hc : c = true := hr
    subst hc
    refine ⟨?_, rfl⟩
    rw [printed_must_true]; simp [pieces]
  | tlist is p =>
    refine ⟨?_, rfl⟩
    show (is.map (fun i => p ++ i ++ ['\n'])).flatten = (is.flatMap (fun i => [p ++ i, ['\n']])).flatten
    rw [pieces_tset_flatten]; simp [unlines, Function.comp_def]
  | tset is p =>
    refine ⟨?_, rfl⟩
    show (is.map (fun i => p ++ i ++ ['\n'])).flatten = (is.flatMap (fun i => [p ++ i, ['\n']])).flatten
    rw [pieces_tset_flatten]; simp [unlines, Function.comp_def]
  | keyvalueln k v => exact ⟨by rw [printed_keyvalueln]; simp [pieces], rfl⟩
  | ifloatln x un => exact absurd hr (by simp [Repeats])
  | tmsln over f x => exact absurd hr (by simp [Repeats])
  | tdf tb =>
    refine ⟨?_, rfl⟩
    rw [printed_tdf]
    simp only [pieces, tableLines, List.map_cons, List.flatten_cons, List.map_map,
      List.cons_append, List.append_assoc, List.nil_append]
    congr 2
    congr 2
    generalize List.range tb.rows = rs
    induction rs with
    | nil => rfl
    | cons i rs ih =>
      simp only [List.map_cons, List.flatten_cons, List.flatMap_cons, List.flatten_append, ih]
      congr 1
      simp only [Function.comp, barRow, List.cons_append, List.flatten_cons, List.flatten_append,
        List.nil_append, List.flatten_nil, List.map_map]
      congr 1
      have : ∀ cs : List (Str × List Str), (List.map ((fun c : Nat × Str =>
            c.2 ++ List.replicate (c.1 - c.2.length) ' ' ++ ['|']) ∘ fun c : Str × List Str =>
            (colWidth tb.rows c, cellShown u (c.2.getD i []))) cs).flatten =
          (cs.flatMap fun c => [cellShown u (c.2.getD i []),
            List.replicate (colWidth tb.rows c - (cellShown u (c.2.getD i [])).length) ' ',
            ['|']]).flatten := by
        intro cs
        induction cs with
        | nil => rfl
        | cons c cs ih2 =>
          simp only [List.map_cons, List.flatten_cons, List.flatMap_cons, List.flatten_append, ih2]
          simp only [Function.comp, List.flatten_cons, List.flatten_nil, List.append_nil,
            List.append_assoc]
      rw [this]

theorem printedAll_pieces (u : Unicode) (os : List Op) : ∀ before, AllRepeat u os before →
    printedAll u os before = before ++ (allPieces u os before).flatten ∧
    ∀ o ∈ os, quotesOld o = false := by
  induction os with
  | nil => intro b _; exact ⟨by simp [printedAll, allPieces], by simp⟩
  | cons o os ih =>
    intro b h
    obtain ⟨h1, h2⟩ := h
    obtain ⟨p1, p2⟩ := printed_pieces u h1
    obtain ⟨i1, i2⟩ := ih _ h2
    refine ⟨?_, ?_⟩
    · have hstep : printedAll u (o :: os) b = printedAll u os (b ++ (lead b o).flatten ++ printed u o) := by
        cases o <;> simp only [printedAll, lead, List.flatten_nil, List.append_nil]
        split <;> simp
      rw [hstep, p1, List.append_assoc, ← List.flatten_append, i1]
      simp [allPieces]
    · intro x hx
      rcases List.mem_cons.mp hx with hx | hx
      · subst hx; exact p2
      · exact i2 x hx

theorem execAll_sync (hS : Setting e tail) (os : List Op) : ∀ {s : St} {ts : List Str},
    AllRepeat e.u os (s.out ++ s.outLine) →
    pieceToks e.u (allPieces e.u os (s.out ++ s.outLine)) = some ts → Sync e tail s ts →
    ∃ s', execAll e os s = some s' ∧ Sync e tail s' [] := by
  induction os with
  | nil =>
    intro s ts _ hts h
    simp [allPieces, pieceToks] at hts
    subst hts
    exact ⟨s, rfl, h⟩
  | cons o os ih =>
    intro s ts hr hts h
    obtain ⟨r1, r2⟩ := hr
    simp only [allPieces] at hts
    rw [pieceToks_append] at hts
    obtain ⟨a, b, ta, tb', rfl⟩ := hts
    have hb : b.flatten = (allPieces e.u os (s.out ++ s.outLine ++
        (lead (s.out ++ s.outLine) o ++ pieces e.u o).flatten)).flatten :=
      pieceToks_flatten e.u tb'
    obtain ⟨s1, e1, y1⟩ := exec_sync hS (by rw [hb]; exact r1) ta h
    have htxt : s1.out ++ s1.outLine = s.out ++ s.outLine ++
        (lead (s.out ++ s.outLine) o ++ pieces e.u o).flatten := by
      have t1 := y1.txt
      have t2 := h.txt
      rw [t2, List.flatten_append, ← List.append_assoc] at t1
      rw [← List.append_cancel_right t1, pieceToks_flatten e.u ta]
    rw [← htxt] at r2 tb'
    obtain ⟨s2, e2, y2⟩ := ih r2 tb' y1
    refine ⟨s2, ?_, y2⟩
    simp only [execAll, List.foldlM_cons, e1]
    exact e2

theorem upToLastNewline_split (x : Str) : ∃ tail, x = upToLastNewline x ++ tail ∧ '\n' ∉ tail ∧
    (upToLastNewline x = [] ∨ ∃ c, upToLastNewline x = c ++ ['\n']) := by
  refine ⟨(x.reverse.takeWhile (· ≠ '\n')).reverse, ?_, ?_, ?_⟩
  · unfold upToLastNewline
    rw [← List.reverse_append, List.takeWhile_append_dropWhile, List.reverse_reverse]
  · intro h
    have h1 := List.mem_reverse.mp h
    have := List.all_eq_true.mp (List.all_takeWhile (l := x.reverse) (p := (· ≠ '\n'))) _ h1
    simp at this
  · unfold upToLastNewline
    cases hd : x.reverse.dropWhile (· ≠ '\n') with
    | nil => left; rfl
    | cons y ys =>
      right
      have hy : y = '\n' := by
        have h1 := List.head?_dropWhile_not (· ≠ '\n') x.reverse
        rw [hd] at h1
        simpa using h1
      subst hy
      exact ⟨ys.reverse, by simp⟩

end Verif.Lemmas
