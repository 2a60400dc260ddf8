import Verif.Lemmas.Repeat
import Verif.Lemmas.Runs
import Verif.Spec.Mixed

/-! # Token by token comparison of mixed lines -/

namespace Verif.Lemmas
open Verif.Py Verif.Model Verif.Spec

variable (e : Env)

/-- Column of the first difference. -/
def firstCol (u : Unicode) (x : Option Str) (line : List (Str × Bool)) : Option Nat :=
  (firstBad u x line).map (fun j => (toksText (line.take j)).length)

theorem firstCol_nil (u : Unicode) (x : Option Str) : firstCol u x [] = none := rfl

theorem firstCol_snoc (u : Unicode) (x : Option Str) (l : List (Str × Bool)) (p : Str × Bool) :
    firstCol u x (l ++ [p]) =
      if (p.2 && decide (snapTok u x l.length ≠ some p.1)) = true then
        some ((firstCol u x l).getD (toksText l).length) else firstCol u x l := by
  unfold firstCol firstBad
  rw [List.zipIdx_append, List.findIdx?_append]
  simp only [List.zipIdx_cons, List.zipIdx_nil, Nat.zero_add, List.length_zipIdx]
  cases h : l.zipIdx.findIdx? (fun p => p.1.2 && decide (snapTok u x p.2 ≠ some p.1.1)) with
  | some j =>
    have hj : j < l.length := by
      have := (List.findIdx?_eq_some_iff_getElem.mp h).1
      simpa using this
    have ht : (l ++ [p]).take j = l.take j := by
      rw [List.take_append_of_le_length (by omega)]
    simp only [Option.some_or, Option.map_some, Option.getD_some, ht]
    split <;> rfl
  | none =>
    simp only [Option.none_or, Option.map_none, Option.getD_none]
    by_cases hb : (p.2 && decide (snapTok u x l.length ≠ some p.1)) = true
    · simp [List.findIdx?_cons, hb]
    · simp [List.findIdx?_cons, hb]

/-- The state inside the `k`-th line after the tokens `done` of it. -/
structure Mid (s : St) (k : Nat) (done : List (Str × Bool)) : Prop where
  at_ : At e s k
  outLine : s.outLine = toksText done
  lineError : s.lineError = none
  lineDiff : s.lineDiff = firstCol e.u (snap e)[k]? done
  toks : ∃ r, Toks e s r ∧ (∀ y, r = some y → '\x00' ∉ y) ∧
    ∀ j, snapTok e.u r j = snapTok e.u (snap e)[k]? (done.length + j)

/-- One comparison: what is compared with, and what is left. -/
theorem nextExpToken_snapTok {s : St} {r : Option Str} (hs : Toks e s r)
    (hz : ∀ y, r = some y → '\x00' ∉ y) :
    (nextExpToken e s).1 = snapTok e.u r 0 ∧
    ∃ r', (nextExpToken e s).2.expTokens = r'.map (BufIter.pull e.u) ∧
      (∀ y, r' = some y → '\x00' ∉ y) ∧ ∀ j, snapTok e.u r' j = snapTok e.u r (j + 1) := by
  cases r with
  | none =>
    rw [nextExpToken_none e hs]
    exact ⟨rfl, none, hs, by simp, fun j => rfl⟩
  | some y =>
    have hzy := hz y rfl
    cases hn : Tokenizer.next e.u y with
    | none =>
      have hy := (next_eq_none e.u).mp hn
      subst hy
      rw [nextExpToken_nil e hs]
      exact ⟨rfl, some [], hs, by simp, fun j => rfl⟩
    | some p =>
      obtain ⟨t, y'⟩ := p
      have hcat := next_concat e.u hn
      have hzy' : '\x00' ∉ y' := by intro h; apply hzy; rw [← hcat]; simp [h]
      obtain ⟨ts, hts⟩ := tokenize_nul_free e.u hzy'
      have hty : tokenize e.u y = some (t :: ts) := by
        rw [tokenize_cons_of_next e.u hn hzy, hts]; rfl
      rw [nextExpToken_pull e hs hn]
      refine ⟨by simp [snapTok, hty], some y', rfl, ?_, ?_⟩
      · intro z hz'; cases hz'; exact hzy'
      · intro j; simp [snapTok, hty, hts]

/-- A token inside a line. -/
theorem mid_token {s : St} {k : Nat} {done : List (Str × Bool)} (h : Mid e s k done)
    {t : Str} {c : Bool} (ht : t ≠ ['\n']) :
    Mid e (feedToken e s t c) k (done ++ [(t, c)]) ∧ SameLine s (feedToken e s t c) t := by
  have hsame := feedToken_sameLine e (s := s) (c := c) ht
  refine ⟨?_, hsame⟩
  obtain ⟨r, h1, h2, h3⟩ := h.toks
  obtain ⟨g1, r', g2, g3, g4⟩ := nextExpToken_snapTok e h1 h2
  have htk : (feedToken e s t c).expTokens = (nextExpToken e s).2.expTokens := by
    rw [feedToken_eq]; simp only [ht, if_false]; exact compared_expTokens e s t c
  have hmis : mismatch e s t = decide (snapTok e.u (snap e)[k]? done.length ≠ some t) := by
    unfold mismatch
    have := h3 0
    simp only [h.at_.ex, Bool.true_and, g1, this, Nat.add_zero, ne_eq, eq_comm]
  refine ⟨?_, ?_, ?_, ?_, r', ?_, g3, ?_⟩
  · refine at_congr e h.at_ hsame.exp hsame.expLine hsame.expLineNumber ?_
    intro hh
    have hst := h.at_.tok (hsame.expLine ▸ hh)
    rw [htk, nextExpToken_none e hst]; exact hst
  · rw [hsame.outLine, h.outLine]; simp [toksText]
  · rw [hsame.lineError, h.lineError]
  · have : (feedToken e s t c).lineDiff = (compared e s t c).lineDiff := by
      rw [feedToken_eq]; simp only [ht, if_false]
    rw [this, compared_lineDiff, firstCol_snoc, hmis, h.lineDiff, h.outLine, Bool.and_comm]
  · unfold Toks; rw [htk, g2]
  · intro j
    rw [g4, h3]; congr 1; simp; omega

/-- The newline that ends a line. -/
theorem mid_newline {s : St} {k : Nat} {done : List (Str × Bool)} (h : Mid e s k done) (c : Bool)
    (hz : ∀ l ∈ snap e, '\x00' ∉ l) :
    Mid e (feedToken e s ['\n'] c) (min (k + 1) (snap e).length) [] ∧
    Commits e s (feedToken e s ['\n'] c)
      [comparedLine e.u (snap e) (done ++ [(['\n'], c)], k)] := by
  obtain ⟨r, h1, h2, h3⟩ := h.toks
  obtain ⟨g1, -⟩ := nextExpToken_snapTok e h1 h2
  have hmis : mismatch e s ['\n'] = decide (snapTok e.u (snap e)[k]? done.length ≠ some ['\n']) := by
    unfold mismatch
    have := h3 0
    simp only [h.at_.ex, Bool.true_and, g1, this, Nat.add_zero, ne_eq, eq_comm]
  have hld : (compared e s ['\n'] c).lineDiff =
      firstCol e.u (snap e)[k]? (done ++ [(['\n'], c)]) := by
    rw [compared_lineDiff, firstCol_snoc, hmis, h.lineDiff, h.outLine, Bool.and_comm]
  have hfeed : feedToken e s ['\n'] c = commitLine e (compared e s ['\n'] c) := by
    rw [feedToken_eq]; simp
  have hat : At e (compared e s ['\n'] c) k := by
    refine at_congr e h.at_ (compared_exp e s _ c) (compared_expLine e s _ c)
      (compared_expLineNumber e s _ c) ?_
    intro hh
    have hst := h.at_.tok (compared_expLine e s ['\n'] c ▸ hh)
    rw [compared_expTokens, nextExpToken_none e hst]; exact hst
  obtain ⟨c1, c2⟩ := commitLine_at e hat
  constructor
  · rw [hfeed]
    refine ⟨c1, by simp [toksText], by simp, by simp [firstCol_nil], _, ?_, ?_, fun j => by
      rw [List.length_nil, Nat.zero_add]⟩
    · unfold Toks; rw [c2, c1.line]; rfl
    · intro y hy; exact hz y (List.mem_of_getElem? hy)
  · rw [hfeed]
    have ho : (compared e s ['\n'] c).outLine = toksText done := by simp [h.outLine]
    have hl : (compared e s ['\n'] c).lineError = none := by simp [h.lineError]
    have hx : (compared e s ['\n'] c).expLine = (snap e)[k]? := by
      rw [compared_expLine, h.at_.line]
    have hsome : (firstCol e.u (snap e)[k]? (done ++ [(['\n'], c)])).isSome =
        (firstBad e.u (snap e)[k]? (done ++ [(['\n'], c)])).isSome := by
      unfold firstCol; simp
    refine ⟨?_, ?_, ?_, ?_, ?_⟩
    · simp [comparedLine, h.outLine]
    · rw [commitLine_rep]
      simp only [compared_rep, List.map_cons, List.map_nil, List.flatten_cons, List.flatten_nil,
        List.append_nil, List.append_assoc]
      congr 1
      simp only [repLine, caretLine, LogLine.shown, ho, hl, hx, hld, ljust, comparedLine, hsome,
        List.dropLast_concat, Option.isSome_none, Bool.false_or, Option.none_or]
      unfold firstCol
      cases hb : firstBad e.u (snap e)[k]? (done ++ [(['\n'], c)]) with
      | none => simp
      | some j => cases hp : e.pointErrorPos <;> simp
    · simp [hl, comparedLine, h.lineError]
    · rw [commitLine_diffs, hld, hsome]
      simp [comparedLine]
    · simp

theorem commits_sameLine {s x : St} {l : Str} (h : SameLine s x l) : Commits e s x [] :=
  ⟨by simp [h.out], by simp [h.rep], by simp [h.errors], by simp [h.diffs], by simp [h.lineNumber]⟩

/-- Feeding tokens with their flags. -/
def feedPairs (s : St) (ps : List (Str × Bool)) : St :=
  ps.foldl (fun s p => feedToken e s p.1 p.2) s

theorem getElem?_min (l : List Str) (k : Nat) : l[min k l.length]? = l[k]? := by
  by_cases hk : k ≤ l.length
  · rw [Nat.min_eq_left hk]
  · rw [Nat.min_eq_right (by omega), List.getElem?_eq_none (by omega),
      List.getElem?_eq_none (by omega)]

theorem comparedLine_min (u : Unicode) (ls : List Str) (l : List (Str × Bool)) (k : Nat) :
    comparedLine u ls (l, min k ls.length) = comparedLine u ls (l, k) := by
  unfold comparedLine
  rw [getElem?_min]

theorem mid_min {s : St} {k : Nat} {done : List (Str × Bool)} (h : Mid e s k done) :
    k = min k (snap e).length := by
  have := h.at_.le; omega

/-- The log of some finished lines, the first of which continues the tokens `done`. -/
def logFrom (u : Unicode) (ls : List Str) (k : Nat) (done : List (Str × Bool)) :
    List (List (Str × Bool)) → List LogLine
  | [] => []
  | l :: rest => comparedLine u ls (done ++ l, k) :: (rest.zipIdx (k + 1)).map (comparedLine u ls)

theorem logFrom_nil (u : Unicode) (ls : List Str) (k : Nat) (L : List (List (Str × Bool))) :
    logFrom u ls k [] L = (L.zipIdx k).map (comparedLine u ls) := by
  cases L with
  | nil => rfl
  | cons l L => simp [logFrom, List.zipIdx_cons]

theorem feedPairs_commits (hz : ∀ l ∈ snap e, '\x00' ∉ l) (ps : List (Str × Bool)) :
    ∀ (s : St) (k : Nat) (done : List (Str × Bool)), (∀ p ∈ done, p.1 ≠ ['\n']) →
      Mid e s (min k (snap e).length) done →
      Commits e s (feedPairs e s ps) (logFrom e.u (snap e) k done (tokLines ps)) := by
  induction ps with
  | nil => intro s k done _ _; exact Commits.refl e s
  | cons p ps ih =>
    intro s k done hd h
    obtain ⟨t, c⟩ := p
    by_cases ht : t = ['\n']
    · subst ht
      obtain ⟨m1, m2⟩ := mid_newline e h c hz
      have hmin : min (min k (snap e).length + 1) (snap e).length = min (k + 1) (snap e).length := by
        omega
      rw [hmin] at m1
      have := ih _ (k + 1) [] (by simp) m1
      rw [comparedLine_min] at m2
      have hc := m2.trans this
      simp only [tokLines, if_true]
      refine cast ?_ hc
      congr 1
      rw [logFrom_nil]
      rfl
    · obtain ⟨m1, m2⟩ := mid_token e h (c := c) ht
      have hd' : ∀ p ∈ done ++ [(t, c)], p.1 ≠ ['\n'] := by
        intro p hp
        rcases List.mem_append.mp hp with hp | hp
        · exact hd p hp
        · simp at hp; subst hp; exact ht
      have := ih _ k _ hd' m1
      have hc := (commits_sameLine e m2).trans this
      simp only [tokLines, ht, if_false]
      refine cast ?_ hc
      congr 1
      cases tokLines ps with
      | nil => rfl
      | cons l ls => simp [logFrom]

theorem feedTokens_pairs (c : Bool) (ts : List Str) (s : St) :
    feedTokens e s ts c = feedPairs e s (ts.map (fun t => (t, c))) := by
  unfold feedTokens feedPairs
  rw [List.foldl_map]

theorem feedAll_pairs (ps : List (Str × Bool)) (hz : ∀ p ∈ ps, '\x00' ∉ p.1) (s : St) :
    feedAll e ps s = some (feedPairs e s (partToks e.u ps)) := by
  induction ps generalizing s with
  | nil => rfl
  | cons p ps ih =>
    obtain ⟨ts, hts⟩ := tokenize_nul_free e.u (hz p (by simp))
    rw [feedAll_cons]
    simp only [feed, hts, Option.map_some, Option.bind_some]
    rw [ih (fun q hq => hz q (by simp [hq])), feedTokens_pairs]
    simp [partToks, hts, feedPairs, List.foldl_append]

theorem exec_parts {o : Op} {ps : List (Str × Bool)} (h : parts e.u o = some ps) (s : St) :
    o.exec e s = feedAll e ps s := by
  cases o with
  | t x => simp only [parts, Option.some.injEq] at h; subst h; exact feed_feedAll x true s
  | i x => simp only [parts, Option.some.injEq] at h; subst h; exact feed_feedAll x false s
  | tln x => simp only [parts, Option.some.injEq] at h; subst h; exact tln_feedAll x s
  | iln x => simp only [parts, Option.some.injEq] at h; subst h; exact iln_feedAll x s
  | assertln c m =>
    cases c
    · simp [parts] at h
    · simp only [parts, Option.some.injEq] at h; subst h; exact iln_feedAll _ s
  | must x c m =>
    cases c
    · simp [parts] at h
    · simp only [parts, Option.some.injEq] at h; subst h
      rw [feedAll_cons]
      simp only [Op.exec, opMust, bind, opI]
      congr 1
      funext s1
      exact iln_feedAll _ s1
  | tlist is p => simp only [parts, Option.some.injEq] at h; subst h; exact lists_feedAll is p s
  | tdf tb =>
    simp only [parts, Option.some.injEq] at h; subst h
    simp only [Op.exec]
    rw [tdf_feedAll, headRow_eq, sepRow_eq]
  | _ => simp [parts] at h

theorem execAll_parts (os : List Op) {ps : List (Str × Bool)} (h : allParts e.u os = some ps)
    (s : St) : execAll e os s = feedAll e ps s := by
  induction os generalizing ps s with
  | nil => simp only [allParts, Option.some.injEq] at h; subst h; rfl
  | cons o os ih =>
    simp only [allParts, bind, Option.bind_eq_some_iff, Option.some.injEq] at h
    obtain ⟨a, h1, b, h2, rfl⟩ := h
    rw [feedAll_append]
    simp only [execAll, List.foldlM_cons, bind]
    rw [exec_parts e h1]
    congr 1
    funext s1
    exact ih h2 s1

end Verif.Lemmas
