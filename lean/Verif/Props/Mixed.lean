import Verif.Lemmas.Mixed
import Verif.Props.CaseRun
import Verif.Props.Tokenizer

/-! # C75, C76: lines of checked and unchecked text -/

namespace Verif.Props
open Verif.Py Verif.Model Verif.Spec Verif.Lemmas

variable (e : Env)

theorem fileLines_nul_free {raw : Str} (hz : '\x00' ∉ raw) : ∀ l ∈ fileLines raw, '\x00' ∉ l := by
  have hsplit : ∀ (s : Str), ∀ l ∈ split '\n' s, ∀ c ∈ l, c ∈ s := by
    intro s
    induction s with
    | nil => intro l hl; simp [split] at hl; subst hl; simp
    | cons x xs ih =>
      intro l hl c hc
      unfold split at hl
      split at hl
      · rcases List.mem_cons.mp hl with rfl | hl
        · cases hc
        · exact List.mem_cons_of_mem _ (ih l hl c hc)
      · split at hl
        · simp at hl; subst hl; simp at hc; simp [hc]
        · rename_i h t heq
          rcases List.mem_cons.mp hl with rfl | hl
          · rcases List.mem_cons.mp hc with rfl | hc
            · simp
            · exact List.mem_cons_of_mem _ (ih h (by rw [heq]; simp) c hc)
          · exact List.mem_cons_of_mem _ (ih l (by rw [heq]; simp [hl]) c hc)
  intro l hl hc
  have key : ∃ p ∈ split '\n' (universalNewlines raw), '\x00' ∈ p := by
    unfold fileLines at hl
    dsimp only at hl
    rcases List.mem_append.mp hl with hl | hl
    · exact ⟨l, List.dropLast_subset _ hl, hc⟩
    · split at hl
      · rename_i c cs heq
        simp only [List.mem_singleton] at hl
        subst hl
        exact ⟨c :: cs, List.mem_of_getLast? heq, List.dropLast_subset _ hc⟩
      · cases hl
  obtain ⟨p, h1, h2⟩ := key
  exact hz (universalNewlines_mem (by decide) _ (hsplit _ p h1 _ h2))

/-- C75: a test that prints checked and unchecked texts: every finished line is in the output and
in the report once; the `k`-th line is marked as a difference exactly if one of its checked tokens
is not the token at the same position of the `k`-th line of the snapshot, and the caret points to
the first such token; nothing is marked as an error. -/
theorem C75_tokens (raw : Str) (hx : e.expFile = some raw) (hraw : '\x00' ∉ raw) (os : List Op)
    (ps : List (Str × Bool)) (hps : allParts e.u os = some ps) (hz : ∀ p ∈ ps, '\x00' ∉ p.1) :
    ∃ s, execAll e os (start e) = some s ∧
      ∃ ls : List LogLine,
        ls = (tokLines (partToks e.u ps)).zipIdx.map (comparedLine e.u (fileLines raw)) ∧
        s.out = unlines (ls.map (·.text)) ∧
        s.rep = (ls.map (LogLine.shown e.pointErrorPos)).flatten ∧
        s.errors = 0 ∧ s.diffs = ls.countP (·.diff) ∧
        (verdict e s = .OK ↔ ∀ l ∈ ls, l.diff = false) ∧ verdict e s ≠ .FAIL := by
  have he : e.exists_ = true := by simp [Env.exists_, hx]
  have hs : snap e = fileLines raw := by rw [snap_eq_fileLines, hx]; rfl
  have hsz : ∀ l ∈ snap e, '\x00' ∉ l := hs ▸ fileLines_nul_free hraw
  have h0 := start_lineStart e he
  have hm : Mid e (start e) (min 0 (snap e).length) [] := by
    rw [Nat.zero_min]
    refine ⟨h0.at_, h0.outLine, h0.lineError, h0.lineDiff, (snap e)[0]?, ?_, ?_, fun j => by
      rw [List.length_nil, Nat.zero_add]⟩
    · unfold Toks; rw [h0.fresh, h0.at_.line]; rfl
    · intro y hy; exact hsz y (List.mem_of_getElem? hy)
  have hc := feedPairs_commits e hsz (partToks e.u ps) (start e) 0 [] (by simp) hm
  refine ⟨feedPairs e (start e) (partToks e.u ps), ?_, _, rfl, ?_⟩
  · rw [execAll_parts e os hps, feedAll_pairs e ps hz]
  rw [logFrom_nil, hs] at hc
  generalize hL : (tokLines (partToks e.u ps)).zipIdx.map (comparedLine e.u (fileLines raw)) = L at hc
  have hcs := core_start e
  have c1 : (start e).out = [] := congrArg Core.out hcs
  have c2 : (start e).errors = 0 := congrArg Core.errors hcs
  have c3 : (start e).diffs = 0 := congrArg Core.diffs hcs
  have c4 : (start e).rep = [] := congrArg Core.rep hcs
  have herr : L.countP (·.err) = 0 := by
    rw [List.countP_eq_zero]
    intro l hl
    subst hL
    obtain ⟨p, -, rfl⟩ := List.mem_map.mp hl
    simp [comparedLine]
  have h1 : (feedPairs e (start e) (partToks e.u ps)).errors = 0 := by
    rw [hc.errors, c2, herr]
  have h2 : (feedPairs e (start e) (partToks e.u ps)).diffs = L.countP (·.diff) := by
    rw [hc.diffs, c3, Nat.zero_add]
  refine ⟨?_, ?_, h1, h2, ?_, ?_⟩
  · rw [hc.out, c1]; simp [unlines, Function.comp_def]
  · rw [hc.rep, c4]; simp
  · unfold verdict
    simp only [h1, h2, he, ne_eq, not_true_eq_false, if_false, Bool.not_true, Bool.or_false]
    by_cases hd : L.countP (·.diff) = 0
    · simp only [hd, not_true_eq_false, decide_false, Bool.false_eq_true, if_false, true_iff]
      intro l hl
      have := List.countP_eq_zero.mp hd l hl
      simpa using this
    · simp only [hd, not_false_eq_true, decide_true, if_true, reduceCtorEq, false_iff]
      intro hall
      apply hd
      rw [List.countP_eq_zero]
      intro l hl; simp [hall l hl]
  · unfold verdict
    simp only [h1, ne_eq, not_true_eq_false, if_false]
    split <;> simp

def timingEnv : Env := ⟨ascii, some "time: 12.5 ms\ndone\n".toList, true, fun _ => none⟩

example : ∃ ps, allParts ascii [.t "time: ".toList, .i "13.1".toList, .tln " s".toList,
      .tln "done".toList] = some ps ∧ (∀ p ∈ ps, '\x00' ∉ p.1) ∧
    (tokLines (partToks ascii ps)).zipIdx.map
        (fun p => (firstBad ascii (fileLines "time: 12.5 ms\ndone\n".toList)[p.2]? p.1)) =
      [some 5, none] :=
  ⟨_, rfl, by decide, by decide⟩

example : ∃ s, execAll timingEnv [.t "time: ".toList, .i "13.1".toList, .tln " s".toList,
      .tln "done".toList] (start timingEnv) = some s ∧ s.rep =
      ["? time: 13.1 s".toList ++ List.replicate 48 ' ' ++ " | time: 12.5 ms".toList,
       "  ".toList ++ List.replicate 11 ' ' ++ "^".toList, "  done".toList] ∧
      verdict timingEnv s = .DIFF := ⟨_, rfl, by decide, by decide⟩

theorem tokLines_line (u : Unicode) (ts : List (Str × Bool)) (h : ∀ p ∈ ts, p.1 ≠ ['\n'])
    (c : Bool) : tokLines (ts ++ [(['\n'], c)]) = [ts ++ [(['\n'], c)]] := by
  induction ts with
  | nil => simp [tokLines]
  | cons p ps ih =>
    have hp := h p (by simp)
    have := ih (fun q hq => h q (by simp [hq]))
    simp only [List.cons_append, tokLines, hp, if_false, this]

/-- C75: the usual pattern, a checked label followed by an unchecked value on one line, passes
exactly if the tokens of the label are the first tokens of the first snapshot line. -/
theorem C75_label (raw : Str) (hx : e.expFile = some raw) (hraw : '\x00' ∉ raw) (a v y : Str)
    (rest : List Str) (hy : fileLines raw = y :: rest) (ta ty : List Str) (ha : Yields e.u a ta)
    (hty : Yields e.u y ty) (han : '\n' ∉ a) (hv : PlainLine v) :
    ∃ s, execAll e [.t a, .iln v] (start e) = some s ∧ (verdict e s = .OK ↔ ta <+: ty) := by
  have ha' := (tokenize_iff_yields _ _ _).mpr ha
  have hty' := (tokenize_iff_yields _ _ _).mpr hty
  obtain ⟨tv, htv⟩ := tokenize_nul_free e.u hv.2
  obtain ⟨s, h1, ls, rfl, -, -, -, -, h2, -⟩ := C75_tokens e raw hx hraw [.t a, .iln v]
    [(a, true), (v, false), (['\n'], false)] rfl (by
      intro p hp
      simp only [List.mem_cons, List.not_mem_nil, or_false] at hp
      rcases hp with rfl | rfl | rfl
      · exact nul_free_of_tokenize e.u ha'
      · exact hv.2
      · decide)
  refine ⟨s, h1, h2.trans ?_⟩
  have hna : ∀ t ∈ ta, t ≠ ['\n'] := by
    intro t ht hc
    apply han
    rw [← tokenize_flatten e.u ha', List.mem_flatten]
    exact ⟨t, ht, by simp [hc]⟩
  have hnv : ∀ t ∈ tv, t ≠ ['\n'] := by
    intro t ht hc
    apply hv.1
    rw [← tokenize_flatten e.u htv, List.mem_flatten]
    exact ⟨t, ht, by simp [hc]⟩
  have htoks : partToks e.u [(a, true), (v, false), (['\n'], false)] =
      (ta.map (fun t => (t, true)) ++ tv.map (fun t => (t, false))) ++ [(['\n'], false)] := by
    simp [partToks, ha', htv, tokenize_newline]
  rw [htoks, tokLines_line e.u _ (by
    intro p hp
    rcases List.mem_append.mp hp with hp | hp <;> obtain ⟨t, ht, rfl⟩ := List.mem_map.mp hp
    · exact hna t ht
    · exact hnv t ht)]
  simp only [List.zipIdx_cons, List.zipIdx_nil, List.map_cons, List.map_nil, List.mem_singleton,
    forall_eq, comparedLine, hy, List.getElem?_cons_zero, Option.isSome_eq_false_iff,
    Option.isNone_iff_eq_none]
  unfold firstBad
  rw [List.findIdx?_eq_none_iff]
  constructor
  · intro h
    rw [List.prefix_iff_getElem?]
    intro i hi
    have := h ((ta[i], true), i) (by
      rw [List.mem_zipIdx_iff_getElem?]
      rw [List.append_assoc, List.getElem?_append_left (by simpa using hi)]
      simp [hi])
    simp only [Bool.true_and, decide_eq_false_iff_not, ne_eq, Classical.not_not, snapTok,
      Option.map_some, hty', Option.getD_some, Option.some.injEq] at this
    rw [List.getD_eq_getElem?_getD] at this
    cases hg : ty[i]? with
    | none =>
      rw [hg] at this
      exact absurd this.symm (hna _ (List.getElem_mem hi))
    | some t => rw [hg] at this; rw [← this]; rfl
  · rintro ⟨w, rfl⟩ ⟨⟨t, c⟩, i⟩ hm
    rw [List.mem_zipIdx_iff_getElem?] at hm
    dsimp only at hm ⊢
    rw [List.append_assoc] at hm
    by_cases hi : i < ta.length
    · rw [List.getElem?_append_left (by simpa using hi)] at hm
      simp only [List.getElem?_map, Option.map_eq_some_iff, Prod.mk.injEq] at hm
      obtain ⟨t', h3, rfl, rfl⟩ := hm
      simp only [Bool.true_and, decide_eq_false_iff_not, ne_eq, Classical.not_not, snapTok,
        Option.map_some, hty', Option.getD_some, Option.some.injEq]
      rw [List.getD_eq_getElem?_getD, List.getElem?_append_left hi, h3]; rfl
    · have : c = false := by
        rw [List.getElem?_append_right (by simpa using hi)] at hm
        have := List.mem_of_getElem? hm
        simp only [List.mem_append, List.mem_map, Prod.mk.injEq, List.mem_singleton] at this
        rcases this with ⟨_, _, _, h⟩ | ⟨_, h⟩
        · exact h.symm
        · exact h
      simp [this]

example : ∃ s, execAll timingEnv [.t "time: ".toList, .iln "99 ms".toList] (start timingEnv) = some s ∧
    verdict timingEnv s = .OK := ⟨_, rfl, by decide⟩

/-! ## C76 -/

/-- C76: `ifloatln(value)` as the only call on a line, after whole lines of checked and unchecked
text: it prints the value and, exactly if the first token of the snapshot line with the same number
is a number, that old value in parentheses. -/
theorem C76_was (raw : Str) (hx : e.expFile = some raw) (ps : List (Bool × Str))
    (hp : ∀ p ∈ ps, PlainLine p.2) (shown : Str) (hs : PlainLine shown)
    (hr : ∀ x y, e.refmt x = some y → PlainLine y) (hz : '\x00' ∉ raw) :
    ∃ s, execAll e (lineOps ps ++ [.ifloatln shown none]) (start e) = some s ∧
      s.out = unlines (ps.map (·.2)) ++ shown ++
        (match (snapTok e.u (fileLines raw)[ps.length]? 0).bind e.refmt with
          | some old => " (was ".toList ++ old ++ ")".toList
          | none => []) ++ ['\n'] := by
  have he : e.exists_ = true := by simp [Env.exists_, hx]
  have hsn : snap e = fileLines raw := by rw [snap_eq_fileLines, hx]; rfl
  have hfn : ∀ l ∈ fileLines raw, '\x00' ∉ l := fileLines_nul_free hz
  -- the state at the beginning of the line
  have hlines : ∀ (ps : List (Bool × Str)) (hp : ∀ p ∈ ps, PlainLine p.2) (k : Nat) (s : St),
      LineStart e s (min k (snap e).length) →
      ∃ s', execAll e (lineOps ps) s = some s' ∧
        LineStart e s' (min (k + ps.length) (snap e).length) ∧
        s'.out = s.out ++ unlines (ps.map (·.2)) := by
    intro ps
    induction ps with
    | nil => intro _ k s h; exact ⟨s, rfl, h, by simp [unlines]⟩
    | cons p ps ih =>
      intro hp k s h
      obtain ⟨c, l⟩ := p
      obtain ⟨hn, hz⟩ := hp (c, l) (by simp)
      obtain ⟨s1, e1, a1, o1, -⟩ := line_step e c hn hz h
      have hmin : min (min k (snap e).length + 1) (snap e).length = min (k + 1) (snap e).length := by
        omega
      rw [hmin] at a1
      obtain ⟨s2, e2, a2, o2⟩ := ih (fun p hq => hp p (by simp [hq])) (k + 1) s1 a1
      refine ⟨s2, ?_, ?_, ?_⟩
      · have h1 : (if c = true then Op.tln l else Op.iln l).exec e s = some s1 := by
          cases c <;> simpa [Op.exec] using e1
        simp only [execAll, lineOps, List.map_cons, List.foldlM_cons, h1]
        exact e2
      · rw [List.length_cons, show k + (ps.length + 1) = k + 1 + ps.length by omega]; exact a2
      · rw [o2, o1]; simp [unlines]
  obtain ⟨s, h1, h2, h3⟩ := hlines ps hp 0 (start e) (by simpa using start_lineStart e he)
  rw [Nat.zero_add] at h2
  have hc1 : (start e).out = [] := congrArg Core.out (core_start e)
  rw [hc1, List.nil_append] at h3
  -- the head token
  have hhead : headExpToken s = snapTok e.u (fileLines raw)[ps.length]? 0 := by
    have hf := h2.fresh
    unfold Fresh at hf
    rw [h2.at_.line, getElem?_min, hsn] at hf
    unfold headExpToken
    rw [hf]
    cases hg : (fileLines raw)[ps.length]? with
    | none => rfl
    | some y =>
      have hy := hfn y (List.mem_of_getElem? hg)
      obtain ⟨ts, hts⟩ := tokenize_nul_free e.u hy
      cases hn : Tokenizer.next e.u y with
      | none =>
        have := (next_eq_none e.u).mp hn
        subst this
        simp [snapTok, BufIter.of, BufIter.pull, BufIter.hasNext, Tokenizer.next, tokenize,
          tokenizeFuel]
      | some p =>
        obtain ⟨t, r⟩ := p
        have ht := tokenize_cons_of_next e.u hn hy
        rw [hts] at ht
        symm at ht
        simp only [Option.map_eq_some_iff] at ht
        obtain ⟨ts', -, rfl⟩ := ht
        simp [snapTok, BufIter.of, BufIter.pull, BufIter.hasNext, hn, hts]
  obtain ⟨ts, hts⟩ := tokenize_nul_free e.u hs.2
  have hi : ∃ s1, opI e (shown ++ []) s = some s1 := by
    rw [List.append_nil]; simp [opI, feed, hts]
  obtain ⟨s1, hi⟩ := hi
  have hpl : ∀ o, (snapTok e.u (fileLines raw)[ps.length]? 0).bind e.refmt = some o →
      '\x00' ∉ " (was ".toList ++ o ++ [] ++ ")".toList := by
    intro o ho
    obtain ⟨x, -, hx⟩ := Option.bind_eq_some_iff.mp ho
    have := (hr x o hx).2
    simp only [List.mem_append, not_or]
    exact ⟨⟨⟨by decide, this⟩, by simp⟩, by decide⟩
  have hm1 := feed_emits e hi
  unfold Emits at hm1
  rw [h2.outLine, List.append_nil, List.append_nil] at hm1
  have hexec : ∀ s2, opIfloatln e shown none s = some s2 →
      execAll e (lineOps ps ++ [.ifloatln shown none]) (start e) = some s2 := by
    intro s2 hs2
    simp only [execAll, List.foldlM_append] at h1 ⊢
    rw [h1]
    simp [Op.exec, hs2]
  cases ho : (snapTok e.u (fileLines raw)[ps.length]? 0).bind e.refmt with
  | some o =>
    obtain ⟨s2, h4⟩ := iln_total e (hpl o ho) s1
    refine ⟨s2, hexec s2 ?_, ?_⟩
    · simp only [opIfloatln, hhead, ho, bind, hi, Option.bind_some]; exact h4
    · have m := iln_emits e h4
      unfold Emits at m
      rw [iln_ends e h4, hm1, h3, List.append_nil] at m
      rw [m]; simp
  | none =>
    obtain ⟨s2, h4⟩ := iln_total e (x := []) (by simp) s1
    refine ⟨s2, hexec s2 ?_, ?_⟩
    · simp only [opIfloatln, hhead, ho, bind, hi, Option.bind_some]; exact h4
    · have m := iln_emits e h4
      unfold Emits at m
      rw [iln_ends e h4, hm1, h3, List.append_nil] at m
      rw [m]; simp

example : ∃ s, execAll ⟨ascii, some "a\n1.000 x\n".toList, false,
      fun x => if x = "1.000".toList then some x else none⟩
    (lineOps [(true, "a".toList)] ++ [.ifloatln "2.000".toList none])
    (start ⟨ascii, some "a\n1.000 x\n".toList, false,
      fun x => if x = "1.000".toList then some x else none⟩) = some s ∧
    s.out = "a\n2.000 (was 1.000)\n".toList := ⟨_, rfl, by decide⟩

end Verif.Props
