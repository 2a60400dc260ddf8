import Verif.Lemmas.Runs
import Verif.Spec.Sections

/-! # Sections in any order, sets -/

namespace Verif.Lemmas
open Verif.Py Verif.Model Verif.Spec

variable (e : Env)

theorem lineStart_of_core {s s' : St} {k j : Nat} (h : LineStart e s k) (hc : core s' = core s)
    (ha : At e s' j) (hf : Fresh e s') : LineStart e s' j := by
  have h1 := congrArg Core.outLine hc
  have h2 := congrArg Core.lineDiff hc
  have h3 := congrArg Core.lineError hc
  simp only [core] at h1 h2 h3
  exact ⟨ha, hf, h1.trans h.outLine, h2.trans h.lineDiff, h3.trans h.lineError⟩

/-- Checked lines that are the next lines of the snapshot. -/
theorem matching_lines (bs : List Str) (hp : ∀ b ∈ bs, PlainLine b) :
    ∀ (k : Nat) (s : St), LineStart e s k → bs <+: (snap e).drop k →
    ∃ s', execAll e (bs.map .tln) s = some s' ∧ LineStart e s' (k + bs.length) ∧
      s'.out = s.out ++ unlines bs ∧ s'.diffs = s.diffs ∧ s'.errors = s.errors ∧
      s'.lineNumber = s.lineNumber + bs.length := by
  induction bs with
  | nil => intro k s h _; exact ⟨s, rfl, h, by simp [unlines], rfl, rfl, rfl⟩
  | cons b bs ih =>
    intro k s h hpre
    obtain ⟨hn, hz⟩ := hp b (by simp)
    obtain ⟨t, ht⟩ := hpre
    have hk : (snap e)[k]? = some b := by
      have := congrArg (·[0]?) ht
      simpa using this.symm
    have hlt : k < (snap e).length := by
      rcases Nat.lt_or_ge k (snap e).length with h | h
      · exact h
      · simp [h] at hk
    obtain ⟨s1, e1, a1, o1, n1, r1, d1, -, -⟩ := line_step e true hn hz h
    simp only [if_true] at e1
    rw [Nat.min_eq_left (by omega)] at a1
    have hpre' : bs <+: (snap e).drop (k + 1) := by
      refine ⟨t, ?_⟩
      have := congrArg (List.drop 1) ht
      simpa [List.drop_drop, Nat.add_comm] using this
    obtain ⟨s2, e2, a2, o2, d2, r2, n2⟩ := ih (fun b hb => hp b (by simp [hb])) (k + 1) s1 a1 hpre'
    refine ⟨s2, ?_, ?_, ?_, ?_, r2.trans r1, ?_⟩
    · simp only [execAll, List.map_cons, List.foldlM_cons, Op.exec, e1]
      exact e2
    · have : k + (b :: bs).length = k + 1 + bs.length := by simp; omega
      rw [this]; exact a2
    · rw [o2, o1]; simp [unlines]
    · rw [d2, d1, hk]; simp
    · rw [n2, n1]; simp; omega

theorem seekLine_unique {s : St} {k : Nat} (h : LineStart e s k) {a : Str} {pre post : List Str}
    (hs : snap e = pre ++ a :: post) (h1 : a ∉ pre) (h2 : a ∉ post) :
    LineStart e (seekLine e a 0 none s) pre.length := by
  obtain ⟨a1, a2, -, -⟩ := seek_at e h.at_ (fun l => decide (l = a))
  have hsp := seekPos_spec (fun l => decide (l = a)) (snap e) k h.at_.le
  have hpos : seekPos (fun l => decide (l = a)) (snap e) k = pre.length := by
    have hat : (snap e)[seekPos (fun l => decide (l = a)) (snap e) k]? = some a := by
      rcases hsp with ⟨l, -, g1, g2, -⟩ | ⟨-, l, g1, g2, -⟩ | ⟨g, -⟩
      · simp at g2; rw [g1, g2]
      · simp at g2; rw [g1, g2]
      · have := g a (by rw [hs]; simp); simp at this
    generalize seekPos (fun l => decide (l = a)) (snap e) k = j at hat ⊢
    rw [hs] at hat
    rcases Nat.lt_trichotomy j pre.length with hj | hj | hj
    · rw [List.getElem?_append_left hj] at hat
      exact absurd (List.mem_of_getElem? hat) h1
    · exact hj
    · rw [List.getElem?_append_right (by omega)] at hat
      obtain ⟨m, hm⟩ : ∃ m, j - pre.length = m + 1 := ⟨j - pre.length - 1, by omega⟩
      rw [hm, List.getElem?_cons_succ] at hat
      exact absurd (List.mem_of_getElem? hat) h2
  rw [hpos] at a1
  exact lineStart_of_core e h (core_seek e _ _ _ _) a1 (a2 h.fresh)

/-- The newline a header puts in front of itself. -/
theorem lead_newline {s : St} {k : Nat} (h : LineStart e s k)
    (hk : (snap e)[k]? = none ∨ (snap e)[k]? = some []) :
    LineStart e (feedToken e s ['\n'] (s.lastChecked && s.expLine.isSome))
        (min (k + 1) (snap e).length) ∧
      (feedToken e s ['\n'] (s.lastChecked && s.expLine.isSome)).out = s.out ++ ['\n'] ∧
      (feedToken e s ['\n'] (s.lastChecked && s.expLine.isSome)).diffs = s.diffs ∧
      (feedToken e s ['\n'] (s.lastChecked && s.expLine.isSome)).errors = s.errors ∧
      (feedToken e s ['\n'] (s.lastChecked && s.expLine.isSome)).lineNumber = s.lineNumber + 1 := by
  have hts : tokenize e.u [] = some [] := rfl
  have key : ∀ c : Bool, (c && decide (some ([] : Str) ≠ (snap e)[k]?)) = false →
      LineStart e (feedToken e s ['\n'] c) (min (k + 1) (snap e).length) ∧
      (feedToken e s ['\n'] c).out = s.out ++ ['\n'] ∧
      (feedToken e s ['\n'] c).diffs = s.diffs ∧ (feedToken e s ['\n'] c).errors = s.errors ∧
      (feedToken e s ['\n'] c).lineNumber = s.lineNumber + 1 := by
    intro c hc
    obtain ⟨s1, e1, a1, o1, n1, r1, d1, -, -⟩ :=
      line_step e c (l := []) (by simp) (by simp) h
    have : (if c = true then opTln e [] s else opIln e [] s) = some (feedToken e s ['\n'] c) := by
      cases c
      · simp only [Bool.false_eq_true, if_false]; rw [opIln_eq e hts]; rfl
      · simp only [if_true]; rw [opTln_eq e hts]; rfl
    rw [this] at e1
    cases e1
    refine ⟨a1, by simpa using o1, ?_, r1, n1⟩
    rw [d1, hc]; simp
  apply key
  rw [h.at_.line]
  rcases hk with hk | hk <;> rw [hk] <;> simp

/-- Printing one section that stands in the snapshot. -/
theorem section_step {x : Section} (hpl : x.Plain) (hst : StandsIn (snap e) x) {s : St} {k : Nat}
    (h : LineStart e s k)
    (hlead : s.lineNumber = 0 ∨ (snap e)[k]? = none ∨ (snap e)[k]? = some []) :
    ∃ s' k', execAll e (.header x.head :: x.body.map .tln) s = some s' ∧ LineStart e s' k' ∧
      ((snap e)[k']? = none ∨ (snap e)[k']? = some []) ∧ 0 < s'.lineNumber ∧
      s'.diffs = s.diffs ∧ s'.errors = s.errors ∧
      s'.out = s.out ++ (if 0 < s.lineNumber then ['\n'] else []) ++ unlines x.lines := by
  obtain ⟨pre, post, hs, hpre, hpost, hend⟩ := hst
  -- the leading newline
  have step1 : ∃ s1 k1, (if 0 < s.lineNumber then
        feedToken e s ['\n'] (s.lastChecked && s.expLine.isSome) else s) = s1 ∧
      LineStart e s1 k1 ∧ s1.out = s.out ++ (if 0 < s.lineNumber then ['\n'] else []) ∧
      s1.diffs = s.diffs ∧ s1.errors = s.errors := by
    by_cases hl : 0 < s.lineNumber
    · rcases hlead with h0 | hk
      · omega
      · obtain ⟨a1, o1, d1, r1, -⟩ := lead_newline e h hk
        exact ⟨_, _, rfl, by simpa [hl] using a1, by simpa [hl] using o1, by simpa [hl] using d1,
          by simpa [hl] using r1⟩
    · exact ⟨s, k, by simp [hl], h, by simp [hl], rfl, rfl⟩
  obtain ⟨s1, k1, e1, a1, o1, d1, r1⟩ := step1
  -- the anchor
  have hs' : snap e = pre ++ x.head :: ([] :: x.body ++ post) := by
    rw [hs]; simp [Section.lines]
  have a2 := seekLine_unique e a1 hs' hpre hpost
  -- the lines
  have hlines : x.lines <+: (snap e).drop pre.length := by
    rw [hs]; simp
  obtain ⟨s3, e3, a3, o3, d3, r3, n3⟩ := matching_lines e x.lines (by
      intro b hb
      simp only [Section.lines, List.mem_cons] at hb
      rcases hb with hb | hb | hb
      · subst hb; exact hpl.1
      · subst hb; simp [PlainLine]
      · exact hpl.2 b hb) _ _ a2 hlines
  have hc := core_seek e (fun l => decide (l = x.head)) 0 none s1
  refine ⟨s3, _, ?_, a3, ?_, ?_, ?_, ?_, ?_⟩
  · have e3' : execAll e (Op.tln x.head :: Op.tln [] :: x.body.map .tln)
        (seekLine e x.head 0 none s1) = some s3 := e3
    simp only [execAll, List.foldlM_cons, bind, Option.bind_eq_some_iff] at e3' ⊢
    obtain ⟨t1, g1, t2, g2, g3⟩ := e3'
    refine ⟨t2, ?_, g3⟩
    simp only [Op.exec, opHeader, e1, opAnchorln, bind]
    simp only [Op.exec] at g1 g2
    rw [g1]; exact g2
  · rw [hs]
    have : (pre ++ x.lines ++ post)[pre.length + x.lines.length]? = post[0]? := by
      rw [← List.length_append, List.getElem?_append_right (Nat.le_refl _)]; simp
    rw [this]
    rcases hend with h | ⟨p', h⟩ <;> subst h <;> simp
  · rw [n3]; simp [Section.lines]; omega
  · rw [d3, ← d1]; exact congrArg Core.diffs hc
  · rw [r3, ← r1]; exact congrArg Core.errors hc
  · rw [o3, ← o1]
    have : (seekLine e x.head 0 none s1).out = s1.out := congrArg Core.out hc
    rw [this]

theorem execAll_append (a b : List Op) (s : St) :
    execAll e (a ++ b) s = (execAll e a s).bind (execAll e b) := by
  simp only [execAll, List.foldlM_append]; rfl

theorem sections_run (ss : List Section) (hpl : ∀ x ∈ ss, x.Plain)
    (hst : ∀ x ∈ ss, StandsIn (snap e) x) :
    ∀ (s : St) (k : Nat), LineStart e s k → s.lineNumber ≠ 0 →
      ((snap e)[k]? = none ∨ (snap e)[k]? = some []) →
    ∃ s', execAll e (sectionOps ss) s = some s' ∧ s'.diffs = s.diffs ∧ s'.errors = s.errors ∧
      s'.out = s.out ++ unlines (ss.flatMap (fun x => [] :: x.lines)) := by
  induction ss with
  | nil => intro s k h _ _; exact ⟨s, rfl, rfl, rfl, by simp [unlines]⟩
  | cons x ss ih =>
    intro s k h hn hk
    obtain ⟨s1, k1, e1, a1, l1, n1, d1, r1, o1⟩ :=
      section_step e (hpl x (by simp)) (hst x (by simp)) h (Or.inr hk)
    obtain ⟨s2, e2, d2, r2, o2⟩ := ih (fun x hx => hpl x (by simp [hx]))
      (fun x hx => hst x (by simp [hx])) s1 k1 a1 (by omega) l1
    refine ⟨s2, ?_, d2.trans d1, r2.trans r1, ?_⟩
    · simp only [sectionOps, List.flatMap_cons]
      rw [execAll_append, e1]; exact e2
    · rw [o2, o1]
      have : 0 < s.lineNumber := by omega
      simp [this, unlines]

theorem documentLines_cons (x : Section) (ss : List Section) :
    documentLines (x :: ss) = x.lines ++ ss.flatMap (fun x => [] :: x.lines) := by
  induction ss generalizing x with
  | nil => simp [documentLines]
  | cons y ys ih => simp [documentLines, ih]

theorem sections_run_start (hx : e.exists_ = true) (ss : List Section) (hpl : ∀ x ∈ ss, x.Plain)
    (hst : ∀ x ∈ ss, StandsIn (snap e) x) :
    ∃ s', execAll e (sectionOps ss) (start e) = some s' ∧ s'.diffs = 0 ∧ s'.errors = 0 ∧
      s'.out = unlines (documentLines ss) := by
  have hc := core_start e
  have c1 : (start e).out = [] := congrArg Core.out hc
  have c2 : (start e).errors = 0 := congrArg Core.errors hc
  have c3 : (start e).diffs = 0 := congrArg Core.diffs hc
  have c5 : (start e).lineNumber = 0 := congrArg Core.lineNumber hc
  cases ss with
  | nil => exact ⟨start e, rfl, c3, c2, by simp [c1, documentLines, unlines]⟩
  | cons x ss =>
    obtain ⟨s1, k1, e1, a1, l1, n1, d1, r1, o1⟩ :=
      section_step e (hpl x (by simp)) (hst x (by simp)) (start_lineStart e hx) (Or.inl c5)
    obtain ⟨s2, e2, d2, r2, o2⟩ := sections_run e ss (fun x hx => hpl x (by simp [hx]))
      (fun x hx => hst x (by simp [hx])) s1 k1 a1 (by omega) l1
    refine ⟨s2, ?_, by rw [d2, d1, c3], by rw [r2, r1, c2], ?_⟩
    · simp only [sectionOps, List.flatMap_cons]
      rw [execAll_append, e1]; exact e2
    · rw [o2, o1, documentLines_cons, c5, c1]
      simp [unlines]

/-- In a document with distinct headers that are not body lines every section can be found. -/
theorem standsIn_document (ss : List Section) (hd : (ss.map (·.head)).Nodup)
    (hne : ∀ x ∈ ss, x.head ≠ []) (hb : ∀ x ∈ ss, ∀ y ∈ ss, x.head ∉ y.body) :
    ∀ x ∈ ss, StandsIn (documentLines ss) x := by
  intro x hx
  obtain ⟨a, b, rfl⟩ := List.append_of_mem hx
  have hhead : ∀ y ∈ a ++ b, x.head ≠ y.head := by
    intro y hy hc
    simp only [List.map_append, List.map_cons] at hd
    rw [List.nodup_append] at hd
    obtain ⟨-, h2, h3⟩ := hd
    rw [List.nodup_cons] at h2
    rcases List.mem_append.mp hy with h | h
    · exact h3 y.head (List.mem_map_of_mem h) x.head (by simp) hc.symm
    · exact h2.1 (hc ▸ List.mem_map_of_mem h)
  have hnot : ∀ c : List Section, (∀ y ∈ c, y ∈ a ++ b) → x.head ∉ c.flatMap Section.lines := by
    intro c hc hm
    rw [List.mem_flatMap] at hm
    obtain ⟨y, hy, hm⟩ := hm
    have hyab := hc y hy
    have hyall : y ∈ a ++ x :: b := by
      rcases List.mem_append.mp hyab with h | h <;> simp [h]
    simp only [Section.lines, List.mem_cons] at hm
    rcases hm with hm | hm | hm
    · exact hhead y hyab hm
    · exact hne x (by simp) hm
    · exact hb x (by simp) y hyall hm
  -- the document before and after the section
  have hdoc : ∀ a : List Section, ∃ pre, documentLines (a ++ x :: b) =
      pre ++ x.lines ++ b.flatMap (fun x => [] :: x.lines) ∧
      ∀ l ∈ pre, l = [] ∨ l ∈ a.flatMap Section.lines := by
    intro a
    cases a with
    | nil => exact ⟨[], by simp [documentLines_cons], by simp⟩
    | cons y ys =>
      refine ⟨y.lines ++ ys.flatMap (fun x => [] :: x.lines) ++ [[]], ?_, ?_⟩
      · simp [documentLines_cons]
      · intro l hl
        simp only [List.mem_append, List.mem_flatMap, List.mem_cons, List.not_mem_nil,
          or_false] at hl
        rcases hl with (h | ⟨z, hz, h | h⟩) | h
        · right; simp [h]
        · exact Or.inl h
        · right; rw [List.flatMap_cons, List.mem_append]; right
          exact List.mem_flatMap.mpr ⟨z, hz, h⟩
        · exact Or.inl h
  obtain ⟨pre, h1, h2⟩ := hdoc a
  refine ⟨pre, b.flatMap (fun x => [] :: x.lines), h1, ?_, ?_, ?_⟩
  · intro hm
    rcases h2 _ hm with h | h
    · exact hne x (by simp) h
    · exact hnot a (fun y hy => by simp [hy]) h
  · intro hm
    simp only [List.cons_append, List.mem_cons, List.mem_append, List.mem_flatMap] at hm
    rcases hm with h | h | ⟨z, hz, h | h⟩
    · exact hne x (by simp) h
    · exact hb x (by simp) x (by simp) h
    · exact hne x (by simp) h
    · exact hnot b (fun y hy => by simp [hy]) (List.mem_flatMap.mpr ⟨z, hz, h⟩)
  · cases b with
    | nil => left; rfl
    | cons y ys => right; exact ⟨_, by simp; rfl⟩

/-! ### Sets -/

theorem nodup_insert' {a : Str} {l : List Str} (h : l.Nodup) : (List.insert a l).Nodup := by
  by_cases ha : a ∈ l
  · rw [List.insert_of_mem ha]; exact h
  · rw [List.insert_of_not_mem ha]; exact List.nodup_cons.mpr ⟨ha, h⟩

theorem tsetScan_at (pre : Str) : ∀ (n : Nat) (s : St) (k : Nat) (acc : List Str),
    At e s k → Fresh e s → (snap e).length - k < n →
    At e (tsetScan e pre n s acc).1 (k + (listedFrom pre (snap e) k).length) ∧
    Fresh e (tsetScan e pre n s acc).1 ∧
    (acc.Nodup → (tsetScan e pre n s acc).2.Nodup) ∧
    (∀ x, x ∈ (tsetScan e pre n s acc).2 ↔ x ∈ acc ∨ pre ++ x ∈ listedFrom pre (snap e) k) := by
  intro n
  induction n with
  | zero => intro s k acc _ _ h; omega
  | succ n ih =>
    intro s k acc h hf hn
    unfold tsetScan
    by_cases hk : k < (snap e).length
    · have hd := List.drop_eq_getElem_cons hk
      have hl : s.expLine = some ((snap e)[k]) := by rw [h.line]; simp [hk]
      rw [hl]
      dsimp only
      by_cases hp : startsWith ((snap e)[k]) pre = true
      · simp only [hp, if_true]
        obtain ⟨a1, f1⟩ := nextExpLine_at e h hk
        obtain ⟨i1, i2, i3, i4⟩ := ih (nextExpLine e s) (k + 1)
          (List.insert (((snap e)[k]).drop pre.length) acc) a1 f1 (by omega)
        have hlist : listedFrom pre (snap e) k = (snap e)[k] :: listedFrom pre (snap e) (k + 1) := by
          unfold listedFrom
          rw [hd, List.takeWhile_cons]
          have : pre.isPrefixOf ((snap e)[k]) = true := hp
          rw [this]; simp
        refine ⟨?_, i2, fun hnd => i3 (nodup_insert' hnd), ?_⟩
        · rw [hlist]
          have : k + ((snap e)[k] :: listedFrom pre (snap e) (k + 1)).length =
            k + 1 + (listedFrom pre (snap e) (k + 1)).length := by simp; omega
          rw [this]; exact i1
        · intro x
          rw [i4, hlist, List.mem_insert_iff, List.mem_cons]
          obtain ⟨r, hr⟩ := List.isPrefixOf_iff_prefix.mp hp
          have hx : x = ((snap e)[k]).drop pre.length ↔ pre ++ x = (snap e)[k] := by
            rw [← hr]; simp
          rw [hx, or_assoc, or_left_comm]
      · simp only [hp]
        have hlist : listedFrom pre (snap e) k = [] := by
          unfold listedFrom
          rw [hd, List.takeWhile_cons]
          have : pre.isPrefixOf ((snap e)[k]) = false := by simpa only [startsWith, Bool.not_eq_true] using hp
          rw [this]; simp
        rw [hlist]
        exact ⟨h, hf, id, by simp⟩
    · have hl : s.expLine = none := by rw [h.line]; simp [Nat.le_of_not_lt hk]
      rw [hl]
      have hlist : listedFrom pre (snap e) k = [] := by
        unfold listedFrom
        rw [List.drop_eq_nil_of_le (by omega)]; rfl
      rw [hlist]
      exact ⟨h, hf, id, by simp⟩

/-- How many items are not in the set, each found item being crossed off. -/
def extraItems : List Str → List Str → Nat
  | [], _ => 0
  | i :: is, c => if i ∈ c then extraItems is (c.erase i) else extraItems is c + 1

/-- What remains of the set. -/
def restItems : List Str → List Str → List Str
  | [], c => c
  | i :: is, c => if i ∈ c then restItems is (c.erase i) else restItems is c

theorem items_same (items : List Str) : ∀ c : List Str, c.Nodup →
    ((extraItems items c = 0 ∧ restItems items c = []) ↔
      (items.Nodup ∧ ∀ x, x ∈ items ↔ x ∈ c)) := by
  induction items with
  | nil =>
    intro c _
    simp only [extraItems, restItems, List.nodup_nil, true_and, List.not_mem_nil, false_iff]
    exact List.eq_nil_iff_forall_not_mem
  | cons i is ih =>
    intro c hc
    by_cases hi : i ∈ c
    · simp only [extraItems, restItems, hi, if_true]
      rw [ih (c.erase i) (hc.erase i), List.nodup_cons]
      constructor
      · rintro ⟨h1, h2⟩
        refine ⟨⟨?_, h1⟩, ?_⟩
        · intro hm
          have := (h2 i).mp hm
          rw [hc.mem_erase_iff] at this
          exact this.1 rfl
        · intro x
          rw [List.mem_cons, h2, hc.mem_erase_iff]
          by_cases hx : x = i
          · subst hx; simp [hi]
          · simp [hx]
      · rintro ⟨⟨h1, h2⟩, h3⟩
        refine ⟨h2, fun x => ?_⟩
        rw [hc.mem_erase_iff]
        constructor
        · intro hx
          refine ⟨?_, (h3 x).mp (by simp [hx])⟩
          rintro rfl; exact h1 hx
        · rintro ⟨hx1, hx2⟩
          have := (h3 x).mpr hx2
          rcases List.mem_cons.mp this with h | h
          · exact absurd h hx1
          · exact h
    · simp only [extraItems, hi, if_false]
      constructor
      · rintro ⟨h, -⟩; omega
      · rintro ⟨-, h⟩
        exact absurd ((h i).mp (by simp)) hi

/-- An ignored line commits the line and adds exactly the pending difference. -/
theorem iln_marks {x : Str} {s s' : St} (hx : PlainLine x) (ha : ∃ k, At e s k)
    (h : opIln e x s = some s') :
    (∃ k, At e s' k) ∧ Fresh e s' ∧ s'.outLine = [] ∧ s'.lineDiff = none ∧ s'.lineError = none ∧
      s'.diffs = s.diffs + (if s.lineDiff.isSome then 1 else 0) ∧
      s'.errors = s.errors + (if s.lineError.isSome then 1 else 0) ∧
      s'.out = s.out ++ s.outLine ++ x ++ ['\n'] := by
  obtain ⟨k, hk⟩ := ha
  simp only [opIln, bind, Option.bind_eq_some_iff] at h
  obtain ⟨s1, h1, h2⟩ := h
  rw [feed_newline] at h2
  cases h2
  have hs1 : At e s1 k ∧ SameLine s s1 x ∧ s1.lineDiff = s.lineDiff := by
    simp only [feed, Option.map_eq_some_iff] at h1
    obtain ⟨ts, hts, rfl⟩ := h1
    have hfl := tokenize_flatten e.u hts
    have hnl : ∀ t ∈ ts, t ≠ ['\n'] := by
      intro t ht hc
      subst hc
      apply hx.1
      rw [← hfl]
      exact List.mem_flatten.mpr ⟨_, ht, by simp⟩
    rw [← hfl]
    clear hts hfl hx
    induction ts generalizing s with
    | nil => exact ⟨hk, ⟨rfl, by simp [feedTokens], rfl, rfl, rfl, rfl, rfl, rfl, rfl, rfl⟩, rfl⟩
    | cons t ts ih =>
      have ht := hnl t (by simp)
      have a1 := feedToken_at e hk t false
      simp only [ht, if_false] at a1
      have s1 := feedToken_sameLine e (s := s) (c := false) ht
      have d1 : (feedToken e s t false).lineDiff = s.lineDiff := by
        rw [feedToken_eq]; simp only [ht, if_false]
        rw [compared_lineDiff]; simp
      obtain ⟨i1, i2, i3⟩ := ih a1 (fun t h => hnl t (by simp [h]))
      refine ⟨i1, ?_, i3.trans d1⟩
      rw [List.flatten_cons]; exact s1.trans i2
  obtain ⟨a1, b1, d1⟩ := hs1
  rw [feedToken_eq]
  simp only [if_true]
  obtain ⟨c1, c2⟩ := commitLine_at e (compared_at e a1 ['\n'] false)
  refine ⟨⟨_, c1⟩, c2, by simp, by simp, by simp, ?_, ?_, ?_⟩
  · rw [commitLine_diffs, compared_lineDiff]; simp [d1, b1.diffs]
  · rw [commitLine_errors]; simp [b1.errors, b1.lineError]
  · rw [commitLine_out]; simp [b1.out, b1.outLine]

theorem seek_exists_at (p : Str → Bool) (b : Nat) (x : Option Nat) {s : St} (h : ∃ k, At e s k) :
    ∃ k, At e (seek e p b x s) k :=
  seek_rel e (R := fun s s' => (∃ k, At e s k) → ∃ k, At e s' k) (fun _ h => h)
    (fun _ _ _ h1 h2 h => h2 (h1 h)) (fun _ ⟨_, h⟩ => ⟨_, (nextExpLine_at_min e h).1⟩)
    (fun s ⟨_, h⟩ => ⟨_, (reset_at e h.ex s).1⟩) p b x s h

theorem tsetItems_marks (pre : Str) (b x : Nat) (items : List Str)
    (hp : ∀ i ∈ items, PlainLine (pre ++ i)) :
    ∀ (s : St) (c : List Str), (∃ k, At e s k) → Fresh e s → s.outLine = [] → s.lineDiff = none →
      s.lineError = none →
      ∃ s', tsetItems e pre b x items (s, c) = some (s', restItems items c) ∧ (∃ k, At e s' k) ∧
        Fresh e s' ∧ s'.outLine = [] ∧ s'.lineDiff = none ∧ s'.lineError = none ∧
        s'.diffs = s.diffs + extraItems items c ∧ s'.errors = s.errors ∧
        s'.out = s.out ++ unlines (items.map (pre ++ ·)) := by
  induction items with
  | nil => intro s c h f o d r; exact ⟨s, rfl, h, f, o, d, r, rfl, rfl, by simp [unlines]⟩
  | cons i is ih =>
    intro s c h f o d r
    have hpl := hp i (by simp)
    by_cases hi : i ∈ c
    · obtain ⟨s1, h1⟩ := iln_total e hpl.2 (seekLine e (pre ++ i) b (some x) s)
      obtain ⟨a1, f1, o1, d1, r1, D1, R1, O1⟩ :=
        iln_marks e hpl (seek_exists_at e _ b (some x) h) h1
      obtain ⟨s2, i1, i2, i3, i4, i5, i6, i7, i8, i9⟩ :=
        ih (fun i h => hp i (by simp [h])) s1 (c.erase i) a1 f1 o1 d1 r1
      refine ⟨s2, ?_, i2, i3, i4, i5, i6, ?_, ?_, ?_⟩
      · simp only [tsetItems, hi, if_true, h1, bind, Option.bind_some, restItems]
        exact i1
      · rw [i7, D1]; simp [extraItems, hi, d]
      · rw [i8, R1]; simp [r]
      · rw [i9, O1]; simp [o, unlines]
    · obtain ⟨s1, h1⟩ := iln_total e hpl.2 (diff s)
      have hd : ∃ k, At e (diff s) k := by
        obtain ⟨k, hk⟩ := h
        refine ⟨k, ?_⟩
        unfold diff; split
        · exact at_congr e hk rfl rfl rfl hk.tok
        · exact hk
      obtain ⟨a1, f1, o1, d1, r1, D1, R1, O1⟩ := iln_marks e hpl hd h1
      obtain ⟨s2, i1, i2, i3, i4, i5, i6, i7, i8, i9⟩ :=
        ih (fun i h => hp i (by simp [h])) s1 c a1 f1 o1 d1 r1
      refine ⟨s2, ?_, i2, i3, i4, i5, i6, ?_, ?_, ?_⟩
      · simp only [tsetItems, hi, if_false, h1, bind, Option.bind_some, restItems]
        exact i1
      · rw [i7, D1]; simp [extraItems, hi, diff_lineDiff]; omega
      · rw [i8, R1]; simp [r]
      · rw [i9, O1]; simp [o, unlines]

theorem tset_run (pre : Str) (items : List Str) (hp : ∀ i ∈ items, PlainLine (pre ++ i)) {s : St}
    {k : Nat} (h : LineStart e s k) (hk : k < (snap e).length) :
    ∃ s' c, opTset e items pre s = some s' ∧
      At e s' (k + (listedFrom pre (snap e) k).length) ∧ Fresh e s' ∧ s'.outLine = [] ∧
      s'.lineError = none ∧ s'.errors = s.errors ∧
      s'.out = s.out ++ unlines (items.map (pre ++ ·)) ∧
      c.Nodup ∧ (∀ x, x ∈ c ↔ pre ++ x ∈ listedFrom pre (snap e) k) ∧
      s'.diffs = s.diffs + extraItems items c ∧ s'.lineDiff.isSome = !(restItems items c).isEmpty := by
  have hf := snap_length_fuel e
  have hl : s.expLine.isSome = true := by rw [h.at_.line]; simp [hk]
  obtain ⟨a1, f1, n1, m1⟩ := tsetScan_at e pre e.fuel s k [] h.at_ h.fresh (by omega)
  have hc := core_tsetScan e pre e.fuel s []
  generalize htS : tsetScan e pre e.fuel s [] = r at a1 f1 n1 m1 hc
  obtain ⟨s1, c⟩ := r
  obtain ⟨s2, i1, i2, i3, i4, i5, i6, i7, i8, i9⟩ :=
    tsetItems_marks e pre s.expLineNumber s1.expLineNumber items hp s1 c ⟨_, a1⟩ f1
      ((congrArg Core.outLine hc).trans h.outLine) ((congrArg Core.lineDiff hc).trans h.lineDiff)
      ((congrArg Core.lineError hc).trans h.lineError)
  refine ⟨jump e s1.expLineNumber (if 0 < (restItems items c).length then diff s2 else s2), c,
    ?_, ?_⟩
  · simp only [opTset, hl, if_true, htS, i1, bind, Option.bind_some, pure]
  obtain ⟨k2, hk2⟩ := i2
  have hle : k + (listedFrom pre (snap e) k).length ≤ (snap e).length := a1.le
  have hs3 : ∀ s3 : St, (s3 = diff s2 ∨ s3 = s2) → At e s3 k2 ∧ Fresh e s3 := by
    rintro s3 (rfl | rfl)
    · unfold diff; split
      · exact ⟨at_congr e hk2 rfl rfl rfl hk2.tok, i3⟩
      · exact ⟨hk2, i3⟩
    · exact ⟨hk2, i3⟩
  have h3 := hs3 (if 0 < (restItems items c).length then diff s2 else s2) (by
    split
    · exact Or.inl rfl
    · exact Or.inr rfl)
  obtain ⟨j1, j2⟩ := jump_at e h3.1 s1.expLineNumber
  rw [a1.num, Nat.add_sub_cancel, Nat.min_eq_left hle] at j1 j2
  have jc := core_jump e s1.expLineNumber (if 0 < (restItems items c).length then diff s2 else s2)
  rw [a1.num] at jc ⊢
  have e1 := congrArg Core.outLine jc
  have e2 := congrArg Core.lineError jc
  have e3 := congrArg Core.errors jc
  have e4 := congrArg Core.out jc
  have e5 := congrArg Core.diffs jc
  have e6 := congrArg Core.lineDiff jc
  simp only [core] at e1 e2 e3 e4 e5 e6
  refine ⟨j1, j2 (Or.inl h3.2), ?_, ?_, ?_, ?_, n1 List.nodup_nil, by simpa using m1, ?_, ?_⟩
  · rw [e1]; split <;> simp [i4]
  · rw [e2]; split <;> simp [i6]
  · rw [e3]
    have : s1.errors = s.errors := congrArg Core.errors hc
    split <;> simp [i8, this]
  · rw [e4]
    have : s1.out = s.out := congrArg Core.out hc
    split <;> simp [i9, this]
  · rw [e5]
    have : s1.diffs = s.diffs := congrArg Core.diffs hc
    split <;> simp [i7, this]
  · rw [e6]
    cases hr : restItems items c with
    | nil => simp [i5]
    | cons a b => simp [diff_lineDiff]

end Verif.Lemmas
