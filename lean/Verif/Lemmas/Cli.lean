import Verif.Spec.Cli
import Verif.Lemmas.Config

/-! # Lemmas about the command line -/

namespace Verif.Lemmas
open Verif.Py Verif.Model Verif.Spec

/-! ### Lists with one element -/

theorem filterMap_nil {α β : Type} {l : List α} {g : α → Option β} :
    l.filterMap g = [] ↔ ∀ a ∈ l, g a = none := by
  induction l with
  | nil => simp
  | cons x xs ih =>
    rw [List.filterMap_cons]
    cases h : g x with
    | none => simp [ih, h]
    | some b => simp [h]

theorem filterMap_single {α β : Type} {l : List α} (hl : l.Nodup) {g : α → Option β} {b : β} :
    l.filterMap g = [b] ↔ ∃ a ∈ l, g a = some b ∧ ∀ a' ∈ l, g a' ≠ none → a' = a := by
  induction l with
  | nil => simp
  | cons x xs ih =>
    rw [List.nodup_cons] at hl
    rw [List.filterMap_cons]
    cases h : g x with
    | none =>
      simp only
      rw [ih hl.2]
      constructor
      · rintro ⟨a, ha, hb, hu⟩
        refine ⟨a, List.mem_cons_of_mem _ ha, hb, ?_⟩
        intro a' ha' hn
        rcases List.mem_cons.mp ha' with rfl | ha'
        · exact absurd h hn
        · exact hu a' ha' hn
      · rintro ⟨a, ha, hb, hu⟩
        rcases List.mem_cons.mp ha with rfl | ha
        · rw [h] at hb; cases hb
        · exact ⟨a, ha, hb, fun a' ha' => hu a' (List.mem_cons_of_mem _ ha')⟩
    | some b' =>
      simp only
      constructor
      · intro he
        rw [List.cons.injEq] at he
        obtain ⟨rfl, he⟩ := he
        rw [filterMap_nil] at he
        refine ⟨x, List.mem_cons_self, h, ?_⟩
        intro a' ha' hn
        rcases List.mem_cons.mp ha' with rfl | ha'
        · rfl
        · exact absurd (he a' ha') hn
      · rintro ⟨a, ha, hb, hu⟩
        have hx := hu x List.mem_cons_self (by rw [h]; exact fun h => by cases h)
        subst hx
        rw [h] at hb
        cases hb
        rw [List.cons.injEq]
        refine ⟨rfl, filterMap_nil.mpr ?_⟩
        intro a' ha'
        cases hg : g a' with
        | none => rfl
        | some y =>
          have := hu a' (List.mem_cons_of_mem _ ha') (by rw [hg]; exact fun h => by cases h)
          subst this
          exact absurd ha' hl.1

/-! ### The table of options -/

set_option maxRecDepth 100000 in
theorem options_nodup : options.Nodup := by decide

set_option maxRecDepth 100000 in
theorem options_names_nodup : (options.map (·.1)).Nodup := by decide

set_option maxRecDepth 100000 in
theorem mem_optionNames (n : Str) : n ∈ optionNames ↔ n ∈ options.map (·.1) := by
  have h1 : ∀ n ∈ optionNames, n ∈ options.map (·.1) := by decide
  have h2 : ∀ n ∈ options.map (·.1), n ∈ optionNames := by decide
  exact ⟨h1 n, h2 n⟩

theorem findOption_iff (n : Str) (o : Opt) : findOption n = some o ↔ (n, o) ∈ options := by
  unfold findOption
  rw [Option.map_eq_some_iff]
  have hn := options_names_nodup
  generalize options = l at hn ⊢
  induction l with
  | nil => simp
  | cons x xs ih =>
    obtain ⟨n', o'⟩ := x
    simp only [List.map_cons, List.nodup_cons] at hn
    rw [List.find?_cons]
    by_cases h : n' = n
    · subst h
      simp only [beq_self_eq_true]
      constructor
      · rintro ⟨a, ha, rfl⟩; cases ha; exact List.mem_cons_self
      · intro h
        rcases List.mem_cons.mp h with h | h
        · cases h; exact ⟨_, rfl, rfl⟩
        · exact absurd (List.mem_map.mpr ⟨_, h, rfl⟩) hn.1
    · have : ((n' == n) = false) := by simpa using h
      simp only [this]
      refine (ih hn.2).trans ?_
      constructor
      · exact List.mem_cons_of_mem _
      · intro h'
        rcases List.mem_cons.mp h' with h' | h'
        · cases h'; exact absurd rfl h
        · exact h'

theorem findOption_none (n : Str) : findOption n = none ↔ n ∉ optionNames := by
  rw [mem_optionNames]
  constructor
  · intro h hm
    obtain ⟨⟨n', o⟩, hp, rfl⟩ := List.mem_map.mp hm
    rw [(findOption_iff n' o).mpr hp] at h
    cases h
  · intro h
    cases hf : findOption n with
    | none => rfl
    | some o => exact absurd (List.mem_map.mpr ⟨_, (findOption_iff n o).mp hf, rfl⟩) h

theorem findOption_mem {n : Str} {o : Opt} (h : findOption n = some o) : n ∈ optionNames := by
  rw [mem_optionNames]
  exact List.mem_map.mpr ⟨_, (findOption_iff n o).mp h, rfl⟩

theorem exists_option {n : Str} (h : n ∈ optionNames) : ∃ o, findOption n = some o := by
  cases hf : findOption n with
  | none => exact absurd h ((findOption_none n).mp hf)
  | some o => exact ⟨o, rfl⟩

set_option maxRecDepth 100000 in
theorem name_shape {n : Str} (h : n ∈ optionNames) :
    n.head? = some '-' ∧ 2 ≤ n.length ∧ '=' ∉ n ∧ n ≠ "--".toList := by
  have h1 : ∀ n ∈ optionNames, n.head? = some '-' ∧ 2 ≤ n.length ∧ '=' ∉ n ∧ n ≠ "--".toList := by decide
  exact h1 n h

set_option maxRecDepth 100000 in
theorem name_inits {n w : Str} (h : n ∈ optionNames) (h2 : n.take 2 ∈ optionNames) (hw : w <+: n)
    (hl : 2 ≤ w.length) : w ∈ optionNames := by
  have h1 : ∀ n ∈ optionNames, n.take 2 ∈ optionNames → ∀ k ∈ List.range 20, 2 ≤ k → n.take k ∈ optionNames := by
    decide
  have h3 : ∀ n ∈ optionNames, n.length < 20 := by decide
  rw [List.prefix_iff_eq_take.mp hw]
  have := hw.length_le
  exact h1 n h h2 w.length (List.mem_range.mpr (by have := h3 n h; omega)) hl

set_option maxRecDepth 100000 in
theorem no_third {n : Str} (h : n ∈ optionNames) (h2 : n.take 2 ∈ optionNames) (c : Char) (hc : n[2]? = some c) :
    ['-', c] ∉ optionNames := by
  have h1 : ∀ n ∈ optionNames, n.take 2 ∈ optionNames → ∀ c ∈ (n[2]?).toList, ['-', c] ∉ optionNames := by decide
  exact h1 n h h2 c (by rw [hc]; exact List.mem_cons_self)

set_option maxRecDepth 100000 in
theorem letter_act {c : Char} {o : Opt} (h : findOption ['-', c] = some o) : o.act.takesArg = false := by
  have h1 : ∀ p ∈ options, p.1.length = 2 → p.2.act.takesArg = false := by decide
  exact h1 _ ((findOption_iff _ _).mp h) rfl

theorem sw_iff (s p : Str) : startsWith s p = true ↔ p <+: s := List.isPrefixOf_iff_prefix

theorem map_filter_eq {α β : Type} (l : List α) (f : α → Bool) (g : α → β) :
    (l.filter f).map g = l.filterMap (fun a => if f a = true then some (g a) else none) := by
  induction l with
  | nil => rfl
  | cons x xs ih =>
    rw [List.filter_cons, List.filterMap_cons]
    by_cases h : f x = true
    · simp only [h, if_true, List.map_cons, ih]
    · simp [h, ih]

/-! ### What an argument is -/

/-- What `_get_option_tuples` finds for one name. -/
def tupleOf (s : Str) (p : Str × Opt) : Option (Opt × Str × Option Str × Option Str) :=
  if "--".toList <+: s then
    match splitEq s with
    | none => if s <+: p.1 then some (p.2, p.1, none, none) else none
    | some (pre, given) => if pre <+: p.1 then some (p.2, p.1, some "=".toList, some given) else none
  else if p.1 = s.take 2 then some (p.2, p.1, some [], some (s.drop 2))
  else if s <+: p.1 then some (p.2, p.1, none, none)
  else none

theorem optionTuples_eq (s : Str) : optionTuples s = options.filterMap (tupleOf s) := by
  unfold optionTuples
  by_cases h : "--".toList <+: s
  · rw [if_pos ((sw_iff _ _).mpr h)]
    cases hs : splitEq s with
    | none =>
      simp only [map_filter_eq, sw_iff]
      congr 1
      funext p
      unfold tupleOf
      rw [if_pos h, hs]
    | some q =>
      obtain ⟨pre, given⟩ := q
      simp only [map_filter_eq, sw_iff]
      congr 1
      funext p
      unfold tupleOf
      rw [if_pos h, hs]
  · rw [if_neg (fun h' => h ((sw_iff _ _).mp h'))]
    congr 1
    funext p
    unfold tupleOf
    rw [if_neg h]
    simp only [sw_iff]

theorem tuples_single (s : Str) (o : Opt) (name : Str) (sep given : Option Str) :
    optionTuples s = [(o, name, sep, given)] ↔
      ∃ p ∈ options, tupleOf s p = some (o, name, sep, given) ∧ ∀ q ∈ options, tupleOf s q ≠ none → q = p := by
  rw [optionTuples_eq, filterMap_single options_nodup]

theorem tuples_nil (s : Str) : optionTuples s = [] ↔ ∀ p ∈ options, tupleOf s p = none := by
  rw [optionTuples_eq, filterMap_nil]

theorem tupleOf_name {s : Str} {p : Str × Opt} {o : Opt} {name : Str} {sep given : Option Str}
    (h : tupleOf s p = some (o, name, sep, given)) : p = (name, o) := by
  unfold tupleOf at h
  by_cases h1 : "--".toList <+: s
  · rw [if_pos h1] at h
    cases hs : splitEq s with
    | none =>
      rw [hs] at h
      simp only at h
      by_cases h2 : s <+: p.1
      · rw [if_pos h2] at h; cases h; rfl
      · rw [if_neg h2] at h; cases h
    | some q =>
      rw [hs] at h
      simp only at h
      by_cases h2 : q.1 <+: p.1
      · rw [if_pos h2] at h; cases h; rfl
      · rw [if_neg h2] at h; cases h
  · rw [if_neg h1] at h
    by_cases h2 : p.1 = s.take 2
    · rw [if_pos h2] at h; cases h; rfl
    · rw [if_neg h2] at h
      by_cases h3 : s <+: p.1
      · rw [if_pos h3] at h; cases h; rfl
      · rw [if_neg h3] at h; cases h

theorem option_mem_name {p : Str × Opt} (h : p ∈ options) : p.1 ∈ optionNames :=
  (mem_optionNames _).mpr (List.mem_map.mpr ⟨p, h, rfl⟩)

theorem option_ext {p q : Str × Opt} (hp : p ∈ options) (hq : q ∈ options) (h : p.1 = q.1) : p = q := by
  obtain ⟨n, o⟩ := p
  obtain ⟨n', o'⟩ := q
  simp only at h
  subst h
  have h1 := (findOption_iff _ _).mpr hp
  have h2 := (findOption_iff _ _).mpr hq
  rw [h1] at h2
  cases h2
  rfl

theorem denotes_cases {w name : Str} (h : NamesOption w name) :
    w = name ∨ (w ∉ optionNames ∧ ∀ other ∈ optionNames, w <+: other → other = name) := by
  obtain ⟨h1, h2, h3⟩ := h
  rcases h3 with h3 | h3
  · exact .inl h3
  · by_cases hw : w ∈ optionNames
    · exact .inl (h3 w hw (List.prefix_refl _))
    · exact .inr ⟨hw, h3⟩

set_option maxRecDepth 100000 in
theorem two_names : "-i".toList ∈ optionNames ∧ "-v".toList ∈ optionNames := by decide

theorem denotes_shape {w name : Str} (h : NamesOption w name) : w.head? = some '-' ∧ 2 ≤ w.length ∧ '=' ∉ w := by
  have hn := name_shape h.1
  obtain ⟨t, ht⟩ := h.2.1
  have heq : '=' ∉ w := fun hm => hn.2.2.1 (by rw [← ht]; exact List.mem_append_left _ hm)
  have key : ∀ v : Str, v <+: "-".toList → ¬ (∀ other ∈ optionNames, v <+: other → other = name) := by
    intro v hv hall
    have h1 := hall _ two_names.1 (hv.trans ⟨"i".toList, rfl⟩)
    have h2 := hall _ two_names.2 (hv.trans ⟨"v".toList, rfl⟩)
    rw [← h2] at h1
    cases h1
  rcases denotes_cases h with rfl | ⟨_, hall⟩
  · exact ⟨hn.1, hn.2.1, hn.2.2.1⟩
  · match w, ht with
    | [], _ => exact absurd hall (key [] (List.nil_prefix))
    | [c], ht =>
      have hc : c = '-' := by
        have := hn.1
        rw [← ht] at this
        simpa using this
      subst hc
      exact absurd hall (key _ (List.prefix_refl _))
    | c :: d :: w', ht =>
      have hc : c = '-' := by
        have := hn.1
        rw [← ht] at this
        simpa using this
      subst hc
      exact ⟨rfl, by simp, heq⟩

theorem splitEq_of_mem {w x : Str} (h : '=' ∉ w) : splitEq (w ++ '=' :: x) = some (w, x) := by
  rw [splitEq_some]
  exact ⟨by simp, h⟩

theorem parse_denotes (N : Numbers) {w name : Str} (h : NamesOption w name) :
    ∃ o, findOption name = some o ∧ parseOptional N w = some (.option o name none none) := by
  obtain ⟨o, ho⟩ := exists_option h.1
  refine ⟨o, ho, ?_⟩
  obtain ⟨s1, s2, s3⟩ := denotes_shape h
  unfold parseOptional
  rw [if_neg (by intro he; rw [List.isEmpty_iff.mp he] at s2; simp at s2), if_neg (by rw [s1]; simp)]
  rcases denotes_cases h with rfl | ⟨hw, hall⟩
  · rw [ho]
  · rw [(findOption_none w).mpr hw]
    simp only
    rw [if_neg (by omega), (splitEq_none w).mpr s3]
    simp only
    unfold parseTuples
    have hp : (name, o) ∈ options := (findOption_iff _ _).mp ho
    have : optionTuples w = [(o, name, none, none)] := by
      rw [tuples_single]
      refine ⟨(name, o), hp, ?_, ?_⟩
      · unfold tupleOf
        by_cases h1 : "--".toList <+: w
        · rw [if_pos h1, (splitEq_none w).mpr s3]
          simp only
          rw [if_pos h.2.1]
        · rw [if_neg h1]
          by_cases h2 : name = w.take 2
          · exfalso
            have : w <+: w.take 2 := by rw [← h2]; exact h.2.1
            have hl := this.length_le
            rw [List.length_take] at hl
            apply hw
            have : w = w.take 2 := by
              rw [List.take_of_length_le (by omega)]
            rw [this, ← h2]
            exact h.1
          · rw [if_neg h2, if_pos h.2.1]
      · intro q hq hn
        apply option_ext hq hp
        unfold tupleOf at hn
        by_cases h1 : "--".toList <+: w
        · rw [if_pos h1, (splitEq_none w).mpr s3] at hn
          simp only at hn
          by_cases h2 : w <+: q.1
          · exact hall _ (option_mem_name hq) h2
          · rw [if_neg h2] at hn; exact absurd rfl hn
        · rw [if_neg h1] at hn
          by_cases h2 : q.1 = w.take 2
          · exfalso
            apply hw
            refine name_inits h.1 ?_ h.2.1 s2
            obtain ⟨t, ht⟩ := h.2.1
            rw [← ht, List.take_append_of_le_length s2, ← h2]
            exact option_mem_name hq
          · rw [if_neg h2] at hn
            by_cases h3 : w <+: q.1
            · exact hall _ (option_mem_name hq) h3
            · rw [if_neg h3] at hn; exact absurd rfl hn
    rw [this]

theorem parse_equals (N : Numbers) {w name : Str} (x : Str) (h : NamesOption w name)
    (hw : w = name ∨ "--".toList <+: w) : ∃ o, findOption name = some o ∧
      parseOptional N (w ++ '=' :: x) = some (.option o name (some "=".toList) (some x)) := by
  obtain ⟨o, ho⟩ := exists_option h.1
  refine ⟨o, ho, ?_⟩
  obtain ⟨s1, s2, s3⟩ := denotes_shape h
  have hne : w ++ '=' :: x ∉ optionNames := fun hm => (name_shape hm).2.2.1 (by simp)
  unfold parseOptional
  rw [if_neg (by simp), if_neg (by
    rw [List.head?_append, s1]; simp), (findOption_none _).mpr hne]
  simp only
  rw [if_neg (by simp; omega), splitEq_of_mem s3]
  simp only
  rcases denotes_cases h with rfl | ⟨hw', hall⟩
  · rw [ho]
  · have hdd : "--".toList <+: w := by
      rcases hw with rfl | hw
      · exact absurd h.1 hw'
      · exact hw
    rw [(findOption_none w).mpr hw']
    simp only
    have hp : (name, o) ∈ options := (findOption_iff _ _).mp ho
    have hdd' : "--".toList <+: w ++ '=' :: x := hdd.trans (List.prefix_append _ _)
    have : optionTuples (w ++ '=' :: x) = [(o, name, some "=".toList, some x)] := by
      rw [tuples_single]
      refine ⟨(name, o), hp, ?_, ?_⟩
      · unfold tupleOf
        rw [if_pos hdd', splitEq_of_mem s3]
        simp only
        rw [if_pos h.2.1]
      · intro q hq hn
        apply option_ext hq hp
        unfold tupleOf at hn
        rw [if_pos hdd', splitEq_of_mem s3] at hn
        simp only at hn
        by_cases h2 : w <+: q.1
        · exact hall _ (option_mem_name hq) h2
        · rw [if_neg h2] at hn; exact absurd rfl hn
    unfold parseTuples
    rw [this]

theorem parse_letters (N : Numbers) (c d : Char) (cs : List Char) (h : ∀ x ∈ c :: d :: cs, ['-', x] ∈ optionNames) :
    ∃ o, findOption ['-', c] = some o ∧
      parseOptional N ('-' :: c :: d :: cs) = some (.option o ['-', c] (some []) (some (d :: cs))) := by
  have hc := h c List.mem_cons_self
  have hd := h d (by simp)
  obtain ⟨o, ho⟩ := exists_option hc
  refine ⟨o, ho, ?_⟩
  have no : ∀ n ∈ optionNames, ¬ ('-' :: c :: d :: cs) <+: n := by
    intro n hn hp
    obtain ⟨t, ht⟩ := hp
    exact no_third hn (by rw [← ht]; exact hc) d (by rw [← ht]; rfl) hd
  have hne : '-' :: c :: d :: cs ∉ optionNames := fun hm => no _ hm (List.prefix_refl _)
  have heq : '=' ∉ '-' :: c :: d :: cs := by
    intro hm
    rcases List.mem_cons.mp hm with hm | hm
    · cases hm
    · exact (name_shape (h _ hm)).2.2.1 (by simp)
  have hdash : c ≠ '-' := by
    rintro rfl
    exact (name_shape hc).2.2.2 rfl
  have hdd : ¬ "--".toList <+: '-' :: c :: d :: cs := by
    rintro ⟨t, ht⟩
    have : '-' :: '-' :: t = '-' :: c :: d :: cs := ht
    simp only [List.cons.injEq, true_and] at this
    exact hdash this.1.symm
  unfold parseOptional
  rw [if_neg (by simp), if_neg (by simp), (findOption_none _).mpr hne]
  simp only
  rw [if_neg (by simp), (splitEq_none _).mpr heq]
  simp only
  have hp : (['-', c], o) ∈ options := (findOption_iff _ _).mp ho
  have : optionTuples ('-' :: c :: d :: cs) = [(o, ['-', c], some [], some (d :: cs))] := by
    rw [tuples_single]
    refine ⟨(['-', c], o), hp, ?_, ?_⟩
    · unfold tupleOf
      rw [if_neg hdd, if_pos (show (['-', c], o).1 = ('-' :: c :: d :: cs).take 2 from rfl)]
      rfl
    · intro q hq hn
      apply option_ext hq hp
      unfold tupleOf at hn
      rw [if_neg hdd] at hn
      by_cases h2 : q.1 = ('-' :: c :: d :: cs).take 2
      · exact h2
      · rw [if_neg h2, if_neg (no _ (option_mem_name hq))] at hn
        exact absurd rfl hn
  unfold parseTuples
  rw [this]

theorem tuples_option {s : Str} (hs : s.head? = some '-') (hl : 2 ≤ s.length) (hn : s ∉ optionNames) {o : Opt} {name : Str} {sep given : Option Str}
    (h : optionTuples s = [(o, name, sep, given)]) :
    findOption name = some o ∧
      ((sep = none ∧ given = none ∧ NamesOption s name) ∨
       (∃ w x, sep = some "=".toList ∧ given = some x ∧ s = w ++ '=' :: x ∧ NamesOption w name ∧
          (w = name ∨ "--".toList <+: w)) ∨
       (∃ c x, sep = some [] ∧ given = some x ∧ name = ['-', c] ∧ s = '-' :: c :: x ∧ x ≠ [])) := by
  obtain ⟨p, hp, ht, hu⟩ := (tuples_single _ _ _ _ _).mp h
  have hpn := tupleOf_name ht
  subst hpn
  refine ⟨(findOption_iff _ _).mpr hp, ?_⟩
  have hnm : name ∈ optionNames := option_mem_name hp
  unfold tupleOf at ht
  by_cases h1 : "--".toList <+: s
  · rw [if_pos h1] at ht
    cases hs' : splitEq s with
    | none =>
      rw [hs'] at ht
      simp only at ht
      by_cases h2 : s <+: name
      · rw [if_pos h2] at ht
        cases ht
        refine .inl ⟨rfl, rfl, hnm, h2, .inr ?_⟩
        intro other ho hpre
        obtain ⟨oo, hoo⟩ := exists_option ho
        have := hu (other, oo) ((findOption_iff _ _).mp hoo) (by
          unfold tupleOf
          rw [if_pos h1, hs']
          simp only
          rw [if_pos hpre]
          exact fun h => by cases h)
        exact congrArg Prod.fst this
      · rw [if_neg h2] at ht; cases ht
    | some q =>
      obtain ⟨w, x⟩ := q
      rw [hs'] at ht
      simp only at ht
      obtain ⟨e1, e2⟩ := (splitEq_some _ _ _).mp hs'
      by_cases h2 : w <+: name
      · rw [if_pos h2] at ht
        cases ht
        refine .inr (.inl ⟨w, x, rfl, rfl, by rw [e1]; simp, ⟨hnm, h2, .inr ?_⟩, .inr ?_⟩)
        · intro other ho hpre
          obtain ⟨oo, hoo⟩ := exists_option ho
          have := hu (other, oo) ((findOption_iff _ _).mp hoo) (by
            unfold tupleOf
            rw [if_pos h1, hs']
            simp only
            rw [if_pos hpre]
            exact fun h => by cases h)
          exact congrArg Prod.fst this
        · obtain ⟨t, ht⟩ := h1
          rw [e1] at ht
          have ht' : '-' :: '-' :: t = w ++ '=' :: x := by rw [show w ++ '=' :: x = w ++ "=".toList ++ x by simp]; exact ht
          match w, ht' with
          | [], ht' => simp at ht'
          | [a], ht' =>
            simp only [List.cons_append, List.nil_append, List.cons.injEq] at ht'
            exact absurd ht'.2.1 (by decide)
          | a :: b :: w', ht' =>
            simp only [List.cons_append, List.cons.injEq] at ht'
            refine ⟨w', ?_⟩
            rw [← ht'.1, ← ht'.2.1]
            rfl
      · rw [if_neg h2] at ht; cases ht
  · rw [if_neg h1] at ht
    by_cases h2 : name = s.take 2
    · rw [if_pos h2] at ht
      cases ht
      match s, hs, hl with
      | a :: b :: s', hs, _ =>
        have ha : a = '-' := by simpa using hs
        subst ha
        refine .inr (.inr ⟨b, s', rfl, rfl, h2, rfl, ?_⟩)
        rintro rfl
        exact hn (by rw [show ['-', b] = ['-', b].take 2 from rfl, ← h2]; exact hnm)
    · rw [if_neg h2] at ht
      by_cases h3 : s <+: name
      · rw [if_pos h3] at ht
        cases ht
        refine .inl ⟨rfl, rfl, hnm, h3, .inr ?_⟩
        intro other ho hpre
        obtain ⟨oo, hoo⟩ := exists_option ho
        have := hu (other, oo) ((findOption_iff _ _).mp hoo) (by
          unfold tupleOf
          rw [if_neg h1]
          by_cases h4 : other = s.take 2
          · rw [if_pos h4]; exact fun h => by cases h
          · rw [if_neg h4, if_pos hpre]; exact fun h => by cases h)
        exact congrArg Prod.fst this
      · rw [if_neg h3] at ht; cases ht

theorem parseTuples_option {N : Numbers} {s : Str} {o : Opt} {name : Str} {sep given : Option Str}
    (h : parseTuples N s = some (.option o name sep given)) : optionTuples s = [(o, name, sep, given)] := by
  unfold parseTuples at h
  match ho : optionTuples s with
  | [] =>
    rw [ho] at h
    simp only at h
    by_cases h1 : N.negative s = true
    · rw [if_pos h1] at h; cases h
    · rw [if_neg h1] at h
      by_cases h2 : s.contains ' ' = true
      · rw [if_pos h2] at h; cases h
      · rw [if_neg h2] at h; cases h
  | [x] => rw [ho] at h; cases h; rfl
  | _ :: _ :: _ => rw [ho] at h; cases h

theorem parse_option {N : Numbers} {s : Str} {o : Opt} {name : Str} {sep given : Option Str}
    (h : parseOptional N s = some (.option o name sep given)) :
    findOption name = some o ∧
      ((sep = none ∧ given = none ∧ NamesOption s name) ∨
       (∃ w x, sep = some "=".toList ∧ given = some x ∧ s = w ++ '=' :: x ∧ NamesOption w name ∧
          (w = name ∨ "--".toList <+: w)) ∨
       (∃ c x, sep = some [] ∧ given = some x ∧ name = ['-', c] ∧ s = '-' :: c :: x ∧ x ≠ [])) := by
  unfold parseOptional at h
  by_cases h1 : s.isEmpty = true
  · rw [if_pos h1] at h; cases h
  · rw [if_neg h1] at h
    by_cases h2 : s.head? ≠ some '-'
    · rw [if_pos h2] at h; cases h
    · rw [if_neg h2] at h
      have h2' : s.head? = some '-' := Classical.not_not.mp h2
      cases hf : findOption s with
      | some o' =>
        rw [hf] at h
        cases h
        exact ⟨hf, .inl ⟨rfl, rfl, findOption_mem hf, List.prefix_refl _, .inl rfl⟩⟩
      | none =>
        rw [hf] at h
        simp only at h
        by_cases h3 : s.length = 1
        · rw [if_pos h3] at h; cases h
        · rw [if_neg h3] at h
          have hl : 2 ≤ s.length := by
            cases s with
            | nil => simp at h1
            | cons a s => simp at h3 ⊢; cases s with
              | nil => exact absurd rfl h3
              | cons b s => simp
          have hn := (findOption_none s).mp hf
          cases hs : splitEq s with
          | none =>
            rw [hs] at h
            exact tuples_option h2' hl hn (parseTuples_option h)
          | some q =>
            obtain ⟨w, x⟩ := q
            rw [hs] at h
            simp only at h
            cases hw : findOption w with
            | none =>
              rw [hw] at h
              exact tuples_option h2' hl hn (parseTuples_option h)
            | some o' =>
              rw [hw] at h
              cases h
              refine ⟨hw, .inr (.inl ⟨name, x, rfl, rfl, ?_, ⟨findOption_mem hw, List.prefix_refl _, .inl rfl⟩, .inl rfl⟩)⟩
              rw [((splitEq_some _ _ _).mp hs).1]
              simp

theorem looks_iff {s : Str} (hl : 2 ≤ s.length) :
    LooksLikeOption s ↔ s ∈ optionNames ∨ (∃ w x, splitEq s = some (w, x) ∧ w ∈ optionNames) ∨
      ∃ p ∈ options, tupleOf s p ≠ none := by
  constructor
  · rintro ⟨name, hn, h⟩
    obtain ⟨o, ho⟩ := exists_option hn
    have hp := (findOption_iff _ _).mp ho
    rcases h with h | ⟨w, y, rfl, h⟩ | ⟨h2, h⟩
    · right; right
      refine ⟨_, hp, ?_⟩
      have hq : splitEq s = none := by
        rw [splitEq_none]
        intro hm
        obtain ⟨t, rfl⟩ := h
        exact (name_shape hn).2.2.1 (List.mem_append_left _ hm)
      unfold tupleOf
      by_cases h1 : "--".toList <+: s
      · rw [if_pos h1, hq]
        simp only
        rw [if_pos h]
        exact fun h => by cases h
      · rw [if_neg h1]
        by_cases h2 : name = s.take 2
        · rw [if_pos h2]; exact fun h => by cases h
        · rw [if_neg h2, if_pos h]; exact fun h => by cases h
    · rcases h with rfl | ⟨h1, h2⟩
      · exact .inr (.inl ⟨w, y, splitEq_of_mem (name_shape hn).2.2.1, hn⟩)
      · right; right
        refine ⟨_, hp, ?_⟩
        have hq : '=' ∉ w := by
          intro hm
          obtain ⟨t, rfl⟩ := h2
          exact (name_shape hn).2.2.1 (List.mem_append_left _ hm)
        unfold tupleOf
        rw [if_pos (h1.trans (List.prefix_append _ _)), splitEq_of_mem hq]
        simp only
        rw [if_pos h2]
        exact fun h => by cases h
    · right; right
      refine ⟨_, hp, ?_⟩
      have ht : name = s.take 2 := by rw [List.prefix_iff_eq_take.mp h, h2]
      unfold tupleOf
      rw [if_neg, if_pos ht]
      · exact fun h => by cases h
      · rintro ⟨t, rfl⟩
        exact (name_shape hn).2.2.2 (by rw [ht]; rfl)
  · rintro (h | ⟨w, x, hs, h⟩ | ⟨p, hp, h⟩)
    · exact ⟨s, h, .inl (List.prefix_refl _)⟩
    · refine ⟨w, h, .inr (.inl ⟨w, x, ?_, .inl rfl⟩)⟩
      rw [((splitEq_some _ _ _).mp hs).1]
      simp
    · refine ⟨p.1, option_mem_name hp, ?_⟩
      unfold tupleOf at h
      by_cases h1 : "--".toList <+: s
      · rw [if_pos h1] at h
        cases hs' : splitEq s with
        | none =>
          rw [hs'] at h
          simp only at h
          by_cases h2 : s <+: p.1
          · exact .inl h2
          · rw [if_neg h2] at h; exact absurd rfl h
        | some q =>
          obtain ⟨w, x⟩ := q
          rw [hs'] at h
          simp only at h
          by_cases h2 : w <+: p.1
          · obtain ⟨e1, e2⟩ := (splitEq_some _ _ _).mp hs'
            refine .inr (.inl ⟨w, x, by rw [e1]; simp, .inr ⟨?_, h2⟩⟩)
            obtain ⟨t, ht⟩ := h1
            rw [e1] at ht
            have ht' : '-' :: '-' :: t = w ++ '=' :: x := by rw [show w ++ '=' :: x = w ++ "=".toList ++ x by simp]; exact ht
            match w, ht' with
            | [], ht' => simp at ht'
            | [a], ht' =>
              simp only [List.cons_append, List.nil_append, List.cons.injEq] at ht'
              exact absurd ht'.2.1 (by decide)
            | a :: b :: w', ht' =>
              simp only [List.cons_append, List.cons.injEq] at ht'
              refine ⟨w', ?_⟩
              rw [← ht'.1, ← ht'.2.1]
              rfl
          · rw [if_neg h2] at h; exact absurd rfl h
      · rw [if_neg h1] at h
        by_cases h2 : p.1 = s.take 2
        · refine .inr (.inr ⟨?_, ?_⟩)
          · rw [h2, List.length_take]; omega
          · rw [h2]; exact List.take_prefix _ _
        · rw [if_neg h2] at h
          by_cases h3 : s <+: p.1
          · exact .inl h3
          · rw [if_neg h3] at h; exact absurd rfl h

theorem parseTuples_arg (N : Numbers) (s : Str) :
    parseTuples N s = some .arg ↔ (∀ p ∈ options, tupleOf s p = none) ∧ (N.negative s = true ∨ ' ' ∈ s) := by
  rw [← tuples_nil]
  unfold parseTuples
  match ho : optionTuples s with
  | [] =>
    simp only [true_and]
    by_cases h1 : N.negative s = true
    · rw [if_pos h1]; simp [h1]
    · rw [if_neg h1]
      by_cases h2 : s.contains ' ' = true
      · rw [if_pos h2]
        simp [List.contains_iff_mem.mp h2]
      · rw [if_neg h2]
        have : ' ' ∉ s := fun h => h2 (List.contains_iff_mem.mpr h)
        simp [h1, this]
  | [x] => simp
  | _ :: _ :: _ => simp

theorem parse_arg (N : Numbers) (s : Str) : parseOptional N s = some .arg ↔ PlainText N s := by
  unfold parseOptional PlainText
  by_cases h1 : s.isEmpty = true
  · rw [if_pos h1]
    rw [List.isEmpty_iff.mp h1]
    simp
  · rw [if_neg h1]
    by_cases h2 : s.head? ≠ some '-'
    · rw [if_pos h2]; simp [h2]
    · rw [if_neg h2]
      have h2' : s.head? = some '-' := Classical.not_not.mp h2
      by_cases h3 : s.length = 1
      · have : s = "-".toList := by
          match s, h3, h2' with
          | [a], _, h => simp at h; rw [h]; rfl
        have hf : findOption s = none := by
          rw [findOption_none]
          intro hm
          have := (name_shape hm).2.1
          omega
        rw [hf]
        simp only
        rw [if_pos h3]
        simp [this]
      · have hl : 2 ≤ s.length := by
          cases s with
          | nil => simp at h1
          | cons a s => simp at h3 ⊢; cases s with
            | nil => exact absurd rfl h3
            | cons b s => simp
        have hne : s ≠ "-".toList := by rintro rfl; exact h3 rfl
        have key : (s.head? ≠ some '-' ∨ s = "-".toList ∨ ¬LooksLikeOption s ∧ (N.negative s = true ∨ ' ' ∈ s)) ↔
            (¬LooksLikeOption s ∧ (N.negative s = true ∨ ' ' ∈ s)) := by
          constructor
          · rintro (h | h | h)
            · exact absurd h2' h
            · exact absurd h hne
            · exact h
          · exact fun h => .inr (.inr h)
        rw [key, looks_iff hl]
        cases hf : findOption s with
        | some o =>
          simp only
          constructor
          · intro h; cases h
          · intro h; exact absurd (.inl (findOption_mem hf)) h.1
        | none =>
          have hn := (findOption_none s).mp hf
          simp only
          rw [if_neg h3]
          cases hs : splitEq s with
          | none =>
            simp only
            rw [parseTuples_arg]
            constructor
            · rintro ⟨g1, g2⟩
              refine ⟨?_, g2⟩
              rintro (h | ⟨w, x, h, _⟩ | ⟨p, hp, h⟩)
              · exact hn h
              · cases h
              · exact h (g1 p hp)
            · rintro ⟨g1, g2⟩
              refine ⟨?_, g2⟩
              intro p hp
              exact Classical.byContradiction fun h => g1 (.inr (.inr ⟨p, hp, h⟩))
          | some q =>
            obtain ⟨w, x⟩ := q
            simp only
            cases hw : findOption w with
            | some o =>
              simp only
              constructor
              · intro h; cases h
              · intro h; exact absurd (.inr (.inl ⟨w, x, rfl, findOption_mem hw⟩)) h.1
            | none =>
              simp only
              rw [parseTuples_arg]
              constructor
              · rintro ⟨g1, g2⟩
                refine ⟨?_, g2⟩
                rintro (h | ⟨w', x', h, h'⟩ | ⟨p, hp, h⟩)
                · exact hn h
                · cases h
                  exact (findOption_none w).mp hw h'
                · exact h (g1 p hp)
              · rintro ⟨g1, g2⟩
                refine ⟨?_, g2⟩
                intro p hp
                exact Classical.byContradiction fun h => g1 (.inr (.inr ⟨p, hp, h⟩))

/-! ### What is stored -/

/-- The destinations of the options, and the settings they are for. -/
def destKeys : List (Str × Str) :=
  [("i".toList, "interactive".toList), ("I".toList, "always_interactive".toList), ("v".toList, "verbose".toList),
   ("L".toList, "print_logs".toList), ("f".toList, "fail_fast".toList), ("c".toList, "continue".toList),
   ("r".toList, "refresh_sources".toList), ("u".toList, "update".toList), ("a".toList, "accept".toList),
   ("p".toList, "parallel".toList), ("s".toList, "complete_snapshots".toList),
   ("S".toList, "refresh_snapshots".toList), ("cov".toList, "coverage".toList),
   ("md_viewer".toList, "md_viewer".toList), ("diff_tool".toList, "diff_tool".toList),
   ("cmd".toList, "command".toList)]

set_option maxRecDepth 100000 in
theorem destKeys_inj {a b : Str × Str} (ha : a ∈ destKeys) (hb : b ∈ destKeys) : a.1 = b.1 ↔ a.2 = b.2 := by
  have h : ∀ a ∈ destKeys, ∀ b ∈ destKeys, (a.1 = b.1 ↔ a.2 = b.2) := by decide
  exact h a ha b hb

/-- What an option stores for its argument. -/
def Stores (N : Numbers) (a : Act) (arg : Option Str) (v : CVal) : Prop :=
  (arg = none ∧ a = .const v) ∨ (∃ x, arg = some x ∧ a = .str ∧ v = .str x) ∨
    (∃ x n, arg = some x ∧ a = .int ∧ N.int x = some n ∧ v = .int n)

set_option maxRecDepth 100000 in
theorem sets_stores {N : Numbers} {name : Str} {arg : Option Str} {key : Str} {v : CVal}
    (h : Sets N name arg key v) :
    ∃ o, findOption name = some o ∧ (o.dest, key) ∈ destKeys ∧ Stores N o.act arg v := by
  have h1 : ∀ s ∈ switches, ∃ d ∈ destKeys, d.2 = s.2.1 ∧ (s.1, (⟨d.1, .const s.2.2⟩ : Opt)) ∈ options := by decide
  have h2 : ∀ c ∈ commands, (c.1, (⟨"cmd".toList, .const (.str c.2)⟩ : Opt)) ∈ options := by decide
  have h3 : ∀ t ∈ tools, ∃ d ∈ destKeys, d.2 = t.2 ∧ (t.1, (⟨d.1, .str⟩ : Opt)) ∈ options := by decide
  have h4 : ("--parallel-count".toList, (⟨"p".toList, .int⟩ : Opt)) ∈ options := by decide
  have h5 : ("cmd".toList, "command".toList) ∈ destKeys := by decide
  have h6 : ("p".toList, "parallel".toList) ∈ destKeys := by decide
  cases h with
  | switch _ _ _ h =>
    obtain ⟨⟨d, k⟩, hd, he, ho⟩ := h1 _ h
    simp only at he ho
    subst he
    exact ⟨_, (findOption_iff _ _).mpr ho, hd, .inl ⟨rfl, rfl⟩⟩
  | command _ c h => exact ⟨_, (findOption_iff _ _).mpr (h2 _ h), h5, .inl ⟨rfl, rfl⟩⟩
  | tool _ _ x h =>
    obtain ⟨⟨d, k⟩, hd, he, ho⟩ := h3 _ h
    simp only at he ho
    subst he
    exact ⟨_, (findOption_iff _ _).mpr ho, hd, .inr (.inl ⟨x, rfl, rfl, rfl⟩)⟩
  | count x n h => exact ⟨_, (findOption_iff _ _).mpr h4, h6, .inr (.inr ⟨x, n, rfl, rfl, h, rfl⟩)⟩

/-- The constant of an option. -/
def constOf : Act → Option CVal
  | .const v => some v
  | _ => none

set_option maxRecDepth 100000 in
theorem stores_sets {N : Numbers} {name : Str} {o : Opt} {arg : Option Str} {v : CVal}
    (ho : findOption name = some o) (h : Stores N o.act arg v) :
    ∃ key, (o.dest, key) ∈ destKeys ∧ Sets N name arg key v := by
  have h1 : ∀ p ∈ options, ∀ v ∈ (constOf p.2.act).toList,
      (∃ d ∈ destKeys, d.1 = p.2.dest ∧ (p.1, d.2, v) ∈ switches) ∨
      (p.2.dest = "cmd".toList ∧ ∃ c ∈ commands, c.1 = p.1 ∧ v = .str c.2) := by decide
  have h2 : ∀ p ∈ options, p.2.act = .str → ∃ d ∈ destKeys, d.1 = p.2.dest ∧ (p.1, d.2) ∈ tools := by decide
  have h3 : ∀ p ∈ options, p.2.act = .int → p.1 = "--parallel-count".toList ∧ p.2.dest = "p".toList := by decide
  have h5 : ("cmd".toList, "command".toList) ∈ destKeys := by decide
  have h6 : ("p".toList, "parallel".toList) ∈ destKeys := by decide
  have hp := (findOption_iff _ _).mp ho
  rcases h with ⟨rfl, ha⟩ | ⟨x, rfl, ha, rfl⟩ | ⟨x, n, rfl, ha, hn, rfl⟩
  · have := h1 _ hp v (by show v ∈ (constOf o.act).toList; rw [ha]; exact List.mem_cons_self)
    rcases this with ⟨⟨d, k⟩, hd, he, hs⟩ | ⟨he, ⟨n', c⟩, hc, hn, hv⟩
    · simp only at he hs
      subst he
      exact ⟨k, hd, .switch _ _ _ hs⟩
    · simp only at he hn hv
      subst hn hv
      exact ⟨_, by rw [he]; exact h5, .command _ _ hc⟩
  · obtain ⟨⟨d, k⟩, hd, he, hs⟩ := h2 _ hp ha
    simp only at he hs
    subst he
    exact ⟨k, hd, .tool _ _ _ hs⟩
  · obtain ⟨e1, e2⟩ := h3 _ hp ha
    simp only at e1 e2
    subst e1
    exact ⟨_, by rw [e2]; exact h6, .count x n hn⟩

theorem takeAction_ok {N : Numbers} {values values' : Dict CVal} {o : Opt} {arg : Option Str}
    (harg : o.act.takesArg = arg.isSome) :
    takeAction N values (o, arg) = .ok values' ↔ ∃ v, Stores N o.act arg v ∧ values' = values.set o.dest v := by
  unfold takeAction Stores
  cases ha : o.act with
  | const v =>
    rw [ha] at harg
    cases arg with
    | some x => cases harg
    | none =>
      simp only
      constructor
      · intro h; cases h; exact ⟨v, .inl (by simp), rfl⟩
      · rintro ⟨v', (⟨_, h⟩ | ⟨x, h, _⟩ | ⟨x, n, h, _⟩), rfl⟩
        · cases h; rfl
        · cases h
        · cases h
  | str =>
    rw [ha] at harg
    cases arg with
    | none => cases harg
    | some x =>
      simp only
      constructor
      · intro h; cases h; exact ⟨.str x, .inr (.inl ⟨x, by simp⟩), rfl⟩
      · rintro ⟨v', (⟨h, _⟩ | ⟨x, h, _, rfl⟩ | ⟨x, n, _, h, _⟩), rfl⟩
        · cases h
        · cases h; rfl
        · cases h
  | int =>
    rw [ha] at harg
    cases arg with
    | none => cases harg
    | some x =>
      simp only
      cases hn : N.int x with
      | none =>
        simp only
        constructor
        · intro h; cases h
        · rintro ⟨v', (⟨h, _⟩ | ⟨x, _, h, _⟩ | ⟨x', n, h, _, h', _⟩), rfl⟩
          · cases h
          · cases h
          · cases h; rw [hn] at h'; cases h'
      | some n =>
        simp only
        constructor
        · intro h; cases h; exact ⟨.int n, .inr (.inr ⟨x, n, by simp [hn]⟩), rfl⟩
        · rintro ⟨v', (⟨h, _⟩ | ⟨x, _, h, _⟩ | ⟨x', n, h, _, h', rfl⟩), rfl⟩
          · cases h
          · cases h
          · cases h; rw [hn] at h'; cases h'; rfl
  | help =>
    simp only
    constructor
    · intro h; cases h
    · rintro ⟨v', (⟨_, h⟩ | ⟨x, _, h, _⟩ | ⟨x, n, _, h, _⟩), rfl⟩ <;> cases h

/-- The last value for a setting. -/
def lastOf (uses : List (Str × CVal)) (key : Str) : Option CVal :=
  (uses.reverse.find? (fun use => use.1 == key)).map (·.2)

theorem lastOf_snoc (uses : List (Str × CVal)) (k : Str) (v : CVal) (key : Str) :
    lastOf (uses ++ [(k, v)]) key = if k = key then some v else lastOf uses key := by
  unfold lastOf
  rw [List.reverse_append]
  simp only [List.reverse_cons, List.reverse_nil, List.nil_append, List.singleton_append, List.find?_cons]
  by_cases h : k = key
  · subst h; simp
  · have : (k == key) = false := by simpa using h
    rw [this, if_neg h]

theorem lastOf_iff (uses : List (Str × CVal)) (key : Str) (v : CVal) :
    lastOf uses key = some v ↔ Finally uses key v := by
  unfold lastOf Finally LastSays
  rw [Option.map_eq_some_iff]
  constructor
  · rintro ⟨⟨k, v'⟩, h, rfl⟩
    rw [List.find?_eq_some_iff_append] at h
    obtain ⟨h1, as, bs, h2, h3⟩ := h
    have hk : k = key := by simpa using h1
    subst hk
    refine ⟨bs.reverse, (k, v'), as.reverse, ?_, rfl, ?_⟩
    · have := congrArg List.reverse h2
      simpa using this
    · rintro y hy v'' rfl
      have := h3 _ (List.mem_reverse.mp hy)
      simp at this
  · rintro ⟨pre, x, post, rfl, rfl, h⟩
    refine ⟨(key, v), ?_, rfl⟩
    rw [List.find?_eq_some_iff_append]
    refine ⟨by simp, post.reverse, pre.reverse, by simp, ?_⟩
    rintro ⟨k, v'⟩ hy
    simp only [Bool.not_eq_true', beq_eq_false_iff_ne, ne_eq]
    rintro rfl
    exact h _ (List.mem_reverse.mp hy) v' rfl

/-- The stored values are the last ones said. -/
def Stored (values : Dict CVal) (uses : List (Str × CVal)) : Prop :=
  ∀ d ∈ destKeys, values.get d.1 = lastOf uses d.2

theorem stored_nil : Stored [] [] := fun _ _ => rfl

theorem stored_set {values : Dict CVal} {uses : List (Str × CVal)} {dest key : Str} (v : CVal)
    (h : Stored values uses) (hd : (dest, key) ∈ destKeys) : Stored (values.set dest v) (uses ++ [(key, v)]) := by
  intro d hm
  rw [Dict.get_set, lastOf_snoc, h d hm]
  have := destKeys_inj hd hm
  simp only at this
  by_cases he : dest = d.1
  · rw [if_pos he, if_pos (this.mp he)]
  · rw [if_neg he, if_neg (fun hk => he (this.mpr hk))]

theorem take_sound {N : Numbers} {values values' : Dict CVal} {o : Opt} {arg : Option Str} {name : Str}
    {uses : List (Str × CVal)} (ho : findOption name = some o) (harg : o.act.takesArg = arg.isSome)
    (h : takeAction N values (o, arg) = .ok values') (hs : Stored values uses) :
    ∃ key v, Sets N name arg key v ∧ Stored values' (uses ++ [(key, v)]) := by
  obtain ⟨v, hv, rfl⟩ := (takeAction_ok harg).mp h
  obtain ⟨key, hk, hset⟩ := stores_sets ho hv
  exact ⟨key, v, hset, stored_set v hs hk⟩

theorem stores_arg {N : Numbers} {a : Act} {arg : Option Str} {v : CVal} (h : Stores N a arg v) :
    a.takesArg = arg.isSome := by
  rcases h with ⟨rfl, rfl⟩ | ⟨x, rfl, rfl, rfl⟩ | ⟨x, n, rfl, rfl, _, rfl⟩ <;> rfl

theorem take_complete {N : Numbers} {values : Dict CVal} {o : Opt} {arg : Option Str} {name key : Str} {v : CVal}
    {uses : List (Str × CVal)} (ho : findOption name = some o) (h : Sets N name arg key v)
    (hs : Stored values uses) : o.act.takesArg = arg.isSome ∧
      ∃ values', takeAction N values (o, arg) = .ok values' ∧ Stored values' (uses ++ [(key, v)]) := by
  obtain ⟨o', ho', hk, hst⟩ := sets_stores h
  rw [ho] at ho'
  cases ho'
  have harg := stores_arg hst
  exact ⟨harg, _, (takeAction_ok harg).mpr ⟨v, hst, rfl⟩, stored_set v hs hk⟩

/-! ### Letters -/

theorem consumeGiven_equals (o : Opt) (name : Str) (found : List (Opt × Option Str)) (x : Str) :
    consumeGiven o name "=".toList found x =
      if o.act.takesArg then .stop (found ++ [(o, some x)]) false else .error := by
  cases x with
  | nil => rfl
  | cons c cs =>
    unfold consumeGiven
    by_cases h : o.act.takesArg = true
    · rw [if_neg (fun h' => by rw [h] at h'; cases h'.1), if_pos h]
    · rw [if_neg h]
      by_cases h1 : o.act.takesArg = false ∧ name[1]? ≠ some '-'
      · rw [if_pos h1, if_pos (.inl (by decide))]
      · rw [if_neg h1]

/-- The options of the letters. -/
def LetterOpts (cs : List Char) (os : List Opt) : Prop :=
  cs.map (fun c => findOption ['-', c]) = os.map some

theorem letter_second {c : Char} {o : Opt} (h : findOption ['-', c] = some o) : ['-', c][1]? ≠ some '-' := by
  intro h'
  have : c = '-' := by simpa using h'
  subst this
  exact (name_shape (findOption_mem h)).2.2.2 rfl

theorem not_letter_dash : findOption ['-', '-'] = none := by
  rw [findOption_none]
  exact fun h => (name_shape h).2.2.2 rfl

theorem not_letter_eq : findOption ['-', '='] = none := by
  rw [findOption_none]
  exact fun h => (name_shape h).2.2.1 (by simp)

theorem consumeGiven_letters (cs : List Char) : ∀ (o : Opt) (c : Char) (found : List (Opt × Option Str)),
    findOption ['-', c] = some o → cs ≠ [] →
    (∀ f e, consumeGiven o ['-', c] [] found cs = .stop f e → e = true) ∧
    (∀ f last, consumeGiven o ['-', c] [] found cs = .follow f last → last.act.takesArg = false ∧
      ∃ os, LetterOpts cs os ∧ f ++ [(last, none)] = found ++ (o :: os).map (fun o => (o, none))) ∧
    (∀ os, LetterOpts cs os → ∃ f last, consumeGiven o ['-', c] [] found cs = .follow f last) := by
  induction cs with
  | nil => intro o c found ho h; exact absurd rfl h
  | cons d ds ih =>
    intro o c found ho _
    have ha := letter_act ho
    unfold consumeGiven
    rw [if_pos ⟨ha, letter_second ho⟩]
    by_cases hd : d = '-'
    · subst hd
      rw [if_pos (.inr rfl)]
      refine ⟨fun f e h => (by cases h), fun f last h => (by cases h), ?_⟩
      intro os hos
      unfold LetterOpts at hos
      cases os with
      | nil => cases hos
      | cons o' os =>
        simp only [List.map_cons, List.cons.injEq, not_letter_dash] at hos
        cases hos.1
    · rw [if_neg (by rintro (h | h); exact h rfl; exact hd h)]
      cases hf : findOption ['-', d] with
      | none =>
        refine ⟨fun f e h => (by cases h; rfl), fun f last h => (by cases h), ?_⟩
        intro os hos
        unfold LetterOpts at hos
        cases os with
        | nil => cases hos
        | cons o' os =>
          simp only [List.map_cons, List.cons.injEq, hf] at hos
          cases hos.1
      | some o' =>
        simp only
        cases ds with
        | nil =>
          refine ⟨fun f e h => (by cases h), ?_, fun os _ => ⟨_, _, rfl⟩⟩
          intro f last h
          cases h
          refine ⟨letter_act hf, [o'], ?_, ?_⟩
          · unfold LetterOpts; simp [hf]
          · simp
        | cons e es =>
          simp only
          by_cases he : e = '='
          · subst he
            rw [if_pos rfl, consumeGiven_equals, letter_act hf]
            simp only [Bool.false_eq_true, if_false]
            refine ⟨fun f e h => (by cases h), fun f last h => (by cases h), ?_⟩
            intro os hos
            unfold LetterOpts at hos
            match os, hos with
            | [], hos => cases hos
            | [_], hos => simp at hos
            | _ :: o2 :: os, hos =>
              simp only [List.map_cons, List.cons.injEq, not_letter_eq] at hos
              cases hos.2.1
          · rw [if_neg he]
            obtain ⟨i1, i2, i3⟩ := ih o' d (found ++ [(o, none)]) hf (by simp)
            refine ⟨i1, ?_, ?_⟩
            · intro f last h
              obtain ⟨g1, os, g2, g3⟩ := i2 f last h
              refine ⟨g1, o' :: os, ?_, ?_⟩
              · unfold LetterOpts at g2 ⊢
                rw [List.map_cons, g2, hf, List.map_cons]
              · rw [g3]; simp
            · intro os hos
              unfold LetterOpts at hos
              cases os with
              | nil => cases hos
              | cons o1 os =>
                rw [List.map_cons, List.map_cons (f := some), List.cons.injEq] at hos
                exact i3 os hos.2

theorem takeActions_sound {N : Numbers} (cs : List Char) : ∀ (os : List Opt) (values values' : Dict CVal)
    (uses : List (Str × CVal)), LetterOpts cs os →
    takeActions N values (os.map (fun o => (o, none))) = .ok values' → Stored values uses →
    ∃ us, Letters N cs us ∧ Stored values' (uses ++ us) := by
  induction cs with
  | nil =>
    intro os values values' uses hos h hs
    cases os with
    | nil => cases h; exact ⟨[], .nil, by rw [List.append_nil]; exact hs⟩
    | cons _ _ => cases hos
  | cons c cs ih =>
    intro os values values' uses hos h hs
    cases os with
    | nil => cases hos
    | cons o os =>
      unfold LetterOpts at hos
      rw [List.map_cons, List.map_cons, List.cons.injEq] at hos
      rw [List.map_cons] at h
      unfold takeActions at h
      cases ht : takeAction N values (o, none) with
      | error e => rw [ht] at h; cases h
      | ok v1 =>
        rw [ht] at h
        obtain ⟨key, v, h1, h2⟩ := take_sound hos.1 (by rw [letter_act hos.1]; rfl) ht hs
        obtain ⟨us, h3, h4⟩ := ih os v1 values' _ hos.2 h h2
        refine ⟨(key, v) :: us, .cons _ _ _ _ _ h1 h3, ?_⟩
        rw [List.append_assoc] at h4
        exact h4

theorem takeActions_complete {N : Numbers} {cs : List Char} {us : List (Str × CVal)} (h : Letters N cs us) :
    ∀ (os : List Opt) (values : Dict CVal) (uses : List (Str × CVal)), LetterOpts cs os → Stored values uses →
    ∃ values', takeActions N values (os.map (fun o => (o, none))) = .ok values' ∧ Stored values' (uses ++ us) := by
  induction h with
  | nil =>
    intro os values uses hos hs
    cases os with
    | nil => exact ⟨values, rfl, by rw [List.append_nil]; exact hs⟩
    | cons _ _ => cases hos
  | cons c cs key v us h1 h2 ih =>
    intro os values uses hos hs
    cases os with
    | nil => cases hos
    | cons o os =>
      unfold LetterOpts at hos
      rw [List.map_cons, List.map_cons, List.cons.injEq] at hos
      obtain ⟨_, v1, g1, g2⟩ := take_complete hos.1 h1 hs
      obtain ⟨v2, g3, g4⟩ := ih os v1 _ hos.2 g2
      refine ⟨v2, ?_, ?_⟩
      · rw [List.map_cons]
        unfold takeActions
        rw [g1]
        exact g3
      · rw [List.append_assoc] at g4
        exact g4

theorem letters_names {N : Numbers} {cs : List Char} {us : List (Str × CVal)} (h : Letters N cs us) :
    (∀ c ∈ cs, ['-', c] ∈ optionNames) ∧ ∃ os, LetterOpts cs os := by
  induction h with
  | nil => exact ⟨by simp, [], rfl⟩
  | cons c cs key v us h1 h2 ih =>
    obtain ⟨o, ho, _, _⟩ := sets_stores h1
    obtain ⟨i1, os, i2⟩ := ih
    refine ⟨?_, o :: os, ?_⟩
    · intro x hx
      rcases List.mem_cons.mp hx with rfl | hx
      · exact findOption_mem ho
      · exact i1 x hx
    · unfold LetterOpts at i2 ⊢
      rw [List.map_cons, List.map_cons, ho, i2]

/-! ### One option -/

theorem classify_cons {N : Numbers} {s : Str} {args : List Str} {k : Kind} {rest : List (Str × Kind)} {x : Str}
    (h : classify N (s :: args) = some ((x, k) :: rest)) (hk : k ≠ .dashes) :
    x = s ∧ s ≠ "--".toList ∧ parseOptional N s = some k ∧ classify N args = some rest := by
  unfold classify at h
  by_cases hs : s = "--".toList
  · rw [if_pos hs] at h
    cases h
    exact absurd rfl hk
  · rw [if_neg hs] at h
    cases hp : parseOptional N s with
    | none => rw [hp] at h; cases h
    | some k' =>
      rw [hp] at h
      simp only [Option.map_eq_some_iff] at h
      obtain ⟨r, h1, h2⟩ := h
      cases h2
      exact ⟨rfl, hs, rfl, h1⟩

theorem classify_of {N : Numbers} {s : Str} {args : List Str} {k : Kind} {rest : List (Str × Kind)}
    (hs : s ≠ "--".toList) (hp : parseOptional N s = some k) (h : classify N args = some rest) :
    classify N (s :: args) = some ((s, k) :: rest) := by
  unfold classify
  rw [if_neg hs, hp]
  simp [h]

theorem takeActions_one (N : Numbers) (values : Dict CVal) (x : Opt × Option Str) :
    takeActions N values [x] = takeAction N values x := by
  unfold takeActions
  cases takeAction N values x with
  | error e => rfl
  | ok v => rfl

theorem optional_sound {N : Numbers} {s : Str} {args : List Str} {rest rest' : List (Str × Kind)} {o : Opt}
    {name : Str} {sep given : Option Str} {values values' : Dict CVal} {uses : List (Str × CVal)}
    (hc : classify N (s :: args) = some ((s, .option o name sep given) :: rest))
    (h : consumeOptional N o name sep given rest values = .ok (rest', false, values'))
    (hs : Stored values uses) :
    ∃ ws us args', s :: args = ws ++ args' ∧ Word N ws us ∧ classify N args' = some rest' ∧
      Stored values' (uses ++ us) := by
  obtain ⟨_, _, hp, hr⟩ := classify_cons hc (fun h => by cases h)
  obtain ⟨ho, hcase⟩ := parse_option hp
  unfold consumeOptional at h
  rcases hcase with ⟨rfl, rfl, hd⟩ | ⟨w, x, rfl, rfl, rfl, hd, hw⟩ | ⟨c, x, rfl, rfl, rfl, rfl, hx⟩
  · simp only at h
    unfold consumeFollowing at h
    by_cases ht : o.act.takesArg = true
    · rw [if_pos ht] at h
      match rest, args, hr, h with
      | [], _, _, h => cases h
      | (x, .dashes) :: r, _, _, h => cases h
      | (x, .unknown) :: r, _, _, h => cases h
      | (x, .option _ _ _ _) :: r, _, _, h => cases h
      | (x, .arg) :: r, [], hr, h => simp [classify] at hr
      | (x, .arg) :: r, a :: args, hr, h =>
        obtain ⟨rfl, _, hp', hr'⟩ := classify_cons hr (fun h => by cases h)
        simp only [List.nil_append, takeActions_one] at h
        cases hta : takeAction N values (o, some x) with
        | error e => rw [hta] at h; cases h
        | ok v1 =>
          rw [hta] at h
          cases h
          obtain ⟨key, v, h1, h2⟩ := take_sound ho (by rw [ht]; rfl) hta hs
          exact ⟨[s, x], _, args, rfl, .separate s name x key v hd h1 ((parse_arg N x).mp hp'), hr', h2⟩
    · rw [if_neg ht] at h
      simp only [List.nil_append, takeActions_one] at h
      cases hta : takeAction N values (o, none) with
      | error e => rw [hta] at h; cases h
      | ok v1 =>
        rw [hta] at h
        cases h
        obtain ⟨key, v, h1, h2⟩ := take_sound ho (by simpa using ht) hta hs
        exact ⟨[s], _, args, rfl, .alone s name key v hd h1, hr, h2⟩
  · simp only [Option.getD_some, consumeGiven_equals] at h
    by_cases ht : o.act.takesArg = true
    · rw [if_pos ht] at h
      simp only [List.nil_append, takeActions_one] at h
      cases hta : takeAction N values (o, some x) with
      | error e => rw [hta] at h; cases h
      | ok v1 =>
        rw [hta] at h
        cases h
        obtain ⟨key, v, h1, h2⟩ := take_sound ho (by rw [ht]; rfl) hta hs
        exact ⟨[w ++ '=' :: x], _, args, rfl, .equals w name x key v hd hw h1, hr, h2⟩
    · rw [if_neg ht] at h
      cases h
  · simp only [Option.getD_some] at h
    obtain ⟨l1, l2, _⟩ := consumeGiven_letters x o c [] ho hx
    cases hg : consumeGiven o ['-', c] [] [] x with
    | error => rw [hg] at h; cases h
    | stop f e =>
      rw [hg] at h
      simp only at h
      cases hta : takeActions N values f with
      | error e' => rw [hta] at h; cases h
      | ok v1 =>
        rw [hta] at h
        have := l1 f e hg
        subst this
        cases h
    | follow f last =>
      rw [hg] at h
      obtain ⟨g1, os, g2, g3⟩ := l2 f last hg
      simp only at h
      unfold consumeFollowing at h
      rw [if_neg (by rw [g1]; simp)] at h
      simp only [g3, List.nil_append] at h
      cases hta : takeActions N values ((o :: os).map (fun o => (o, none))) with
      | error e' => rw [hta] at h; cases h
      | ok v1 =>
        rw [hta] at h
        cases h
        obtain ⟨us, h1, h2⟩ := takeActions_sound (c :: x) (o :: os) values _ uses (by
          unfold LetterOpts at g2 ⊢
          rw [List.map_cons, List.map_cons, ho, g2]) hta hs
        refine ⟨['-' :: c :: x], us, args, rfl, .letters _ us ?_ h1, hr, h2⟩
        cases x with
        | nil => exact absurd rfl hx
        | cons d ds => simp

theorem denotes_ne_dashes {w name : Str} (h : NamesOption w name) : w ≠ "--".toList := by
  rintro rfl
  have h1 : "--cov".toList ∈ optionNames ∧ "--view".toList ∈ optionNames := by
    constructor <;> (rw [mem_optionNames]; simp [options])
  rcases denotes_cases h with rfl | ⟨_, hall⟩
  · exact (name_shape h.1).2.2.2 rfl
  · have e1 := hall _ h1.1 ⟨"cov".toList, rfl⟩
    have e2 := hall _ h1.2 ⟨"view".toList, rfl⟩
    rw [← e2] at e1
    cases e1

theorem plain_ne_dashes {N : Numbers} {x : Str} (h : PlainText N x) : x ≠ "--".toList := by
  rintro rfl
  rcases h with h | h | ⟨h, _⟩
  · exact h rfl
  · cases h
  · apply h
    refine ⟨"--cov".toList, ?_, .inl ⟨"cov".toList, rfl⟩⟩
    rw [mem_optionNames]
    simp [options]

theorem optional_complete {N : Numbers} {ws : List Str} {us : List (Str × CVal)} (h : Word N ws us)
    {args : List Str} {rest : List (Str × Kind)} (hc : classify N args = some rest) {values : Dict CVal}
    {uses : List (Str × CVal)} (hs : Stored values uses) :
    ∃ s o name sep given rest' values', classify N (ws ++ args) = some ((s, .option o name sep given) :: rest') ∧
      consumeOptional N o name sep given rest' values = .ok (rest, false, values') ∧
      Stored values' (uses ++ us) := by
  cases h with
  | alone w name key v hd hset =>
    obtain ⟨o, ho, hp⟩ := parse_denotes N hd
    obtain ⟨ha, values', ht, hst⟩ := take_complete ho hset hs
    refine ⟨w, o, name, none, none, rest, values', classify_of (denotes_ne_dashes hd) hp hc, ?_, hst⟩
    unfold consumeOptional consumeFollowing
    simp only
    rw [if_neg (by rw [ha]; simp)]
    simp only [List.nil_append, takeActions_one, ht]
  | separate w name x key v hd hset hx =>
    obtain ⟨o, ho, hp⟩ := parse_denotes N hd
    obtain ⟨ha, values', ht, hst⟩ := take_complete ho hset hs
    refine ⟨w, o, name, none, none, (x, .arg) :: rest, values', classify_of (denotes_ne_dashes hd) hp
      (classify_of (plain_ne_dashes hx) ((parse_arg N x).mpr hx) hc), ?_, hst⟩
    unfold consumeOptional consumeFollowing
    simp only
    rw [if_pos (by rw [ha]; rfl)]
    simp only [List.nil_append, takeActions_one, ht]
  | equals w name x key v hd hw hset =>
    obtain ⟨o, ho, hp⟩ := parse_equals N x hd hw
    obtain ⟨ha, values', ht, hst⟩ := take_complete ho hset hs
    refine ⟨_, o, name, _, _, rest, values', classify_of ?_ hp hc, ?_, hst⟩
    · intro he
      have : '=' ∈ "--".toList := by rw [← he]; simp
      exact absurd this (by decide)
    · unfold consumeOptional
      simp only [Option.getD_some, consumeGiven_equals]
      rw [if_pos (by rw [ha]; rfl)]
      simp only [List.nil_append, takeActions_one, ht]
  | letters cs us hl h =>
    match cs, hl, h with
    | c :: d :: cs, _, h =>
      obtain ⟨hn, os, hos⟩ := letters_names h
      obtain ⟨o, ho, hp⟩ := parse_letters N c d cs hn
      obtain ⟨_, l2, l3⟩ := consumeGiven_letters (d :: cs) o c [] ho (by simp)
      cases os with
      | nil => cases hos
      | cons o' os =>
        have hos' : LetterOpts (d :: cs) os := by
          unfold LetterOpts at hos ⊢
          rw [List.map_cons, List.map_cons (f := some), List.cons.injEq] at hos
          exact hos.2
        obtain ⟨f, last, hg⟩ := l3 os hos'
        obtain ⟨g1, os2, g2, g3⟩ := l2 f last hg
        obtain ⟨values', ht, hst⟩ := takeActions_complete h (o :: os2) values uses (by
          unfold LetterOpts at g2 ⊢
          rw [List.map_cons, List.map_cons (f := some), ho, g2]) hs
        refine ⟨_, o, ['-', c], _, _, rest, values', classify_of ?_ hp hc, ?_, hst⟩
        · intro he
          have := congrArg List.length he
          simp at this
        · unfold consumeOptional consumeFollowing
          simp only [Option.getD_some, hg]
          rw [if_neg (by rw [g1]; simp)]
          simp only [g3, List.nil_append, ht]

/-! ### The loop -/

/-- The test of the loop for strings that are not options. -/
abbrev notOption (s : Str × Kind) : Bool := !s.2.isOption

theorem classify_block {N : Numbers} (args : List Str) : ∀ strings, classify N args = some strings →
    (∃ block args', args = block ++ args' ∧ (strings.takeWhile notOption).map (·.1) = block ∧
      (∀ x ∈ block, PlainText N x) ∧ classify N args' = some (strings.dropWhile notOption)) ∨
    (∃ plain others, args = plain ++ "--".toList :: others ∧
      (strings.takeWhile notOption).map (·.1) = args ∧ (∀ x ∈ plain, PlainText N x) ∧
      strings.dropWhile notOption = []) := by
  induction args with
  | nil =>
    intro strings h
    cases h
    exact .inl ⟨[], [], rfl, rfl, by simp, rfl⟩
  | cons s args ih =>
    intro strings h
    have h0 := h
    unfold classify at h
    by_cases hs : s = "--".toList
    · rw [if_pos hs] at h
      cases h
      right
      have hall : ∀ x ∈ args.map (fun s => (s, Kind.arg)), notOption x = true := by
        intro x hx
        obtain ⟨a, _, rfl⟩ := List.mem_map.mp hx
        rfl
      refine ⟨[], args, by rw [hs]; rfl, ?_, by simp, ?_⟩
      · rw [List.takeWhile_cons, if_pos (show notOption (s, Kind.dashes) = true from rfl)]
        have : (args.map (fun s => (s, Kind.arg))).takeWhile notOption = args.map (fun s => (s, Kind.arg)) := by
          generalize args.map (fun s => (s, Kind.arg)) = l at hall
          induction l with
          | nil => rfl
          | cons y ys ihl =>
            rw [List.takeWhile_cons, if_pos (hall y List.mem_cons_self),
              ihl (fun x hx => hall x (List.mem_cons_of_mem _ hx))]
        rw [this]
        simp [Function.comp_def]
      · rw [List.dropWhile_cons, if_pos (show notOption (s, Kind.dashes) = true from rfl)]
        have : ∀ l : List (Str × Kind), (∀ x ∈ l, notOption x = true) → l.dropWhile notOption = [] := by
          intro l hl
          induction l with
          | nil => rfl
          | cons y ys ihl =>
            rw [List.dropWhile_cons, if_pos (hl y List.mem_cons_self)]
            exact ihl (fun x hx => hl x (List.mem_cons_of_mem _ hx))
        exact this _ hall
    · rw [if_neg hs] at h
      cases hp : parseOptional N s with
      | none => rw [hp] at h; cases h
      | some k =>
        rw [hp] at h
        simp only [Option.map_eq_some_iff] at h
        obtain ⟨r, hr, rfl⟩ := h
        by_cases hk : notOption (s, k) = true
        · have hka : k = .arg := by
            cases k with
            | arg => rfl
            | option _ _ _ _ => cases hk
            | unknown => cases hk
            | dashes =>
              exfalso
              have key : ∀ N s, parseTuples N s ≠ some .dashes := by
                intro N s h
                unfold parseTuples at h
                match ho : optionTuples s with
                | [] =>
                  rw [ho] at h
                  simp only at h
                  by_cases h1 : N.negative s = true
                  · rw [if_pos h1] at h; cases h
                  · rw [if_neg h1] at h
                    by_cases h2 : s.contains ' ' = true
                    · rw [if_pos h2] at h; cases h
                    · rw [if_neg h2] at h; cases h
                | [x] => rw [ho] at h; cases h
                | _ :: _ :: _ => rw [ho] at h; cases h
              unfold parseOptional at hp
              by_cases h1 : s.isEmpty = true
              · rw [if_pos h1] at hp; cases hp
              · rw [if_neg h1] at hp
                by_cases h2 : s.head? ≠ some '-'
                · rw [if_pos h2] at hp; cases hp
                · rw [if_neg h2] at hp
                  cases hf : findOption s with
                  | some o => rw [hf] at hp; cases hp
                  | none =>
                    rw [hf] at hp
                    simp only at hp
                    by_cases h3 : s.length = 1
                    · rw [if_pos h3] at hp; cases hp
                    · rw [if_neg h3] at hp
                      cases hs' : splitEq s with
                      | none => rw [hs'] at hp; exact key _ _ hp
                      | some q =>
                        rw [hs'] at hp
                        simp only at hp
                        cases hw : findOption q.1 with
                        | none => rw [hw] at hp; exact key _ _ hp
                        | some o => rw [hw] at hp; cases hp
          subst hka
          have hpl := (parse_arg N s).mp hp
          rw [List.takeWhile_cons, if_pos hk, List.dropWhile_cons, if_pos hk]
          rcases ih r hr with ⟨block, args', e1, e2, e3, e4⟩ | ⟨plain, others, e1, e2, e3, e4⟩
          · left
            refine ⟨s :: block, args', by rw [e1]; rfl, by rw [List.map_cons, e2], ?_, e4⟩
            intro x hx
            rcases List.mem_cons.mp hx with rfl | hx
            · exact hpl
            · exact e3 x hx
          · right
            refine ⟨s :: plain, others, by rw [e1]; rfl, by rw [List.map_cons, e2], ?_, e4⟩
            intro x hx
            rcases List.mem_cons.mp hx with rfl | hx
            · exact hpl
            · exact e3 x hx
        · left
          rw [List.takeWhile_cons, if_neg hk, List.dropWhile_cons, if_neg hk]
          exact ⟨[], s :: args, rfl, rfl, by simp, h0⟩

theorem reads_cons {N : Numbers} {choices ws args : List Str} {us uses : List (Str × CVal)}
    {cases : Option (List Str)} (hw : Word N ws us) (h : Reads N choices args uses cases) :
    Reads N choices (ws ++ args) (us ++ uses) cases := by
  cases h with
  | options _ _ h => exact .options _ _ (.cons _ _ _ _ hw h)
  | names before names after us' uses' h1 h2 h3 h4 =>
    have := Reads.names (choices := choices) (ws ++ before) names after (us ++ us') uses' (.cons _ _ _ _ hw h1) h2 h3 h4
    simpa [List.append_assoc] using this
  | dashes before plain others uses' h1 h2 h3 h4 =>
    have := Reads.dashes (choices := choices) (ws ++ before) plain others (us ++ uses) (.cons _ _ _ _ hw h1) h2 h3 h4
    simpa [List.append_assoc] using this
  | dashesOnly before uses' h1 =>
    have := Reads.dashesOnly (choices := choices) (ws ++ before) (us ++ uses) (.cons _ _ _ _ hw h1)
    simpa [List.append_assoc] using this

theorem erase_plain {N : Numbers} (plain : List Str) (h : ∀ x ∈ plain, PlainText N x) (rest : List Str) :
    (plain ++ "--".toList :: rest).erase "--".toList = plain ++ rest := by
  induction plain with
  | nil => simp
  | cons x xs ih =>
    have hx := plain_ne_dashes (h x List.mem_cons_self)
    rw [List.cons_append, List.erase_cons, if_neg (by simpa using hx),
      ih (fun y hy => h y (List.mem_cons_of_mem _ hy))]
    rfl

theorem erase_plain' {N : Numbers} (plain : List Str) (h : ∀ x ∈ plain, PlainText N x) :
    plain.erase "--".toList = plain :=
  List.erase_of_not_mem (fun hm => plain_ne_dashes (h _ hm) rfl)

theorem positional_iff (choices strings : List Str) (cases : Option (List Str)) :
    positionalValues choices strings = some cases ↔
      (strings.erase "--".toList = [] ∧ cases = none) ∨
      (strings.erase "--".toList ≠ [] ∧ (∀ x ∈ strings.erase "--".toList, x ∈ choices) ∧
        cases = some (strings.erase "--".toList)) := by
  unfold positionalValues
  generalize strings.erase "--".toList = names
  simp only
  by_cases h : names = []
  · subst h
    simp [eq_comm]
  · rw [if_neg (by simpa using h)]
    by_cases h2 : names.all choices.contains = true
    · rw [if_pos h2]
      simp only [List.all_eq_true, List.contains_iff_mem] at h2
      simp only [Option.some.injEq, h, false_and, ne_eq, not_false_eq_true, true_and, false_or]
      constructor
      · rintro rfl; exact ⟨h2, rfl⟩
      · rintro ⟨_, rfl⟩; rfl
    · rw [if_neg h2]
      simp only [List.all_eq_true, List.contains_iff_mem] at h2
      simp only [h, false_and, ne_eq, not_false_eq_true, true_and, false_or]
      constructor
      · intro h; cases h
      · rintro ⟨h', _⟩; exact absurd h' h2

theorem optional_not_ok {N : Numbers} {o : Opt} {name : Str} {sep given : Option Str} {rest : List (Str × Kind)}
    {values values' : Dict CVal} {cases : Option (List Str)} :
    consumeOptional N o name sep given rest values ≠ .error (.ok values' cases) := by
  intro ho
  have key : ∀ values x, takeAction N values x ≠ .error (.ok values' cases) := by
    intro values x hx
    unfold takeAction at hx
    split at hx <;> try (cases hx; done)
    split at hx <;> cases hx
  have key2 : ∀ xs values, takeActions N values xs ≠ .error (.ok values' cases) := by
    intro xs
    induction xs with
    | nil => intro values h; cases h
    | cons x xs ihx =>
      intro values h
      unfold takeActions at h
      cases ht : takeAction N values x with
      | error e => rw [ht] at h; cases h; exact key _ _ ht
      | ok v => rw [ht] at h; exact ihx v h
  unfold consumeOptional at ho
  split at ho
  · cases ho
  · rename_i f e _
    cases ht : takeActions N values f with
    | error e => rw [ht] at ho; cases ho; exact key2 _ _ ht
    | ok v => rw [ht] at ho; cases ho
  · rename_i f last _
    cases hf : consumeFollowing f last rest with
    | none => rw [hf] at ho; cases ho
    | some q =>
      rw [hf] at ho
      simp only at ho
      cases ht : takeActions N values q.1 with
      | error e => rw [ht] at ho; cases ho; exact key2 _ _ ht
      | ok v => rw [ht] at ho; cases ho

/-- The loop for strings of which the first is not an option. -/
def blockStep (N : Numbers) (choices : List Str) (fuel : Nat) (strings : List (Str × Kind)) (pos : PosValue)
    (extra : Bool) (values : Dict CVal) : ParseEnd :=
  match pos with
  | none =>
    match positionalValues choices ((strings.takeWhile notOption).map (fun s => s.1)) with
    | none => .error
    | some cases =>
      if (strings.dropWhile notOption).isEmpty then (if extra then .error else .ok values cases)
      else parseLoop N choices fuel (strings.dropWhile notOption) (some cases) extra values
  | some cases =>
    if (strings.dropWhile notOption).isEmpty then
      (if extra || !((strings.takeWhile notOption).map (fun s => s.1)).isEmpty then .error else .ok values cases)
    else parseLoop N choices fuel (strings.dropWhile notOption) pos true values

theorem parseLoop_nil (N : Numbers) (choices : List Str) (fuel : Nat) (pos : PosValue) (extra : Bool)
    (values : Dict CVal) :
    parseLoop N choices (fuel + 1) [] pos extra values = blockStep N choices fuel [] pos extra values := rfl

theorem parseLoop_arg (N : Numbers) (choices : List Str) (fuel : Nat) (s : Str) (rest : List (Str × Kind))
    (pos : PosValue) (extra : Bool) (values : Dict CVal) :
    parseLoop N choices (fuel + 1) ((s, .arg) :: rest) pos extra values =
      blockStep N choices fuel ((s, .arg) :: rest) pos extra values := rfl

theorem parseLoop_dashes (N : Numbers) (choices : List Str) (fuel : Nat) (s : Str) (rest : List (Str × Kind))
    (pos : PosValue) (extra : Bool) (values : Dict CVal) :
    parseLoop N choices (fuel + 1) ((s, .dashes) :: rest) pos extra values =
      blockStep N choices fuel ((s, .dashes) :: rest) pos extra values := rfl

theorem parseLoop_unknown (N : Numbers) (choices : List Str) (fuel : Nat) (s : Str) (rest : List (Str × Kind))
    (pos : PosValue) (extra : Bool) (values : Dict CVal) :
    parseLoop N choices (fuel + 1) ((s, .unknown) :: rest) pos extra values =
      parseLoop N choices fuel rest pos true values := rfl

theorem parseLoop_option (N : Numbers) (choices : List Str) (fuel : Nat) (s : Str) (o : Opt) (name : Str)
    (sep given : Option Str) (rest : List (Str × Kind)) (pos : PosValue) (extra : Bool) (values : Dict CVal) :
    parseLoop N choices (fuel + 1) ((s, .option o name sep given) :: rest) pos extra values =
      (match consumeOptional N o name sep given rest values with
      | .error e => e
      | .ok (rest, e, values) => parseLoop N choices fuel rest pos (extra || e) values) := rfl

theorem loop_extra {N : Numbers} {choices : List Str} {values' : Dict CVal} {cases : Option (List Str)}
    (fuel : Nat) : ∀ (strings : List (Str × Kind)) (pos : PosValue) (extra : Bool) (values : Dict CVal),
    parseLoop N choices fuel strings pos extra values = .ok values' cases → extra = false := by
  induction fuel with
  | zero => intro strings pos extra values h; cases h
  | succ fuel ih =>
    intro strings pos extra values h
    have block : blockStep N choices fuel strings pos extra values = .ok values' cases → extra = false := by
      intro h
      unfold blockStep at h
      cases pos with
      | some c =>
        simp only at h
        by_cases hr : (strings.dropWhile notOption).isEmpty = true
        · rw [if_pos hr] at h
          by_cases he : (extra || !((strings.takeWhile notOption).map (fun s => s.1)).isEmpty) = true
          · rw [if_pos he] at h; cases h
          · simp only [Bool.or_eq_true, not_or] at he
            simpa using he.1
        · rw [if_neg hr] at h
          have := ih _ _ _ _ h
          cases this
      | none =>
        simp only at h
        cases hpv : positionalValues choices ((strings.takeWhile notOption).map (fun s => s.1)) with
        | none => rw [hpv] at h; cases h
        | some cs' =>
          rw [hpv] at h
          simp only at h
          by_cases hr : (strings.dropWhile notOption).isEmpty = true
          · rw [if_pos hr] at h
            by_cases he : extra = true
            · rw [if_pos he] at h; cases h
            · simpa using he
          · rw [if_neg hr] at h
            exact ih _ _ _ _ h
    match strings, h, block with
    | [], h, block => exact block h
    | (s, .arg) :: rest, h, block => exact block h
    | (s, .dashes) :: rest, h, block => exact block h
    | (s, .unknown) :: rest, h, _ =>
      rw [parseLoop_unknown] at h
      have := ih _ _ _ _ h
      cases this
    | (s, .option o name sep given) :: rest, h, _ =>
      rw [parseLoop_option] at h
      cases ho : consumeOptional N o name sep given rest values with
      | error e =>
        rw [ho] at h
        simp only at h
        subst h
        exact absurd ho optional_not_ok
      | ok q =>
        rw [ho] at h
        exact (Bool.or_eq_false_iff.mp (ih _ _ _ _ h)).1

theorem loop_sound {N : Numbers} {choices : List Str} (fuel : Nat) : ∀ (args : List Str)
    (strings : List (Str × Kind)) (pos : PosValue) (extra : Bool) (values values' : Dict CVal)
    (uses : List (Str × CVal)) (cases : Option (List Str)),
    classify N args = some strings → Stored values uses →
    parseLoop N choices fuel strings pos extra values = .ok values' cases →
    extra = false ∧
      (∀ c, pos = some c → cases = c ∧ ∃ us, Words N args us ∧ Stored values' (uses ++ us)) ∧
      (pos = none → ∃ us, Reads N choices args us cases ∧ Stored values' (uses ++ us)) := by
  induction fuel with
  | zero => intro args strings pos extra values values' uses cs hc hs h; cases h
  | succ fuel ih =>
    intro args strings pos extra values values' uses cs hc hs h
    have third : ∀ (hhead : strings = [] ∨ ∃ x r, strings = x :: r ∧ notOption x = true)
        (h : blockStep N choices fuel strings pos extra values = .ok values' cs),
        extra = false ∧
          (∀ c, pos = some c → cs = c ∧ ∃ us, Words N args us ∧ Stored values' (uses ++ us)) ∧
          (pos = none → ∃ us, Reads N choices args us cs ∧ Stored values' (uses ++ us)) := by
      intro hhead h
      unfold blockStep at h
      have hblock := classify_block args strings hc
      cases pos with
      | some c =>
        simp only at h
        by_cases hr : (strings.dropWhile notOption).isEmpty = true
        · rw [if_pos hr] at h
          by_cases he : (extra || !((strings.takeWhile notOption).map (·.1)).isEmpty) = true
          · rw [if_pos he] at h; cases h
          · rw [if_neg he] at h
            cases h
            simp only [Bool.or_eq_true, Bool.not_eq_true', not_or, Bool.not_eq_true, Bool.not_eq_false] at he
            refine ⟨he.1, ?_, fun h => by cases h⟩
            rintro c' h'
            cases h'
            refine ⟨rfl, [], ?_, by rw [List.append_nil]; exact hs⟩
            have hempty : strings = [] := by
              rcases hhead with h | ⟨x, r, rfl, hx⟩
              · exact h
              · rw [List.takeWhile_cons, if_pos hx] at he
                cases he.2
            subst hempty
            rcases hblock with ⟨block, args', e1, e2, e3, e4⟩ | ⟨plain, others, e1, e2, e3, e4⟩
            · cases args with
              | nil => exact .nil
              | cons a as =>
                exfalso
                unfold classify at hc
                by_cases hd : a = "--".toList
                · rw [if_pos hd] at hc; cases hc
                · rw [if_neg hd] at hc
                  cases hp : parseOptional N a with
                  | none => rw [hp] at hc; cases hc
                  | some k =>
                    rw [hp] at hc
                    simp at hc
            · rw [e1] at e2; simp at e2
        · rw [if_neg hr] at h
          have := loop_extra _ _ _ _ _ h
          cases this
      | none =>
        simp only at h
        cases hpv : positionalValues choices ((strings.takeWhile notOption).map (·.1)) with
        | none => rw [hpv] at h; cases h
        | some cs' =>
          rw [hpv] at h
          simp only at h
          by_cases hr : (strings.dropWhile notOption).isEmpty = true
          · rw [if_pos hr] at h
            by_cases he : extra = true
            · rw [if_pos he] at h; cases h
            · rw [if_neg he] at h
              cases h
              refine ⟨by simpa using he, fun c h => (by cases h), fun _ => ⟨[], ?_, by rw [List.append_nil]; exact hs⟩⟩
              rcases hblock with ⟨block, args', e1, e2, e3, e4⟩ | ⟨plain, others, e1, e2, e3, e4⟩
              · rw [List.isEmpty_iff.mp hr] at e4
                have ha : args' = [] := by
                  cases args' with
                  | nil => rfl
                  | cons a as =>
                    exfalso
                    unfold classify at e4
                    by_cases hd : a = "--".toList
                    · rw [if_pos hd] at e4; cases e4
                    · rw [if_neg hd] at e4
                      cases hp : parseOptional N a with
                      | none => rw [hp] at e4; cases e4
                      | some k =>
                        rw [hp] at e4
                        simp at e4
                subst ha
                rw [List.append_nil] at e1
                subst e1
                rw [e2, positional_iff, erase_plain' _ e3] at hpv
                rcases hpv with ⟨p1, rfl⟩ | ⟨p1, p2, rfl⟩
                · subst p1
                  exact .options _ _ .nil
                · have := Reads.names (N := N) (choices := choices) [] args [] [] [] .nil p1
                    (fun x hx => ⟨e3 x hx, p2 x hx⟩) .nil
                  simpa using this
              · rw [e2, e1, positional_iff, erase_plain _ e3] at hpv
                rw [e1]
                rcases hpv with ⟨p1, rfl⟩ | ⟨p1, p2, rfl⟩
                · obtain ⟨rfl, rfl⟩ := List.append_eq_nil_iff.mp p1
                  exact .dashesOnly [] [] .nil
                · exact .dashes [] plain others [] .nil e3 p2 p1
          · rw [if_neg hr] at h
            rcases hblock with ⟨block, args', e1, e2, e3, e4⟩ | ⟨plain, others, e1, e2, e3, e4⟩
            · obtain ⟨i1, i2, _⟩ := ih args' _ _ _ _ _ uses _ e4 hs h
              obtain ⟨rfl, us, i3, i4⟩ := i2 cs' rfl
              refine ⟨i1, fun c h => (by cases h), fun _ => ⟨us, ?_, i4⟩⟩
              rw [e2, positional_iff, erase_plain' _ e3] at hpv
              rcases hpv with ⟨p1, rfl⟩ | ⟨p1, p2, rfl⟩
              · exfalso
                subst p1
                rcases hhead with h | ⟨x, r, rfl, hx⟩
                · rw [h] at hr; exact hr rfl
                · rw [List.takeWhile_cons, if_pos hx] at e2
                  cases e2
              · have := Reads.names (N := N) (choices := choices) [] block args' [] us .nil p1
                  (fun x hx => ⟨e3 x hx, p2 x hx⟩) i3
                rw [e1]
                simpa using this
            · rw [e4] at hr; exact absurd rfl hr
    match hst : strings, hc, h with
    | [], hc, h => subst hst; exact third (.inl rfl) h
    | (s, .arg) :: rest, hc, h => subst hst; exact third (.inr ⟨_, _, rfl, rfl⟩) h
    | (s, .dashes) :: rest, hc, h => subst hst; exact third (.inr ⟨_, _, rfl, rfl⟩) h
    | (s, .unknown) :: rest, hc, h =>
      cases args with
      | nil => cases hc
      | cons a args =>
        obtain ⟨rfl, _, _, hr⟩ := classify_cons hc (fun h => by cases h)
        rw [parseLoop_unknown] at h
        have := loop_extra _ _ _ _ _ h
        cases this
    | (s, .option o name sep given) :: rest, hc, h =>
      cases args with
      | nil => cases hc
      | cons a args =>
        obtain ⟨rfl, _, _, hr⟩ := classify_cons hc (fun h => by cases h)
        rw [parseLoop_option] at h
        cases ho : consumeOptional N o name sep given rest values with
        | error e =>
          rw [ho] at h
          simp only at h
          subst h
          exact absurd ho optional_not_ok
        | ok q =>
          obtain ⟨rest', e, v1⟩ := q
          rw [ho] at h
          simp only at h
          have he := loop_extra _ _ _ _ _ h
          obtain ⟨he1, he2⟩ := Bool.or_eq_false_iff.mp he
          subst he2
          obtain ⟨ws, us, args', e1, e2, e3, e4⟩ := optional_sound hc ho hs
          obtain ⟨_, i2, i3⟩ := ih args' rest' pos _ v1 values' (uses ++ us) cs e3 e4 h
          refine ⟨he1, ?_, ?_⟩
          · intro c hc
            obtain ⟨g1, us', g2, g3⟩ := i2 c hc
            refine ⟨g1, us ++ us', ?_, by rw [← List.append_assoc]; exact g3⟩
            rw [e1]
            exact .cons _ _ _ _ e2 g2
          · intro hp
            obtain ⟨us', g2, g3⟩ := i3 hp
            refine ⟨us ++ us', ?_, by rw [← List.append_assoc]; exact g3⟩
            rw [e1]
            exact reads_cons e2 g2

theorem classify_length {N : Numbers} (args : List Str) : ∀ strings, classify N args = some strings →
    strings.length = args.length := by
  induction args with
  | nil => intro strings h; cases h; rfl
  | cons s args ih =>
    intro strings h
    unfold classify at h
    by_cases hs : s = "--".toList
    · rw [if_pos hs] at h
      cases h
      simp
    · rw [if_neg hs] at h
      cases hp : parseOptional N s with
      | none => rw [hp] at h; cases h
      | some k =>
        rw [hp] at h
        simp only [Option.map_eq_some_iff] at h
        obtain ⟨r, hr, rfl⟩ := h
        simp [ih r hr]

theorem word_length {N : Numbers} {ws : List Str} {us : List (Str × CVal)} (h : Word N ws us) : 0 < ws.length := by
  cases h <;> simp

theorem words_step {N : Numbers} {choices before : List Str} {us : List (Str × CVal)} (h : Words N before us) :
    ∀ (args : List Str) (rest : List (Str × Kind)), classify N args = some rest →
    ∃ strings, classify N (before ++ args) = some strings ∧
      (before ≠ [] → ∃ s o name sep given r, strings = (s, .option o name sep given) :: r) ∧
      ∀ (values : Dict CVal) (uses : List (Str × CVal)), Stored values uses →
      ∃ values', Stored values' (uses ++ us) ∧ ∀ (pos : PosValue) (fuel : Nat), (before ++ args).length < fuel →
        ∃ fuel', args.length < fuel' ∧
          parseLoop N choices fuel strings pos false values = parseLoop N choices fuel' rest pos false values' := by
  induction h with
  | nil =>
    intro args rest hc
    refine ⟨rest, hc, fun h => absurd rfl h, ?_⟩
    intro values uses hs
    exact ⟨values, by rw [List.append_nil]; exact hs, fun pos fuel hf => ⟨fuel, hf, rfl⟩⟩
  | cons ws before us us' hw hws ih =>
    intro args rest hc
    obtain ⟨strings, hcs, _, hstep⟩ := ih args rest hc
    obtain ⟨s0, o0, name0, sep0, given0, r0, _, hcl0, _, _⟩ := optional_complete hw hcs stored_nil
    refine ⟨_, by rw [List.append_assoc]; exact hcl0, fun _ => ⟨_, _, _, _, _, _, rfl⟩, ?_⟩
    intro values uses hs
    obtain ⟨s, o, name, sep, given, r, v1, hcl, hco, hst⟩ := optional_complete hw hcs hs
    rw [hcl0] at hcl
    cases hcl
    obtain ⟨v2, hst2, hloop⟩ := hstep v1 (uses ++ us) hst
    refine ⟨v2, by rw [← List.append_assoc]; exact hst2, ?_⟩
    intro pos fuel hf
    have hlen := word_length hw
    rw [List.append_assoc, List.length_append] at hf
    cases fuel with
    | zero => omega
    | succ fuel =>
      obtain ⟨fuel', hf', he⟩ := hloop pos fuel (by omega)
      refine ⟨fuel', hf', ?_⟩
      rw [parseLoop_option, hco]
      exact he

theorem classify_plain {N : Numbers} (plain : List Str) (h : ∀ x ∈ plain, PlainText N x) (args : List Str)
    (rest : List (Str × Kind)) (hc : classify N args = some rest) :
    classify N (plain ++ args) = some (plain.map (fun s => (s, .arg)) ++ rest) := by
  induction plain with
  | nil => exact hc
  | cons x xs ih =>
    have hx := h x List.mem_cons_self
    exact classify_of (plain_ne_dashes hx) ((parse_arg N x).mpr hx) (ih (fun y hy => h y (List.mem_cons_of_mem _ hy)))

theorem takeWhile_block (xs : List (Str × Kind)) (hx : ∀ x ∈ xs, notOption x = true) (rest : List (Str × Kind))
    (hr : rest = [] ∨ ∃ s o name sep given r, rest = (s, .option o name sep given) :: r) :
    (xs ++ rest).takeWhile notOption = xs ∧ (xs ++ rest).dropWhile notOption = rest := by
  induction xs with
  | nil =>
    rcases hr with rfl | ⟨s, o, name, sep, given, r, rfl⟩
    · exact ⟨rfl, rfl⟩
    · exact ⟨rfl, rfl⟩
  | cons x xs ih =>
    obtain ⟨i1, i2⟩ := ih (fun y hy => hx y (List.mem_cons_of_mem _ hy))
    rw [List.cons_append, List.takeWhile_cons, if_pos (hx x List.mem_cons_self), i1, List.dropWhile_cons,
      if_pos (hx x List.mem_cons_self), i2]
    exact ⟨rfl, rfl⟩

theorem block_ok {N : Numbers} {choices : List Str} {fuel : Nat} {xs rest : List (Str × Kind)}
    (hx : ∀ x ∈ xs, notOption x = true)
    (hr : rest = [] ∨ ∃ s o name sep given r, rest = (s, .option o name sep given) :: r)
    {cases : Option (List Str)} (hp : positionalValues choices (xs.map (fun s => s.1)) = some cases)
    (values : Dict CVal) :
    blockStep N choices fuel (xs ++ rest) none false values =
      if rest = [] then .ok values cases else parseLoop N choices fuel rest (some cases) false values := by
  obtain ⟨h1, h2⟩ := takeWhile_block xs hx rest hr
  unfold blockStep
  simp only [h1, h2, hp, Bool.false_eq_true, if_false, List.isEmpty_iff]

theorem dashes_ok {N : Numbers} (choices plain others : List Str) (h : ∀ x ∈ plain, PlainText N x)
    (values : Dict CVal) (cases : Option (List Str)) (fuel : Nat) (hf : 0 < fuel)
    (hp : positionalValues choices (plain ++ "--".toList :: others) = some cases) :
    parseLoop N choices fuel
      (plain.map (fun s => (s, .arg)) ++ ("--".toList, .dashes) :: others.map (fun s => (s, .arg))) none false values =
      .ok values cases := by
  cases fuel with
  | zero => omega
  | succ fuel =>
    have hl : parseLoop N choices (fuel + 1)
        (plain.map (fun s => (s, .arg)) ++ ("--".toList, .dashes) :: others.map (fun s => (s, .arg))) none false values =
        blockStep N choices fuel
        (plain.map (fun s => (s, .arg)) ++ ("--".toList, .dashes) :: others.map (fun s => (s, .arg))) none false values := by
      cases plain <;> rfl
    rw [hl]
    have hall : ∀ x ∈ plain.map (fun s => (s, Kind.arg)) ++ ("--".toList, .dashes) :: others.map (fun s => (s, .arg)),
        notOption x = true := by
      intro x hx
      rcases List.mem_append.mp hx with hx | hx
      · obtain ⟨a, _, rfl⟩ := List.mem_map.mp hx
        rfl
      · rcases List.mem_cons.mp hx with rfl | hx
        · rfl
        · obtain ⟨a, _, rfl⟩ := List.mem_map.mp hx
          rfl
    have hb := block_ok (N := N) (choices := choices) (fuel := fuel) (cases := cases) hall (.inl rfl) (by
      rw [← hp]
      congr 1
      simp [Function.comp_def]) values
    rw [List.append_nil, if_pos rfl] at hb
    exact hb

theorem parse_complete {N : Numbers} {choices args : List Str} {uses : List (Str × CVal)}
    {cases : Option (List Str)} (h : Reads N choices args uses cases) :
    ∃ strings values, classify N args = some strings ∧ Stored values uses ∧
      parseLoop N choices (strings.length + 1) strings none false [] = .ok values cases := by
  cases h with
  | options _ _ hw =>
    obtain ⟨strings, hc, _, hstep⟩ := words_step (choices := choices) hw [] [] rfl
    obtain ⟨values, hst, hloop⟩ := hstep [] [] stored_nil
    rw [List.append_nil] at hc
    refine ⟨strings, values, hc, hst, ?_⟩
    obtain ⟨fuel, hf, he⟩ := hloop none (strings.length + 1) (by rw [List.append_nil, classify_length _ _ hc]; omega)
    rw [he]
    cases fuel with
    | zero => omega
    | succ fuel => rfl
  | names before names after us us' h1 h2 h3 h4 =>
    obtain ⟨after', hca, hhead, hstepa⟩ := words_step (choices := choices) h4 [] [] rfl
    rw [List.append_nil] at hca
    have hcn := classify_plain names (fun x hx => (h3 x hx).1) after after' hca
    obtain ⟨strings, hc, _, hstep⟩ := words_step (choices := choices) h1 _ _ hcn
    obtain ⟨v1, hst1, hloop1⟩ := hstep [] [] stored_nil
    obtain ⟨v2, hst2, hloop2⟩ := hstepa v1 us hst1
    rw [← List.append_assoc] at hc
    refine ⟨strings, v2, hc, hst2, ?_⟩
    obtain ⟨fuel, hf, he⟩ := hloop1 none (strings.length + 1) (by
      rw [← List.append_assoc, classify_length _ _ hc]; omega)
    rw [he]
    have hpv : positionalValues choices ((names.map (fun s => (s, Kind.arg))).map (fun s => s.1)) = some (some names) := by
      have : (names.map (fun s => (s, Kind.arg))).map (fun s => s.1) = names := by simp [Function.comp_def]
      rw [this, positional_iff, erase_plain' _ (fun x hx => (h3 x hx).1)]
      exact .inr ⟨h2, fun x hx => (h3 x hx).2, rfl⟩
    have hall : ∀ x ∈ names.map (fun s => (s, Kind.arg)), notOption x = true := by
      intro x hx
      obtain ⟨a, _, rfl⟩ := List.mem_map.mp hx
      rfl
    have hrest : after' = [] ∨ ∃ s o name sep given r, after' = (s, .option o name sep given) :: r := by
      by_cases ha : after = []
      · subst ha; cases hca; exact .inl rfl
      · exact .inr (hhead ha)
    cases fuel with
    | zero => omega
    | succ fuel =>
      have hb := block_ok (N := N) (fuel := fuel) hall hrest hpv v1
      have hl : parseLoop N choices (fuel + 1) (names.map (fun s => (s, Kind.arg)) ++ after') none false v1 =
          blockStep N choices fuel (names.map (fun s => (s, Kind.arg)) ++ after') none false v1 := by
        cases names with
        | nil => exact absurd rfl h2
        | cons x xs => rfl
      rw [hl, hb]
      by_cases ha : after' = []
      · rw [if_pos ha]
        subst ha
        have hae : after = [] := by
          have := classify_length _ _ hca
          exact List.eq_nil_of_length_eq_zero this.symm
        subst hae
        obtain ⟨f', hf', he'⟩ := hloop2 (some (some names)) 1 (by simp)
        cases f' with
        | zero => omega
        | succ f' =>
          have e1 : parseLoop N choices 1 [] (some (some names)) false v1 = .ok v1 (some names) := rfl
          have e2 : parseLoop N choices (f' + 1) [] (some (some names)) false v2 = .ok v2 (some names) := rfl
          rw [e1, e2] at he'
          exact he'
      · rw [if_neg ha]
        rw [List.length_append] at hf
        have hnl : 0 < names.length := List.length_pos_iff.mpr h2
        obtain ⟨f', hf', he'⟩ := hloop2 (some (some names)) fuel (by rw [List.append_nil]; omega)
        rw [he']
        cases f' with
        | zero => omega
        | succ f' => rfl
  | dashes before plain others _ h1 h2 h3 h4 =>
    have hcd : classify N ("--".toList :: others) =
        some (("--".toList, .dashes) :: others.map (fun s => (s, .arg))) := by
      unfold classify
      rw [if_pos rfl]
    have hcn := classify_plain plain h2 _ _ hcd
    obtain ⟨strings, hc, _, hstep⟩ := words_step (choices := choices) h1 _ _ hcn
    obtain ⟨v1, hst1, hloop1⟩ := hstep [] [] stored_nil
    rw [← List.append_assoc] at hc
    refine ⟨strings, v1, hc, hst1, ?_⟩
    obtain ⟨fuel, hf, he⟩ := hloop1 none (strings.length + 1) (by
      rw [← List.append_assoc, classify_length _ _ hc]; omega)
    rw [he]
    exact dashes_ok choices plain others h2 v1 _ fuel (by omega) (by
      rw [positional_iff, erase_plain _ h2]
      exact .inr ⟨h4, h3, rfl⟩)
  | dashesOnly before _ h1 =>
    have hcd : classify N ["--".toList] = some [("--".toList, .dashes)] := by
      unfold classify
      rw [if_pos rfl]
      rfl
    obtain ⟨strings, hc, _, hstep⟩ := words_step (choices := choices) h1 _ _ hcd
    obtain ⟨v1, hst1, hloop1⟩ := hstep [] [] stored_nil
    refine ⟨strings, v1, hc, hst1, ?_⟩
    obtain ⟨fuel, hf, he⟩ := hloop1 none (strings.length + 1) (by
      rw [classify_length _ _ hc]; omega)
    rw [he]
    exact dashes_ok (N := N) choices [] [] (by simp) v1 _ fuel (by omega) (by
      rw [positional_iff]
      exact .inl ⟨by simp, rfl⟩)

end Verif.Lemmas
