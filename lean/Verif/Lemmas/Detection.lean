import Verif.Spec.Detection
import Verif.Lemmas.Selection
import Verif.Lemmas.FS
import Verif.Lemmas.Reports

/-! # Lemmas about the search for tests -/

namespace Verif.Lemmas
open Verif.Py Verif.Model Verif.Spec

variable {F : Type}

/-! ### Walking -/

mutual
/-- The files of a tree with the names of their directories. -/
def entries : Tree → List (List Str × Str)
  | .dir files dirs => files.map (fun f => ([], f)) ++ entriesDirs dirs
def entriesDirs : List (Str × Tree) → List (List Str × Str)
  | [] => []
  | d :: rest => (entries d.2).map (fun e => (d.1 :: e.1, e.2)) ++ entriesDirs rest
end

theorem getLast?_join : ∀ (cs : List Str) (l : Str), l ≠ [] → '/' ∉ l →
    (join ['/'] (cs ++ [l])).getLast? ≠ some '/' ∧ join ['/'] (cs ++ [l]) ≠ []
  | [], l, hl, hs => by
    constructor
    · intro h
      exact hs (List.mem_of_getLast? h)
    · exact hl
  | [a], l, hl, hs => by
    have : join ['/'] ([a] ++ [l]) = a ++ '/' :: l := by simp [join]
    rw [this]
    constructor
    · intro h
      rw [List.getLast?_append, List.getLast?_cons_of_ne_nil hl] at h
      cases hg : l.getLast? with
      | none => exact hl (List.getLast?_eq_none_iff.mp hg)
      | some c => rw [hg] at h; simp at h; subst h; exact hs (List.mem_of_getLast? hg)
    · simp
  | a :: b :: cs, l, hl, hs => by
    have ih := getLast?_join (b :: cs) l hl hs
    have : join ['/'] (a :: b :: cs ++ [l]) = a ++ '/' :: join ['/'] (b :: cs ++ [l]) := by simp [join]
    rw [this]
    constructor
    · intro h
      rw [List.getLast?_append, List.getLast?_cons_of_ne_nil ih.2] at h
      cases hg : (join ['/'] (b :: cs ++ [l])).getLast? with
      | none => exact ih.2 (List.getLast?_eq_none_iff.mp hg)
      | some c => rw [hg] at h; simp at h; subst h; exact ih.1 hg
    · simp

theorem not_absolute {n : Str} (h : '/' ∉ n) : ¬ Absolute n := fun ha => h (List.mem_of_head? ha)

/-- A directory below the top is written without double slashes. -/
theorem pathJoin_name {cs : List Str} {a n : Str} (hc : cs ≠ []) (ha : a = join ['/'] cs) (ht : ProperTop a)
    (hn : '/' ∉ n) : pathJoin a n = join ['/'] (cs ++ [n]) := by
  rw [pathJoin_plain (not_absolute hn) ht.1 ht.2, join_append ['/'] hc (by simp), ha]
  rfl

theorem properTop_join {cs : List Str} {n : Str} (h : FileName n) : ProperTop (join ['/'] (cs ++ [n])) :=
  ⟨(getLast?_join cs n h.1 h.2).2, (getLast?_join cs n h.1 h.2).1⟩

mutual
theorem walk_entries : ∀ (t : Tree) (cs : List Str) (a : Str), cs ≠ [] → a = join ['/'] cs → ProperTop a → ProperTree t →
    (walk a t).flatMap (fun d => d.2.map (fun f => (d.1, f))) =
      (entries t).map (fun e => (join ['/'] (cs ++ e.1), e.2))
  | .dir files dirs, cs, a, hc, ha, ht, hp => by
    cases hp with
    | dir _ _ _ hd1 hd2 =>
      have hd : ∀ d ∈ dirs, FileName d.1 ∧ ProperTree d.2 := fun d hm => ⟨hd1 d hm, hd2 d hm⟩
      simp only [walk, entries, List.flatMap_cons, List.map_append, List.map_map]
      rw [walkDirs_entries dirs cs a hc ha ht hd]
      congr 1
      apply List.map_congr_left
      intro f _
      simp [ha]
theorem walkDirs_entries : ∀ (dirs : List (Str × Tree)) (cs : List Str) (a : Str), cs ≠ [] → a = join ['/'] cs →
    ProperTop a → (∀ d ∈ dirs, FileName d.1 ∧ ProperTree d.2) →
    (walkDirs a dirs).flatMap (fun d => d.2.map (fun f => (d.1, f))) =
      (entriesDirs dirs).map (fun e => (join ['/'] (cs ++ e.1), e.2))
  | [], cs, a, hc, ha, ht, hp => rfl
  | d :: rest, cs, a, hc, ha, ht, hp => by
    have hd := hp d (by simp)
    simp only [walkDirs, entriesDirs, List.flatMap_append, List.map_append, List.map_map]
    rw [walkDirs_entries rest cs a hc ha ht (fun d hm => hp d (by simp [hm])),
      walk_entries d.2 (cs ++ [d.1]) _ (by simp) (pathJoin_name hc ha ht hd.1.2)
        (by rw [pathJoin_name hc ha ht hd.1.2]; exact properTop_join hd.1) hd.2]
    congr 1
    apply List.map_congr_left
    intro e _
    simp
end

mutual
theorem mem_entries : ∀ (t : Tree) (p : List Str) (f : Str), (p, f) ∈ entries t ↔ HasFile t p f
  | .dir files dirs, p, f => by
    simp only [entries, List.mem_append, List.mem_map, Prod.mk.injEq]
    rw [mem_entriesDirs dirs p f]
    constructor
    · rintro (⟨g, hg, rfl, rfl⟩ | ⟨d, hd, q, rfl, hq⟩)
      · exact .here hg
      · exact .inside hd hq
    · intro h
      cases h with
      | here h => exact .inl ⟨f, h, rfl, rfl⟩
      | inside hd hq => exact .inr ⟨_, hd, _, rfl, hq⟩
theorem mem_entriesDirs : ∀ (dirs : List (Str × Tree)) (p : List Str) (f : Str),
    (p, f) ∈ entriesDirs dirs ↔ ∃ d ∈ dirs, ∃ q, p = d.1 :: q ∧ HasFile d.2 q f
  | [], p, f => by simp [entriesDirs]
  | d :: rest, p, f => by
    simp only [entriesDirs, List.mem_append, List.mem_map]
    rw [mem_entriesDirs rest p f]
    constructor
    · rintro (⟨⟨q, g⟩, hg, h⟩ | ⟨d', hd, r⟩)
      · simp only [Prod.mk.injEq] at h
        obtain ⟨h1, h2⟩ := h
        subst h2
        exact ⟨d, by simp, q, h1.symm, (mem_entries d.2 q g).mp hg⟩
      · exact ⟨d', by simp [hd], r⟩
    · rintro ⟨d', hd, q, hq, hh⟩
      rcases List.mem_cons.mp hd with rfl | hd
      · exact .inl ⟨(q, f), (mem_entries d'.2 q f).mpr hh, by rw [hq]⟩
      · exact .inr ⟨d', hd, q, hq, hh⟩
end

theorem nodup_map_inj {α β : Type} {g : α → β} : ∀ {l : List α}, (∀ x ∈ l, ∀ y ∈ l, g x = g y → x = y) →
    l.Nodup → (l.map g).Nodup
  | [], _, _ => by simp
  | a :: l, hi, hn => by
    rw [List.map_cons, List.nodup_cons]
    rw [List.nodup_cons] at hn
    refine ⟨?_, nodup_map_inj (fun x hx y hy => hi x (by simp [hx]) y (by simp [hy])) hn.2⟩
    intro h
    obtain ⟨b, hb, he⟩ := List.mem_map.mp h
    have := hi b (by simp [hb]) a (by simp) he
    subst this
    exact hn.1 hb

mutual
theorem nodup_entries : ∀ t : Tree, ProperTree t → (entries t).Nodup
  | .dir files dirs, h => by
    cases h with
    | dir h1 h2 _ h3 h5 =>
      have h4 : ∀ d ∈ dirs, FileName d.1 ∧ ProperTree d.2 := fun d hm => ⟨h3 d hm, h5 d hm⟩
      simp only [entries]
      rw [List.nodup_append]
      refine ⟨nodup_map_inj (fun x _ y _ h => by simpa using h) h1,
        nodup_entriesDirs dirs h2 h4, ?_⟩
      intro a ha b hb hab
      subst hab
      obtain ⟨f, _, rfl⟩ := List.mem_map.mp ha
      obtain ⟨d, _, q, hq, _⟩ := (mem_entriesDirs dirs [] f).mp hb
      cases hq
theorem nodup_entriesDirs : ∀ dirs : List (Str × Tree), (dirs.map (·.1)).Nodup →
    (∀ d ∈ dirs, FileName d.1 ∧ ProperTree d.2) → (entriesDirs dirs).Nodup
  | [], _, _ => by simp [entriesDirs]
  | d :: rest, h1, h2 => by
    simp only [entriesDirs]
    rw [List.map_cons, List.nodup_cons] at h1
    rw [List.nodup_append]
    refine ⟨nodup_map_inj ?_ (nodup_entries d.2 (h2 d (by simp)).2),
      nodup_entriesDirs rest h1.2 (fun x hx => h2 x (by simp [hx])), ?_⟩
    · intro x _ y _ h
      simp only [Prod.mk.injEq, List.cons.injEq, true_and] at h
      exact Prod.ext h.1 h.2
    · intro a ha b hb hab
      subst hab
      obtain ⟨e, _, rfl⟩ := List.mem_map.mp ha
      obtain ⟨d', hd, q, hq, _⟩ := (mem_entriesDirs rest _ _).mp hb
      simp only [List.cons.injEq] at hq
      exact h1.1 (List.mem_map.mpr ⟨d', hd, hq.1.symm⟩)
end

theorem split_top {top : Str} (h : ProperTop top) : split '/' top ≠ [] ∧ top = join ['/'] (split '/' top) :=
  ⟨split_ne_nil '/' top, (join_split '/' top).symm⟩

/-- The files below a path. -/
theorem walkFiles_eq (trees : Str → Option Tree) {top : Str} (ht : ProperTop top) {t : Tree}
    (h : trees top = some t) (hp : ProperTree t) :
    walkFiles trees top = (entries t).map (fun e => (join ['/'] (split '/' top ++ e.1), e.2)) := by
  unfold walkFiles
  rw [h]
  exact walk_entries t (split '/' top) top (split_top ht).1 (split_top ht).2 ht hp

theorem walkFiles_none (trees : Str → Option Tree) {top : Str} (h : trees top = none) :
    walkFiles trees top = [] := by
  unfold walkFiles
  rw [h]

theorem hasFile_names {t : Tree} {p : List Str} {f : Str} (h : HasFile t p f) : ProperTree t →
    (∀ n ∈ p, FileName n) ∧ FileName f := by
  induction h with
  | here hf =>
    intro hp
    cases hp with
    | dir _ _ h3 _ _ => exact ⟨by simp, h3 _ hf⟩
  | inside hd _ ih =>
    intro hp
    cases hp with
    | dir _ _ _ h4 h5 =>
      refine ⟨?_, (ih (h5 _ hd)).2⟩
      intro n hn
      rcases List.mem_cons.mp hn with rfl | hn
      · exact h4 _ hd
      · exact (ih (h5 _ hd)).1 n hn

theorem properTop_below {top : Str} (ht : ProperTop top) {p : List Str} (hp : ∀ n ∈ p, FileName n) :
    ProperTop (join ['/'] (split '/' top ++ p)) := by
  rcases List.eq_nil_or_concat p with rfl | ⟨q, n, rfl⟩
  · rw [List.append_nil, ← (split_top ht).2]
    exact ht
  · rw [List.concat_eq_append, ← List.append_assoc]
    exact properTop_join (hp n (by simp))

/-! ### Test files -/

theorem endsWith_iff (f x : Str) : endsWith f x = true ↔ ∃ y, f = y ++ x := by
  unfold endsWith
  rw [List.isSuffixOf_iff_suffix]
  exact ⟨fun ⟨y, h⟩ => ⟨y, h.symm⟩, fun ⟨y, h⟩ => ⟨y, h.symm⟩⟩

theorem startsWith_iff' (f x : Str) : startsWith f x = true ↔ ∃ y, f = x ++ y := by
  unfold startsWith
  rw [List.isPrefixOf_iff_prefix]
  exact ⟨fun ⟨y, h⟩ => ⟨y, h.symm⟩, fun ⟨y, h⟩ => ⟨y, h.symm⟩⟩

theorem isTestFile_iff (f : Str) : isTestFile f = true ↔ TestFile f := by
  unfold isTestFile TestFile
  simp only [Bool.or_eq_true, Bool.and_eq_true, endsWith_iff, startsWith_iff', or_assoc]

theorem testFile_py {f : Str} (h : TestFile f) : ∃ stem, f = stem ++ ".py".toList := by
  rcases h with ⟨x, rfl⟩ | ⟨x, rfl⟩ | ⟨x, rfl⟩ | ⟨_, h⟩
  · exact ⟨x ++ "_test".toList, by rw [List.append_assoc]; rfl⟩
  · exact ⟨x ++ "_book".toList, by rw [List.append_assoc]; rfl⟩
  · exact ⟨x ++ "_suite".toList, by rw [List.append_assoc]; rfl⟩
  · exact h

theorem take_stem (stem : Str) :
    (stem ++ ".py".toList).take ((stem ++ ".py".toList).length - 3) = stem := by
  have : (stem ++ ".py".toList).length - 3 = stem.length := by
    rw [List.length_append]
    exact Nat.add_sub_cancel _ 3
  rw [this, List.take_left]

theorem replace_join : ∀ parts : List Str, (∀ p ∈ parts, '/' ∉ p) →
    (join ['/'] parts).map (fun c => if c = '/' then '.' else c) = join ['.'] parts
  | [], _ => rfl
  | [p], h => by
    have hp := h p (by simp)
    simp only [join]
    rw [List.map_congr_left (g := id)]
    · simp
    · intro c hc
      have hne : c ≠ '/' := fun he => hp (he ▸ hc)
      rw [if_neg hne]
      rfl
  | p :: q :: ps, h => by
    have hp := h p (by simp)
    have ih := replace_join (q :: ps) (fun x hx => h x (by simp [hx]))
    simp only [join, List.map_append] at ih ⊢
    rw [ih]
    congr 1
    rw [List.map_congr_left (g := id)]
    · simp
    · intro c hc
      have hne : c ≠ '/' := fun he => hp (he ▸ hc)
      rw [if_neg hne]
      rfl

theorem moduleName_eq {top : Str} (ht : ProperTop top) {p : List Str} (hp : ∀ n ∈ p, FileName n) {stem : Str}
    (hs : '/' ∉ stem) :
    moduleName (join ['/'] (split '/' top ++ p)) (stem ++ ".py".toList) = DottedName top p stem := by
  unfold moduleName DottedName
  rw [take_stem, pathJoin_name (by simp [split_ne_nil]) rfl (properTop_below ht hp) hs, replace_join]
  intro x hx
  simp only [List.mem_append, List.mem_singleton] at hx
  rcases hx with (hx | hx) | rfl
  · exact (split_mem '/' top x hx).1
  · exact (hp x hx).2
  · exact hs

theorem functionTest_eq (u : Unicode) {top : Str} (ht : ProperTop top) {p : List Str}
    (hp : ∀ n ∈ p, FileName n) {stem : Str} (hs : '/' ∉ cleanTestPostfix u stem) {x : Str} (hx : '/' ∉ x) :
    pathJoin (pathJoin (join ['/'] (split '/' top ++ p)) (cleanTestPostfix u stem)) x =
      FunctionTest u top p stem x := by
  have hb := properTop_below ht hp
  unfold FunctionTest
  dsimp only
  by_cases he : cleanTestPostfix u stem = []
  · rw [if_pos he, he, List.append_nil, pathJoin_plain (by intro h; cases h) hb.1 hb.2,
      List.append_nil, pathJoin_slash (not_absolute hx) (by simp), join_append ['/'] (a := split '/' top ++ p) (b := [x]) (by simp [split_ne_nil]) (by simp)]
    rfl
  · rw [if_neg he, pathJoin_name (by simp [split_ne_nil]) rfl hb hs,
      pathJoin_name (by simp) rfl (properTop_join ⟨he, hs⟩) hx]

/-! ### Modules -/

theorem casesOfList_append : ∀ (a b : List (Suites F)), casesOfList (a ++ b) = casesOfList a ++ casesOfList b
  | [], b => rfl
  | s :: a, b => by simp [casesOfList, casesOfList_append a b]

theorem cleanMethodName_iff {n c : Str} : cleanMethodName n = some c ↔ n = "test_".toList ++ c := by
  unfold cleanMethodName
  by_cases h : startsWith n "test_".toList = true
  · rw [if_pos h]
    obtain ⟨y, rfl⟩ := (startsWith_iff' _ _).mp h
    rw [List.drop_left, Option.some.injEq, List.append_cancel_left_eq]
  · rw [if_neg h]
    constructor
    · intro h'; cases h'
    · intro h'
      exact absurd ((startsWith_iff' _ _).mpr ⟨c, h'⟩) h

theorem parseMembers_none (suite : Str) : ∀ m : Module F,
    parseMembers suite m = none ↔ ∃ n, (n, .bookClass 0 none) ∈ m
  | [] => by simp [parseMembers]
  | (name, member) :: rest => by
    have ih := parseMembers_none suite rest
    unfold parseMembers
    cases member with
    | bookClass needed book =>
      by_cases hn : needed = 0
      · subst hn
        cases book with
        | none => simp
        | some cases =>
          change Option.map _ _ = _ ↔ _
          simp only [Option.map_eq_none_iff, ih, List.mem_cons, Prod.mk.injEq]
          simp
      · simp only [if_neg hn, ih, List.mem_cons, Prod.mk.injEq, ModMember.bookClass.injEq]
        simp [Ne.symm hn]
    | suite cases => simp [ih]
    | function needed f =>
      dsimp only
      split
      · simp [ih]
      · simp [ih]
    | other => simp [ih]

theorem parseMembers_some (suite : Str) : ∀ (m : Module F) {r : List (Suites F) × Cases F},
    parseMembers suite m = some r → ∀ c, (c ∈ casesOfList r.1 ∨ c ∈ r.2) ↔ TestIn (pathJoin suite) m c
  | [], r, h, c => by
    simp only [parseMembers, Option.some.injEq] at h
    subst h
    simp [casesOfList, TestIn]
  | (name, member) :: rest, r, h, c => by
    have ih := fun {r} h => parseMembers_some suite rest (r := r) h c
    unfold parseMembers at h
    cases member with
    | bookClass needed book =>
      by_cases hn : needed = 0
      · subst hn
        cases book with
        | none => cases h
        | some cases =>
          change Option.map _ _ = _ at h
          obtain ⟨r', h', rfl⟩ := Option.map_eq_some_iff.mp h
          have := ih h'
          simp only [casesOfList, casesOf, List.mem_append, TestIn, List.mem_cons, Prod.mk.injEq] at this ⊢
          rw [or_assoc, this]
          constructor
          · rintro (h | ⟨n, cs, h1, h2⟩ | ⟨n, cs, h1, h2⟩ | ⟨x, nd, f, h1, h2⟩)
            · exact .inl ⟨name, cases, .inl ⟨rfl, rfl⟩, h⟩
            · exact .inl ⟨n, cs, .inr h1, h2⟩
            · exact .inr (.inl ⟨n, cs, .inr h1, h2⟩)
            · exact .inr (.inr ⟨x, nd, f, .inr h1, h2⟩)
          · rintro (⟨n, cs, h1 | h1, h2⟩ | ⟨n, cs, h1 | h1, h2⟩ | ⟨x, nd, f, h1 | h1, h2⟩)
            · obtain ⟨_, h1⟩ := h1
              cases h1
              exact .inl h2
            · exact .inr (.inl ⟨n, cs, h1, h2⟩)
            · cases h1.2
            · exact .inr (.inr (.inl ⟨n, cs, h1, h2⟩))
            · cases h1.2
            · exact .inr (.inr (.inr ⟨x, nd, f, h1, h2⟩))
      · simp only [if_neg hn] at h
        rw [ih h]
        simp [TestIn, Ne.symm hn]
    | suite cases =>
      obtain ⟨r', h', rfl⟩ := Option.map_eq_some_iff.mp h
      have := ih h'
      simp only [casesOfList, casesOf, List.mem_append, TestIn, List.mem_cons, Prod.mk.injEq] at this ⊢
      rw [or_assoc, this]
      constructor
      · rintro (h | ⟨n, cs, h1, h2⟩ | ⟨n, cs, h1, h2⟩ | ⟨x, nd, f, h1, h2⟩)
        · exact .inr (.inl ⟨name, cases, .inl ⟨rfl, rfl⟩, h⟩)
        · exact .inl ⟨n, cs, .inr h1, h2⟩
        · exact .inr (.inl ⟨n, cs, .inr h1, h2⟩)
        · exact .inr (.inr ⟨x, nd, f, .inr h1, h2⟩)
      · rintro (⟨n, cs, h1 | h1, h2⟩ | ⟨n, cs, h1 | h1, h2⟩ | ⟨x, nd, f, h1 | h1, h2⟩)
        · cases h1.2
        · exact .inr (.inl ⟨n, cs, h1, h2⟩)
        · obtain ⟨_, h1⟩ := h1
          cases h1
          exact .inl h2
        · exact .inr (.inr (.inl ⟨n, cs, h1, h2⟩))
        · cases h1.2
        · exact .inr (.inr (.inr ⟨x, nd, f, h1, h2⟩))
    | function needed f =>
      dsimp only at h
      cases hc : cleanMethodName name with
      | none =>
        rw [hc] at h
        have hne : ∀ x, name ≠ "test_".toList ++ x := fun x he => by
          rw [cleanMethodName_iff.mpr he] at hc; cases hc
        rw [ih h]
        simp only [TestIn, List.mem_cons, Prod.mk.injEq]
        constructor
        · rintro (⟨n, cs, h1, h2⟩ | ⟨n, cs, h1, h2⟩ | ⟨x, nd, f, h1, h2⟩)
          · exact .inl ⟨n, cs, .inr h1, h2⟩
          · exact .inr (.inl ⟨n, cs, .inr h1, h2⟩)
          · exact .inr (.inr ⟨x, nd, f, .inr h1, h2⟩)
        · rintro (⟨n, cs, h1 | h1, h2⟩ | ⟨n, cs, h1 | h1, h2⟩ | ⟨x, nd, f, h1 | h1, h2⟩)
          · cases h1.2
          · exact .inl ⟨n, cs, h1, h2⟩
          · cases h1.2
          · exact .inr (.inl ⟨n, cs, h1, h2⟩)
          · exact absurd h1.1.symm (hne x)
          · exact .inr (.inr ⟨x, nd, f, h1, h2⟩)
      | some y =>
        rw [hc] at h
        have hy := cleanMethodName_iff.mp hc
        obtain ⟨r', h', rfl⟩ := Option.map_eq_some_iff.mp h
        have := ih h'
        simp only [List.mem_cons]
        rw [or_left_comm, this]
        simp only [TestIn, List.mem_cons, Prod.mk.injEq]
        constructor
        · rintro (h | ⟨n, cs, h1, h2⟩ | ⟨n, cs, h1, h2⟩ | ⟨x, nd, f, h1, h2⟩)
          · exact .inr (.inr ⟨y, needed, f, .inl ⟨hy.symm, rfl⟩, h⟩)
          · exact .inl ⟨n, cs, .inr h1, h2⟩
          · exact .inr (.inl ⟨n, cs, .inr h1, h2⟩)
          · exact .inr (.inr ⟨x, nd, f, .inr h1, h2⟩)
        · rintro (⟨n, cs, h1 | h1, h2⟩ | ⟨n, cs, h1 | h1, h2⟩ | ⟨x, nd, f, h1 | h1, h2⟩)
          · cases h1.2
          · exact .inr (.inl ⟨n, cs, h1, h2⟩)
          · cases h1.2
          · exact .inr (.inr (.inl ⟨n, cs, h1, h2⟩))
          · obtain ⟨h1, h3⟩ := h1
            cases h3
            rw [hy, List.append_cancel_left_eq] at h1
            subst h1
            exact .inl h2
          · exact .inr (.inr (.inr ⟨x, nd, f, h1, h2⟩))
    | other =>
      rw [ih h]
      simp [TestIn]

/-- The cases of a file. -/
theorem parseTestFile_some (u : Unicode) (imports : Str → Option (Module F)) (root f : Str)
    {ts : List (Suites F)} (h : parseTestFile u imports root f = some ts) :
    ∃ m, imports (moduleName root f) = some m ∧ ∀ c, c ∈ casesOfList ts ↔
      TestIn (pathJoin (pathJoin root (cleanTestPostfix u (f.take (f.length - 3))))) m c := by
  unfold parseTestFile at h
  dsimp only at h
  cases hm : imports (moduleName root f) with
  | none => rw [hm] at h; cases h
  | some m =>
    rw [hm] at h
    obtain ⟨r, hr, rfl⟩ := Option.map_eq_some_iff.mp h
    refine ⟨m, rfl, fun c => ?_⟩
    rw [← parseMembers_some _ m hr c, casesOfList_append, List.mem_append]
    by_cases hl : r.2.length > 0
    · rw [if_pos hl]
      simp [casesOfList, casesOf]
    · rw [if_neg hl]
      have : r.2 = [] := List.length_eq_zero_iff.mp (by omega)
      simp [this, casesOfList]

theorem parseTestFile_none (u : Unicode) (imports : Str → Option (Module F)) (root f : Str) :
    parseTestFile u imports root f = none ↔ Unloadable (imports (moduleName root f)) := by
  unfold parseTestFile Unloadable
  dsimp only
  cases hm : imports (moduleName root f) with
  | none => simp
  | some m => simp [parseMembers_none]

/-! ### Loops -/

theorem foldlM_collect {α β : Type} (g : α → Option (List β)) : ∀ (l : List α) (acc : List β),
    l.foldlM (fun a x => (g x).map (a ++ ·)) acc =
      if l.all (fun x => (g x).isSome) then some (acc ++ l.flatMap (fun x => (g x).getD [])) else none
  | [], acc => by simp
  | x :: l, acc => by
    rw [List.foldlM_cons]
    cases hx : g x with
    | none => simp [hx]
    | some v =>
      simp only [Option.map_some, Option.bind_eq_bind, Option.bind_some, foldlM_collect g l, List.all_cons, hx,
        Option.isSome_some, Bool.true_and, List.flatMap_cons, Option.getD_some, List.append_assoc]

/-- What a file below a path contributes. -/
def fileTests (u : Unicode) (imports : Str → Option (Module F)) (f : Str × Str) : Option (List (Suites F)) :=
  if isTestFile f.2 then parseTestFile u imports f.1 f.2 else some []

theorem detectTests_eq (u : Unicode) (trees : Str → Option Tree) (imports : Str → Option (Module F)) (path : Str) :
    detectTests u trees imports path =
      if (walkFiles trees path).all (fun x => (fileTests u imports x).isSome) then
        some ((walkFiles trees path).flatMap (fun x => (fileTests u imports x).getD [])) else none := by
  unfold detectTests
  rw [show (fun tests (f : Str × Str) =>
      if isTestFile f.2 = true then Option.map (fun x => tests ++ x) (parseTestFile u imports f.1 f.2)
      else some tests) = (fun a x => (fileTests u imports x).map (a ++ ·)) from ?_]
  · rw [foldlM_collect]
    simp
  · funext tests f
    unfold fileTests
    split <;> simp

end Verif.Lemmas
