import Mathlib.Data.List.Forall2
import Verif.Spec.Suites
import Verif.Lemmas.Selection

/-! # Suites, test books and choices (C63, C64, C70) -/

namespace Verif.Props
open Verif.Py Verif.Model Verif.Spec Verif.Lemmas

variable {F : Type}

/-! ### C63: suites -/

mutual
private theorem casesOf_inOrder : ∀ s : Suites F, InOrder s (casesOf s)
  | .tests cases => by rw [casesOf]; exact .tests cases
  | .list l => by rw [casesOf]; exact casesOfList_inOrder l
private theorem casesOfList_inOrder : ∀ l : List (Suites F), InOrder (.list l) (casesOfList l)
  | [] => by rw [casesOfList]; exact .nil
  | s :: l => by rw [casesOfList]; exact .cons (casesOf_inOrder s) (casesOfList_inOrder l)
end

/-- **C63**: merging keeps all cases of arbitrarily nested lists of suites, in order. -/
theorem C63_merge (s : Suites F) : InOrder s (mergeTests s) := by
  unfold mergeTests
  rw [List.map_id']
  exact casesOf_inOrder s

/-- This determines the result. -/
theorem C63_merge_unique {s : Suites F} {a b : Cases F} (ha : InOrder s a) (hb : InOrder s b) : a = b := by
  induction ha generalizing b with
  | tests cases => cases hb; rfl
  | nil => cases hb; rfl
  | cons h1 h2 ih1 ih2 =>
    cases hb with
    | cons g1 g2 => rw [ih1 g1, ih2 g2]

/-- **C63**: a case is in the merged tests exactly if it is in one of the suites. -/
theorem C63_merge_mem (s : Suites F) (c : Str × F) : c ∈ mergeTests s ↔ ∃ cases, Part cases s ∧ c ∈ cases := by
  have h := C63_merge s
  constructor
  · intro hc
    generalize mergeTests s = m at h hc
    induction h with
    | tests cases => exact ⟨cases, .tests cases, hc⟩
    | nil => cases hc
    | cons h1 h2 ih1 ih2 =>
      rcases List.mem_append.mp hc with hc | hc
      · obtain ⟨x, p, q⟩ := ih1 hc
        exact ⟨x, .list List.mem_cons_self p, q⟩
      · obtain ⟨x, p, q⟩ := ih2 hc
        cases p with
        | list hm p => exact ⟨x, .list (List.mem_cons_of_mem _ hm) p, q⟩
  · rintro ⟨cases, hp, hc⟩
    have key : ∀ {s : Suites F}, Part cases s → ∀ m, InOrder s m → c ∈ m := by
      intro s hp
      induction hp with
      | tests => intro m hm; cases hm; exact hc
      | @list s l hm hp ih =>
        intro m hmo
        clear hp
        revert m
        revert hm
        induction l with
        | nil => intro hm; cases hm
        | cons t l ihl =>
          intro hm m hmo
          cases hmo with
          | cons g1 g2 =>
            rcases List.mem_cons.mp hm with rfl | hm
            · exact List.mem_append_left _ (ih _ g1)
            · exact List.mem_append_right _ (ihl hm _ g2)
    exact key hp _ h

/-- **C63**: decorating changes the functions and nothing else. -/
theorem C63_decorate (d : F → F) (s : Suites F) :
    (decorateTests d s).map (·.1) = (mergeTests s).map (·.1) ∧
    (decorateTests d s).map (·.2) = (mergeTests s).map (fun c => d c.2) := by
  unfold decorateTests mergeTests
  simp [List.map_map, Function.comp_def]

example : mergeTests (.list [.tests [("a".toList, 1)], .list [.list [], .tests [("b".toList, 2), ("c".toList, 3)]],
      .tests [("a".toList, 4)]]) =
    [("a".toList, 1), ("b".toList, 2), ("c".toList, 3), ("a".toList, 4)] := by
  simp [mergeTests, casesOf, casesOfList]

/-- **C63**: in a suite with a name the cases keep their order and have the name of the suite in front of
theirs. -/
theorem C63_suite (suite : Str) (hs : suite ≠ []) (cases : Cases F) (hc : ∀ c ∈ cases, ¬ Absolute c.1) :
    testSuite suite cases = cases.map (fun c => (under suite c.1, c.2)) := by
  unfold testSuite
  apply List.map_congr_left
  intro c hm
  unfold under
  by_cases h : suite.getLast? = some '/'
  · rw [if_pos h, pathJoin_slash (hc c hm) h]
  · rw [if_neg h, pathJoin_plain (hc c hm) hs h]

/-- **C63**: dropping a prefix keeps exactly the cases under it, in order, without it; the others are
lost. -/
theorem C63_drop (pre : Str) (cases : Cases F) : Dropped pre cases (dropPrefix pre cases) := by
  have hfull : ∀ n, (if (!endsWith pre "/".toList) = true then pre ++ "/".toList else pre) ++ n = under pre n := by
    intro n
    unfold under
    by_cases h : pre.getLast? = some '/'
    · rw [if_pos h, (endsWith_slash pre).mpr h]; rfl
    · have : endsWith pre "/".toList = false := by
        rcases he : endsWith pre "/".toList with _ | _
        · rfl
        · exact absurd ((endsWith_slash pre).mp he) h
      rw [if_neg h, this]; rfl
  unfold dropPrefix
  dsimp only
  generalize (if (!endsWith pre "/".toList) = true then pre ++ "/".toList else pre) = full at hfull
  have hp : ∀ c : Str × F, startsWith c.1 full = true ↔ ∃ n, c.1 = under pre n := by
    intro c
    unfold startsWith
    rw [List.isPrefixOf_iff_prefix]
    constructor
    · rintro ⟨n, h⟩; exact ⟨n, by rw [← h, hfull]⟩
    · rintro ⟨n, h⟩; exact ⟨n, by rw [h, hfull]⟩
  induction cases with
  | nil => exact .nil
  | cons c cases ih =>
    rw [List.filterMap_cons]
    rcases hs : startsWith c.1 full with _ | _
    · rw [if_neg (by simp)]
      exact .other (fun m hm => by rw [(hp c).mpr ⟨m, hm⟩] at hs; cases hs) ih
    · obtain ⟨n, hn⟩ := (hp c).mp hs
      have hd : c.1.drop full.length = n := by rw [hn, ← hfull, List.drop_left]
      rw [if_pos rfl]
      obtain ⟨c1, c2⟩ := c
      dsimp only at hn hd ⊢
      rw [hd, hn]
      exact .under ih

private theorem under_inj {suite a b : Str} (h : under suite a = under suite b) : a = b := by
  unfold under at h
  split at h <;> exact List.append_cancel_left h

/-- This determines the result. -/
theorem C63_drop_unique {pre : Str} {cases a b : Cases F} (ha : Dropped pre cases a) (hb : Dropped pre cases b) :
    a = b := by
  induction ha generalizing b with
  | nil => cases hb; rfl
  | @under n f x y h ih =>
    generalize hc : (under pre n, f) :: x = cs at hb
    cases hb with
    | nil => cases hc
    | @under n' f' x' y' g =>
      simp only [List.cons.injEq, Prod.mk.injEq] at hc
      obtain ⟨⟨h1, rfl⟩, rfl⟩ := hc
      rw [under_inj h1, ih g]
    | other g1 g2 =>
      simp only [List.cons.injEq, Prod.mk.injEq] at hc
      exact absurd hc.1.1.symm (g1 n)
  | @other n f x y h h' ih =>
    generalize hc : (n, f) :: x = cs at hb
    cases hb with
    | nil => cases hc
    | under g =>
      simp only [List.cons.injEq, Prod.mk.injEq] at hc
      exact absurd hc.1.1 (h _)
    | other g1 g2 =>
      simp only [List.cons.injEq, Prod.mk.injEq] at hc
      obtain ⟨-, rfl⟩ := hc
      exact ih g2

/-- **C63, partial**: dropping the prefix that a suite added gives back the original cases, for suites
with a name and cases whose names do not start with `/`. -/
theorem C63_drop_partial (suite : Str) (hs : suite ≠ []) (cases : Cases F) (hc : ∀ c ∈ cases, ¬ Absolute c.1) :
    dropPrefix suite (testSuite suite cases) = cases := by
  refine C63_drop_unique (C63_drop suite _) ?_
  rw [C63_suite suite hs cases hc]
  clear hc
  induction cases with
  | nil => exact .nil
  | cons c cases ih => exact .under ih

/-- **C63, refuted** for a suite without name: all cases are lost. -/
theorem C63_nameless_refuted : ∃ cases : Cases Nat, cases ≠ [] ∧ (∀ c ∈ cases, ¬ Absolute c.1) ∧
    dropPrefix [] (testSuite [] cases) = [] :=
  ⟨[("a".toList, 1)], by simp, by simp [Absolute], by decide⟩

/-- **C63, refuted** for a case whose name starts with `/`. -/
theorem C63_absolute_refuted : ∃ cases : Cases Nat, cases ≠ [] ∧
    dropPrefix "s".toList (testSuite "s".toList cases) = [] :=
  ⟨[("/a".toList, 1)], by simp, by decide⟩

example : dropPrefix "s".toList (testSuite "s".toList [("a/b".toList, 1), ("s/c".toList, 2)] ++ [("t/d".toList, 3)]) =
    [("a/b".toList, 1), ("s/c".toList, 2)] := by decide

/-- **C63**: a suite in a suite is the suite with both names. -/
theorem C63_nested (a b : Str) (ha : a ≠ []) (hb : b ≠ []) (hab : ¬ Absolute b) (cases : Cases F)
    (hc : ∀ c ∈ cases, ¬ Absolute c.1) :
    testSuite a (testSuite b cases) = testSuite (under a b) cases := by
  have habs : ∀ n, ¬ Absolute (under b n) := by
    intro n
    unfold under Absolute
    cases b with
    | nil => exact absurd rfl hb
    | cons x b =>
      unfold Absolute at hab
      split <;> simpa using hab
  have hu : under a b ≠ [] := by
    unfold under
    split <;> simp [ha]
  rw [C63_suite b hb cases hc, C63_suite (under a b) hu cases hc, C63_suite a ha, List.map_map]
  · apply List.map_congr_left
    intro c _
    simp only [Function.comp_apply, Prod.mk.injEq, and_true]
    have hl : (under a b).getLast? = b.getLast? := by
      obtain ⟨q, x, rfl⟩ : ∃ q x, b = q ++ [x] := ⟨_, _, (List.dropLast_concat_getLast hb).symm⟩
      unfold under
      split
      · rw [← List.append_assoc]; simp
      · rw [← List.append_assoc, List.getLast?_append, List.getLast?_append]; simp
    rw [under.eq_def (under a b), hl, under.eq_def b]
    by_cases h : b.getLast? = some '/'
    · rw [if_pos h, if_pos h]
      unfold under
      split <;> simp [List.append_assoc]
    · rw [if_neg h, if_neg h]
      unfold under
      split <;> simp [List.append_assoc]
  · intro c hm
    obtain ⟨d, _, rfl⟩ := List.mem_map.mp hm
    exact habs d.1

/-! ### C64: test books -/

private theorem assigned_append (a b : List (BodyStep F)) (n : Str) :
    Assigned (a ++ b) n ↔ Assigned a n ∨ Assigned b n := by
  unfold Assigned
  constructor
  · rintro ⟨v, h⟩
    rcases List.mem_append.mp h with h | h
    · exact .inl ⟨v, h⟩
    · exact .inr ⟨v, h⟩
  · rintro (⟨v, h⟩ | ⟨v, h⟩)
    · exact ⟨v, List.mem_append_left _ h⟩
    · exact ⟨v, List.mem_append_right _ h⟩

private theorem assigned_one (m n : Str) (v : Member F) : Assigned [.assign m v] n ↔ n = m := by
  unfold Assigned
  constructor
  · rintro ⟨w, h⟩
    rw [List.mem_singleton, BodyStep.assign.injEq] at h
    exact h.1
  · rintro rfl
    exact ⟨v, List.mem_singleton_self _⟩

private theorem lastValue_one (body : List (BodyStep F)) (m n : Str) (v w : Member F) :
    LastValue (body ++ [.assign m v]) n w ↔ if m = n then v = w else LastValue body n w := by
  unfold LastValue
  constructor
  · rintro ⟨l, r, h1, h2⟩
    rcases List.eq_nil_or_concat r with rfl | ⟨r', x, rfl⟩
    · have := List.append_inj' h1 rfl
      simp only [List.cons.injEq, BodyStep.assign.injEq, and_true] at this
      rw [if_pos this.2.1]
      exact this.2.2
    · rw [List.concat_eq_append] at h1 h2
      have h1' : body ++ [BodyStep.assign m v] = (l ++ .assign n w :: r') ++ [x] := by
        rw [h1]; simp
      have h3 := List.append_inj' h1' rfl
      simp only [List.cons.injEq, and_true] at h3
      rw [← h3.2, assigned_append, assigned_one] at h2
      rw [if_neg (fun e => h2 (.inr e.symm))]
      exact ⟨l, r', h3.1, fun h => h2 (.inl h)⟩
  · intro h
    by_cases e : m = n
    · rw [if_pos e] at h
      subst e h
      exact ⟨body, [], rfl, fun ⟨_, h⟩ => by cases h⟩
    · rw [if_neg e] at h
      obtain ⟨l, r, rfl, h2⟩ := h
      refine ⟨l, r ++ [.assign m v], by simp, ?_⟩
      rw [assigned_append, assigned_one]
      rintro (h | h)
      · exact h2 h
      · exact e h.symm

/-- The invariant of the class body. -/
private structure BookInv (done : List (BodyStep F)) (t : MemberTable F) : Prop where
  nodup : t.names.Nodup
  mem : ∀ n, n ∈ t.names ↔ Assigned done n
  none : ∀ n, t.dict.get n = .none ↔ ¬ Assigned done n
  order : t.names.Pairwise (DefinedBefore done)
  value : ∀ n v, t.dict.get n = some v ↔ LastValue done n v

private theorem definedBefore_append {done : List (BodyStep F)} {a b : Str} (h : DefinedBefore done a b)
    (x : List (BodyStep F)) : DefinedBefore (done ++ x) a b := by
  obtain ⟨l, v, r, rfl, h1, h2, h3⟩ := h
  exact ⟨l, v, r ++ x, by simp, h1, h2, (assigned_append _ _ _).mpr (.inl h3)⟩

private theorem bookInv_step {done : List (BodyStep F)} {t : MemberTable F} (h : BookInv done t) (n : Str)
    (v : Member F) : BookInv (done ++ [.assign n v]) (memberStep t (.assign n v)) := by
  have hass : ∀ m, Assigned (done ++ [.assign n v]) m ↔ Assigned done m ∨ m = n := by
    intro m; rw [assigned_append, assigned_one]
  have hnone : (t.dict.get n).isNone = true ↔ n ∉ t.names := by
    rw [Option.isNone_iff_eq_none, h.none, h.mem]
  refine ⟨?_, ?_, ?_, ?_, ?_⟩
  · simp only [memberStep]
    split
    · rename_i hn
      rw [List.nodup_append]
      refine ⟨h.nodup, by simp, ?_⟩
      intro a ha b hb
      rw [List.mem_singleton] at hb
      subst hb
      intro e
      subst e
      exact (hnone.mp hn) ha
    · exact h.nodup
  · intro m
    simp only [memberStep]
    rw [hass]
    split
    · rw [List.mem_append, List.mem_singleton, h.mem]
    · rename_i hn
      rw [h.mem]
      constructor
      · exact .inl
      · rintro (h1 | rfl)
        · exact h1
        · rw [← h.mem]
          exact Classical.not_not.mp (fun hh => hn (hnone.mpr hh))
  · intro m
    simp only [memberStep]
    rw [Dict.get_set, hass]
    split
    · rename_i e
      simp [e]
    · rename_i e
      rw [h.none]
      constructor
      · rintro h1 (h2 | h2)
        · exact h1 h2
        · exact e h2.symm
      · intro h1 h2
        exact h1 (.inl h2)
  · simp only [memberStep]
    have hp := h.order.imp (fun {a b} hab => definedBefore_append hab [.assign n v])
    split
    · rename_i hn
      rw [List.pairwise_append]
      refine ⟨hp, List.pairwise_singleton _ _, ?_⟩
      intro a ha b hb
      rw [List.mem_singleton] at hb
      subst hb
      have hna : ¬ Assigned done b := fun hh => (hnone.mp hn) ((h.mem b).mpr hh)
      obtain ⟨va, hva⟩ := (h.mem a).mp ha
      obtain ⟨l, r, rfl⟩ := List.append_of_mem hva
      refine ⟨l, va, r ++ [.assign b v], by simp, ?_, ?_, (hass _).mpr (.inr rfl) |> fun _ => ?_⟩
      · intro hh
        exact hna ((assigned_append _ _ _).mpr (.inl hh))
      · intro e
        subst e
        exact (hnone.mp hn) ha
      · rw [assigned_append, assigned_one]
        exact .inr rfl
    · exact hp
  · intro m w
    simp only [memberStep]
    rw [Dict.get_set, lastValue_one]
    split
    · rw [Option.some.injEq]
    · exact h.value m w

private theorem bookInv_all : ∀ (rest done : List (BodyStep F)) (t : MemberTable F), NoDel rest → BookInv done t →
    BookInv (done ++ rest) (rest.foldl memberStep t)
  | [], done, t, _, h => by simpa using h
  | .assign n v :: rest, done, t, hd, h => by
    have := bookInv_all rest _ _ (fun s hs => hd s (List.mem_cons_of_mem _ hs)) (bookInv_step h n v)
    simpa using this
  | .del n :: rest, done, t, hd, h => absurd rfl (hd _ List.mem_cons_self n)

private theorem memberTable_inv {body : List (BodyStep F)} (hd : NoDel body) : BookInv body (memberTable body) := by
  have h0 : BookInv ([] : List (BodyStep F)) ⟨[], []⟩ := by
    refine ⟨List.nodup_nil, ?_, ?_, List.Pairwise.nil, ?_⟩
    · intro n
      simp [Assigned]
    · intro n
      simp [Assigned, Dict.get]
    · intro n v
      simp [LastValue, Dict.get]
  exact bookInv_all body [] _ hd h0

private theorem cleanMethodName_some {n c : Str} : cleanMethodName n = some c ↔ n = "test_".toList ++ c := by
  unfold cleanMethodName startsWith
  constructor
  · intro h
    split at h
    · rename_i hp
      rw [List.isPrefixOf_iff_prefix] at hp
      obtain ⟨r, rfl⟩ := hp
      rw [Option.some.injEq, List.drop_left] at h
      rw [h]
    · cases h
  · rintro rfl
    rw [if_pos (List.isPrefixOf_iff_prefix.mpr (List.prefix_append _ _)), List.drop_left]




private theorem cleanMethodName_none {n : Str} : cleanMethodName n = none ↔ ¬ "test_".toList <+: n := by
  unfold cleanMethodName startsWith
  rw [← List.isPrefixOf_iff_prefix]
  split <;> simp_all

private theorem bookCases_spec {body : List (BodyStep F)} {t : MemberTable F} (ht : BookInv body t)
    (inh : Str → Option (Member F)) : ∀ (names : List Str), (∀ n ∈ names, Assigned body n) →
    (∀ cases, bookCases t inh names = some cases → ∃ tests : List Str, tests.Sublist names ∧
      (∀ n ∈ names, n ∈ tests ↔ "test_".toList <+: n) ∧
      List.Forall₂ (fun n c => n = "test_".toList ++ c.1 ∧ LastValue body n (.method c.2)) tests cases) ∧
    (bookCases t inh names = none ↔ ∃ n ∈ names, "test_".toList <+: n ∧ LastValue body n .other)
  | [], _ => ⟨fun cases h => by
      simp only [bookCases, Option.some.injEq] at h
      subst h
      exact ⟨[], List.Sublist.refl _, by simp, .nil⟩, by simp [bookCases]⟩
  | n :: names, hass => by
    obtain ⟨ih1, ih2⟩ := bookCases_spec ht inh names (fun m hm => hass m (List.mem_cons_of_mem _ hm))
    rw [bookCases]
    rcases hc : cleanMethodName n with _ | c
    · rw [cleanMethodName_none] at hc
      dsimp only
      refine ⟨?_, ?_⟩
      · intro cases h
        obtain ⟨tests, h1, h2, h3⟩ := ih1 cases h
        refine ⟨tests, h1.cons _, ?_, h3⟩
        intro m hm
        rcases List.mem_cons.mp hm with rfl | hm
        · by_cases hmn : m ∈ names
          · exact h2 m hmn
          · exact ⟨fun hh => absurd (h1.subset hh) hmn, fun hh => absurd hh hc⟩
        · exact h2 m hm
      · rw [ih2]
        constructor
        · rintro ⟨m, hm, h⟩
          exact ⟨m, List.mem_cons_of_mem _ hm, h⟩
        · rintro ⟨m, hm, h1, h2⟩
          rcases List.mem_cons.mp hm with rfl | hm
          · exact absurd h1 hc
          · exact ⟨m, hm, h1, h2⟩
    · rw [cleanMethodName_some] at hc
      have hpre : "test_".toList <+: n := ⟨c, hc.symm⟩
      dsimp only
      have hsome : ∃ v, t.dict.get n = some v := by
        rw [← Option.isSome_iff_exists, ← Option.ne_none_iff_isSome, Ne, ht.none]
        exact fun hh => hh (hass n List.mem_cons_self)
      obtain ⟨v, hv⟩ := hsome
      rw [hv, Option.some_or]
      have hlast := (ht.value n v).mp hv
      cases v with
      | other =>
        dsimp only
        exact ⟨fun _ h => (by cases h), ⟨fun _ => ⟨n, List.mem_cons_self, hpre, hlast⟩, fun _ => rfl⟩⟩
      | method f =>
        dsimp only
        refine ⟨?_, ?_⟩
        · intro cases h
          rw [Option.map_eq_some_iff] at h
          obtain ⟨cases', h, rfl⟩ := h
          obtain ⟨tests, h1, h2, h3⟩ := ih1 cases' h
          refine ⟨n :: tests, h1.cons_cons _, ?_, .cons ⟨hc, hlast⟩ h3⟩
          intro m hm
          rcases List.mem_cons.mp hm with rfl | hm
          · exact ⟨fun _ => hpre, fun _ => List.mem_cons_self⟩
          · constructor
            · intro hh
              rcases List.mem_cons.mp hh with rfl | hh
              · exact hpre
              · exact (h2 m hm).mp hh
            · intro hh
              exact List.mem_cons_of_mem _ ((h2 m hm).mpr hh)
        · rw [Option.map_eq_none_iff, ih2]
          constructor
          · rintro ⟨m, hm, h⟩
            exact ⟨m, List.mem_cons_of_mem _ hm, h⟩
          · rintro ⟨m, hm, h1, h2⟩
            rcases List.mem_cons.mp hm with rfl | hm
            · rw [← ht.value, hv] at h2
              cases h2
            · exact ⟨m, hm, h1, h2⟩

/-- **C64, partial**: a book lists each test defined in its class body exactly once, in order of the first
definitions, with the last definition of each. The class body has no `del` statements. -/
theorem C64_book_partial (path : Str) (hp : path ≠ []) (body : List (BodyStep F)) (hd : NoDel body)
    (inherited : Str → Option (Member F)) (classPath : Str) (name : Option Str) (cases : Cases F)
    (h : testBook (some path) classPath name body inherited = some cases)
    (habs : ∀ n, Assigned body n → '/' ∉ n) :
    ∃ tests : List Str, tests.Nodup ∧ (∀ n, n ∈ tests ↔ Assigned body n ∧ "test_".toList <+: n) ∧
      tests.Pairwise (DefinedBefore body) ∧
      List.Forall₂ (fun n c => ∃ x, n = "test_".toList ++ x ∧ c.1 = under path x ∧
        LastValue body n (.method c.2)) tests cases := by
  have ht := memberTable_inv hd
  unfold testBook at h
  simp only [Option.getD_some, Option.map_eq_some_iff] at h
  obtain ⟨inner, h, rfl⟩ := h
  obtain ⟨h1, -⟩ := bookCases_spec ht inherited (memberTable body).names (fun n hn => (ht.mem n).mp hn)
  obtain ⟨tests, h1, h2, h3⟩ := h1 inner h
  refine ⟨tests, ht.nodup.sublist h1, ?_, ht.order.sublist h1, ?_⟩
  · intro n
    constructor
    · intro hn
      exact ⟨(ht.mem n).mp (h1.subset hn), (h2 n (h1.subset hn)).mp hn⟩
    · rintro ⟨ha, hpre⟩
      exact (h2 n ((ht.mem n).mpr ha)).mpr hpre
  · have hmem : ∀ n ∈ tests, '/' ∉ n := fun n hn => habs n ((ht.mem n).mp (h1.subset hn))
    have habs' : ∀ c ∈ inner, ¬ Absolute c.1 := by
      clear h h1 h2
      induction h3 with
      | nil => simp
      | @cons n c ns cs hx _ ih =>
        intro d hdm
        rcases List.mem_cons.mp hdm with rfl | hdm
        · intro ha
          have := hmem n List.mem_cons_self
          rw [hx.1] at this
          apply this
          apply List.mem_append_right
          unfold Absolute at ha
          exact List.mem_of_mem_head? ha
        · exact ih (fun m hm => hmem m (List.mem_cons_of_mem _ hm)) d hdm
    rw [C63_suite path hp inner habs']
    rw [List.forall₂_map_right_iff]
    exact h3.imp (fun n c hnc => ⟨c.1, hnc.1, rfl, hnc.2⟩)

/-- **C64**: a book cannot be created exactly if one of these names is bound to something other than a
method. -/
theorem C64_error (path : Option Str) (classPath : Str) (name : Option Str) (body : List (BodyStep F))
    (hd : NoDel body) (inherited : Str → Option (Member F)) :
    testBook path classPath name body inherited = none ↔
      ∃ n, "test_".toList <+: n ∧ LastValue body n .other := by
  have ht := memberTable_inv hd
  unfold testBook
  simp only [Option.map_eq_none_iff]
  rw [(bookCases_spec ht inherited (memberTable body).names (fun n hn => (ht.mem n).mp hn)).2]
  constructor
  · rintro ⟨n, _, h⟩; exact ⟨n, h⟩
  · rintro ⟨n, h1, h2⟩
    refine ⟨n, (ht.mem n).mpr ?_, h1, h2⟩
    obtain ⟨l, r, rfl, -⟩ := h2
    exact ⟨_, List.mem_append_right _ List.mem_cons_self⟩

/-- **C64, refuted** with `del`: a test that is deleted and defined again is listed twice. -/
theorem C64_del_refuted : ∃ (body : List (BodyStep Nat)) (cases : Cases Nat),
    testBook (some "b".toList) [] none body (fun _ => none) = some cases ∧
    cases.map (·.1) = ["b/a".toList, "b/a".toList] :=
  ⟨[.assign "test_a".toList (.method 1), .del "test_a".toList, .assign "test_a".toList (.method 2)],
    [("b/a".toList, 2), ("b/a".toList, 2)], rfl, rfl⟩

/-- **C64**: the tests of a base class are not listed in a derived one, whatever it inherits. -/
theorem C64_inherited (path : Option Str) (classPath : Str) (name : Option Str) (body : List (BodyStep F))
    (hd : NoDel body) (inherited : Str → Option (Member F)) :
    testBook path classPath name body inherited = testBook path classPath name body (fun _ => none) := by
  have ht := memberTable_inv hd
  unfold testBook
  dsimp only
  congr 1
  have : ∀ names : List Str, (∀ n ∈ names, Assigned body n) →
      bookCases (memberTable body) inherited names = bookCases (memberTable body) (fun _ => none) names := by
    intro names
    induction names with
    | nil => intro _; rfl
    | cons n names ih =>
      intro hn
      have hsome : ∃ v, (memberTable body).dict.get n = some v := by
        rw [← Option.isSome_iff_exists, ← Option.ne_none_iff_isSome, Ne, ht.none]
        exact fun hh => hh (hn n List.mem_cons_self)
      obtain ⟨v, hv⟩ := hsome
      rw [bookCases, bookCases, hv, Option.some_or, Option.some_or,
        ih (fun m hm => hn m (List.mem_cons_of_mem _ hm))]
  exact this _ (fun n hn => (ht.mem n).mp hn)

example : testBook (some "b".toList) [] none
    [.assign "__module__".toList .other, .assign "test_b".toList (.method 1), .assign "helper".toList (.method 2),
      .assign "test_a".toList (.method 3), .assign "test_b".toList (.method 4)] (fun _ => none) =
    some [("b/b".toList, 4), ("b/a".toList, 3)] := rfl

/-- **C64**: the path of a book. -/
theorem C64_path {fullPath : Option Str} {classPath : Str} {name : Option Str} {path : Str}
    (h : BookPath fullPath classPath name path) (body : List (BodyStep F)) (inherited : Str → Option (Member F)) :
    testBook fullPath classPath name body inherited = testBook (some path) [] none body inherited := by
  have key : fullPath.getD (bookPath classPath name) = path := by
    cases h with
    | given => rfl
    | default => rfl
    | named dir last name hl =>
      change join ['/'] ((split '/' (dir ++ ['/'] ++ last)).dropLast ++ [name]) = _
      rw [List.append_assoc, List.singleton_append, split_concat_sep, split_no_sep _ _ hl, List.dropLast_concat,
        join_append _ (split_ne_nil _ _) (by simp), join_split]
      rfl
    | top _ name hl =>
      change join ['/'] ((split '/' classPath).dropLast ++ [path]) = _
      rw [split_no_sep _ _ hl]
      rfl
  unfold testBook
  rw [key]
  rfl

example : BookPath none "test/examples/my".toList (some "x".toList) "test/examples/x".toList :=
  .named "test/examples".toList "my".toList "x".toList (by decide)

/-! ### C70: the choices on the command line -/

/-- The prefixes made by the loop. -/
private def ext : Str → List Str → List Str
  | _, [] => []
  | pre, p :: ps =>
    let pre := if pre.length > 0 then pre ++ "/".toList else pre
    let pre := pre ++ p
    pre :: ext pre ps

private theorem ext_mem : ∀ (ps : List Str) (pre q : Str), pre ≠ [] →
    (q ∈ ext pre ps ↔ ∃ t, t ≠ [] ∧ t <+: ps ∧ q = pre ++ ['/'] ++ join ['/'] t)
  | [], pre, q, _ => by simp [ext]
  | p :: ps, pre, q, hne => by
    have hl : pre.length > 0 := List.length_pos_iff.mpr hne
    have hne' : pre ++ ['/'] ++ p ≠ [] := by simp
    rw [ext]
    simp only [hl, if_true]
    change q ∈ (pre ++ ['/'] ++ p) :: ext (pre ++ ['/'] ++ p) ps ↔ _
    rw [List.mem_cons, ext_mem ps _ q hne']
    constructor
    · rintro (rfl | ⟨t, h1, h2, rfl⟩)
      · exact ⟨[p], by simp, ⟨ps, rfl⟩, rfl⟩
      · refine ⟨p :: t, by simp, by simpa using h2, ?_⟩
        rw [join_cons _ _ h1]
        simp only [List.append_assoc]
    · rintro ⟨t, h1, h2, rfl⟩
      cases t with
      | nil => exact absurd rfl h1
      | cons x t =>
        rw [List.cons_prefix_cons] at h2
        obtain ⟨rfl, h2⟩ := h2
        by_cases ht : t = []
        · subst ht; exact .inl rfl
        · refine .inr ⟨t, ht, h2, ?_⟩
          rw [join_cons _ _ ht]
          simp only [List.append_assoc]

private theorem pathPrefix_iff (q name : Str) :
    PathPrefix q name ↔ ∃ t, t ≠ [] ∧ t <+: split '/' name ∧ q = join ['/'] t := by
  unfold PathPrefix
  have h := split_prefix '/' q name
  have e : (name = q ∨ ∃ rest, name = q ++ "/".toList ++ rest) ↔ (name = q ∨ ∃ r, name = q ++ '/' :: r) := by
    simp
  rw [e, ← h]
  constructor
  · intro hp
    exact ⟨split '/' q, split_ne_nil _ _, hp, (join_split '/' q).symm⟩
  · rintro ⟨t, h1, h2, rfl⟩
    rw [split_join_sep '/' h1]
    · exact h2
    · intro p hp
      exact (split_mem '/' name p (h2.subset hp)).1

private theorem ext_split {name : Str} (ha : ¬ Absolute name) (q : Str) :
    q ∈ ext [] (split '/' name) ↔ PathPrefix q name := by
  rw [pathPrefix_iff]
  rcases hs : split '/' name with _ | ⟨p, ps⟩
  · exact absurd hs (split_ne_nil _ _)
  · have hj := join_split '/' name
    rw [hs] at hj
    rw [ext]
    change q ∈ p :: ext p ps ↔ _
    by_cases hp : p = []
    · have hps : ps = [] := by
        apply Classical.byContradiction
        intro hps
        rw [join_cons _ _ hps, hp] at hj
        exact ha (by rw [← hj]; rfl)
      subst hp hps
      constructor
      · intro h
        have : q = [] := by simpa [ext] using h
        exact ⟨[[]], by simp, by simp, by rw [this]; rfl⟩
      · rintro ⟨t, h1, h2, rfl⟩
        cases t with
        | nil => exact absurd rfl h1
        | cons x t =>
          rw [List.cons_prefix_cons, List.prefix_nil] at h2
          obtain ⟨rfl, rfl⟩ := h2
          exact List.mem_cons_self
    · rw [List.mem_cons, ext_mem ps p q hp]
      constructor
      · rintro (rfl | ⟨t, h1, h2, rfl⟩)
        · exact ⟨[q], by simp, by simp, rfl⟩
        · refine ⟨p :: t, by simp, by simpa using h2, ?_⟩
          rw [join_cons _ _ h1]
      · rintro ⟨t, h1, h2, rfl⟩
        cases t with
        | nil => exact absurd rfl h1
        | cons x t =>
          rw [List.cons_prefix_cons] at h2
          obtain ⟨rfl, h2⟩ := h2
          by_cases ht : t = []
          · subst ht; exact .inl rfl
          · refine .inr ⟨t, ht, h2, ?_⟩
            rw [join_cons _ _ ht]

/-- The next prefix. -/
private def nextPre (pre p : Str) : Str := (if pre.length > 0 then pre ++ "/".toList else pre) ++ p

private theorem choices_cons (pre p : Str) (ps cs : List Str) : choicesOfParts pre (p :: ps) cs =
    choicesOfParts (nextPre pre p) ps
      (if cs.contains (nextPre pre p) then cs else cs ++ [nextPre pre p, "skip:".toList ++ nextPre pre p]) := rfl

private theorem ext_cons (pre p : Str) (ps : List Str) :
    ext pre (p :: ps) = nextPre pre p :: ext (nextPre pre p) ps := rfl

private theorem choices_mono : ∀ (ps : List Str) (pre : Str) (cs : List Str), ∀ c ∈ cs, c ∈ choicesOfParts pre ps cs
  | [], _, _, _, h => h
  | p :: ps, pre, cs, c, h => by
    rw [choices_cons]
    apply choices_mono
    split
    · exact h
    · exact List.mem_append_left _ h

private theorem choices_sound : ∀ (ps : List Str) (pre : Str) (cs : List Str), ∀ c ∈ choicesOfParts pre ps cs,
    c ∈ cs ∨ ∃ q ∈ ext pre ps, c = q ∨ c = "skip:".toList ++ q
  | [], _, _, _, h => .inl h
  | p :: ps, pre, cs, c, h => by
    rw [choices_cons] at h
    rw [ext_cons]
    rcases choices_sound ps _ _ c h with h | ⟨q, hq, h⟩
    · split at h
      · exact .inl h
      · rcases List.mem_append.mp h with h | h
        · exact .inl h
        · refine .inr ⟨_, List.mem_cons_self, ?_⟩
          simpa only [List.mem_cons, List.not_mem_nil, or_false] using h
    · exact .inr ⟨q, List.mem_cons_of_mem _ hq, h⟩

private theorem choices_complete : ∀ (ps : List Str) (pre : Str) (cs : List Str), ∀ q ∈ ext pre ps,
    q ∈ choicesOfParts pre ps cs
  | [], _, _, _, h => by cases h
  | p :: ps, pre, cs, q, h => by
    rw [ext_cons] at h
    rw [choices_cons]
    rcases List.mem_cons.mp h with rfl | h
    · apply choices_mono
      split
      · rename_i hc
        exact List.contains_iff_mem.mp hc
      · exact List.mem_append_right _ List.mem_cons_self
    · exact choices_complete ps _ _ q h

/-- The invariant for the skip choices. -/
private def SkipInv (cs : List Str) : Prop :=
  ∀ q ∈ cs, q ≠ "*".toList → ¬ "skip:".toList <+: q → "skip:".toList ++ q ∈ cs

private theorem choices_skip : ∀ (ps : List Str) (pre : Str) (cs : List Str), SkipInv cs →
    SkipInv (choicesOfParts pre ps cs)
  | [], _, _, h => h
  | p :: ps, pre, cs, h => by
    rw [choices_cons]
    apply choices_skip
    split
    · exact h
    · intro q hq h1 h2
      rcases List.mem_append.mp hq with hq | hq
      · exact List.mem_append_left _ (h q hq h1 h2)
      · rcases List.mem_cons.mp hq with rfl | hq
        · exact List.mem_append_right _ (List.mem_cons_of_mem _ List.mem_cons_self)
        · rw [List.mem_singleton] at hq
          exact absurd ⟨_, hq.symm⟩ h2

private theorem fold_choices : ∀ (names : List Str) (cs : List Str),
    (∀ name ∈ names, ¬ Absolute name) →
    (∀ c ∈ cs, c ∈ names.foldl (fun choices name => choicesOfParts [] (split '/' name) choices) cs) ∧
    (∀ c ∈ names.foldl (fun choices name => choicesOfParts [] (split '/' name) choices) cs,
      c ∈ cs ∨ ∃ name ∈ names, ∃ q, PathPrefix q name ∧ (c = q ∨ c = "skip:".toList ++ q)) ∧
    (∀ name ∈ names, ∀ q, PathPrefix q name →
      q ∈ names.foldl (fun choices name => choicesOfParts [] (split '/' name) choices) cs) ∧
    (SkipInv cs → SkipInv (names.foldl (fun choices name => choicesOfParts [] (split '/' name) choices) cs))
  | [], cs, _ => ⟨fun c h => h, fun c h => .inl h, fun _ h => (by cases h), fun h => h⟩
  | n :: names, cs, ha => by
    obtain ⟨i1, i2, i3, i4⟩ := fold_choices names (choicesOfParts [] (split '/' n) cs)
      (fun m hm => ha m (List.mem_cons_of_mem _ hm))
    have hn := ha n List.mem_cons_self
    rw [List.foldl_cons]
    refine ⟨?_, ?_, ?_, ?_⟩
    · intro c hc
      exact i1 c (choices_mono _ _ _ c hc)
    · intro c hc
      rcases i2 c hc with h | ⟨m, hm, h⟩
      · rcases choices_sound _ _ _ c h with h | ⟨q, hq, h⟩
        · exact .inl h
        · exact .inr ⟨n, List.mem_cons_self, q, (ext_split hn q).mp hq, h⟩
      · exact .inr ⟨m, List.mem_cons_of_mem _ hm, h⟩
    · intro m hm q hq
      rcases List.mem_cons.mp hm with rfl | hm
      · exact i1 q (choices_complete _ _ _ q ((ext_split hn q).mpr hq))
      · exact i3 m hm q hq
    · intro h
      exact i4 (choices_skip _ _ _ h)

/-- **C70, partial**: the accepted arguments are exactly `*`, the path prefixes of the test names, and
`skip:` followed by one. No name starts with `/` or `skip:`, or has the first part `*`. -/
theorem C70_choices_partial (names : List Str)
    (hn : ∀ name ∈ names, ¬ Absolute name ∧ ¬ PathPrefix "*".toList name ∧ ¬ "skip:".toList <+: name) (c : Str) :
    c ∈ testChoices names ↔
      c = "*".toList ∨ ∃ name ∈ names, ∃ q, PathPrefix q name ∧ (c = q ∨ c = "skip:".toList ++ q) := by
  obtain ⟨i1, i2, i3, i4⟩ := fold_choices names ["*".toList] (fun m hm => (hn m hm).1)
  unfold testChoices
  constructor
  · intro h
    rcases i2 c h with h | h
    · exact .inl (List.mem_singleton.mp h)
    · exact .inr h
  · rintro (rfl | ⟨name, hm, q, hq, rfl | rfl⟩)
    · exact i1 _ (List.mem_singleton_self _)
    · exact i3 name hm _ hq
    · refine i4 ?_ q (i3 name hm q hq) ?_ ?_
      · intro x hx hne
        exact absurd (List.mem_singleton.mp hx) hne
      · rintro rfl
        exact (hn name hm).2.1 hq
      · intro hp
        apply (hn name hm).2.2
        rcases hq with rfl | ⟨r, rfl⟩
        · exact hp
        · rw [List.append_assoc]
          exact hp.trans (List.prefix_append _ _)

/-- **C70, refuted** for a name that starts with `/`: it cannot be given. -/
theorem C70_absolute_refuted : "/a".toList ∉ testChoices ["/a".toList] ∧ "a".toList ∈ testChoices ["/a".toList] := by
  decide

/-- **C70, refuted** for a directory named `*`: it cannot be skipped. -/
theorem C70_star_refuted : "skip:*".toList ∉ testChoices ["*/a".toList] := by decide

/-- **C70, refuted** for a name that starts with `skip:`. -/
theorem C70_skip_refuted : "skip:skip:a".toList ∉ testChoices ["a".toList, "skip:a".toList] := by decide

/-- **C70**: every test can be given, and is then the one selected, with the tests below it. -/
theorem C70_selects (names : List Str) (hn : ∀ name ∈ names, ¬ Absolute name) (name : Str) (hm : name ∈ names)
    (hs : ¬ "skip:".toList <+: name) (hstar : name ≠ "*".toList) (hne : name ≠ []) :
    name ∈ testChoices names ∧ ∀ other, isSelected other [name] = true ↔ PathPrefix name other := by
  obtain ⟨i1, i2, i3, i4⟩ := fold_choices names ["*".toList] hn
  refine ⟨i3 name hm name (.inl rfl), ?_⟩
  intro other
  have hst : startsWith name "skip:".toList = false := by
    rcases h : startsWith name "skip:".toList with _ | _
    · rfl
    · exact absurd (List.isPrefixOf_iff_prefix.mp h) hs
  unfold isSelected
  simp only [negatives, hst, Bool.false_eq_true, if_false, List.length_singleton, List.any_cons, List.any_nil,
    Bool.or_false, Nat.zero_ne_one]
  rw [Bool.or_eq_true, beq_iff_eq, argMatches_iff]
  unfold Covers PathPrefix
  rw [split_prefix]
  simp only [hstar, false_or, hne]
  simp

/-- **C70**: every accepted argument without `skip:` selects a test. -/
theorem C70_useful (names : List Str) (hn : ∀ name ∈ names, ¬ Absolute name) (hne : names ≠ []) (c : Str)
    (hc : c ∈ testChoices names) (hs : ¬ "skip:".toList <+: c) : ∃ name ∈ names, isSelected name [c] = true := by
  obtain ⟨i1, i2, i3, i4⟩ := fold_choices names ["*".toList] hn
  have hst : startsWith c "skip:".toList = false := by
    rcases h : startsWith c "skip:".toList with _ | _
    · rfl
    · exact absurd (List.isPrefixOf_iff_prefix.mp h) hs
  have hsel : ∀ name, isSelected name [c] = true ↔ (c = "*".toList ∨ Covers c name) := by
    intro name
    unfold isSelected
    simp only [negatives, hst, Bool.false_eq_true, if_false, List.length_singleton, List.any_cons, List.any_nil,
      Bool.or_false, Nat.zero_ne_one]
    rw [Bool.or_eq_true, beq_iff_eq, argMatches_iff]
  rcases i2 c hc with h | ⟨name, hm, q, hq, rfl | rfl⟩
  · cases names with
    | nil => exact absurd rfl hne
    | cons n names => exact ⟨n, List.mem_cons_self, (hsel n).mpr (.inl (List.mem_singleton.mp h))⟩
  · refine ⟨name, hm, (hsel name).mpr (.inr (.inr ?_))⟩
    rw [split_prefix]
    rcases hq with h | ⟨r, h⟩
    · exact .inl h
    · exact .inr ⟨r, by rw [h]; simp⟩
  · exact absurd (List.prefix_append _ _) hs

example : testChoices ["a/b".toList, "a/c/d".toList] = ["*".toList, "a".toList, "skip:a".toList, "a/b".toList,
    "skip:a/b".toList, "a/c".toList, "skip:a/c".toList, "a/c/d".toList, "skip:a/c/d".toList] := by decide

example : ∀ name ∈ ["a/b".toList, "a/c/d".toList],
    ¬ Absolute name ∧ ¬ PathPrefix "*".toList name ∧ ¬ "skip:".toList <+: name := by
  simp [Absolute, PathPrefix]

end Verif.Props
