import Verif.Model.Naming
import Verif.Spec.Naming
import Verif.Lemmas.Selection

/-! # Names of tests (C62) -/

namespace Verif.Props
open Verif.Py Verif.Model Verif.Spec Verif.Lemmas

/-! ### Class names -/

private theorem snakeLoop_spec (u : Unicode) (name : Str) : ∀ (rest : Str) (i : Nat), name.drop i = rest →
    ∀ b : Bool, (b = true ↔ 0 < i ∧ ∃ p, name[i - 1]? = some p ∧ u.isUpper p = false) →
    SnakeFrom u name i (snakeLoop u b rest) := by
  intro rest
  induction rest with
  | nil => intro i h b _; exact .stop i (List.drop_eq_nil_iff.mp h)
  | cons c rest ih =>
    intro i h b hb
    have hc : name[i]? = some c := by
      have := congrArg List.head? h
      simpa [List.head?_drop] using this
    have hrest : name.drop (i + 1) = rest := by
      have := congrArg List.tail h
      simpa using this
    have hnext := ih (i + 1) hrest (!u.isUpper c) (by
      simp only [Bool.not_eq_true', Nat.zero_lt_succ, Nat.add_sub_cancel, true_and, hc, Option.some.injEq,
        exists_eq_left'])
    have hbd : BoundaryAt u name i ↔ (b && u.isUpper c) = true := by
      rw [Bool.and_eq_true, hb]
      constructor
      · rintro ⟨p, c', h0, h1, h2, h3, h4⟩
        rw [hc] at h2
        cases h2
        exact ⟨⟨h0, p, h1, h3⟩, h4⟩
      · rintro ⟨⟨h0, p, h1, h3⟩, h4⟩
        exact ⟨p, c, h0, h1, hc, h3, h4⟩
    simp only [snakeLoop]
    by_cases hx : (b && u.isUpper c) = true
    · rw [if_pos hx]
      exact .boundary i c _ hc (hbd.mpr hx) hnext
    · rw [if_neg hx]
      exact .plain i c _ hc (fun h => hx (hbd.mp h)) hnext

/-- **C62**: a class name becomes its characters in lower case, with an underscore inserted exactly
before every upper case character that follows a character that is not upper case. -/
theorem C62_snake (u : Unicode) (name : Str) : SnakeFrom u name 0 (camelToSnake u name) :=
  snakeLoop_spec u name name 0 rfl false (by simp)

/-- The relation determines the result. -/
theorem C62_snake_unique (u : Unicode) (name : Str) (i : Nat) (out out' : Str)
    (h : SnakeFrom u name i out) (h' : SnakeFrom u name i out') : out = out' := by
  induction h generalizing out' with
  | stop i hi =>
    cases h' with
    | stop _ _ => rfl
    | plain _ c _ hc _ _ => rw [List.getElem?_eq_none hi] at hc; cases hc
    | boundary _ c _ hc _ _ => rw [List.getElem?_eq_none hi] at hc; cases hc
  | plain i c out hc hb _ ih =>
    cases h' with
    | stop _ hi => rw [List.getElem?_eq_none hi] at hc; cases hc
    | plain _ c' _ hc' _ h2 => rw [hc] at hc'; cases hc'; rw [ih _ h2]
    | boundary _ _ _ _ hb' _ => exact absurd hb' hb
  | boundary i c out hc hb _ ih =>
    cases h' with
    | stop _ hi => rw [List.getElem?_eq_none hi] at hc; cases hc
    | plain _ _ _ _ hb' _ => exact absurd hb hb'
    | boundary _ c' _ hc' _ h2 => rw [hc] at hc'; cases hc'; rw [ih _ h2]

/-- **C62**: removing the underscores gives the letters of the name in lower case (for names without
underscores and lower case mappings that do not produce any). -/
theorem C62_letters (u : Unicode) (name : Str) (hu : ∀ c ∈ name, '_' ∉ u.lower c) :
    (camelToSnake u name).filter (· ≠ '_') = lower u name := by
  have : ∀ (name : Str) (b : Bool), (∀ c ∈ name, '_' ∉ u.lower c) →
      (snakeLoop u b name).filter (· ≠ '_') = lower u name := by
    intro name
    induction name with
    | nil => intros; rfl
    | cons c name ih =>
      intro b h
      have hl : (u.lower c).filter (· ≠ '_') = u.lower c := by
        rw [List.filter_eq_self]
        intro x hx
        simp only [ne_eq, decide_eq_true_eq]
        rintro rfl
        exact h c List.mem_cons_self hx
      simp only [snakeLoop, List.filter_append, ih (!u.isUpper c) (fun c hc => h c (List.mem_cons_of_mem _ hc)), hl]
      have : (if (b && u.isUpper c) = true then ['_'] else []).filter (· ≠ '_') = ([] : Str) := by
        split <;> rfl
      rw [this]
      rfl
  exact this name false hu

example : camelToSnake ascii "FastHTTPTestBook".toList = "fast_httptest_book".toList ∧
    ∀ c ∈ "FastHTTPTestBook".toList, '_' ∉ ascii.lower c := by
  constructor
  · decide
  · decide

/-- **C62, refuted**: that underscores are inserted only between a lower case and an upper case
letter. Digits and underscores count as lower case. -/
theorem C62_boundary_refuted : camelToSnake ascii "Fast_Test".toList = "fast__test".toList ∧
    camelToSnake ascii "V2Test".toList = "v2_test".toList := by decide

/-- Different classes can get the same name. -/
theorem C62_distinct_refuted : cleanClassName ascii "FOOBarTest".toList = cleanClassName ascii "FoobarBook".toList := by
  decide

/-! ### Suffixes -/

/-- The order in which the suffixes are tried. -/
private def tried : List Str := ["_testbook".toList, "testbook".toList, "_test_book".toList, "test_book".toList,
  "_book".toList, "book".toList, "_test".toList, "test".toList]

private def firstSuffix (name : Str) : List Str → Str
  | [] => name
  | s :: rest => if endsWith name s then name.take (name.length - s.length) else firstSuffix name rest

private theorem clean_eq (u : Unicode) (name : Str) :
    cleanTestPostfix u name = firstSuffix (lower u name) tried := rfl

private theorem firstSuffix_spec (name : Str) : ∀ l : List Str,
    l.Pairwise (fun a b => a.length < b.length → ¬ a <:+ b) →
    ((∀ s ∈ l, ¬ s <:+ name) ∧ firstSuffix name l = name) ∨
    ∃ s ∈ l, name = firstSuffix name l ++ s ∧ ∀ s' ∈ l, s' <:+ name → s'.length ≤ s.length := by
  intro l
  induction l with
  | nil => intro _; exact .inl ⟨by simp, rfl⟩
  | cons s l ih =>
    intro h
    rw [List.pairwise_cons] at h
    simp only [firstSuffix]
    by_cases hs : endsWith name s = true
    · rw [if_pos hs]
      right
      have hs' : s <:+ name := by simpa [endsWith] using hs
      refine ⟨s, List.mem_cons_self, ?_, ?_⟩
      · obtain ⟨t, ht⟩ := hs'
        rw [← ht]
        simp
      · intro s' h' hsuf
        rcases List.mem_cons.mp h' with rfl | h'
        · exact Nat.le_refl _
        · rcases Nat.lt_or_ge s.length s'.length with hlt | hge
          · exact absurd (List.suffix_of_suffix_length_le hs' hsuf (Nat.le_of_lt hlt)) (h.1 s' h' hlt)
          · exact hge
    · rw [if_neg hs]
      have hn : ¬ s <:+ name := fun hx => hs (by simpa [endsWith] using hx)
      rcases ih h.2 with ⟨h1, h2⟩ | ⟨t, h1, h2, h3⟩
      · left
        refine ⟨?_, h2⟩
        intro x hx
        rcases List.mem_cons.mp hx with rfl | hx
        · exact hn
        · exact h1 x hx
      · right
        refine ⟨t, List.mem_cons_of_mem _ h1, h2, ?_⟩
        intro x hx hsuf
        rcases List.mem_cons.mp hx with rfl | hx
        · exact absurd hsuf hn
        · exact h3 x hx hsuf

/-- **C62**: of file and class names, in lower case, the longest of the suffixes is removed, once. -/
theorem C62_suffix (u : Unicode) (name : Str) : WithoutSuffix (lower u name) (cleanTestPostfix u name) := by
  have hperm : ∀ s, s ∈ tried ↔ s ∈ suffixes := by
    intro s
    simp only [tried, suffixes, List.mem_cons, List.not_mem_nil, or_false]
    constructor <;> rintro (h | h | h | h | h | h | h | h) <;> simp [h]
  rw [clean_eq]
  rcases firstSuffix_spec (lower u name) tried (by decide) with ⟨h1, h2⟩ | ⟨s, h1, h2, h3⟩
  · exact .inl ⟨fun s hs => h1 s ((hperm s).mpr hs), h2⟩
  · exact .inr ⟨s, (hperm s).mp h1, h2, fun s' hs' => h3 s' ((hperm s').mpr hs')⟩

example : cleanTestPostfix ascii "Best_Test_Book".toList = "best".toList ∧
    cleanTestPostfix ascii "test_test".toList = "test".toList ∧
    cleanTestPostfix ascii "example".toList = "example".toList := by decide

/-! ### Methods and classes -/

/-- **C62**: `test_x` becomes `x`; other methods have no name. -/
theorem C62_method (name x : Str) : cleanMethodName name = some x ↔ name = "test_".toList ++ x := by
  unfold cleanMethodName startsWith
  by_cases h : "test_".toList.isPrefixOf name = true
  · rw [if_pos h]
    obtain ⟨t, ht⟩ := List.isPrefixOf_iff_prefix.mp h
    rw [← ht, List.drop_left, Option.some.injEq]
    exact ⟨fun h => by rw [h], fun h => List.append_cancel_left h⟩
  · rw [if_neg h]
    constructor
    · intro h; cases h
    · rintro rfl
      exact absurd (List.isPrefixOf_iff_prefix.mpr (List.prefix_append _ _)) h

/-- **C62**: the components of the name of a test class are the packages of its module, the file name
without suffix and, unless it is the same up to underscores, the class name without suffix. -/
theorem C62_class (u : Unicode) (packages : List Str) (file clazz : Str)
    (hp : ∀ p ∈ packages, '.' ∉ p) (hf : '.' ∉ file) :
    classToTestPath u (join ['.'] (packages ++ [file])) clazz =
      join ['/'] (packages ++ [cleanTestPostfix u file] ++
        (if (cleanTestPostfix u file).filter (· ≠ '_') = (cleanClassName u clazz).filter (· ≠ '_') then []
         else [cleanClassName u clazz])) := by
  have hsplit : split '.' (join ['.'] (packages ++ [file])) = packages ++ [file] := by
    apply split_join_sep '.' (by simp)
    intro p hp'
    rcases List.mem_append.mp hp' with h | h
    · exact hp p h
    · rw [List.mem_singleton] at h; rw [h]; exact hf
  unfold classToTestPath
  simp only [hsplit, List.dropLast_concat, List.getLastD_concat, dropUnderscores, ne_eq, ite_not]

example : classToTestPath ascii "test.examples.hello_book".toList "HelloBook".toList = "test/examples/hello".toList ∧
    classToTestPath ascii "test.examples.hello_book".toList "WorldTestBook".toList =
      "test/examples/hello/world".toList := by decide

end Verif.Props
