import Verif.Spec.Selection
import Verif.Lemmas.Reports
import Verif.Lemmas.FS

/-! # Facts about selection and dependencies -/

namespace Verif.Lemmas
open Verif.Py Verif.Model Verif.Spec

/-! ### Arguments -/

theorem split_concat_sep (c : Char) (a b : Str) : split c (a ++ c :: b) = split c a ++ split c b := by
  induction a with
  | nil => simp [split]
  | cons x xs ih =>
    by_cases hx : x = c
    · simp [split, hx, ih]
    · simp only [List.cons_append, split, hx, if_false, ih]
      cases h : split c xs with
      | nil => exact absurd h (split_ne_nil c xs)
      | cons k ks => simp

theorem join_cons (sep p : Str) {ps : List Str} (h : ps ≠ []) :
    join sep (p :: ps) = p ++ sep ++ join sep ps := by
  cases ps with
  | nil => exact absurd rfl h
  | cons q qs => rfl

theorem split_join_sep (c : Char) {parts : List Str} (hne : parts ≠ []) (h : ∀ p ∈ parts, c ∉ p) :
    split c (join [c] parts) = parts := by
  induction parts with
  | nil => exact absurd rfl hne
  | cons p ps ih =>
    cases ps with
    | nil => exact split_no_sep c p (h p (by simp))
    | cons q qs =>
      rw [join_cons _ _ (by simp), List.append_assoc]
      show split c (p ++ c :: join [c] (q :: qs)) = _
      rw [split_sep c p _ (h p (by simp)), ih (by simp) (fun x hx => h x (by simp [hx]))]

theorem join_split (c : Char) (s : Str) : join [c] (split c s) = s := by
  induction s with
  | nil => rfl
  | cons x xs ih =>
    by_cases hx : x = c
    · simp only [split, hx, if_true]
      rw [join_cons _ _ (split_ne_nil c xs), ih]; rfl
    · simp only [split, hx, if_false]
      cases h : split c xs with
      | nil => exact absurd h (split_ne_nil c xs)
      | cons k ks =>
        rw [h] at ih
        cases ks with
        | nil => simp only [join] at ih ⊢; rw [ih]
        | cons k2 k3 =>
          rw [join_cons _ _ (by simp)] at ih ⊢
          simp only [List.cons_append]; rw [ih]

theorem join_append (sep : Str) {a b : List Str} (ha : a ≠ []) (hb : b ≠ []) :
    join sep (a ++ b) = join sep a ++ sep ++ join sep b := by
  induction a with
  | nil => exact absurd rfl ha
  | cons x xs ih =>
    cases xs with
    | nil => simp [join_cons _ _ hb, join]
    | cons y ys =>
      rw [List.cons_append, join_cons _ _ (by simp), ih (by simp), join_cons sep x (by simp)]
      simp [List.append_assoc]

theorem split_prefix (c : Char) (s n : Str) :
    split c s <+: split c n ↔ n = s ∨ ∃ r, n = s ++ c :: r := by
  constructor
  · rintro ⟨t, ht⟩
    by_cases h : t = []
    · subst h
      rw [List.append_nil] at ht
      exact Or.inl (split_inj c ht).symm
    · right
      have := congrArg (join [c]) ht
      rw [join_append _ (split_ne_nil c s) h, join_split, join_split] at this
      exact ⟨join [c] t, by simpa using this.symm⟩
  · rintro (rfl | ⟨r, rfl⟩)
    · exact List.prefix_rfl
    · rw [split_concat_sep]; exact List.prefix_append _ _

theorem argMatches_iff (name s : Str) : argMatches name s = true ↔ Covers s name := by
  unfold argMatches Covers startsWith
  rw [split_prefix]
  simp only [Bool.and_eq_true, List.isPrefixOf_iff_prefix, Bool.or_eq_true, beq_iff_eq]
  constructor
  · rintro ⟨⟨r, rfl⟩, (h | h) | h⟩
    · exact Or.inl (List.length_eq_zero_iff.mp h)
    · right; left
      have : r = [] := by simpa using h
      simp [this]
    · right; right
      rw [List.getElem?_append_right (Nat.le_refl _), Nat.sub_self] at h
      cases r with
      | nil => simp at h
      | cons x xs => exact ⟨xs, by simpa using h⟩
  · rintro (rfl | rfl | ⟨r, rfl⟩)
    · simp
    · simp
    · simp

theorem skipArg_some {s a : Str} (h : skipArg s = some a) :
    startsWith s "skip:".toList = true ∧ a = s.drop "skip:".toList.length := by
  unfold skipArg at h
  split at h
  · rename_i hp
    cases h
    exact ⟨List.isPrefixOf_iff_prefix.mpr hp, rfl⟩
  · cases h

theorem skipArg_none {s : Str} (h : skipArg s = none) : startsWith s "skip:".toList = false := by
  unfold skipArg at h
  split at h
  · cases h
  · rename_i hp
    cases hs : startsWith s "skip:".toList with
    | false => rfl
    | true => exact absurd (List.isPrefixOf_iff_prefix.mp hs) hp

theorem negatives_none (name : Str) (sel : List Str) : negatives name sel = none ↔
    ∃ s ∈ sel, ∃ a, skipArg s = some a ∧ Covers a name := by
  induction sel with
  | nil => simp [negatives]
  | cons s ss ih =>
    unfold negatives
    cases hk : skipArg s with
    | none =>
      rw [if_neg (by rw [skipArg_none hk]; simp), ih]
      simp [hk]
    | some a =>
      obtain ⟨h1, rfl⟩ := skipArg_some hk
      rw [if_pos h1]
      by_cases hm : argMatches name (List.drop "skip:".toList.length s) = true
      · rw [if_pos hm]
        simp only [true_iff]
        exact ⟨s, by simp, _, hk, (argMatches_iff _ _).mp hm⟩
      · rw [if_neg hm, Option.map_eq_none_iff, ih]
        constructor
        · rintro ⟨t, ht, h⟩
          exact ⟨t, by simp [ht], h⟩
        · rintro ⟨t, ht, a, h2, h3⟩
          rcases List.mem_cons.mp ht with rfl | ht
          · rw [hk] at h2; cases h2
            exact absurd ((argMatches_iff _ _).mpr h3) hm
          · exact ⟨t, ht, a, h2, h3⟩

theorem negatives_some {name : Str} {sel : List Str} {k : Nat} (h : negatives name sel = some k) :
    k ≤ sel.length ∧ (k = sel.length ↔ ∀ s ∈ sel, skipArg s ≠ none) := by
  induction sel generalizing k with
  | nil => simp [negatives] at h; simp [← h]
  | cons s ss ih =>
    unfold negatives at h
    cases hk : skipArg s with
    | none =>
      rw [if_neg (by rw [skipArg_none hk]; simp)] at h
      have := (ih h).1
      constructor
      · simp only [List.length_cons]; omega
      · constructor
        · simp only [List.length_cons]; omega
        · intro ha
          exact absurd hk (ha s (by simp))
    | some a =>
      obtain ⟨h1, rfl⟩ := skipArg_some hk
      rw [if_pos h1] at h
      split at h
      · cases h
      · obtain ⟨j, hj, rfl⟩ := Option.map_eq_some_iff.mp h
        obtain ⟨i1, i2⟩ := ih hj
        refine ⟨by simp only [List.length_cons]; omega, ?_⟩
        simp only [List.length_cons, Nat.add_right_cancel_iff, i2, List.mem_cons, forall_eq_or_imp]
        constructor
        · intro h; exact ⟨by rw [hk]; simp, h⟩
        · exact fun h => h.2

/-- An argument that starts with `skip:` covers only names that do. -/
theorem covers_skip {s a name : Str} (h : skipArg s = some a) (hc : Covers s name) :
    "skip:".toList <+: name := by
  have h1 : "skip:".toList <+: s := by
    unfold skipArg at h
    split at h
    · assumption
    · cases h
  rcases hc with rfl | hc
  · simp at h1
  · rcases (split_prefix _ _ _).mp hc with rfl | ⟨r, rfl⟩
    · exact h1
    · exact h1.trans (List.prefix_append _ _)

/-! ### Dependencies -/

theorem getCase_mem {s : Suite} {n : Str} {m : Meth} (h : getCase s n = some m) :
    (n, m) ∈ s.cases := by
  unfold getCase at h
  obtain ⟨c, hc, rfl⟩ := Option.map_eq_some_iff.mp h
  have h1 := List.find?_some hc
  have h2 := List.mem_of_find?_eq_some hc
  have : c.1 = n := by simpa using h1
  subst this
  exact h2

theorem getCase_isSome {s : Suite} {n : Str} {m : Meth} (h : (n, m) ∈ s.cases) :
    ∃ m', getCase s n = some m' := by
  unfold getCase
  cases hf : s.cases.find? (fun c => c.1 == n) with
  | none => exact absurd (List.find?_eq_none.mp hf _ h) (by simp)
  | some c => exact ⟨c.2, rfl⟩

theorem caseByMethod_mem {s : Suite} {m : Meth} {b : Str} (h : caseByMethod s m = some b) :
    ∃ m', (b, m') ∈ s.cases ∧ matchMethod s m m' = true := by
  unfold caseByMethod at h
  obtain ⟨c, hc, rfl⟩ := Option.map_eq_some_iff.mp h
  exact ⟨c.2, List.mem_of_find?_eq_some hc, List.find?_some (p := fun c : Str × Meth => matchMethod s m c.2) hc⟩

theorem mem_methodDependencies {s : Suite} {m : Meth} {sel : List Str} {stored : Option (Str → Bool)}
    {b : Str} : b ∈ methodDependencies s m sel stored ↔
      Declares s m b ∧ (isSelected b sel = true ∨ ¬ Stored stored b) := by
  unfold methodDependencies Declares
  cases hd : (s.info m.fn).deps with
  | none => simp
  | some ds =>
    simp only [List.mem_filterMap, Option.some.injEq, exists_and_left, exists_eq_left']
    have hst : ∀ c, missing stored c = true ↔ ¬ Stored stored c := by
      intro c
      cases stored with
      | none => simp [Stored, missing]
      | some f => simp [Stored, missing]
    constructor
    · rintro ⟨d, h1, h2⟩
      split at h2
      · cases h2
      · rename_i c hc
        split at h2
        · rename_i hcond
          cases h2
          refine ⟨⟨d, h1, hc⟩, ?_⟩
          rcases Bool.or_eq_true _ _ |>.mp hcond with h | h
          · exact Or.inl h
          · exact Or.inr ((hst _).mp h)
        · cases h2
    · rintro ⟨⟨d, h1, h2⟩, h3⟩
      refine ⟨d, h1, ?_⟩
      rw [h2]
      dsimp only
      rw [if_pos]
      rw [Bool.or_eq_true, hst]
      exact h3

/-- Every element of a list is preceded by what it needs, in the list or before. -/
def Ord (need : Str → List Str) (seen : List Str) : List Str → Prop
  | [] => True
  | b :: l => (∀ a ∈ need b, a ∈ seen) ∧ Ord need (seen ++ [b]) l

theorem Ord.mono {need : Str → List Str} {l s1 s2 : List Str} (h : Ord need s1 l)
    (hs : ∀ a ∈ s1, a ∈ s2) : Ord need s2 l := by
  induction l generalizing s1 s2 with
  | nil => trivial
  | cons b l ih =>
    refine ⟨fun a ha => hs a (h.1 a ha), ih h.2 ?_⟩
    intro a ha
    rcases List.mem_append.mp ha with ha | ha
    · exact List.mem_append.mpr (Or.inl (hs a ha))
    · exact List.mem_append.mpr (Or.inr ha)

theorem Ord.append {need : Str → List Str} {l1 l2 s : List Str} (h1 : Ord need s l1)
    (h2 : Ord need (s ++ l1) l2) : Ord need s (l1 ++ l2) := by
  induction l1 generalizing s with
  | nil => simpa using h2
  | cons b l ih =>
    refine ⟨h1.1, ih h1.2 ?_⟩
    simpa using h2

/-- What the scheduler wants before a test. -/
def needs (s : Suite) (sel : List Str) (stored : Option (Str → Bool)) (n : Str) : List Str :=
  match getCase s n with
  | none => []
  | some m => methodDependencies s m sel stored

theorem concatDeps_spec {need : Str → List Str} {f : Str → Option (List Str)} {l r : List Str}
    (h : concatDeps f l = some r)
    (hf : ∀ d ∈ l, ∀ r, f d = some r → Ord need [] r ∧ ∀ a ∈ need d, a ∈ r) :
    Ord need [] r ∧ (∀ a ∈ l, a ∈ r) ∧ ∀ a ∈ r, a ∈ l ∨ ∃ d ∈ l, ∃ q, f d = some q ∧ a ∈ q := by
  induction l generalizing r with
  | nil => simp [concatDeps] at h; subst h; simp [Ord]
  | cons d ds ih =>
    simp only [concatDeps] at h
    cases h1 : f d with
    | none => simp [h1] at h
    | some q =>
      cases h2 : concatDeps f ds with
      | none => simp [h1, h2] at h
      | some rs =>
        simp only [h1, h2, Option.some.injEq] at h
        subst h
        obtain ⟨i1, i2, i3⟩ := ih h2 (fun d hd => hf d (by simp [hd]))
        obtain ⟨j1, j2⟩ := hf d (by simp) q h1
        refine ⟨?_, ?_, ?_⟩
        · refine Ord.append j1 ⟨by simpa using j2, ?_⟩
          exact i1.mono (by simp)
        · intro a ha
          rcases List.mem_cons.mp ha with rfl | ha
          · simp
          · have := i2 a ha; simp [this]
        · intro a ha
          rcases List.mem_append.mp ha with ha | ha
          · exact Or.inr ⟨d, by simp, q, h1, ha⟩
          · rcases List.mem_cons.mp ha with rfl | ha
            · exact Or.inl (by simp)
            · rcases i3 a ha with h | ⟨d', h3, q', h4, h5⟩
              · exact Or.inl (by simp [h])
              · exact Or.inr ⟨d', by simp [h3], q', h4, h5⟩

theorem allDependencies_spec {s : Suite} {sel : List Str} {stored : Option (Str → Bool)} {fuel : Nat}
    {m : Meth} {r : List Str} (h : allDependencies s sel stored fuel m = some r) :
    Ord (needs s sel stored) [] r ∧ (∀ a ∈ methodDependencies s m sel stored, a ∈ r) ∧
      ∀ a ∈ r, (isSelected a sel = true ∨ ¬ Stored stored a) ∧
        (Declares s m a ∨ ∃ b, Declares s m b ∧ Reaches s b a) := by
  induction fuel generalizing m r with
  | zero => simp [allDependencies] at h
  | succ fuel ih =>
    simp only [allDependencies] at h
    obtain ⟨h1, h2, h3⟩ := concatDeps_spec (need := needs s sel stored) h (by
      intro d hd q hq
      cases hg : getCase s d with
      | none => simp [hg] at hq
      | some m' =>
        simp only [hg] at hq
        obtain ⟨i1, i2, -⟩ := ih hq
        refine ⟨i1, ?_⟩
        simpa [needs, hg] using i2)
    refine ⟨h1, h2, ?_⟩
    intro a ha
    rcases h3 a ha with h | ⟨d, hd, q, hq, haq⟩
    · obtain ⟨k1, k2⟩ := mem_methodDependencies.mp h
      exact ⟨k2, Or.inl k1⟩
    · have k := (mem_methodDependencies.mp hd).1
      cases hg : getCase s d with
      | none => simp [hg] at hq
      | some m' =>
        simp only [hg] at hq
        obtain ⟨j1, j2⟩ := (ih hq).2.2 a haq
        refine ⟨j1, Or.inr ⟨d, k, ?_⟩⟩
        rcases j2 with j2 | ⟨b, j2, j3⟩
        · exact Reaches.one ⟨m', getCase_mem hg, j2⟩
        · exact Reaches.more ⟨m', getCase_mem hg, j2⟩ j3

/-- The tests collected so far: distinct, and each after what it needs. -/
def Good (need : Str → List Str) (acc : List Str) : Prop :=
  acc.Nodup ∧ ∀ b ∈ acc, ∃ l1 l2, acc = l1 ++ b :: l2 ∧ b ∉ l1 ∧ ∀ a ∈ need b, a ∈ l1

theorem addNew_mem (acc : List Str) (x a : Str) : a ∈ addNew acc x ↔ a ∈ acc ∨ a = x := by
  unfold addNew
  split
  · constructor
    · exact Or.inl
    · rintro (h | rfl) <;> assumption
  · simp

theorem addNew_good {need : Str → List Str} {acc : List Str} {x : Str} (h : Good need acc)
    (hx : ∀ a ∈ need x, a ∈ acc) : Good need (addNew acc x) := by
  unfold addNew
  split
  · exact h
  · rename_i hn
    refine ⟨?_, ?_⟩
    · rw [List.nodup_append]
      refine ⟨h.1, by simp, ?_⟩
      rintro a ha b hb rfl
      have : a = x := by simpa using hb
      exact hn (this ▸ ha)
    · intro b hb
      rcases List.mem_append.mp hb with hb | hb
      · obtain ⟨l1, l2, rfl, h2, h3⟩ := h.2 b hb
        exact ⟨l1, l2 ++ [x], by simp, h2, h3⟩
      · have : b = x := by simpa using hb
        subst this
        exact ⟨acc, [], rfl, hn, hx⟩

theorem foldl_addNew {need : Str → List Str} {ds acc seen : List Str} (h : Good need acc)
    (ho : Ord need seen ds) (hs : ∀ a ∈ seen, a ∈ acc) :
    Good need (ds.foldl addNew acc) ∧ ∀ a, a ∈ ds.foldl addNew acc ↔ a ∈ acc ∨ a ∈ ds := by
  induction ds generalizing acc seen with
  | nil => exact ⟨h, by simp⟩
  | cons d ds ih =>
    have := ih (acc := addNew acc d) (seen := seen ++ [d])
      (addNew_good h (fun a ha => hs a (ho.1 a ha))) ho.2 (by
        intro a ha
        rw [addNew_mem]
        rcases List.mem_append.mp ha with ha | ha
        · exact Or.inl (hs a ha)
        · exact Or.inr (by simpa using ha))
    refine ⟨this.1, fun a => ?_⟩
    rw [List.foldl_cons, this.2 a, addNew_mem, List.mem_cons, or_assoc]

theorem reaches_case {s : Suite} {a b : Str} (h : Reaches s a b) : ∃ m, (b, m) ∈ s.cases := by
  induction h with
  | one h =>
    obtain ⟨m, -, ds, d, -, -, h⟩ := h
    obtain ⟨m', h, -⟩ := caseByMethod_mem h
    exact ⟨m', h⟩
  | more _ _ ih => exact ih

theorem selectLoop_spec {s : Suite} {sel : List Str} {stored : Option (Str → Bool)} {fuel : Nat}
    {cs before : List (Str × Meth)} {acc r : List Str} (hcs : s.cases = before ++ cs)
    (h : selectLoop s sel stored fuel cs acc = some r)
    (hg : Good (needs s sel stored) acc)
    (hb : ∀ c ∈ before, isSelected c.1 sel = true → c.1 ∈ acc)
    (ha : ∀ a ∈ acc, (isSelected a sel = true ∧ ∃ m, (a, m) ∈ s.cases) ∨ (¬ Stored stored a ∧
      ∃ b, isSelected b sel = true ∧ Reaches s b a)) :
    Good (needs s sel stored) r ∧ (∀ c ∈ s.cases, isSelected c.1 sel = true → c.1 ∈ r) ∧
      ∀ a ∈ r, (isSelected a sel = true ∧ ∃ m, (a, m) ∈ s.cases) ∨ (¬ Stored stored a ∧
        ∃ b, isSelected b sel = true ∧ Reaches s b a) := by
  induction cs generalizing acc before with
  | nil =>
    simp only [selectLoop, Option.some.injEq] at h
    subst h
    rw [List.append_nil] at hcs
    exact ⟨hg, by rw [hcs]; exact hb, ha⟩
  | cons c cs ih =>
    simp only [selectLoop] at h
    have hcm : (c.1, c.2) ∈ s.cases := by rw [hcs]; simp
    by_cases hsel : isSelected c.1 sel = true
    · rw [if_pos hsel] at h
      cases hd : allDependencies s sel stored fuel c.2 with
      | none => simp [hd] at h
      | some ds =>
        simp only [hd] at h
        obtain ⟨d1, d2, d3⟩ := allDependencies_spec hd
        obtain ⟨g1, g2⟩ := foldl_addNew hg d1 (by simp)
        refine ih (before := before ++ [c]) (by rw [hcs]; simp) h ?_ ?_ ?_
        · by_cases hin : c.1 ∈ ds.foldl addNew acc
          · have : addNew (ds.foldl addNew acc) c.1 = ds.foldl addNew acc := if_pos hin
            rw [this]; exact g1
          · refine addNew_good g1 ?_
            intro a hab
            have hfirst : getCase s c.1 = some c.2 := by
              unfold getCase
              have hnb : ∀ x ∈ before, ¬ ((x.1 == c.1) = true) := by
                intro x hx he
                have hx1 : x.1 = c.1 := by simpa using he
                exact hin ((g2 _).mpr (Or.inl (hx1 ▸ hb x hx (hx1 ▸ hsel))))
              rw [hcs, List.find?_append, List.find?_eq_none.mpr hnb]
              simp
            rw [needs, hfirst] at hab
            exact (g2 a).mpr (Or.inr (d2 a hab))
        · intro x hx hxs
          rw [addNew_mem, g2]
          rcases List.mem_append.mp hx with hx | hx
          · exact Or.inl (Or.inl (hb x hx hxs))
          · have : x = c := by simpa using hx
            exact Or.inr (by rw [this])
        · intro a haa
          rw [addNew_mem, g2] at haa
          rcases haa with (haa | haa) | rfl
          · exact ha a haa
          · obtain ⟨k1, k2⟩ := d3 a haa
            have hmem : ∃ m, (a, m) ∈ s.cases := by
              refine reaches_case (?_ : Reaches s c.1 a)
              rcases k2 with k2 | ⟨b, k2, k3⟩
              · exact Reaches.one ⟨c.2, hcm, k2⟩
              · exact Reaches.more ⟨c.2, hcm, k2⟩ k3
            rcases k1 with k1 | k1
            · exact Or.inl ⟨k1, hmem⟩
            · refine Or.inr ⟨k1, c.1, hsel, ?_⟩
              rcases k2 with k2 | ⟨b, k2, k3⟩
              · exact Reaches.one ⟨c.2, hcm, k2⟩
              · exact Reaches.more ⟨c.2, hcm, k2⟩ k3
          · exact Or.inl ⟨hsel, c.2, hcm⟩
    · rw [if_neg hsel] at h
      refine ih (before := before ++ [c]) (by rw [hcs]; simp) h hg ?_ ha
      intro x hx hxs
      rcases List.mem_append.mp hx with hx | hx
      · exact hb x hx hxs
      · have : x = c := by simpa using hx
        exact absurd (this ▸ hxs) hsel

theorem selectedNames_spec {s : Suite} {sel : List Str} {stored : Option (Str → Bool)} {fuel : Nat}
    {r : List Str} (h : selectedNames s sel stored fuel = some r) :
    Good (needs s sel stored) r ∧ (∀ c ∈ s.cases, isSelected c.1 sel = true → c.1 ∈ r) ∧
      ∀ a ∈ r, (isSelected a sel = true ∧ ∃ m, (a, m) ∈ s.cases) ∨ (¬ Stored stored a ∧
        ∃ b, isSelected b sel = true ∧ Reaches s b a) :=
  selectLoop_spec (before := []) rfl h ⟨List.nodup_nil, by simp⟩ (by simp) (by simp)

theorem concatDeps_isSome {f : Str → Option (List Str)} {l : List Str}
    (h : ∀ d ∈ l, (f d).isSome) : (concatDeps f l).isSome := by
  induction l with
  | nil => rfl
  | cons d ds ih =>
    obtain ⟨q, hq⟩ := Option.isSome_iff_exists.mp (h d (by simp))
    obtain ⟨r, hr⟩ := Option.isSome_iff_exists.mp (ih (fun d hd => h d (by simp [hd])))
    simp [concatDeps, hq, hr]

theorem allDependencies_isSome {s : Suite} {sel : List Str} {stored : Option (Str → Bool)}
    {rank : Str → Nat} (hr : ∀ a b, DependsOn s a b → rank b < rank a) {fuel : Nat} {a : Str} {m : Meth}
    (hm : (a, m) ∈ s.cases) (hf : rank a < fuel) : (allDependencies s sel stored fuel m).isSome := by
  induction fuel generalizing a m with
  | zero => omega
  | succ fuel ih =>
    simp only [allDependencies]
    refine concatDeps_isSome ?_
    intro d hd
    have k := (mem_methodDependencies.mp hd).1
    obtain ⟨ds, d', -, -, hc⟩ := id k
    obtain ⟨m', hm', -⟩ := caseByMethod_mem hc
    obtain ⟨m2, hm2⟩ := getCase_isSome hm'
    simp only [hm2]
    exact ih (getCase_mem hm2) (by have := hr a d ⟨m, hm, k⟩; omega)

theorem selectedNames_isSome {s : Suite} {sel : List Str} {stored : Option (Str → Bool)}
    {rank : Str → Nat} (hr : ∀ a b, DependsOn s a b → rank b < rank a) {fuel : Nat}
    (hf : ∀ c ∈ s.cases, rank c.1 < fuel) : (selectedNames s sel stored fuel).isSome := by
  unfold selectedNames
  suffices H : ∀ cs acc, (∀ c ∈ cs, c ∈ s.cases) → (selectLoop s sel stored fuel cs acc).isSome from
    H _ _ (fun _ h => h)
  intro cs
  induction cs with
  | nil => intros; rfl
  | cons c cs ih =>
    intro acc hcs
    simp only [selectLoop]
    have hi := fun acc => ih acc (fun c hc => hcs c (by simp [hc]))
    split
    · have hc : (c.1, c.2) ∈ s.cases := hcs c (by simp)
      obtain ⟨ds, hds⟩ := Option.isSome_iff_exists.mp
        (allDependencies_isSome (sel := sel) (stored := stored) hr hc (hf _ hc))
      simp only [hds]
      exact hi _
    · exact hi _

end Verif.Lemmas
