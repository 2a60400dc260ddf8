import Verif.Lemmas.Selection

/-! # C30–C34: which tests run, in which order, with which dependencies -/

namespace Verif.Props
open Verif.Py Verif.Model Verif.Spec Verif.Lemmas

/-! ### C30 -/

/-- Selection works on whole path components, `skip:` arguments win, and only-`skip:` selections
start from everything — for tests whose names do not themselves start with `skip:`. -/
theorem C30_selection (name : Str) (selection : List Str) (hn : ¬ "skip:".toList <+: name) :
    isSelected name selection = true ↔ Selected name selection := by
  unfold isSelected Selected
  cases hk : negatives name selection with
  | none =>
    obtain ⟨s, h1, a, h2, h3⟩ := (negatives_none name selection).mp hk
    simp only [Bool.false_eq_true, false_iff]
    intro h
    exact h.1 s h1 a h2 h3
  | some k =>
    have hneg : ∀ s ∈ selection, ∀ a, skipArg s = some a → ¬ Covers a name := by
      intro s hs a h2 h3
      have := (negatives_none name selection).mpr ⟨s, hs, a, h2, h3⟩
      rw [hk] at this; cases this
    have hall := (negatives_some hk).2
    dsimp only
    by_cases he : k = selection.length
    · rw [if_pos he]
      simp only [true_iff]
      exact ⟨hneg, Or.inl (hall.mp he)⟩
    · rw [if_neg he, List.any_eq_true]
      constructor
      · rintro ⟨s, hs, h⟩
        refine ⟨hneg, Or.inr ⟨s, hs, ?_⟩⟩
        rw [Bool.or_eq_true, beq_iff_eq, argMatches_iff] at h
        refine ⟨?_, h⟩
        cases hsk : skipArg s with
        | none => rfl
        | some a =>
          rcases h with rfl | h
          · revert hsk; decide +revert
          · exact absurd (covers_skip hsk h) hn
      · rintro ⟨-, h | ⟨s, hs, -, h⟩⟩
        · exact absurd (hall.mpr h) he
        · refine ⟨s, hs, ?_⟩
          rw [Bool.or_eq_true, beq_iff_eq, argMatches_iff]
          exact h

example : ¬ "skip:".toList <+: "book/models/train".toList ∧
    isSelected "book/models/train".toList ["book/models".toList, "skip:book/models/slow".toList] = true ∧
    isSelected "book/models2/train".toList ["book/models".toList] = false ∧
    isSelected "book/models/slow".toList ["book/models".toList, "skip:book/models/slow".toList] = false ∧
    isSelected "book/x".toList ["skip:book/y".toList] = true := by decide

/-- A test whose name starts with `skip:` is selected by the `skip:` argument meant to exclude
something else, since the second loop compares `skip:` arguments literally. -/
theorem C30_skip_name_refuted : ∃ (name : Str) (selection : List Str),
    isSelected name selection = true ∧ ¬ Selected name selection := by
  refine ⟨"skip:a/x".toList, ["skip:a".toList, "b".toList], by decide, ?_⟩
  rintro ⟨-, h | ⟨s, hs, h1, h2⟩⟩
  · exact h "b".toList (by simp) (by decide)
  · simp only [List.mem_cons, List.not_mem_nil, or_false] at hs
    rcases hs with rfl | rfl
    · revert h1; decide
    · rcases h2 with h2 | h2 | h2
      · revert h2; decide
      · revert h2; decide
      · revert h2; decide

/-! ### C31 -/

/-- The list of tests to run has no test twice, contains every selected test, and contains nothing
but selected tests and tests reached from selected ones by dependencies; all are existing tests. -/
theorem C31_selected {s : Suite} {sel : List Str} {stored : Option (Str → Bool)} {fuel : Nat}
    {run : List Str} (h : selectedNames s sel stored fuel = some run) :
    run.Nodup ∧ (∀ c ∈ s.cases, isSelected c.1 sel = true → c.1 ∈ run) ∧
      (∀ a ∈ run, isSelected a sel = true ∨ ∃ b, isSelected b sel = true ∧ Reaches s b a) ∧
      ∀ a ∈ run, ∃ m, (a, m) ∈ s.cases := by
  obtain ⟨h1, h2, h3⟩ := selectedNames_spec h
  refine ⟨h1.1, h2, ?_, ?_⟩
  · intro a ha
    rcases h3 a ha with h | h
    · exact Or.inl h.1
    · exact Or.inr h.2
  · intro a ha
    rcases h3 a ha with h | ⟨-, b, -, h⟩
    · exact h.2
    · exact reaches_case h

/-- If dependencies are not cyclic and no chain is longer than the recursion limit allows, the list
is computed. -/
theorem C31_computed {s : Suite} {sel : List Str} {stored : Option (Str → Bool)} {rank : Str → Nat}
    (hr : ∀ a b, DependsOn s a b → rank b < rank a) {fuel : Nat} (hf : ∀ c ∈ s.cases, rank c.1 < fuel) :
    ∃ run, selectedNames s sel stored fuel = some run :=
  Option.isSome_iff_exists.mp (selectedNames_isSome hr hf)

/-! ### C32 -/

/-- Every test comes after the tests its dependencies resolve to, except for dependencies that are
not selected and have a stored result. -/
theorem C32_dependencies_first {s : Suite} {sel : List Str} {stored : Option (Str → Bool)} {fuel : Nat}
    {run : List Str} (h : selectedNames s sel stored fuel = some run) {a b : Str} {m : Meth}
    (ha : a ∈ run) (hm : getCase s a = some m) (hd : Declares s m b)
    (hb : isSelected b sel = true ∨ ¬ Stored stored b) : Before run b a := by
  obtain ⟨l1, l2, e1, e2, e3⟩ := (selectedNames_spec h).1.2 a ha
  refine ⟨l1, l2, e1, e2, e3 b ?_⟩
  rw [needs, hm]
  exact mem_methodDependencies.mpr ⟨hd, hb⟩

/-! ### C33 -/

/-- A dependency that is not selected itself is run exactly if it has no stored result or stored
results are not to be used. -/
theorem C33_cached {s : Suite} {sel : List Str} {stored : Option (Str → Bool)} {fuel : Nat}
    {run : List Str} (h : selectedNames s sel stored fuel = some run) {a b : Str} {m : Meth}
    (ha : a ∈ run) (hm : getCase s a = some m) (hd : Declares s m b) (hb : isSelected b sel = false) :
    b ∈ run ↔ (stored = none ∨ ∃ f, stored = some f ∧ f b = false) := by
  have hst : (stored = none ∨ ∃ f, stored = some f ∧ f b = false) ↔ ¬ Stored stored b := by
    cases stored with
    | none => simp [Stored]
    | some f => simp [Stored]
  rw [hst]
  constructor
  · intro hbr
    rcases (selectedNames_spec h).2.2 b hbr with h | h
    · rw [h.1] at hb; cases hb
    · exact h.1
  · intro hs
    obtain ⟨l1, l2, e1, -, e3⟩ := C32_dependencies_first h ha hm hd (Or.inr hs)
    rw [e1]; simp [e3]

/-- A book with two tests, where `b` depends on `a`, both declared in class 0 and instantiated as
object 0: functions 0 (`a`), 1 (`b`) and 2 (the wrapper of `b`). -/
def twoTests : Suite where
  cases := [("book/b".toList, ⟨some 0, 2⟩), ("book/a".toList, ⟨some 0, 0⟩)]
  info := fun n => match n with
    | 0 => { selfType := some 0 }
    | 2 => { orig := some ⟨none, 1⟩, deps := some [⟨none, 0⟩], selfType := some 0 }
    | _ => {}
  isInstance := fun o c => o == 0 && c == 0

example : selectedNames twoTests ["book/b".toList] none 10 = some ["book/a".toList, "book/b".toList] ∧
    selectedNames twoTests ["book/b".toList] (some (fun _ => true)) 10 = some ["book/b".toList] ∧
    selectedNames twoTests ["book/b".toList] (some (fun _ => false)) 10
      = some ["book/a".toList, "book/b".toList] := by decide

example : getCase twoTests "book/b".toList = some ⟨some 0, 2⟩ ∧
    Declares twoTests ⟨some 0, 2⟩ "book/a".toList :=
  ⟨by decide, [⟨none, 0⟩], ⟨none, 0⟩, rfl, by simp, by decide⟩

/-! ### C34 -/

/-- Every bound test method belongs to an instance of the class the function was registered for
(`TestBook.__init__`, testbook.py:75-82, sets `_self_type` when a book is made). -/
def WellTyped (s : Suite) : Prop := ∀ c ∈ s.cases, ∀ o, (identity s c.2).1 = some o →
  ∃ t, decoratedType s ⟨none, (identity s c.2).2⟩ = some t ∧ s.isInstance o t = true

/-- The test that the scheduler orders before a test for a dependency is the one whose value the
dependency receives. -/
theorem C34_scheduled_used_partial {s : Suite} (hw : WellTyped s) {m d : Meth} {c : Str}
    (h : caseByMethod s (bindIfUnbound s m d) = some c) : usedCase s m d = some c := by
  unfold usedCase
  cases hs : decoratedSelf s m with
  | none =>
    have : bindIfUnbound s m d = d := by
      unfold bindIfUnbound
      rw [hs]
      cases decoratedType s d <;> rfl
    rw [this] at h
    exact h
  | some o =>
    dsimp only
    by_cases hb : bindIfUnbound s m d = bindTo o d
    · rw [← hb, h]
    · have hu : bindIfUnbound s m d = d ∧ ∀ t, decoratedType s d = some t → s.isInstance o t = false := by
        unfold bindIfUnbound at hb ⊢
        rw [hs] at hb ⊢
        cases ht : decoratedType s d with
        | none => simp
        | some t =>
          simp only [ht] at hb
          cases hi : s.isInstance o t with
          | true => simp [hi] at hb
          | false => simp [hi]
      rw [hu.1] at h
      cases hd : d.self with
      | some x =>
        have : bindTo o d = d := by unfold bindTo; rw [hd]
        rw [this, h]
      | none =>
        cases hc : caseByMethod s (bindTo o d) with
        | none => exact h
        | some n =>
          exfalso
          obtain ⟨m', hm', hmm⟩ := caseByMethod_mem hc
          have hbt : bindTo o d = ⟨some o, d.fn⟩ := by
            unfold bindTo; rw [hd]
          have hid : identity s ⟨some o, d.fn⟩ = (some o, d.fn) := by
            have hx : ∀ k, decoratedAttr s (fun m : Meth => m.self) k ⟨some o, d.fn⟩ = some o := by
              intro k; cases k <;> rfl
            have hy : ∀ k, decoratedAttr s (fun m : Meth => m.self.map (fun _ => m.fn)) k ⟨some o, d.fn⟩
                = some d.fn := by
              intro k; cases k <;> rfl
            unfold identity decoratedSelf decoratedFunc
            rw [hx, hy]; rfl
          rw [hbt] at hmm
          unfold matchMethod at hmm
          rw [hid] at hmm
          simp only [Bool.and_eq_true, beq_iff_eq, Bool.or_eq_true, reduceCtorEq, or_false] at hmm
          obtain ⟨t, h1, h2⟩ := hw _ hm' o hmm.2.symm
          dsimp only at h1
          rw [← hmm.1] at h1
          have hd' : d = ⟨none, d.fn⟩ := by
            cases d; simp at hd; simp [hd]
          rw [← hd'] at h1
          rw [hu.2 t h1] at h2
          cases h2

/-- So the test whose value is used runs before, unless it has a stored result and is not selected. -/
theorem C34_used_first_partial {s : Suite} (hw : WellTyped s) {sel : List Str}
    {stored : Option (Str → Bool)} {fuel : Nat} {run : List Str}
    (h : selectedNames s sel stored fuel = some run) {a : Str} {m d : Meth} {ds : List Meth}
    (ha : a ∈ run) (hm : getCase s a = some m) (hds : (s.info m.fn).deps = some ds) (hd : d ∈ ds)
    (hr : (caseByMethod s (bindIfUnbound s m d)).isSome) :
    ∃ b, usedCase s m d = some b ∧
      (Before run b a ∨ isSelected b sel = false ∧ Stored stored b) := by
  obtain ⟨b, hb⟩ := Option.isSome_iff_exists.mp hr
  refine ⟨b, C34_scheduled_used_partial hw hb, ?_⟩
  by_cases hc : isSelected b sel = true ∨ ¬ Stored stored b
  · exact Or.inl (C32_dependencies_first h ha hm ⟨ds, d, hds, hd, hb⟩ hc)
  · rw [not_or, Classical.not_not] at hc
    exact Or.inr ⟨by simpa using hc.1, hc.2⟩

example : WellTyped twoTests ∧ usedCase twoTests ⟨some 0, 2⟩ ⟨none, 0⟩ = some "book/a".toList := by
  refine ⟨?_, by decide⟩
  intro c hc o ho
  simp only [twoTests, List.mem_cons, List.not_mem_nil, or_false] at hc
  rcases hc with rfl | rfl
  · have : o = 0 := by
      have h2 : (identity twoTests ⟨some 0, 2⟩).1 = some 0 := by decide
      have := h2.symm.trans ho
      simpa using this.symm
    subst this
    exact ⟨0, by decide, by decide⟩
  · have : o = 0 := by
      have h2 : (identity twoTests ⟨some 0, 0⟩).1 = some 0 := by decide
      have := h2.symm.trans ho
      simpa using this.symm
    subst this
    exact ⟨0, by decide, by decide⟩

/-- A book of class 1, derived from class 0; test `b` of the derived book depends on test `a` of the
base class, of which another book is an instance. -/
def inherited : Suite where
  cases := [("derived/b".toList, ⟨some 1, 2⟩), ("base/a".toList, ⟨some 0, 0⟩)]
  info := fun n => match n with
    | 0 => { selfType := some 0 }
    | 2 => { orig := some ⟨none, 1⟩, deps := some [⟨none, 0⟩], selfType := some 1 }
    | _ => {}
  isInstance := fun o c => (o == 0 && c == 0) || (o == 1 && (c == 0 || c == 1))

/-- With inheritance the used test may run later, or not at all: the scheduler binds the dependency to
the derived book, where the base class' test is not registered, and drops it; the test itself falls
back to the base book. -/
theorem C34_inherited_refuted : ∃ (s : Suite) (m d : Meth), WellTyped s ∧
    getCase s "derived/b".toList = some m ∧ (s.info m.fn).deps = some [d] ∧
    usedCase s m d = some "base/a".toList ∧
    selectedNames s ["*".toList] none 10 = some ["derived/b".toList, "base/a".toList] ∧
    selectedNames s ["derived".toList] none 10 = some ["derived/b".toList] := by
  refine ⟨inherited, ⟨some 1, 2⟩, ⟨none, 0⟩, ?_, by decide, by decide, by decide, by decide, by decide⟩
  intro c hc o ho
  simp only [inherited, List.mem_cons, List.not_mem_nil, or_false] at hc
  rcases hc with rfl | rfl
  · have : o = 1 := by
      have h2 : (identity inherited ⟨some 1, 2⟩).1 = some 1 := by decide
      have := h2.symm.trans ho
      simpa using this.symm
    subst this
    exact ⟨1, by decide, by decide⟩
  · have : o = 0 := by
      have h2 : (identity inherited ⟨some 0, 0⟩).1 = some 0 := by decide
      have := h2.symm.trans ho
      simpa using this.symm
    subst this
    exact ⟨0, by decide, by decide⟩

end Verif.Props
