import Verif.Lemmas.Env

/-! # Properties of the environment mocks (C45–C48) -/

namespace Verif.Props
open Verif.Py Verif.Model Verif.Spec Verif.Lemmas

/-! ### C45: `mock_env` -/

/-- **C45**: inside the test every mocked variable has the mocked value and every other variable its
own; afterwards, whatever the test did to the environment, every mocked variable has its original
value (unset if it was unset), and the other variables are as the test left them. -/
theorem C45_mock_env (d : List (Str × EVal)) (hd : PlainDict d) (test : OsEnv → OsEnv) (o : OsEnv) :
    ∃ s, (withMockEnv d test o).seen = some s ∧ (withMockEnv d test o).err = none ∧
      (∀ p ∈ d, Asks p.2 (s p.1)) ∧ (∀ x, x ∉ d.map (·.1) → s x = o x) ∧
      (∀ x ∈ d.map (·.1), (withMockEnv d test o).after x = o x) ∧
      (∀ x, x ∉ d.map (·.1) → (withMockEnv d test o).after x = test s x) := by
  obtain ⟨o1, h1, h2, h3⟩ := mockStart_spec d o [] hd (by simp [Dict.keys])
  have hrun : withMockEnv d test o = ⟨some o1, mockStop (oldOf (d.map (·.1)) o) (test o1), none⟩ := by
    simp only [withMockEnv, h1]; rfl
  have hnd : (oldOf (d.map (·.1)) o).keys.Nodup := by rw [oldOf_keys]; exact hd.1
  rw [hrun]
  refine ⟨o1, rfl, rfl, h2, h3, ?_, ?_⟩
  · intro x hx; simp only; rw [mockStop_spec _ _ hnd, oldOf_get, if_pos hx]; rfl
  · intro x hx; simp only; rw [mockStop_spec _ _ hnd, oldOf_get, if_neg hx]; rfl

/-- Stacked `mock_env` decorators: the inner dictionary wins inside, and everything is put back. -/
theorem C45_nested (d1 d2 : List (Str × EVal)) (h1 : PlainDict d1) (h2 : PlainDict d2)
    (test : OsEnv → OsEnv) (o : OsEnv) :
    ∃ s1 s2, (withMockEnv d1 (fun e => (withMockEnv d2 test e).after) o).seen = some s1 ∧
      (withMockEnv d2 test s1).seen = some s2 ∧
      (∀ p ∈ d2, Asks p.2 (s2 p.1)) ∧
      (∀ p ∈ d1, p.1 ∉ d2.map (·.1) → Asks p.2 (s2 p.1)) ∧
      ∀ x, x ∈ d1.map (·.1) ∨ x ∈ d2.map (·.1) →
        (withMockEnv d1 (fun e => (withMockEnv d2 test e).after) o).after x = o x := by
  obtain ⟨s1, a1, _, a3, a4, a5, a6⟩ := C45_mock_env d1 h1 (fun e => (withMockEnv d2 test e).after) o
  obtain ⟨s2, b1, _, b3, b4, b5, b6⟩ := C45_mock_env d2 h2 test s1
  refine ⟨s1, s2, a1, b1, b3, ?_, ?_⟩
  · intro p hp hn; rw [b4 _ hn]; exact a3 p hp
  · intro x hx
    by_cases hx1 : x ∈ d1.map (·.1)
    · exact a5 x hx1
    · rw [a6 x hx1, b5 x (hx.resolve_left hx1), a4 x hx1]

/-- One mocked variable that is set, one that is removed; the test unsets the first. -/
example : PlainDict [("A".toList, .str "1".toList), ("B".toList, .none)] := by
  refine ⟨by decide, ?_⟩; simp

example :
    let r := withMockEnv [("A".toList, .str "1".toList), ("B".toList, .none)]
      (fun e => e.put "A".toList none) (fun x => if x = "B".toList then some "old".toList else none)
    r.after "A".toList = none ∧ r.after "B".toList = some "old".toList ∧
    (r.seen.map (fun s => (s "A".toList, s "B".toList))) = some (some "1".toList, none) := by decide

/-- **C45, refuted for dictionaries with other values**: `os.environ` takes only strings, so a number in
the dictionary makes `start` raise after earlier variables were set; they stay set. -/
theorem C45_other_value_leaks_refuted : ∃ (d : List (Str × EVal)) (o : OsEnv),
    (d.map (·.1)).Nodup ∧ (∀ test, (withMockEnv d test o).seen.isNone) ∧
    ∀ test, ∃ x ∈ d.map (·.1), (withMockEnv d test o).after x ≠ o x :=
  ⟨[("A".toList, .str "1".toList), ("B".toList, .other)], fun _ => none, by decide,
    fun _ => rfl, fun _ => ⟨"A".toList, by decide, by
      show some "1".toList ≠ none
      decide⟩⟩

/-! ### C46: `snapshot_env` -/

/-- The variable can be brought to the snapshot value: a string always, `None` only if it is set. -/
def Replayable (o : OsEnv) (n : Str) (v : EVal) : Prop :=
  (∃ s, v = .str s) ∨ (v = .none ∧ (o n).isSome)

/-- In replay mode the test is called exactly if every name has a snapshot that can be put into the
environment. -/
theorem C46_starts (file : Dict EVal) (names : List Str) (hn : names.Nodup) (test : OsEnv → OsEnv)
    (o : OsEnv) :
    (withSnapshotEnv false false (some file) names test o).seen.isSome ↔
      ∀ n ∈ names, ∃ v, file.get n = some v ∧ Replayable o n v := by
  have hconv : ∀ n, SnapOk false file o n ↔ ∃ v, file.get n = some v ∧ Replayable o n v := by
    intro n
    unfold SnapOk Replayable
    cases hg : file.get n with
    | none => simp
    | some v => cases v <;> simp
  constructor
  · intro h n hmem
    rw [← hconv]
    apply snapStart_err false file names o [] [] hn _ n hmem
    unfold withSnapshotEnv at h
    simp only [loadedSnaps, Bool.or_false, Bool.false_eq_true, if_false, Option.getD_some] at h
    rcases hx : snapStart false file names o [] [] with ⟨o1, old, cap, err⟩
    rw [hx] at h
    cases err with
    | none => rfl
    | some e => simp at h
  · intro h
    obtain ⟨o1, h1, _, _⟩ := snapStart_ok false file names o [] [] hn (by simp [Dict.keys])
      (by simp [Dict.keys]) (fun n hmem => (hconv n).mpr (h n hmem))
    unfold withSnapshotEnv
    simp only [loadedSnaps, Bool.or_false, Bool.false_eq_true, if_false, Option.getD_some, h1]
    split <;> rfl

/-- **C46**: in replay mode, if the test is called, it sees exactly the snapshot values of the named
variables, and every other variable as it is. -/
theorem C46_seen (file : Dict EVal) (names : List Str) (hn : names.Nodup) (test : OsEnv → OsEnv)
    (o s : OsEnv) (h : (withSnapshotEnv false false (some file) names test o).seen = some s) :
    (∀ n ∈ names, ∃ v, file.get n = some v ∧ Asks v (s n)) ∧ ∀ x, x ∉ names → s x = o x := by
  have hok : ∀ n ∈ names, SnapOk false file o n := by
    have := (C46_starts file names hn test o).mp (by rw [h]; rfl)
    intro n hmem
    obtain ⟨v, hv, hr⟩ := this n hmem
    unfold SnapOk
    rw [hv]
    rcases hr with ⟨w, rfl⟩ | ⟨rfl, hs⟩
    · trivial
    · exact hs
  obtain ⟨o1, h1, h2, h3⟩ := snapStart_ok false file names o [] [] hn (by simp [Dict.keys])
      (by simp [Dict.keys]) hok
  have hs : s = o1 := by
    unfold withSnapshotEnv at h
    simp only [loadedSnaps, Bool.or_false, Bool.false_eq_true, if_false, Option.getD_some, h1] at h
    split at h <;> exact (Option.some.inj h).symm
  subst hs
  refine ⟨fun n hmem => ?_, h3⟩
  obtain ⟨v, hv, _⟩ := (C46_starts file names hn test o).mp (by rw [h]; rfl) n hmem
  refine ⟨v, hv, ?_⟩
  have := h2 n hmem
  rwa [capOf, hv] at this

/-- **C46, independence**: two runs in different environments show the test the same values. -/
theorem C46_independent (file : Dict EVal) (names : List Str) (hn : names.Nodup)
    (test test' : OsEnv → OsEnv) (o o' s s' : OsEnv)
    (h : (withSnapshotEnv false false (some file) names test o).seen = some s)
    (h' : (withSnapshotEnv false false (some file) names test' o').seen = some s') :
    ∀ n ∈ names, s n = s' n := by
  intro n hmem
  obtain ⟨v, hv, ha⟩ := (C46_seen file names hn test o s h).1 n hmem
  obtain ⟨v', hv', ha'⟩ := (C46_seen file names hn test' o' s' h').1 n hmem
  rw [hv] at hv'; cases hv'
  generalize s n = a at ha
  generalize s' n = b at ha'
  cases ha <;> cases ha' <;> rfl

/-- In every mode: once the test has been called, what `stop` does. -/
theorem snapshot_after (refresh complete : Bool) (file : Option (Dict EVal)) (names : List Str)
    (hn : names.Nodup) (test : OsEnv → OsEnv) (o s : OsEnv)
    (h : (withSnapshotEnv refresh complete file names test o).seen = some s) :
    ((withSnapshotEnv refresh complete file names test o).after = (plainStop (oldOf names o) (test s)).1 ∧
     (withSnapshotEnv refresh complete file names test o).err = (plainStop (oldOf names o) (test s)).2) ∧
    (withSnapshotEnv refresh complete file names test o).written =
      (if (plainStop (oldOf names o) (test s)).2 = none then
        some (names.map (fun n => (n, capOf (loadedSnaps refresh file) o n))) else none) ∧
    ∀ n ∈ names, Asks (capOf (loadedSnaps refresh file) o n) (s n) := by
  have herr : (snapStart (complete || refresh) (loadedSnaps refresh file) names o [] []).2.2.2 = none := by
    unfold withSnapshotEnv at h
    rcases hx : snapStart (complete || refresh) (loadedSnaps refresh file) names o [] [] with ⟨o1, old, cap, err⟩
    rw [hx] at h
    cases err with
    | none => rfl
    | some e => simp at h
  have hok := snapStart_err _ _ _ _ _ _ hn herr
  obtain ⟨o1, h1, h2, _⟩ := snapStart_ok _ _ names o [] [] hn (by simp [Dict.keys])
      (by simp [Dict.keys]) hok
  unfold withSnapshotEnv at h ⊢
  simp only [h1, List.nil_append] at h ⊢
  rcases hp : plainStop (oldOf names o) (test o1) with ⟨o2, e⟩
  rw [hp] at h
  cases e with
  | none => simp only at h; cases h; rw [hp]; exact ⟨⟨rfl, rfl⟩, by simp, h2⟩
  | some e => simp only at h; cases h; rw [hp]; exact ⟨⟨rfl, rfl⟩, by simp, h2⟩

/-- **C46, restoring, partial**: if the test was called and leaves set every named variable that was
unset before, then afterwards every named variable is what it was. What is missing of the claim is
the hypothesis on the test: see `C46_unset_in_test_refuted`. -/
theorem C46_restored_partial (refresh complete : Bool) (file : Option (Dict EVal)) (names : List Str)
    (hn : names.Nodup) (test : OsEnv → OsEnv) (o s : OsEnv)
    (h : (withSnapshotEnv refresh complete file names test o).seen = some s)
    (hset : ∀ n ∈ names, o n = none → (test s n).isSome) :
    (withSnapshotEnv refresh complete file names test o).err = none ∧
    (∀ n ∈ names, (withSnapshotEnv refresh complete file names test o).after n = o n) ∧
    ∀ x, x ∉ names → (withSnapshotEnv refresh complete file names test o).after x = test s x := by
  obtain ⟨⟨ha, he⟩, _, _⟩ := snapshot_after refresh complete file names hn test o s h
  obtain ⟨o1, h1, h2⟩ := plainStop_ok (oldOf names o) (test s) (by rw [oldOf_keys]; exact hn) (by
    intro k hk
    rw [oldOf_get] at hk
    split at hk
    · rename_i hm; exact hset k hm (Option.some.inj hk)
    · cases hk)
  rw [ha, he, h1]
  refine ⟨rfl, ?_, ?_⟩
  · intro n hm; simp only; rw [h2, oldOf_get, if_pos hm]; rfl
  · intro x hm; simp only; rw [h2, oldOf_get, if_neg hm]; rfl

/-- Restoring, exactly: the block ends without an exception only if every named variable that was unset
before is set when the test ends. -/
theorem C46_stop_iff (refresh complete : Bool) (file : Option (Dict EVal)) (names : List Str)
    (hn : names.Nodup) (test : OsEnv → OsEnv) (o s : OsEnv)
    (h : (withSnapshotEnv refresh complete file names test o).seen = some s) :
    (withSnapshotEnv refresh complete file names test o).err = none ↔
      ∀ n ∈ names, o n = none → (test s n).isSome := by
  obtain ⟨⟨_, he⟩, _, _⟩ := snapshot_after refresh complete file names hn test o s h
  rw [he, plainStop_err _ _ (by rw [oldOf_keys]; exact hn)]
  constructor
  · intro hh n hm ho; apply hh; rw [oldOf_get, if_pos hm, ho]
  · intro hh k hk
    rw [oldOf_get] at hk
    split at hk
    · rename_i hm; exact hh k hm (Option.some.inj hk)
    · cases hk

/-- **C46, capture then replay**: variables captured with `-S` in one environment (all of them set there;
the test may do anything) are stored, and a replay in any other environment shows the test exactly the
values of the capture. -/
theorem C46_capture_replay (file : Option (Dict EVal)) (names : List Str) (hn : names.Nodup)
    (test test' : OsEnv → OsEnv) (o o' : OsEnv) (hset : ∀ n ∈ names, (o n).isSome) :
    ∃ w s s', (withSnapshotEnv true false file names test o).written = some w ∧
      (withSnapshotEnv true false file names test o).seen = some s ∧
      (withSnapshotEnv false false (some w) names test' o').seen = some s' ∧
      w.keys = names ∧ ∀ n ∈ names, s n = o n ∧ s' n = o n := by
  have hcap : ∀ n ∈ names, ∃ v, o n = some v ∧ capOf [] o n = .str v := by
    intro n hm
    obtain ⟨v, hv⟩ := Option.isSome_iff_exists.mp (hset n hm)
    exact ⟨v, hv, by simp [capOf, Dict.get, hv, EVal.ofOption]⟩
  obtain ⟨o1, h1, h2, _⟩ := snapStart_ok true [] names o [] [] hn (by simp [Dict.keys])
      (by simp [Dict.keys]) (fun n _ => by simp [SnapOk, Dict.get])
  have hseen : (withSnapshotEnv true false file names test o).seen = some o1 := by
    unfold withSnapshotEnv
    simp only [loadedSnaps, Bool.false_or, if_true, h1]
    split <;> rfl
  obtain ⟨_, hw, _⟩ := snapshot_after true false file names hn test o o1 hseen
  have herr := (C46_stop_iff true false file names hn test o o1 hseen).mpr (fun n hm ho => by
    have := hset n hm; rw [ho] at this; cases this)
  rw [(snapshot_after true false file names hn test o o1 hseen).1.2] at herr
  rw [if_pos herr] at hw
  have hwget : ∀ n ∈ names, Dict.get (names.map (fun n => (n, capOf (loadedSnaps true file) o n))) n =
      some (capOf [] o n) := by
    intro n hm
    apply Dict.get_of_mem
    · simpa [Dict.keys, Function.comp_def] using hn
    · exact List.mem_map.mpr ⟨n, hm, rfl⟩
  have hst := (C46_starts (names.map (fun n => (n, capOf (loadedSnaps true file) o n))) names hn test' o').mpr
    (fun n hm => by
      obtain ⟨v, _, hv2⟩ := hcap n hm
      exact ⟨_, hwget n hm, .inl ⟨v, hv2⟩⟩)
  obtain ⟨s', hs'⟩ := Option.isSome_iff_exists.mp hst
  refine ⟨_, o1, s', hw, hseen, hs', by simp [Dict.keys, Function.comp_def], ?_⟩
  intro n hm
  obtain ⟨v, hv1, hv2⟩ := hcap n hm
  constructor
  · have := h2 n hm; rw [hv2] at this; rw [hv1]; generalize o1 n = a at this; cases this; rfl
  · obtain ⟨v', hv', ha⟩ := (C46_seen _ names hn test' o' s' hs').1 n hm
    rw [hwget n hm, hv2] at hv'
    cases hv'
    rw [hv1]; generalize s' n = a at ha; cases ha; rfl

/-- With `-s` the recorded variables are replayed and only the missing ones captured. -/
theorem C46_complete (file : Option (Dict EVal)) (names : List Str) (hn : names.Nodup)
    (test : OsEnv → OsEnv) (o s : OsEnv)
    (h : (withSnapshotEnv false true file names test o).seen = some s) :
    ∀ n ∈ names, (∀ v, (file.getD []).get n = some v → Asks v (s n)) ∧
      ((file.getD []).get n = none → s n = o n) := by
  intro n hm
  have := (snapshot_after false true file names hn test o s h).2.2 n hm
  simp only [loadedSnaps, Bool.false_eq_true, if_false, capOf] at this
  constructor
  · intro v hv; rwa [hv] at this
  · intro hv
    rw [hv] at this
    simp only [Option.getD_none] at this
    cases ho : o n with
    | none => rw [ho] at this; generalize s n = a at this ⊢; cases this; rfl
    | some w => rw [ho] at this; generalize s n = a at this ⊢; cases this; rfl

/-- What is written when the block ends well: one entry per name, each the value the test saw. -/
theorem C46_written (refresh complete : Bool) (file : Option (Dict EVal)) (names : List Str)
    (hn : names.Nodup) (test : OsEnv → OsEnv) (o s : OsEnv) (w : Dict EVal)
    (h : (withSnapshotEnv refresh complete file names test o).seen = some s)
    (hw : (withSnapshotEnv refresh complete file names test o).written = some w) :
    w.keys = names ∧ ∀ p ∈ w, Asks p.2 (s p.1) := by
  obtain ⟨_, h2, h3⟩ := snapshot_after refresh complete file names hn test o s h
  rw [h2] at hw
  split at hw
  · cases hw
    refine ⟨by simp [Dict.keys, Function.comp_def], ?_⟩
    intro p hp
    obtain ⟨n, hn, rfl⟩ := List.mem_map.mp hp
    exact h3 n hn
  · cases hw

/-- The listing in the test output: a line for each name, in order, with the value the test saw
(`None` if it was not set). -/
theorem C46_listing (refresh complete : Bool) (file : Option (Dict EVal)) (names : List Str)
    (hn : names.Nodup) (test : OsEnv → OsEnv) (o s : OsEnv) (w : Dict EVal)
    (h : (withSnapshotEnv refresh complete file names test o).seen = some s)
    (hw : (withSnapshotEnv refresh complete file names test o).written = some w) :
    snapLines w = names.map (fun n => " * ".toList ++ n ++ "=".toList ++ (s n).getD "None".toList) := by
  obtain ⟨h1, h2⟩ := C46_written refresh complete file names hn test o s w h hw
  rw [← h1]
  unfold snapLines Dict.keys
  rw [List.map_map]
  apply List.map_congr_left
  intro p hp
  have := h2 p hp
  obtain ⟨n, v⟩ := p
  simp only [Function.comp] at this ⊢
  generalize s n = x at this
  cases this <;> rfl

/-- A replay in an environment with another value, and a variable that is not set there. -/
example : (withSnapshotEnv false false
      (some [("A".toList, .str "1".toList), ("B".toList, .str "2".toList)])
      ["A".toList, "B".toList] id (fun x => if x = "A".toList then some "x".toList else none)).written =
    some [("A".toList, .str "1".toList), ("B".toList, .str "2".toList)] := by decide

/-- **C46, refuted**: a variable that the test unsets and that was unset before makes `stop` raise, and
the variables after it are not restored. -/
theorem C46_unset_in_test_refuted : ∃ (file : Dict EVal) (names : List Str) (test : OsEnv → OsEnv) (o : OsEnv),
    names.Nodup ∧ (withSnapshotEnv false false (some file) names test o).seen.isSome ∧
    (withSnapshotEnv false false (some file) names test o).err = some .keyError ∧
    ∃ n ∈ names, (withSnapshotEnv false false (some file) names test o).after n ≠ o n :=
  ⟨[("A".toList, .str "1".toList), ("B".toList, .str "2".toList)], ["A".toList, "B".toList],
    fun e => e.put "A".toList none, fun x => if x = "B".toList then some "b".toList else none,
    by decide, rfl, rfl, "B".toList, by decide, by decide⟩

/-- **C46, refuted**: a variable captured as unset cannot be replayed where it is unset, the very
situation of the capture. -/
theorem C46_none_snapshot_refuted (n : Str) (o : OsEnv) (test : OsEnv → OsEnv) (ho : o n = none) :
    (withSnapshotEnv false false (some [(n, .none)]) [n] test o).seen = none ∧
    (withSnapshotEnv false false (some [(n, .none)]) [n] test o).err = some .keyError := by
  simp [withSnapshotEnv, snapStart, loadedSnaps, Dict.get, delVar, ho]

/-- **C46, refuted**: nor can an unset variable be captured: `stop` raises unless the test has set it, and
the snapshot is not written. -/
theorem C46_capture_unset_refuted (refresh complete : Bool) (names : List Str)
    (hn : names.Nodup) (test : OsEnv → OsEnv) (o s : OsEnv) (n : Str) (hm : n ∈ names)
    (ho : o n = none) (ht : test s n = none)
    (h : (withSnapshotEnv refresh complete none names test o).seen = some s) :
    (withSnapshotEnv refresh complete none names test o).err ≠ none ∧
    (withSnapshotEnv refresh complete none names test o).written = none := by
  obtain ⟨⟨_, he⟩, hw, _⟩ := snapshot_after refresh complete none names hn test o s h
  have hne : (withSnapshotEnv refresh complete none names test o).err ≠ none := by
    intro hh
    have := (C46_stop_iff refresh complete none names hn test o s h).mp hh n hm ho
    rw [ht] at this; cases this
  refine ⟨hne, ?_⟩
  rw [hw, if_neg]
  rw [he] at hne; exact hne

example : (withSnapshotEnv true false none ["A".toList] id (fun _ => none)).seen.isSome := rfl

/-- **C46, refuted for repeated names**: `snapshot_env("A", "A")` records the replayed value as the old
one, so the variable keeps the snapshot value. -/
theorem C46_duplicate_refuted (n a b : Str) (o : OsEnv) (ho : o n = some a) (hab : a ≠ b) :
    (withSnapshotEnv false false (some [(n, .str b)]) [n, n] id o).err = none ∧
    (withSnapshotEnv false false (some [(n, .str b)]) [n, n] id o).after n ≠ o n := by
  simp [withSnapshotEnv, snapStart, loadedSnaps, Dict.get, Dict.set, setVar, plainStop, OsEnv.put, ho,
    Ne.symm hab]

example : (fun _ => some "a".toList : OsEnv) "A".toList = some "a".toList ∧ "a".toList ≠ "b".toList := by
  decide

/-! ### C47: a missing snapshot -/

/-- **C47, refuted**: with a snapshot for the first of two variables only, the block raises and leaves the
first variable with the snapshot value. -/
theorem C47_leak_refuted : ∃ (file : Dict EVal) (names : List Str) (o : OsEnv), names.Nodup ∧
    ∀ test, (withSnapshotEnv false false (some file) names test o).seen = none ∧
      (∃ m, (withSnapshotEnv false false (some file) names test o).err = some (.missing m)) ∧
      ∃ x, (withSnapshotEnv false false (some file) names test o).after x ≠ o x :=
  ⟨[("A".toList, .str "1".toList)], ["A".toList, "B".toList], fun _ => none, by decide, fun _ =>
    ⟨rfl, ⟨"B".toList, rfl⟩, "A".toList, by
      show some "1".toList ≠ none
      decide⟩⟩

/-- **C47, partial**: exactly which variables leak when a snapshot is missing: those named before the
missing one have their snapshot values, all others are untouched.  So nothing leaks if the missing one
comes first. -/
theorem C47_leak_partial (file : Option (Dict EVal)) (names : List Str) (hn : names.Nodup)
    (refresh complete : Bool) (test : OsEnv → OsEnv) (o : OsEnv) (m : Str)
    (h : (withSnapshotEnv refresh complete file names test o).err = some (.missing m)) :
    (withSnapshotEnv refresh complete file names test o).seen = none ∧
    (withSnapshotEnv refresh complete file names test o).written = none ∧
    refresh = false ∧ complete = false ∧ (file.getD []).get m = none ∧
    ∃ pre post, names = pre ++ m :: post ∧
      (∀ n ∈ pre, ∃ v, (file.getD []).get n = some v ∧
        Asks v ((withSnapshotEnv refresh complete file names test o).after n)) ∧
      ∀ x, x ∉ pre → (withSnapshotEnv refresh complete file names test o).after x = o x := by
  have stop_not : ∀ (old : Dict (Option Str)) (e : OsEnv), (plainStop old e).2 ≠ some (.missing m) := by
    intro old
    induction old with
    | nil => intro e; simp [plainStop]
    | cons p old ih =>
      intro e
      obtain ⟨k, v⟩ := p
      cases v with
      | none =>
        simp only [plainStop, delVar]
        cases e k with
        | none => simp
        | some s => exact ih _
      | some v => simp only [plainStop]; exact ih _
  have hs : (snapStart (complete || refresh) (loadedSnaps refresh file) names o [] []).2.2.2 =
      some (.missing m) := by
    unfold withSnapshotEnv at h
    rcases hx : snapStart (complete || refresh) (loadedSnaps refresh file) names o [] [] with ⟨o1, old, cap, err⟩
    rw [hx] at h
    cases err with
    | none =>
      simp only at h
      rcases hp : plainStop old (test o1) with ⟨o2, e⟩
      have := stop_not old (test o1)
      rw [hp] at h this
      cases e with
      | none => simp at h
      | some e => simp only at h; exact absurd h this
    | some e => exact h
  obtain ⟨pre, post, h1, h2, h3, h4, h5⟩ := snapStart_missing _ _ _ _ _ _ _ hn hs
  simp only [Bool.or_eq_false_iff] at h3
  obtain ⟨rfl, rfl⟩ := h3
  have hrun : withSnapshotEnv false false file names test o =
      ⟨⟨none, (snapStart false (loadedSnaps false file) names o [] []).1, some (.missing m)⟩, none⟩ := by
    unfold withSnapshotEnv
    simp only [Bool.or_false] at hs ⊢
    rcases hx : snapStart false (loadedSnaps false file) names o [] [] with ⟨o1, old, cap, err⟩
    rw [hx] at hs
    simp only at hs
    subst hs
    rfl
  rw [hrun]
  exact ⟨rfl, rfl, rfl, rfl, h2, pre, post, h1, h4, h5⟩

/-- Conversely, when replaying without the snapshot of the first name nothing is changed. -/
theorem C47_first_missing (file : Option (Dict EVal)) (n : Str) (names : List Str)
    (hf : (file.getD []).get n = none) (test : OsEnv → OsEnv) (o : OsEnv) :
    (withSnapshotEnv false false file (n :: names) test o).err = some (.missing n) ∧
    (withSnapshotEnv false false file (n :: names) test o).after = o := by
  simp [withSnapshotEnv, snapStart, loadedSnaps, hf]

/-! ### C48: `mock_missing_env` -/

/-- **C48, partial**: variables that are set keep their values during the test, the unset ones have the
values of the dictionary, and afterwards all are as before - provided the unset ones get strings and
the test does not unset them. -/
theorem C48_mock_missing_partial (refresh complete : Bool) (d : List (Str × EVal))
    (hd : (d.map (·.1)).Nodup) (o : OsEnv) (hv : ∀ p ∈ d, o p.1 = none → ∃ s, p.2 = .str s)
    (test : OsEnv → OsEnv)
    (ht : ∀ s, (withMissingEnv refresh complete d test o).seen = some s →
      ∀ n ∈ d.map (·.1), o n = none → (test s n).isSome) :
    ∃ s, (withMissingEnv refresh complete d test o).seen = some s ∧
      (withMissingEnv refresh complete d test o).err = none ∧
      (∀ x, (o x).isSome → s x = o x) ∧ (∀ x, x ∉ d.map (·.1) → s x = o x) ∧
      (∀ p ∈ d, o p.1 = none → Asks p.2 (s p.1)) ∧
      (∀ x ∈ d.map (·.1), (withMissingEnv refresh complete d test o).after x = o x) ∧
      (∀ x, x ∉ d.map (·.1) → (withMissingEnv refresh complete d test o).after x = test s x) := by
  obtain ⟨o1, h1, h2, h3⟩ := missingStart_spec d o [] hd hv (by simp [Dict.keys])
  have hrun : withMissingEnv refresh complete d test o =
      ⟨some o1, (plainStop (oldOf (d.map (·.1)) o) (test o1)).1,
        (plainStop (oldOf (d.map (·.1)) o) (test o1)).2⟩ := by
    simp only [withMissingEnv, h1]; rfl
  have hnd : (oldOf (d.map (·.1)) o).keys.Nodup := by rw [oldOf_keys]; exact hd
  obtain ⟨o2, g1, g2⟩ := plainStop_ok (oldOf (d.map (·.1)) o) (test o1) hnd (by
    intro k hk
    rw [oldOf_get] at hk
    split at hk
    · rename_i hm
      exact ht o1 (by rw [hrun]) k hm (Option.some.inj hk)
    · cases hk)
  rw [hrun, g1]
  refine ⟨o1, rfl, rfl, fun x hx => h3 x (.inr hx), fun x hx => h3 x (.inl hx), h2, ?_, ?_⟩
  · intro x hx; simp only; rw [g2, oldOf_get, if_pos hx]; rfl
  · intro x hx; simp only; rw [g2, oldOf_get, if_neg hx]; rfl

/-- One variable is set, the other is not. -/
example : (∀ p ∈ [("A".toList, EVal.str "1".toList), ("B".toList, .str "2".toList)],
      (fun x => if x = "A".toList then some "a".toList else none : OsEnv) p.1 = none → ∃ s, p.2 = .str s) ∧
    let r := withMissingEnv false false [("A".toList, .str "1".toList), ("B".toList, .str "2".toList)] id
      (fun x => if x = "A".toList then some "a".toList else none)
    r.seen.map (fun s => (s "A".toList, s "B".toList)) = some (some "a".toList, some "2".toList) ∧
    r.after "B".toList = none := by
  refine ⟨?_, by decide⟩
  intro p hp _
  simp only [List.mem_cons, List.not_mem_nil, or_false] at hp
  rcases hp with rfl | rfl
  · exact ⟨_, rfl⟩
  · exact ⟨_, rfl⟩

/-- **C48, refuted**: while snapshots are being captured the variables are mocked all the same. -/
theorem C48_capture_refuted (refresh complete : Bool) (n v : Str) (o : OsEnv) (test : OsEnv → OsEnv)
    (ho : o n = none) :
    ∃ s, (withMissingEnv refresh complete [(n, .str v)] test o).seen = some s ∧ s n = some v :=
  ⟨o.put n (some v), by simp [withMissingEnv, missingStart, ho, setVar], put_same _ _ _⟩

/-- **C48, refuted**: a test that unsets a mocked variable makes `stop` raise, and a variable that comes
later in the dictionary keeps the mocked value. -/
theorem C48_unset_in_test_refuted : ∃ (d : List (Str × EVal)) (test : OsEnv → OsEnv) (o : OsEnv),
    PlainDict d ∧ (withMissingEnv false false d test o).seen.isSome ∧
    (withMissingEnv false false d test o).err = some .keyError ∧
    ∃ x ∈ d.map (·.1), (withMissingEnv false false d test o).after x ≠ o x :=
  ⟨[("A".toList, .str "1".toList), ("B".toList, .str "2".toList)],
    fun e => e.put "A".toList none, fun _ => none, ⟨by decide, by simp⟩, rfl, rfl, "B".toList,
    by decide, by decide⟩

/-- **C48, refuted**: `None` for an unset variable makes `start` raise. -/
theorem C48_none_refuted (n : Str) (o : OsEnv) (test : OsEnv → OsEnv) (ho : o n = none) :
    (withMissingEnv false false [(n, .none)] test o).seen = none ∧
    (withMissingEnv false false [(n, .none)] test o).err = some .keyError := by
  simp [withMissingEnv, missingStart, ho, delVar]

end Verif.Props
