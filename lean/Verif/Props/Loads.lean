import Verif.Lemmas.LoadsPrefix

/-! # C119, C120: what is written as JSON is read back, and what is written in part is not read -/

namespace Verif.Props
open Verif.Py Verif.Model Verif.Spec Verif.Lemmas

private theorem ends_nil : AtomEnds [] := by
  intro c t h
  cases h

private theorem written_head (n : Nat) (v : PyData) (hv : Storable v) :
    skipWs (dumpIndent n 0 v) = dumpIndent n 0 v := by
  obtain ⟨c, s, e, hc⟩ := dumpIndent_head n 0 hv
  rw [e]
  exact skipWs_stop ((valueChar_ne hc).1)

/-- C119: the values of a JSON file written by `json.dump(value, f, indent=n)` are read back by `json.load`: tuples as
lists, keys as strings, everything else as it was. -/
theorem C119_read_back (n : Nat) (v : PyData) (hv : Storable v) : loads (dumpIndent n 0 v) = some (asRead v) := by
  have h := scan_value n v 0 [] (2 * (dumpIndent n 0 v).length + 2) hv ends_nil (by omega)
  rw [List.append_nil] at h
  unfold loads
  rw [written_head n v hv, h]
  rfl

mutual
private theorem faithful_storable (v : PyData) (h : Faithful v) : Storable v := by
  match hv : v, h with
  | .none, _ => exact .none
  | .bool b, _ => exact .bool b
  | .int i, _ => exact .int i
  | .float t, .float _ h => exact .float t h
  | .str s, _ => exact .str s
  | .list items, .list _ h => exact .list items (fun x hx => faithful_storable x (h x hx))
  | .dict items, .dict _ hk hn h =>
    refine .dict items ?_ (fun p hp => faithful_storable p.2 (h p hp))
    clear hv h
    induction items with
    | nil => exact List.nodup_nil
    | cons p items ih =>
      rw [List.map_cons, List.nodup_cons] at hn ⊢
      refine ⟨?_, ih (fun q hq => hk q (List.mem_cons_of_mem _ hq)) hn.2⟩
      intro hm
      obtain ⟨q, hq, e⟩ := List.mem_map.mp hm
      obtain ⟨s, hs⟩ := hk p List.mem_cons_self
      obtain ⟨s', hs'⟩ := hk q (List.mem_cons_of_mem _ hq)
      apply hn.1
      rw [hs, hs'] at e
      have e : s' = s := e
      exact List.mem_map.mpr ⟨q, hq, by rw [hs, hs', e]⟩
termination_by sizeOf v
decreasing_by
  · subst hv
    have := List.sizeOf_lt_of_mem hx
    simp only [PyData.list.sizeOf_spec]
    omega
  · subst hv
    have := List.sizeOf_lt_of_mem hp
    obtain ⟨k, x⟩ := p
    simp only [PyData.dict.sizeOf_spec, Prod.mk.sizeOf_spec] at this ⊢
    omega
end

mutual
private theorem faithful_asRead (v : PyData) (h : Faithful v) : asRead v = v := by
  match v, h with
  | .none, _ => rfl
  | .bool b, _ => rfl
  | .int i, _ => rfl
  | .float t, _ => rfl
  | .str s, _ => rfl
  | .list items, .list _ h => rw [asRead, faithful_items items h]
  | .dict items, .dict _ hk _ h => rw [asRead, faithful_fields items hk h]
private theorem faithful_items (items : List PyData) (h : ∀ x ∈ items, Faithful x) : asReadItems items = items := by
  match items, h with
  | [], _ => rfl
  | x :: xs, h =>
    rw [asReadItems, faithful_asRead x (h x List.mem_cons_self),
      faithful_items xs (fun y hy => h y (List.mem_cons_of_mem _ hy))]
private theorem faithful_fields (items : List (PyKey × PyData)) (hk : ∀ p ∈ items, ∃ s, p.1 = .str s)
    (h : ∀ p ∈ items, Faithful p.2) : asReadFields items = items := by
  match items, hk, h with
  | [], _, _ => rfl
  | (k, x) :: xs, hk, h =>
    rw [asReadFields, faithful_asRead x (h (k, x) List.mem_cons_self),
      faithful_fields xs (fun y hy => hk y (List.mem_cons_of_mem _ hy)) (fun y hy => h y (List.mem_cons_of_mem _ hy))]
    obtain ⟨s, hs⟩ := hk (k, x) List.mem_cons_self
    dsimp only at hs
    subst hs
    rfl
end

/-- C119: a value of `None`, booleans, numbers, strings, lists and dictionaries with strings as keys is read back as it
was. -/
theorem C119_same (n : Nat) (v : PyData) (hv : Faithful v) : loads (dumpIndent n 0 v) = some v := by
  rw [C119_read_back n v (faithful_storable v hv), faithful_asRead v hv]

/-- C119: and so two such values have the same text only if they are the same. -/
theorem C119_distinct (n m : Nat) (v w : PyData) (hv : Faithful v) (hw : Faithful w)
    (h : dumpIndent n 0 v = dumpIndent m 0 w) : v = w := by
  have h1 := C119_same n v hv
  rw [h, C119_same m w hw] at h1
  injection h1 with h1
  exact h1.symm

/-- C119, what does not hold: a dictionary with the keys `1` and `"1"` is read back with a single entry, and a tuple as a
list. -/
theorem C119_every_value_refuted :
    loads (dumpIndent 4 0 (.dict [(.int 1, .bool true), (.str "1".toList, .bool false)])) =
      some (.dict [(.str "1".toList, .bool false)]) ∧
    loads (dumpIndent 4 0 (.tuple [.int 1])) = some (.list [.int 1]) :=
  ⟨rfl, rfl⟩

/-- The value used in the examples: a snapshot of a call. -/
private def call0 : PyData :=
  .dict [(.str "call".toList, .dict [(.str "func".toList, .str "f\n\"é😀".toList),
      (.str "args".toList, .list [.int (-12), .float "1.5e-07".toList, .none]), (.str "kwargs".toList, .dict [])]),
    (.str "result".toList, .list [.list [], .bool true])]

private theorem call0_faithful : Faithful call0 := by
  have hf : FloatRepr "1.5e-07".toList := by
    refine .inr (.inr (.inr ⟨[], "1".toList, ".5".toList, "e-07".toList, rfl, .inl rfl, ?_, .inr ⟨"5".toList, rfl, ?_⟩,
      .inr ⟨"-".toList, "07".toList, rfl, .inr (.inr rfl), ?_⟩, .inl (by decide)⟩))
    · exact ⟨⟨by decide, by decide⟩, by decide⟩
    · exact ⟨by decide, by decide⟩
    · exact ⟨by decide, by decide⟩
  refine .dict _ ?_ (by decide) ?_
  · simp
  · intro p hp
    simp only [List.mem_cons, List.not_mem_nil, or_false] at hp
    rcases hp with rfl | rfl
    · refine .dict _ ?_ (by decide) ?_
      · simp
      · intro p hp
        simp only [List.mem_cons, List.not_mem_nil, or_false] at hp
        rcases hp with rfl | rfl | rfl
        · exact .str _
        · refine .list _ ?_
          intro x hx
          simp only [List.mem_cons, List.not_mem_nil, or_false] at hx
          rcases hx with rfl | rfl | rfl
          · exact .int _
          · exact .float _ hf
          · exact .none
        · exact .dict _ (by simp) (by simp) (by simp)
    · refine .list _ ?_
      intro x hx
      simp only [List.mem_cons, List.not_mem_nil, or_false] at hx
      rcases hx with rfl | rfl
      · exact .list _ (by simp)
      · exact .bool _

example : Storable call0 ∧ loads (dumpIndent 4 0 call0) = some call0 :=
  ⟨faithful_storable _ call0_faithful, C119_same 4 call0 call0_faithful⟩

example : Storable (.dict [(.int 1, .tuple [.none])]) ∧
    asRead (.dict [(.int 1, .tuple [.none])]) = .dict [(.str "1".toList, .list [.none])] := by
  refine ⟨.dict _ (by decide) ?_, rfl⟩
  intro p hp
  simp only [List.mem_cons, List.not_mem_nil, or_false] at hp
  subst hp
  refine .tuple _ ?_
  intro x hx
  simp only [List.mem_cons, List.not_mem_nil, or_false] at hx
  subst hx
  exact .none

/-- C120: a file of which only a part has been written is not read: no text that a dictionary, a list or a string begins
with is accepted by `json.load`, unless it is the whole text. -/
theorem C120_part_not_read (n : Nat) (v : PyData) (hv : Storable v)
    (hk : (∃ items, v = .dict items) ∨ (∃ items, v = .list items) ∨ (∃ items, v = .tuple items) ∨ ∃ s, v = .str s)
    (p q : Str) (hp : p ++ q = dumpIndent n 0 v) (hq : q ≠ []) : loads p = none := by
  have hb : ∃ c s, dumpIndent n 0 v = c :: s ∧ (c = '"' ∨ c = '{' ∨ c = '[') := by
    rcases hk with ⟨items, rfl⟩ | ⟨items, rfl⟩ | ⟨items, rfl⟩ | ⟨s, rfl⟩
    · match items with
      | [] => exact ⟨'{', "}".toList, by rw [dumpIndent]; rfl, by decide⟩
      | (k, x) :: xs => rw [dumpIndent]; exact ⟨_, _, rfl, by decide⟩
    · match items with
      | [] => exact ⟨'[', "]".toList, by rw [dumpIndent]; rfl, by decide⟩
      | x :: xs => rw [dumpIndent]; exact ⟨_, _, rfl, by decide⟩
    · match items with
      | [] => exact ⟨'[', "]".toList, by rw [dumpIndent]; rfl, by decide⟩
      | x :: xs => rw [dumpIndent]; exact ⟨_, _, rfl, by decide⟩
    · rw [dumpIndent]; exact ⟨_, _, rfl, by decide⟩
  obtain ⟨c, s, e, hc⟩ := hb
  have h := scan_value n v 0 [] _ hv ends_nil (Nat.le_refl _)
  rw [List.append_nil, ← hp] at h
  rw [← hp] at e
  cases p with
  | nil => rfl
  | cons c' p =>
    rw [List.cons_append] at e
    injection e with e1 e2
    subst e1
    exact loads_prefix hc hq h

/-- C120, what does not hold: a number is read from a part of it. (The files of booktest hold dictionaries.) -/
theorem C120_numbers_refuted : ∃ p q, q ≠ [] ∧ p ++ q = dumpIndent 4 0 (.int 12) ∧ loads p = some (.int 1) :=
  ⟨"1".toList, "2".toList, by decide, rfl, rfl⟩

example : ∃ p q, q ≠ [] ∧ p ++ q = dumpIndent 4 0 call0 ∧ p.length = 40 ∧ loads p = none := by
  refine ⟨(dumpIndent 4 0 call0).take 40, (dumpIndent 4 0 call0).drop 40, by decide +kernel, List.take_append_drop _ _,
    by decide +kernel, ?_⟩
  exact C120_part_not_read 4 call0 (faithful_storable _ call0_faithful) (.inl ⟨_, rfl⟩) _ _ (List.take_append_drop _ _)
    (by decide +kernel)

end Verif.Props
