import Verif.Spec.Env

/-! # Lemmas on the environment mocks -/

namespace Verif.Lemmas
open Verif.Py Verif.Model Verif.Spec

theorem dict_set_new {α : Type} (d : Dict α) (k : Str) (v : α) (h : k ∉ d.keys) :
    d.set k v = d ++ [(k, v)] := by
  induction d with
  | nil => rfl
  | cons p d ih =>
    obtain ⟨k', v'⟩ := p
    simp only [Dict.keys, List.map_cons, List.mem_cons, not_or] at h
    simp only [Dict.set, Ne.symm h.1, if_false, List.cons_append]
    rw [ih (by simpa [Dict.keys] using h.2)]

theorem keys_append {α : Type} (d e : Dict α) : Dict.keys (d ++ e) = d.keys ++ e.keys := by
  simp [Dict.keys]

theorem dict_get_append {α : Type} (d e : Dict α) (x : Str) :
    Dict.get (d ++ e) x = (d.get x).or (e.get x) := by
  induction d with
  | nil => simp [Dict.get]
  | cons p d ih =>
    obtain ⟨k, v⟩ := p
    simp only [List.cons_append, Dict.get, ih]
    split <;> simp

theorem put_same (o : OsEnv) (k : Str) (v : Option Str) : o.put k v k = v := by simp [OsEnv.put]

theorem put_other (o : OsEnv) (k : Str) (v : Option Str) {x : Str} (h : x ≠ k) : o.put k v x = o x := by
  simp [OsEnv.put, h]

/-- The old values recorded for the keys of a dictionary. -/
def oldOf (keys : List Str) (o : OsEnv) : Dict (Option Str) := keys.map (fun k => (k, o k))

theorem oldOf_keys (keys : List Str) (o : OsEnv) : (oldOf keys o).keys = keys := by
  simp [oldOf, Dict.keys, Function.comp_def]

theorem oldOf_congr {keys : List Str} {o o' : OsEnv} (h : ∀ k ∈ keys, o k = o' k) :
    oldOf keys o = oldOf keys o' := by
  unfold oldOf
  exact List.map_congr_left (fun k hk => by rw [h k hk])

theorem oldOf_get (keys : List Str) (o : OsEnv) (x : Str) :
    (oldOf keys o).get x = if x ∈ keys then some (o x) else none := by
  induction keys with
  | nil => simp [oldOf, Dict.get]
  | cons k keys ih =>
    simp only [oldOf, List.map_cons, Dict.get] at ih ⊢
    by_cases h : k = x
    · subst h; simp
    · rw [if_neg h, ih]; simp [Ne.symm h]

/-! ### `MockEnv` -/

theorem mockStart_spec (d : List (Str × EVal)) : ∀ (o : OsEnv) (old : Dict (Option Str)),
    PlainDict d → (∀ k ∈ d.map (·.1), k ∉ old.keys) →
    ∃ o1, mockStart d o old = (o1, old ++ oldOf (d.map (·.1)) o, none) ∧
      (∀ p ∈ d, Asks p.2 (o1 p.1)) ∧ (∀ x, x ∉ d.map (·.1) → o1 x = o x) := by
  induction d with
  | nil => intro o old _ _; exact ⟨o, by simp [mockStart, oldOf], by simp, by simp⟩
  | cons p d ih =>
    intro o old hp hold
    obtain ⟨k, v⟩ := p
    obtain ⟨hnd, hv⟩ := hp
    simp only [List.map_cons, List.nodup_cons] at hnd
    have hknew : k ∉ old.keys := hold k (by simp)
    have key : ∀ w, Asks v w → ∃ o1,
        mockStart d (o.put k w) (old.set k (o k)) = (o1, old ++ oldOf (k :: d.map (·.1)) o, none) ∧
        (∀ p ∈ (k, v) :: d, Asks p.2 (o1 p.1)) ∧ (∀ x, x ∉ k :: d.map (·.1) → o1 x = o x) := by
      intro w hw
      obtain ⟨o1, h1, h2, h3⟩ := ih (o.put k w) (old.set k (o k))
        ⟨hnd.2, fun p hp => hv p (List.mem_cons_of_mem _ hp)⟩ (by
          intro k' hk'
          rw [dict_set_new _ _ _ hknew, keys_append, List.mem_append, not_or]
          refine ⟨hold k' (by simp only [List.map_cons]; exact List.mem_cons_of_mem _ hk'), ?_⟩
          simp only [Dict.keys, List.map_cons, List.map_nil, List.mem_singleton]
          rintro rfl; exact hnd.1 hk')
      refine ⟨o1, ?_, ?_, ?_⟩
      · rw [h1, dict_set_new _ _ _ hknew, oldOf_congr (o' := o) (fun x hx => put_other _ _ _ (by
          rintro rfl; exact hnd.1 hx))]
        simp [oldOf]
      · intro p hp
        rcases List.mem_cons.mp hp with h | h
        · subst h; simp only; rw [h3 k hnd.1, put_same]; exact hw
        · exact h2 p h
      · intro x hx
        simp only [List.mem_cons, not_or] at hx
        rw [h3 x hx.2, put_other _ _ _ hx.1]
    cases v with
    | none =>
      simp only [mockStart, if_true, List.map_cons]
      by_cases hs : (o k).isSome
      · simp only [hs, if_true]; exact key none .unset
      · have : o.put k none = o := by
          funext x; simp only [OsEnv.put]; split
          · rename_i h; subst h; simpa using (Option.not_isSome_iff_eq_none.mp hs).symm
          · rfl
        simp only [hs, if_false, Bool.false_eq_true]
        have := key none .unset
        rwa [‹o.put k none = o›] at this
    | str s =>
      simp only [mockStart, setVar, List.map_cons]
      simpa using key (some s) (.value s)
    | other => exact absurd rfl (hv _ List.mem_cons_self)

theorem mockStop_spec (old : Dict (Option Str)) : ∀ (o : OsEnv), old.keys.Nodup →
    ∀ x, mockStop old o x = (Dict.get old x).getD (o x) := by
  induction old with
  | nil => intro o _ x; simp [mockStop, Dict.get]
  | cons p old ih =>
    intro o hnd x
    obtain ⟨k, v⟩ := p
    simp only [Dict.keys, List.map_cons, List.nodup_cons] at hnd
    have hget : Dict.get old k = none := (Dict.get_eq_none _ _).mpr hnd.1
    cases v with
    | none =>
      simp only [mockStop, Dict.get]
      rw [ih _ hnd.2]
      by_cases hk : k = x
      · subst hk
        rw [hget]
        simp only [if_true, Option.getD_some, Option.getD_none]
        split
        · rw [put_same]
        · rename_i h; simpa using h
      · simp only [hk, if_false]
        split
        · rw [put_other _ _ _ (Ne.symm hk)]
        · rfl
    | some v =>
      simp only [mockStop, Dict.get]
      rw [ih _ hnd.2]
      by_cases hk : k = x
      · subst hk; rw [hget]; simp [put_same]
      · simp only [hk, if_false]; rw [put_other _ _ _ (Ne.symm hk)]

/-! ### Plain stop -/

theorem plainStop_ok (old : Dict (Option Str)) : ∀ (o : OsEnv), old.keys.Nodup →
    (∀ k, Dict.get old k = some none → (o k).isSome) →
    ∃ o1, plainStop old o = (o1, none) ∧ ∀ x, o1 x = (Dict.get old x).getD (o x) := by
  induction old with
  | nil => intro o _ _; exact ⟨o, rfl, fun x => by simp [Dict.get]⟩
  | cons p old ih =>
    intro o hnd hset
    obtain ⟨k, v⟩ := p
    simp only [Dict.keys, List.map_cons, List.nodup_cons] at hnd
    have hget : Dict.get old k = none := (Dict.get_eq_none _ _).mpr hnd.1
    have go : ∀ w, w = v → ∃ o1, plainStop old (o.put k w) = (o1, none) ∧
        ∀ x, o1 x = (Dict.get ((k, v) :: old) x).getD (o x) := by
      intro w hw
      obtain ⟨o1, h1, h2⟩ := ih (o.put k w) hnd.2 (by
        intro k' hk'
        have hne : k' ≠ k := by rintro rfl; rw [hget] at hk'; cases hk'
        rw [put_other _ _ _ hne]
        apply hset; simp only [Dict.get, Ne.symm hne, if_false]; exact hk')
      refine ⟨o1, h1, fun x => ?_⟩
      rw [h2]
      simp only [Dict.get]
      by_cases hk : k = x
      · subst hk; rw [hget]; simp [put_same, hw]
      · simp only [hk, if_false]; rw [put_other _ _ _ (Ne.symm hk)]
    cases v with
    | none =>
      have hk := hset k (by simp [Dict.get])
      obtain ⟨s, hs⟩ := Option.isSome_iff_exists.mp hk
      simp only [plainStop, delVar, hs]
      exact go none rfl
    | some v => simp only [plainStop]; exact go (some v) rfl

/-- `stop` touches only the variables it knows. -/
theorem plainStop_outside (old : Dict (Option Str)) : ∀ (o : OsEnv) (x : Str), x ∉ old.keys →
    (plainStop old o).1 x = o x := by
  induction old with
  | nil => intro o x _; rfl
  | cons p old ih =>
    intro o x hx
    obtain ⟨k, v⟩ := p
    simp only [Dict.keys, List.map_cons, List.mem_cons, not_or] at hx
    cases v with
    | none =>
      simp only [plainStop, delVar]
      cases ho : o k with
      | none => rfl
      | some s => simp only; rw [ih _ _ hx.2, put_other _ _ _ hx.1]
    | some v => simp only [plainStop]; rw [ih _ _ hx.2, put_other _ _ _ hx.1]

/-- `stop` succeeds only if every variable to be deleted is set. -/
theorem plainStop_err (old : Dict (Option Str)) : ∀ (o : OsEnv), old.keys.Nodup →
    ((plainStop old o).2 = none ↔ ∀ k, Dict.get old k = some none → (o k).isSome) := by
  intro o hnd
  constructor
  · induction old generalizing o with
    | nil => intro _ k hk; cases hk
    | cons p old ih =>
      obtain ⟨k, v⟩ := p
      simp only [Dict.keys, List.map_cons, List.nodup_cons] at hnd
      have hget : Dict.get old k = none := (Dict.get_eq_none _ _).mpr hnd.1
      have lift : ∀ w, (∀ k', Dict.get old k' = some none → (o.put k w k').isSome) →
          ∀ k', k' ≠ k → Dict.get old k' = some none → (o k').isSome := by
        intro w h k' hne hk'
        have := h k' hk'
        rwa [put_other _ _ _ hne] at this
      cases v with
      | none =>
        simp only [plainStop, delVar]
        cases ho : o k with
        | none => simp
        | some s =>
          simp only
          intro h k' hk'
          by_cases hne : k' = k
          · subst hne; simp [ho]
          · simp only [Dict.get, Ne.symm hne, if_false] at hk'
            exact lift none (ih _ hnd.2 h) k' hne hk'
      | some v =>
        simp only [plainStop]
        intro h k' hk'
        by_cases hne : k' = k
        · subst hne; simp [Dict.get] at hk'
        · simp only [Dict.get, Ne.symm hne, if_false] at hk'
          exact lift (some v) (ih _ hnd.2 h) k' hne hk'
  · intro h
    obtain ⟨o1, h1, _⟩ := plainStop_ok old o hnd h
    rw [h1]

/-! ### `MockMissingEnv` -/

theorem missingStart_spec (d : List (Str × EVal)) : ∀ (o : OsEnv) (old : Dict (Option Str)),
    (d.map (·.1)).Nodup → (∀ p ∈ d, o p.1 = none → ∃ s, p.2 = .str s) → (∀ k ∈ d.map (·.1), k ∉ old.keys) →
    ∃ o1, missingStart d o old = (o1, old ++ oldOf (d.map (·.1)) o, none) ∧
      (∀ p ∈ d, o p.1 = none → Asks p.2 (o1 p.1)) ∧
      (∀ x, x ∉ d.map (·.1) ∨ (o x).isSome → o1 x = o x) := by
  induction d with
  | nil => intro o old _ _ _; exact ⟨o, by simp [missingStart, oldOf], by simp, by simp⟩
  | cons p d ih =>
    intro o old hnd hv hold
    obtain ⟨k, v⟩ := p
    simp only [List.map_cons, List.nodup_cons] at hnd
    have hknew : k ∉ old.keys := hold k (by simp)
    have key : ∀ w, (o k = none → Asks v w) → ((o k).isSome → w = o k) → ∃ o1,
        missingStart d (o.put k w) (old.set k (o k)) = (o1, old ++ oldOf (k :: d.map (·.1)) o, none) ∧
        (∀ p ∈ (k, v) :: d, o p.1 = none → Asks p.2 (o1 p.1)) ∧
        (∀ x, x ∉ k :: d.map (·.1) ∨ (o x).isSome → o1 x = o x) := by
      intro w hw hw'
      have hout : ∀ x ∈ d.map (·.1), (o.put k w) x = o x := fun x hx => put_other _ _ _ (by
          rintro rfl; exact hnd.1 hx)
      have hmem : ∀ p ∈ d, p.1 ∈ d.map (·.1) := fun p hp => List.mem_map.mpr ⟨p, hp, rfl⟩
      obtain ⟨o1, h1, h2, h3⟩ := ih (o.put k w) (old.set k (o k)) hnd.2
        (fun p hp h => hv p (List.mem_cons_of_mem _ hp) (by rwa [hout _ (hmem p hp)] at h)) (by
          intro k' hk'
          rw [dict_set_new _ _ _ hknew, keys_append, List.mem_append, not_or]
          refine ⟨hold k' (by simp only [List.map_cons]; exact List.mem_cons_of_mem _ hk'), ?_⟩
          simp only [Dict.keys, List.map_cons, List.map_nil, List.mem_singleton]
          rintro rfl; exact hnd.1 hk')
      refine ⟨o1, ?_, ?_, ?_⟩
      · rw [h1, dict_set_new _ _ _ hknew, oldOf_congr hout]
        simp [oldOf]
      · intro p hp hn
        rcases List.mem_cons.mp hp with h | h
        · subst h; simp only; rw [h3 k (.inl hnd.1), put_same]; exact hw hn
        · exact h2 p h (by rwa [hout _ (hmem p h)])
      · intro x hx
        by_cases hxk : x = k
        · subst hxk
          rw [h3 x (.inl hnd.1), put_same]
          rcases hx with hx | hx
          · simp at hx
          · exact hw' hx
        · rw [h3 x ?_, put_other _ _ _ hxk]
          rw [put_other _ _ _ hxk]
          rcases hx with hx | hx
          · simp only [List.mem_cons, not_or] at hx; exact .inl hx.2
          · exact .inr hx
    simp only [missingStart, List.map_cons]
    cases ho : o k with
    | none =>
      obtain ⟨s, hs⟩ := hv (k, v) List.mem_cons_self ho
      simp only at hs; subst hs
      have := key (some s) (fun _ => .value s) (by simp [ho])
      simpa [setVar, ho] using this
    | some s =>
      have hp : o.put k (some s) = o := by
        funext x; simp only [OsEnv.put]; split
        · rename_i h; subst h; exact ho.symm
        · rfl
      have := key (some s) (by simp [ho]) (by simp [ho])
      rw [hp, ho] at this
      simpa using this

/-! ### `SnapshotEnv` -/

/-- What the loop of `start` needs of a name to get past it. -/
def SnapOk (capturing : Bool) (snaps : Dict EVal) (o : OsEnv) (n : Str) : Prop :=
  match snaps.get n with
  | some .none => (o n).isSome
  | some (.str _) => True
  | some .other => False
  | none => capturing = true

/-- The value captured for a name. -/
def capOf (snaps : Dict EVal) (o : OsEnv) (n : Str) : EVal := (snaps.get n).getD (.ofOption (o n))

theorem snapStart_ok (c : Bool) (snaps : Dict EVal) (names : List Str) :
    ∀ (o : OsEnv) (old : Dict (Option Str)) (cap : Dict EVal),
    names.Nodup → (∀ k ∈ names, k ∉ old.keys) → (∀ k ∈ names, k ∉ cap.keys) →
    (∀ n ∈ names, SnapOk c snaps o n) →
    ∃ o1, snapStart c snaps names o old cap =
        (o1, old ++ oldOf names o, cap ++ names.map (fun n => (n, capOf snaps o n)), none) ∧
      (∀ n ∈ names, Asks (capOf snaps o n) (o1 n)) ∧ (∀ x, x ∉ names → o1 x = o x) := by
  induction names with
  | nil => intro o old cap _ _ _ _; exact ⟨o, by simp [snapStart, oldOf], by simp, by simp⟩
  | cons k names ih =>
    intro o old cap hnd hold hcap hok
    rw [List.nodup_cons] at hnd
    have hk1 : k ∉ old.keys := hold k (by simp)
    have hk2 : k ∉ cap.keys := hcap k (by simp)
    have key : ∀ w, Asks (capOf snaps o k) w → ∃ o1,
        snapStart c snaps names (o.put k w) (old.set k (o k)) (cap.set k (capOf snaps o k)) =
          (o1, old ++ oldOf (k :: names) o,
            cap ++ (k :: names).map (fun n => (n, capOf snaps o n)), none) ∧
        (∀ n ∈ k :: names, Asks (capOf snaps o n) (o1 n)) ∧ (∀ x, x ∉ k :: names → o1 x = o x) := by
      intro w hw
      have hout : ∀ x ∈ names, (o.put k w) x = o x := fun x hx => put_other _ _ _ (by
          rintro rfl; exact hnd.1 hx)
      have hcapeq : ∀ x ∈ names, capOf snaps (o.put k w) x = capOf snaps o x := fun x hx => by
        simp only [capOf, hout x hx]
      have hfresh : ∀ {α : Type} (d : Dict α) (v : α), k ∉ d.keys → (∀ x ∈ k :: names, x ∉ d.keys) →
          ∀ x ∈ names, x ∉ (d.set k v).keys := by
        intro α d v hkd hd x hx
        rw [dict_set_new _ _ _ hkd, keys_append, List.mem_append, not_or]
        refine ⟨hd x (List.mem_cons_of_mem _ hx), ?_⟩
        simp only [Dict.keys, List.map_cons, List.map_nil, List.mem_singleton]
        rintro rfl; exact hnd.1 hx
      obtain ⟨o1, h1, h2, h3⟩ := ih (o.put k w) (old.set k (o k)) (cap.set k (capOf snaps o k)) hnd.2
        (hfresh old _ hk1 hold) (hfresh cap _ hk2 hcap) (by
          intro n hn
          have := hok n (List.mem_cons_of_mem _ hn)
          unfold SnapOk at this ⊢
          rwa [hout n hn])
      refine ⟨o1, ?_, ?_, ?_⟩
      · rw [h1, dict_set_new _ _ _ hk1, dict_set_new _ _ _ hk2, oldOf_congr hout]
        have : names.map (fun n => (n, capOf snaps (o.put k w) n)) =
            names.map (fun n => (n, capOf snaps o n)) :=
          List.map_congr_left (fun n hn => by rw [hcapeq n hn])
        rw [this]
        simp [oldOf]
      · intro n hn
        rcases List.mem_cons.mp hn with h | h
        · subst h; rw [h3 n hnd.1, put_same]; exact hw
        · rw [← hcapeq n h]; exact h2 n h
      · intro x hx
        simp only [List.mem_cons, not_or] at hx
        rw [h3 x hx.2, put_other _ _ _ hx.1]
    have hself : o.put k (o k) = o := by
      funext x; simp only [OsEnv.put]; split
      · rename_i h; subst h; rfl
      · rfl
    have hk := hok k List.mem_cons_self
    unfold SnapOk at hk
    simp only [snapStart]
    cases hg : snaps.get k with
    | none =>
      rw [hg] at hk
      simp only at hk
      have hc : capOf snaps o k = .ofOption (o k) := by simp [capOf, hg]
      have := key (o k) (by rw [hc]; cases o k <;> simp only [EVal.ofOption] <;> constructor)
      rw [hself, hc] at this
      simpa [hk] using this
    | some v =>
      rw [hg] at hk
      have hc : capOf snaps o k = v := by simp [capOf, hg]
      cases v with
      | none =>
        simp only at hk
        obtain ⟨s, hs⟩ := Option.isSome_iff_exists.mp hk
        have := key none (by rw [hc]; exact .unset)
        rw [hc] at this
        simpa [delVar, hs] using this
      | str s =>
        have := key (some s) (by rw [hc]; exact .value s)
        rw [hc] at this
        simpa [setVar] using this
      | other => exact absurd hk (by simp)

/-- Whatever the loop meets, it touches only variables among the names. -/
theorem snapStart_outside (c : Bool) (snaps : Dict EVal) (names : List Str) :
    ∀ (o : OsEnv) (old : Dict (Option Str)) (cap : Dict EVal) (x : Str), x ∉ names →
    (snapStart c snaps names o old cap).1 x = o x := by
  induction names with
  | nil => intro o old cap x _; rfl
  | cons k names ih =>
    intro o old cap x hx
    simp only [List.mem_cons, not_or] at hx
    simp only [snapStart]
    cases hg : snaps.get k with
    | none => simp only; split
              · exact ih _ _ _ _ hx.2
              · rfl
    | some v =>
      cases v with
      | none =>
        simp only [if_true, delVar]
        cases o k with
        | none => rfl
        | some s => simp only; rw [ih _ _ _ _ hx.2, put_other _ _ _ hx.1]
      | str s =>
        simp only [setVar, reduceCtorEq, if_false]
        rw [ih _ _ _ _ hx.2, put_other _ _ _ hx.1]
      | other => simp [setVar]

/-- The loop gets through only if every name is all right. -/
theorem snapStart_err (c : Bool) (snaps : Dict EVal) (names : List Str) :
    ∀ (o : OsEnv) (old : Dict (Option Str)) (cap : Dict EVal), names.Nodup →
    (snapStart c snaps names o old cap).2.2.2 = none → ∀ n ∈ names, SnapOk c snaps o n := by
  induction names with
  | nil => intro o old cap _ _ n hn; cases hn
  | cons k names ih =>
    intro o old cap hnd h n hn
    rw [List.nodup_cons] at hnd
    have lift : ∀ w, (∀ m ∈ names, SnapOk c snaps (o.put k w) m) → ∀ m ∈ names, SnapOk c snaps o m := by
      intro w hw m hm
      have := hw m hm
      unfold SnapOk at this ⊢
      rwa [put_other _ _ _ (by rintro rfl; exact hnd.1 hm)] at this
    have fin : SnapOk c snaps o k → (∀ m ∈ names, SnapOk c snaps o m) → SnapOk c snaps o n := by
      intro h1 h2
      rcases List.mem_cons.mp hn with rfl | hm
      · exact h1
      · exact h2 n hm
    simp only [snapStart] at h
    cases hg : snaps.get k with
    | none =>
      simp only [hg] at h
      split at h
      · rename_i hc
        exact fin (by unfold SnapOk; rw [hg]; exact hc) (ih _ _ _ hnd.2 h)
      · simp at h
    | some v =>
      simp only [hg] at h
      cases v with
      | none =>
        simp only [if_true, delVar] at h
        cases ho : o k with
        | none => simp [ho] at h
        | some s =>
          simp only [ho] at h
          exact fin (by unfold SnapOk; rw [hg]; simp [ho]) (lift none (ih _ _ _ hnd.2 h))
      | str s =>
        simp only [setVar, reduceCtorEq, if_false] at h
        exact fin (by unfold SnapOk; rw [hg]; trivial) (lift (some s) (ih _ _ _ hnd.2 h))
      | other => simp [setVar] at h

/-- Where the loop stops at a missing snapshot, the variables before it have been set. -/
theorem snapStart_missing (c : Bool) (snaps : Dict EVal) (names : List Str) :
    ∀ (o : OsEnv) (old : Dict (Option Str)) (cap : Dict EVal) (m : Str), names.Nodup →
    (snapStart c snaps names o old cap).2.2.2 = some (.missing m) →
    ∃ pre post, names = pre ++ m :: post ∧ snaps.get m = none ∧ c = false ∧
      (∀ n ∈ pre, ∃ v, snaps.get n = some v ∧ Asks v ((snapStart c snaps names o old cap).1 n)) ∧
      (∀ x, x ∉ pre → (snapStart c snaps names o old cap).1 x = o x) := by
  induction names with
  | nil => intro o old cap m _ h; simp [snapStart] at h
  | cons k names ih =>
    intro o old cap m hnd h
    rw [List.nodup_cons] at hnd
    have step : ∀ w cap', (∃ v, snaps.get k = some v ∧ Asks v w) →
        snapStart c snaps (k :: names) o old cap =
          snapStart c snaps names (o.put k w) (old.set k (o k)) cap' →
        ∃ pre post, k :: names = pre ++ m :: post ∧ snaps.get m = none ∧ c = false ∧
          (∀ n ∈ pre, ∃ v, snaps.get n = some v ∧
            Asks v ((snapStart c snaps (k :: names) o old cap).1 n)) ∧
          (∀ x, x ∉ pre → (snapStart c snaps (k :: names) o old cap).1 x = o x) := by
      intro w cap' hv heq
      rw [heq] at h ⊢
      obtain ⟨pre, post, h1, h2, h2', h3, h4⟩ := ih _ _ _ _ hnd.2 h
      refine ⟨k :: pre, post, by simp [h1], h2, h2', ?_, ?_⟩
      · intro n hn
        rcases List.mem_cons.mp hn with rfl | hm
        · obtain ⟨v, hv1, hv2⟩ := hv
          refine ⟨v, hv1, ?_⟩
          rw [snapStart_outside _ _ _ _ _ _ _ hnd.1, put_same]; exact hv2
        · exact h3 n hm
      · intro x hx
        simp only [List.mem_cons, not_or] at hx
        rw [h4 x hx.2, put_other _ _ _ hx.1]
    cases hg : snaps.get k with
    | none =>
      cases c with
      | true =>
        have heq : snapStart true snaps (k :: names) o old cap =
            snapStart true snaps names o (old.set k (o k)) (cap.set k (.ofOption (o k))) := by
          simp [snapStart, hg]
        rw [heq] at h
        obtain ⟨_, _, _, _, h2, _⟩ := ih _ _ _ _ hnd.2 h
        cases h2
      | false =>
        simp only [snapStart, hg] at h
        simp at h
        subst h
        exact ⟨[], names, rfl, hg, rfl, by simp, fun x _ => by simp [snapStart, hg]⟩
    | some v =>
      cases v with
      | none =>
        cases ho : o k with
        | none => simp [snapStart, hg, delVar, ho] at h
        | some s => exact step none (cap.set k .none) ⟨_, hg, .unset⟩ (by simp [snapStart, hg, delVar, ho])
      | str s => exact step (some s) (cap.set k (.str s)) ⟨_, hg, .value s⟩ (by simp [snapStart, hg, setVar])
      | other => simp [snapStart, hg, setVar] at h

end Verif.Lemmas
