import Verif.Spec.Functions
import Verif.Lemmas.Env

/-! # Lemmas on function snapshots -/

namespace Verif.Lemmas
open Verif.Py Verif.Model Verif.Spec

variable {T : FnTypes}

theorem findSnap_some {snaps : List (FnSnap T)} {h : Str} {s : FnSnap T} (hf : findSnap snaps h = some s) :
    s ∈ snaps ∧ s.hash = h := by
  unfold findSnap at hf
  have h1 := List.mem_of_find?_eq_some hf
  have h2 := List.find?_some hf
  exact ⟨List.mem_reverse.mp h1, by simpa using h2⟩

theorem findSnap_none {snaps : List (FnSnap T)} {h : Str} :
    findSnap snaps h = none ↔ ∀ s ∈ snaps, s.hash ≠ h := by
  unfold findSnap
  rw [List.find?_eq_none]
  simp

theorem eq_of_hash {snaps : List (FnSnap T)} (hnd : (snaps.map (·.hash)).Nodup) {s s' : FnSnap T}
    (h1 : s ∈ snaps) (h2 : s' ∈ snaps) (h : s.hash = s'.hash) : s = s' := by
  induction snaps with
  | nil => cases h1
  | cons x snaps ih =>
    simp only [List.map_cons, List.nodup_cons] at hnd
    rcases List.mem_cons.mp h1 with e1 | e1 <;> rcases List.mem_cons.mp h2 with e2 | e2
    · rw [e1, e2]
    · subst e1; exact absurd (List.mem_map.mpr ⟨s', e2, h.symm⟩) hnd.1
    · subst e2; exact absurd (List.mem_map.mpr ⟨s, e1, h⟩) hnd.1
    · exact ih hnd.2 e1 e2

theorem findSnap_of_mem {snaps : List (FnSnap T)} (hnd : (snaps.map (·.hash)).Nodup) {s : FnSnap T}
    (hs : s ∈ snaps) : findSnap snaps s.hash = some s := by
  rcases hf : findSnap snaps s.hash with _ | s'
  · exact absurd rfl (findSnap_none.mp hf s hs)
  · obtain ⟨h1, h2⟩ := findSnap_some hf
    rw [eq_of_hash hnd h1 hs h2]

/-- The order of the files does not matter. -/
theorem findSnap_perm {a b : List (FnSnap T)} (hnd : (a.map (·.hash)).Nodup) (hp : a.Perm b) (h : Str) :
    findSnap a h = findSnap b h := by
  have hnd' : (b.map (·.hash)).Nodup := (hp.map _).nodup_iff.mp hnd
  rcases hf : findSnap a h with _ | s
  · symm; rw [findSnap_none] at hf ⊢
    exact fun s hs => hf s (hp.mem_iff.mpr hs)
  · obtain ⟨h1, h2⟩ := findSnap_some hf
    subst h2
    exact (findSnap_of_mem hnd' (hp.mem_iff.mp h1)).symm

theorem lastValue_append (a b : List (FnEvent T)) (h : Str) :
    lastValue (a ++ b) h = (lastValue b h).or (lastValue a h) := by
  induction a with
  | nil => simp [lastValue]
  | cons e a ih => simp only [List.cons_append, lastValue, ih, Option.or_assoc]

/-- The invariant connecting `self.calls` with the log. -/
structure CallsInv (snaps : List (FnSnap T)) (log : List (FnEvent T)) (calls : List (FnSnap T)) : Prop where
  nodup : (calls.map (·.hash)).Nodup
  values : ∀ s ∈ calls, lastValue log s.hash = some s.result
  all : ∀ h, (lastValue log h).isSome → ∃ s ∈ calls, s.hash = h
  recorded : ∀ s ∈ calls, ∀ s', findSnap snaps s.hash = some s' → s'.result = s.result

theorem callsInv_nil (snaps : List (FnSnap T)) : CallsInv snaps [] [] where
  nodup := by simp
  values := by simp
  all := by simp [lastValue]
  recorded := by simp

theorem callsInv_step (capture : Bool) (snaps : List (FnSnap T)) (answers : Nat → Except T.E T.V)
    (log : List (FnEvent T)) (calls : List (FnSnap T)) (i : Nat) (c : T.C) (b : Bool)
    (hinv : CallsInv snaps log calls) :
    CallsInv snaps (log ++ [⟨c, (snapshotCall capture snaps answers calls i c).1, b⟩])
      (snapshotCall capture snaps answers calls i c).2.1 := by
  have same : ∀ o : FnOutcome T, (∀ h, valueFor h (⟨c, o, b⟩ : FnEvent T) = none) →
      CallsInv snaps (log ++ [⟨c, o, b⟩]) calls := by
    intro o ho
    have : ∀ h, lastValue (log ++ [⟨c, o, b⟩]) h = lastValue log h := by
      intro h; rw [lastValue_append]; simp [lastValue, ho]
    exact ⟨hinv.nodup, fun s hs => by rw [this]; exact hinv.values s hs,
      fun h hh => hinv.all h (by rwa [this] at hh), hinv.recorded⟩
  unfold snapshotCall
  rcases hh : T.hash c with _ | h
  · simp only
    exact same _ (fun h => by simp [valueFor, hh])
  · have last : ∀ v h', lastValue (log ++ [(⟨c, .val v, b⟩ : FnEvent T)]) h' =
        if h = h' then some v else lastValue log h' := by
      intro v h'
      rw [lastValue_append]
      simp only [lastValue, valueFor, hh, Option.some.injEq]
      split <;> simp
    dsimp only
    rcases hf : findSnap snaps h with _ | s
    · dsimp only
      cases capture with
      | false => exact same .missing (fun h => by simp [valueFor])
      | true =>
        simp only [Bool.not_true, Bool.false_eq_true, if_false]
        rcases ha : answers i with e | v
        · exact same (.raised e) (fun h => by simp [valueFor])
        · dsimp only
          have hmem : ∀ s, s ∈ calls.filter (fun x => !(x.hash == h)) ↔ s ∈ calls ∧ s.hash ≠ h := by
            intro s; simp [List.mem_filter]
          refine ⟨?_, ?_, ?_, ?_⟩
          · rw [List.map_append, List.nodup_append]
            refine ⟨?_, by simp, ?_⟩
            · exact hinv.nodup.sublist ((List.filter_sublist).map _)
            · intro a ha' b' hb' hab
              simp at hb'
              obtain ⟨s, hs, rfl⟩ := List.mem_map.mp ha'
              exact ((hmem s).mp hs).2 (hab.trans hb')
          · intro s hs
            rw [last]
            rcases List.mem_append.mp hs with hs | hs
            · obtain ⟨h1, h2⟩ := (hmem s).mp hs
              rw [if_neg (Ne.symm h2)]; exact hinv.values s h1
            · simp at hs; subst hs; simp
          · intro h' hh'
            rw [last] at hh'
            by_cases he : h = h'
            · exact ⟨⟨c, h, v⟩, by simp, he⟩
            · rw [if_neg he] at hh'
              obtain ⟨s, h1, h2⟩ := hinv.all h' hh'
              exact ⟨s, List.mem_append.mpr (.inl ((hmem s).mpr ⟨h1, by rw [h2]; exact Ne.symm he⟩)), h2⟩
          · intro s hs s' hs'
            rcases List.mem_append.mp hs with hs | hs
            · exact hinv.recorded s ((hmem s).mp hs).1 s' hs'
            · simp at hs; subst hs; simp only at hs'; rw [hf] at hs'; cases hs'
    · simp only
      obtain ⟨hs1, hs2⟩ := findSnap_some hf
      unfold addCall
      split
      · rename_i hany
        simp only [List.any_eq_true, beq_iff_eq] at hany
        obtain ⟨x, hx1, hx2⟩ := hany
        have hxr : s.result = x.result := hinv.recorded x hx1 s (by rw [hx2, hs2]; exact hf)
        refine ⟨hinv.nodup, ?_, ?_, hinv.recorded⟩
        · intro s' hs'
          rw [last]
          split
          · rename_i he
            have : s' = x := eq_of_hash hinv.nodup hs' hx1 (by rw [← he, hx2, hs2])
            rw [this, hxr]
          · exact hinv.values s' hs'
        · intro h' hh'
          rw [last] at hh'
          by_cases he : h = h'
          · exact ⟨x, hx1, by rw [hx2, hs2, he]⟩
          · rw [if_neg he] at hh'; exact hinv.all h' hh'
      · rename_i hany
        have hnew : ∀ x ∈ calls, x.hash ≠ s.hash := by
          intro x hx he; apply hany; simp only [List.any_eq_true, beq_iff_eq]; exact ⟨x, hx, he⟩
        refine ⟨?_, ?_, ?_, ?_⟩
        · rw [List.map_append, List.nodup_append]
          refine ⟨hinv.nodup, by simp, ?_⟩
          intro a ha b' hb hab
          simp at hb
          obtain ⟨x, hx, rfl⟩ := List.mem_map.mp ha
          exact hnew x hx (hab.trans hb)
        · intro s' hs'
          rw [last]
          rcases List.mem_append.mp hs' with hs' | hs'
          · rw [if_neg (by rw [← hs2]; exact Ne.symm (hnew s' hs'))]; exact hinv.values s' hs'
          · simp at hs'; subst hs'; rw [if_pos hs2.symm]
        · intro h' hh'
          rw [last] at hh'
          by_cases he : h = h'
          · exact ⟨s, by simp, by rw [hs2, he]⟩
          · rw [if_neg he] at hh'
            obtain ⟨x, h1, h2⟩ := hinv.all h' hh'
            exact ⟨x, by simp [h1], h2⟩
        · intro s' hs' s'' hs''
          rcases List.mem_append.mp hs' with hs' | hs'
          · exact hinv.recorded s' hs' s'' hs''
          · simp at hs'; subst hs'; rw [hs2, hf] at hs''; cases hs''; rfl

theorem callsInv_run (capture : Bool) (snaps : List (FnSnap T)) (answers : Nat → Except T.E T.V)
    (p : Prog T) : ∀ (log : List (FnEvent T)) (calls : List (FnSnap T)) (i : Nat),
    CallsInv snaps log calls →
    CallsInv snaps (log ++ (runProg capture snaps answers p calls i).1)
      (runProg capture snaps answers p calls i).2 := by
  induction p with
  | done => intro log calls i h; simpa [runProg] using h
  | call c k ih =>
    intro log calls i h
    simp only [runProg]
    have h1 := callsInv_step capture snaps answers log calls i c
      (decide ((snapshotCall capture snaps answers calls i c).2.2 ≠ i)) h
    have h2 := ih (snapshotCall capture snaps answers calls i c).1 _ _
      (snapshotCall capture snaps answers calls i c).2.2 h1
    simpa [List.append_assoc] using h2

/-! ### Files -/

theorem fileName_inj {a b : Str} (h : a ++ ".json".toList = b ++ ".json".toList) : a = b :=
  List.append_cancel_right h

theorem writeCalls_spec (calls : List (FnSnap T)) : ∀ (files : FnFiles T),
    (calls.map (·.hash)).Nodup → (∀ s ∈ calls, s.hash ++ ".json".toList ∉ files.keys) →
    (∀ s ∈ calls, (T.json s.result).isSome) →
    ∃ new : FnFiles T, writeCalls calls files = some (files ++ new) ∧
      List.map (fun p => (p.1, p.2.call, p.2.hash, some p.2.result)) new =
        List.map (fun s => (s.hash ++ ".json".toList, s.call, s.hash, T.json s.result)) calls := by
  induction calls with
  | nil => intro files _ _ _; exact ⟨[], by simp [writeCalls], by simp⟩
  | cons s calls ih =>
    intro files hnd hnew hj
    simp only [List.map_cons, List.nodup_cons] at hnd
    obtain ⟨v, hv⟩ := Option.isSome_iff_exists.mp (hj s List.mem_cons_self)
    simp only [writeCalls, hv]
    rw [dict_set_new _ _ _ (hnew s List.mem_cons_self)]
    obtain ⟨new, h1, h2⟩ := ih (files ++ [(s.hash ++ ".json".toList, ⟨s.call, s.hash, v⟩)]) hnd.2 (by
      intro s' hs'
      rw [keys_append, List.mem_append, not_or]
      refine ⟨hnew s' (List.mem_cons_of_mem _ hs'), ?_⟩
      simp only [Dict.keys, List.map_cons, List.map_nil, List.mem_singleton]
      intro he
      exact hnd.1 (List.mem_map.mpr ⟨s', hs', fileName_inj he⟩))
      (fun s' hs' => hj s' (List.mem_cons_of_mem _ hs'))
    exact ⟨(s.hash ++ ".json".toList, ⟨s.call, s.hash, v⟩) :: new,
      by rw [h1, List.append_assoc]; rfl, by rw [List.map_cons, List.map_cons, h2, hv]⟩

theorem writeCalls_none (calls : List (FnSnap T)) : ∀ (files : FnFiles T),
    (∃ s ∈ calls, T.json s.result = none) → writeCalls calls files = none := by
  induction calls with
  | nil => intro files h; obtain ⟨s, h, _⟩ := h; cases h
  | cons s calls ih =>
    intro files h
    simp only [writeCalls]
    rcases hj : T.json s.result with _ | v
    · rfl
    · apply ih
      obtain ⟨s', h1, h2⟩ := h
      rcases List.mem_cons.mp h1 with rfl | h1
      · rw [hj] at h2; cases h2
      · exact ⟨s', h1, h2⟩

/-! ### Replaying -/

/-- What a call yields in replay mode. -/
def replayOutcome (snaps : List (FnSnap T)) (c : T.C) : FnOutcome T :=
  match T.hash c with
  | none => .badArgs
  | some h => match findSnap snaps h with
    | some s => .val s.result
    | none => .missing

theorem replay_events (snaps : List (FnSnap T)) (answers : Nat → Except T.E T.V) (p : Prog T) :
    ∀ calls i, ∀ e ∈ (runProg false snaps answers p calls i).1,
      e.outcome = replayOutcome snaps e.call ∧ e.real = false := by
  induction p with
  | done => intro calls i e he; cases he
  | call c k ih =>
    intro calls i e he
    simp only [runProg] at he
    have h1 : (snapshotCall false snaps answers calls i c).1 = replayOutcome snaps c ∧
        (snapshotCall false snaps answers calls i c).2.2 = i := by
      unfold snapshotCall replayOutcome
      rcases T.hash c with _ | h
      · exact ⟨rfl, rfl⟩
      · simp only
        rcases findSnap snaps h with _ | s <;> exact ⟨rfl, rfl⟩
    rcases List.mem_cons.mp he with rfl | he
    · exact ⟨h1.1, by simp [h1.2]⟩
    · exact ih _ _ _ _ he

/-- A run depends on the snapshots only through what is found for the calls. -/
theorem runProg_congr (capture : Bool) (a b : List (FnSnap T)) (h : ∀ x, findSnap a x = findSnap b x)
    (answers : Nat → Except T.E T.V) (p : Prog T) :
    ∀ calls i, runProg capture a answers p calls i = runProg capture b answers p calls i := by
  have hs : ∀ calls i c, snapshotCall capture a answers calls i c =
      snapshotCall capture b answers calls i c := by
    intro calls i c; unfold snapshotCall; simp only [h]
  induction p with
  | done => intro calls i; rfl
  | call c k ih => intro calls i; simp only [runProg, hs, ih]

/-- Outside capture mode a run does not depend on what the functions would answer. -/
theorem replay_answers (snaps : List (FnSnap T)) (a b : Nat → Except T.E T.V) (p : Prog T) :
    ∀ calls i, runProg false snaps a p calls i = runProg false snaps b p calls i := by
  have hs : ∀ calls i c, snapshotCall false snaps a calls i c = snapshotCall false snaps b calls i c := by
    intro calls i c; unfold snapshotCall; rfl
  induction p with
  | done => intro calls i; rfl
  | call c k ih => intro calls i; simp only [runProg, hs, ih]

/-- If every call of a run gets in replay mode what it got in that run, the replay is the same. -/
theorem replay_same (capture : Bool) (snaps snaps' : List (FnSnap T)) (answers answers' : Nat → Except T.E T.V)
    (p : Prog T) : ∀ calls i calls' i',
    (∀ e ∈ (runProg capture snaps answers p calls i).1, e.outcome = replayOutcome snaps' e.call) →
    observed (runProg false snaps' answers' p calls' i').1 = observed (runProg capture snaps answers p calls i).1 := by
  induction p with
  | done => intro calls i calls' i' _; rfl
  | call c k ih =>
    intro calls i calls' i' h
    simp only [runProg] at h ⊢
    have h0 := h _ List.mem_cons_self
    simp only at h0
    have h1 : (snapshotCall false snaps' answers' calls' i' c).1 = replayOutcome snaps' c := by
      unfold snapshotCall replayOutcome
      rcases T.hash c with _ | h
      · rfl
      · simp only
        rcases findSnap snaps' h with _ | s <;> rfl
    simp only [observed, List.map_cons] at ih ⊢
    rw [h1, ← h0]
    rw [ih _ _ _ _ _ (fun e he => h e (List.mem_cons_of_mem _ he))]

/-! ### Listing -/

/-- If no hash occurs twice in a run, `self.calls` are the successful calls in order. -/
theorem calls_order (capture : Bool) (snaps : List (FnSnap T)) (answers : Nat → Except T.E T.V)
    (p : Prog T) : ∀ calls i,
    (calls.map (·.hash) ++ (runProg capture snaps answers p calls i).1.filterMap
      (fun e => T.hash e.call)).Nodup →
    (∀ e ∈ (runProg capture snaps answers p calls i).1, ∃ v, e.outcome = .val v) →
    fnListing (runProg capture snaps answers p calls i).2 = calls.map (·.hash) ++
      (runProg capture snaps answers p calls i).1.filterMap (fun e => T.hash e.call) := by
  induction p with
  | done => intro calls i _ _; simp [runProg, fnListing]
  | call c k ih =>
    intro calls i hnd hv
    simp only [runProg] at hnd hv ⊢
    obtain ⟨v, h0⟩ := hv _ List.mem_cons_self
    simp only at h0
    have hc : ∃ h, T.hash c = some h := by
      rcases hh : T.hash c with _ | h
      · simp [snapshotCall, hh] at h0
      · exact ⟨h, rfl⟩
    obtain ⟨h, hh⟩ := hc
    simp only [List.filterMap_cons, hh] at hnd ⊢
    have hnew : ∀ x ∈ calls, x.hash ≠ h := by
      rw [List.nodup_append] at hnd
      intro x hx he
      exact hnd.2.2 x.hash (List.mem_map.mpr ⟨x, hx, rfl⟩) h List.mem_cons_self he
    have hcalls : (snapshotCall capture snaps answers calls i c).2.1.map (·.hash) = calls.map (·.hash) ++ [h] := by
      revert h0
      unfold snapshotCall
      simp only [hh]
      rcases hf : findSnap snaps h with _ | s
      · cases capture with
        | false => simp
        | true =>
          rcases answers i with e | w
          · simp
          · simp only [Bool.not_true, Bool.false_eq_true, if_false]
            intro _
            have : calls.filter (fun x => !(x.hash == h)) = calls :=
              List.filter_eq_self.mpr (fun x hx => by simp [hnew x hx])
            rw [this]; simp
      · intro _
        obtain ⟨h1, h2⟩ := findSnap_some hf
        simp only [addCall]
        rw [if_neg (by
          simp only [List.any_eq_true, beq_iff_eq, not_exists, not_and]
          intro x hx; rw [h2]; exact hnew x hx)]
        simp [h2]
    have := ih _ (snapshotCall capture snaps answers calls i c).2.1
      (snapshotCall capture snaps answers calls i c).2.2
      (by rw [hcalls]; simpa using hnd) (fun e he => hv e (List.mem_cons_of_mem _ he))
    rw [this, hcalls]
    simp

end Verif.Lemmas
