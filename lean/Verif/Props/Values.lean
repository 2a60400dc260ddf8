import Mathlib.Logic.Relation
import Verif.Lemmas.Values
import Verif.Props.Cache

/-! # C127: the values of dependencies in parallel runs -/

namespace Verif.Props
open Verif.Py Verif.Model Verif.Spec Verif.Lemmas

variable {V : Type} {fl : Durations} {size : Nat} {st : Store V}

/-! ### C127 -/

/-- Calls of which the accesses are executed one after the other, while nothing else happens, are those
of sequential runs. -/
theorem C127_calls (w : DepWorld V) (st : Store V) (c : Cache V) (m : Meth) :
    (callTask w m).run c st = callTest w st c m := callTask_run w st c m

private theorem uses_dep {w : DepWorld V} (hd : w.Decorated) (hw : WellTyped w.suite) {ns : List Str}
    (hp : Declared w ns) {n b : Str} (hn : n ∈ ns) (hu : Uses w n b) :
    ∃ m ds d, getCase w.suite n = some m ∧ (w.suite.info m.fn).deps = some ds ∧ d ∈ ds ∧
      usedCase w.suite m d = some b ∧ caseByMethod w.suite (bindIfUnbound w.suite m d) = some b := by
  obtain ⟨m, ls, g, ds, d, hm, hl, hds, hdd, hb⟩ := hu
  have h1 := hp.once n hn m hm ls g hl
  have hls : ls = [ds] := by
    match ls, h1 with
    | [], _ => cases hds
    | [x], _ => rw [List.mem_singleton] at hds; rw [hds]
    | _ :: _ :: _, h => simp at h
  have hf := hp.found n hn m hm ls g hl ds hds d hdd (by rw [hb]; rfl)
  subst hls
  obtain ⟨b', hb'⟩ := Option.isSome_iff_exists.mp hf
  have hbb := C34_scheduled_used_partial hw hb'
  rw [hb] at hbb
  injection hbb with hbb
  subst hbb
  exact ⟨m, _, d, hm, (layers_info hd hl).1, mem_depMethods hdd, hb, hb'⟩

private theorem before_filter {l : List Str} {a b : Str} (keep : Str → Bool) (h : Before l a b)
    (ha : keep a = true) (hb : keep b = true) : Before (l.filter keep) a b := by
  obtain ⟨l1, l2, rfl, h1, h2⟩ := h
  refine ⟨l1.filter keep, l2.filter keep, ?_, ?_, ?_⟩
  · rw [List.filter_append, List.filter_cons, if_pos hb]
  · exact fun h => h1 (List.mem_filter.mp h).1
  · exact List.mem_filter.mpr ⟨h2, ha⟩

/-- What is used in the proofs below. -/
private theorem values_core {w : DepWorld V} (hd : w.Decorated) (hw : WellTyped w.suite)
    (body : Nat → List (Arg V) → Result × Option V) {sel run : List Str} {stored : Option (Str → Bool)}
    {fuel : Nat} (hs : selectedNames w.suite sel stored fuel = some run) (keep : Str → Bool)
    (hp : Declared w (run.filter keep)) {c : Cache V} (h1 : Holds c) (h2 : Sound c)
    (h3 : ∀ k, held c k = none) {st : Store V} {es : List (Entry V)}
    (h : runEntries w body c st (run.filter keep) = some es) (hret : Returning w (run.filter keep) es)
    {base : PConf fl} {size : Nat} (hsz : 0 < size) {s : VSt fl V}
    (hv : VReach (base.ofSuite w.suite (run.filter keep)) w body size st s) :
    es.map (·.name) = run.filter keep ∧
    (∀ e ∈ es, entryOf w body (knownValue st es) e.name = some e) ∧
    ValuesInv (base.ofSuite w.suite (run.filter keep)) w body size st (knownValue st es) s ∧
    ∀ n, s.job n ≠ .waiting → n ∈ run.filter keep := by
  have hnd : run.Nodup := (C31_selected hs).1
  have hnd' : (run.filter keep).Nodup := hnd.filter _
  have hmem : ∀ {n}, n ∈ run.filter keep → n ∈ run ∧ keep n = true := fun h => List.mem_filter.mp h
  have hord : ∀ n ∈ run.filter keep, ∀ b ∈ run.filter keep, Uses w n b →
      Before (run.filter keep) b n := by
    intro n hn b hb hu
    obtain ⟨m, ds, d, hm, hds, hdd, hub, hcb⟩ := uses_dep hd hw hp hn hu
    obtain ⟨b', hb', hor⟩ := C34_used_first_partial hw hs (hmem hn).1 hm hds hdd (by rw [hcb]; rfl)
    rw [hub] at hb'
    injection hb' with hb'
    subst hb'
    rcases hor with hor | ⟨hsel, hst⟩
    · exact before_filter keep hor (hmem hb).2 (hmem hn).2
    · rcases (selectedNames_spec hs).2.2 b (hmem hb).1 with h | h
      · rw [h.1] at hsel; cases hsel
      · exact absurd hst h.1
  obtain ⟨i1, i2⟩ := runEntries_final hd hnd' hord h1 h2 h3 hret h
  have hsched : ∀ n ∈ run.filter keep, ∀ b, Uses w n b →
      b ∈ (base.ofSuite w.suite (run.filter keep)).deps n ∨ b ∉ run.filter keep := by
    intro n hn b hu
    obtain ⟨m, ds, d, hm, hds, hdd, -, hcb⟩ := uses_dep hd hw hp hn hu
    left
    show b ∈ (match getCase w.suite n with
      | none => []
      | some m => methodDependencies w.suite m (run.filter keep) none)
    rw [hm]
    show b ∈ methodDependencies w.suite m (run.filter keep) none
    unfold methodDependencies
    rw [hds]
    refine List.mem_filterMap.mpr ⟨d, hdd, ?_⟩
    rw [hcb]
    exact if_pos (Bool.or_true _)
  have hi := values_inv (c := base.ofSuite w.suite (run.filter keep)) hnd' hd hsz i1 i2 hret hsched hv
  refine ⟨i1, i2, hi, fun n hn => ?_⟩
  exact (inv_reach (c := base.ofSuite w.suite (run.filter keep)) hnd'
    (meminv_reach hnd' hsz hi.reach).reach).sub n (hi.started n hn)

/-- **C127.** Whatever the order of the steps of the runner and of its workers, and whichever process
executes which test: every test of a parallel run is called with the same arguments and comes to the same
result and value as in a sequential run of the same tests.  When all have ended, the stored values are
the same, too.  The tests that are executed are those selected, perhaps without some (`-c`).  What is
missing: tests with several `depends_on`, dependencies that the scheduler does not find, and dependencies
that return `None` without failing (refuted below). -/
theorem C127_same_values_partial {w : DepWorld V} (hd : w.Decorated) (hw : WellTyped w.suite)
    (body : Nat → List (Arg V) → Result × Option V) {sel run : List Str} {stored : Option (Str → Bool)}
    {fuel : Nat} (hs : selectedNames w.suite sel stored fuel = some run) (keep : Str → Bool)
    (hp : Declared w (run.filter keep)) {c : Cache V} (h1 : Holds c) (h2 : Sound c)
    (h3 : ∀ k, held c k = none) {st : Store V} {es : List (Entry V)}
    (h : runEntries w body c st (run.filter keep) = some es) (hret : Returning w (run.filter keep) es)
    {base : PConf fl} {size : Nat} (hsz : 0 < size) {s : VSt fl V}
    (hv : VReach (base.ofSuite w.suite (run.filter keep)) w body size st s) :
    (∀ n e, s.job n = .ended e → e.name = n ∧ e ∈ es) ∧
    ((∀ n ∈ run.filter keep, ∃ e, s.job n = .ended e) → ∀ b, s.mem.store b = knownValue st es b) := by
  obtain ⟨i1, i2, hi, hsub⟩ := values_core hd hw body hs keep hp h1 h2 h3 h hret hsz hv
  refine ⟨fun n e he => ?_, fun hall b => ?_⟩
  · have hen := (hi.ended n e he).1
    refine ⟨entryOf_name hen, ?_⟩
    have hn := hsub n (by rw [he]; exact fun h => by cases h)
    rw [← i1] at hn
    obtain ⟨x, hx, hxn⟩ := List.mem_map.mp hn
    have := i2 x hx
    rw [hxn, hen] at this
    injection this with this
    rw [this]
    exact hx
  · refine store_final (c := base.ofSuite w.suite (run.filter keep)) ((C31_selected hs).1.filter _) hsz
      i1 i2 hi ?_
    by_cases hb : b ∈ run.filter keep
    · exact Or.inl (hall b hb)
    · exact Or.inr hb

private theorem job_ends {c : PConf fl} {w : DepWorld V} {body : Nat → List (Arg V) → Result × Option V}
    (n : Str) (p : Nat) (t : Calling V) (hh : ∀ s : VSt fl V, ∀ r, VReach c w body size st s →
      s.job n = .calling p (.done r) → (endCall body n r).isSome) (s : VSt fl V)
    (hr : VReach c w body size st s) (hj : s.job n = .calling p t) :
    ∃ t, Relation.ReflTransGen (VStep c w body) s t ∧ t.run = s.run ∧ (∃ e, t.job n = .ended e) ∧
      ∀ m, m ≠ n → t.job m = s.job m := by
  induction t generalizing s with
  | done r =>
    obtain ⟨e, he⟩ := Option.isSome_iff_exists.mp (hh s r hr hj)
    have st1 := VStep.called (c := c) (w := w) s n p r e hj he
    have hcase : endJob p e = .ended e ∨ endJob p e = .saving p e := by
      unfold endJob
      cases e.result <;> first | exact Or.inl rfl | exact Or.inr rfl
    rcases hcase with h | h
    · exact ⟨_, .single st1, rfl, ⟨e, (setJob_self _ _ _).trans h⟩, fun m hm => setJob_other _ _ hm⟩
    · have st2 := VStep.save (c := c) (w := w) (body := body)
        { s with job := setJob s.job n (endJob p e) } n p e ((setJob_self _ _ _).trans h)
      exact ⟨_, .tail (.single st1) st2, rfl, ⟨e, setJob_self _ _ _⟩,
        fun m hm => (setJob_other _ _ hm).trans (setJob_other _ _ hm)⟩
  | load key k ih =>
    have st1 := VStep.load (c := c) (w := w) (body := body) s n p key k hj
    obtain ⟨t, h1, h2, h3, h4⟩ := ih _ _ (hr.step st1) (setJob_self _ _ _)
    exact ⟨t, .head st1 h1, h2, h3, fun m hm => (h4 m hm).trans (setJob_other _ _ hm)⟩

/-- Every test that a worker has taken can be brought to its end, whatever the others do. -/
theorem C127_ends_partial {w : DepWorld V} (hd : w.Decorated) (hw : WellTyped w.suite)
    (body : Nat → List (Arg V) → Result × Option V) {sel run : List Str} {stored : Option (Str → Bool)}
    {fuel : Nat} (hs : selectedNames w.suite sel stored fuel = some run) (keep : Str → Bool)
    (hp : Declared w (run.filter keep)) {c : Cache V} (h1 : Holds c) (h2 : Sound c)
    (h3 : ∀ k, held c k = none) {st : Store V} {es : List (Entry V)}
    (h : runEntries w body c st (run.filter keep) = some es) (hret : Returning w (run.filter keep) es)
    {base : PConf fl} {size : Nat} (hsz : 0 < size) {s : VSt fl V}
    (hv : VReach (base.ofSuite w.suite (run.filter keep)) w body size st s) {n : Str}
    (hn : s.job n ≠ .waiting) :
    ∃ t, Relation.ReflTransGen (VStep (base.ofSuite w.suite (run.filter keep)) w body) s t ∧
      t.run = s.run ∧ (∃ e ∈ es, t.job n = .ended e) ∧ ∀ m, m ≠ n → t.job m = s.job m := by
  have key : ∀ t : VSt fl V, Relation.ReflTransGen (VStep (base.ofSuite w.suite (run.filter keep)) w body) s t →
      ∀ e, t.job n = .ended e → e ∈ es := by
    intro t hst e he
    have ht : VReach (base.ofSuite w.suite (run.filter keep)) w body size st t := by
      clear he
      induction hst with
      | refl => exact hv
      | tail _ h ih => exact ih.step h
    exact ((C127_same_values_partial hd hw body hs keep hp h1 h2 h3 h hret hsz ht).1 n e he).2
  cases hj : s.job n with
  | waiting => exact absurd hj hn
  | ended e => exact ⟨s, .refl, rfl, ⟨e, key s .refl e hj, hj⟩, fun _ _ => rfl⟩
  | saving p e =>
    have st2 := VStep.save (c := base.ofSuite w.suite (run.filter keep)) (w := w) (body := body) s n p e hj
    exact ⟨_, .single st2, rfl, ⟨e, key _ (.single st2) e (setJob_self _ _ _), setJob_self _ _ _⟩,
      fun m hm => setJob_other _ _ hm⟩
  | calling p t =>
    obtain ⟨t', g1, g2, ⟨e, he⟩, g4⟩ := job_ends (c := base.ofSuite w.suite (run.filter keep)) (w := w)
      (body := body) (size := size) (st := st) n p t (fun s r hr hj => by
        obtain ⟨i1, i2, hi, hsub⟩ := values_core hd hw body hs keep hp h1 h2 h3 h hret hsz hr
        have hn := hsub n (by rw [hj]; exact fun h => by cases h)
        rw [← i1] at hn
        obtain ⟨x, hx, hxn⟩ := List.mem_map.mp hn
        have h4 := i2 x hx
        rw [hxn, (hi.calling n p _ hj).2] at h4
        have h5 : endCall body n r = some x := h4
        rw [h5]
        rfl) s hv hj
    exact ⟨t', g1, g2, ⟨e, key t' g1 e he, he⟩, g4⟩

/-- Two functions: the first one is test `t/a`, and `t/b` is the second one, decorated as function 2 with
`depends_on` the first. -/
def couple : DepWorld Nat where
  suite :=
    { cases := [("t/a".toList, ⟨none, 0⟩), ("t/b".toList, ⟨none, 2⟩)]
      info := fun n => match n with
        | 2 => { orig := some ⟨none, 1⟩, deps := some [⟨none, 0⟩] }
        | _ => {}
      isInstance := fun _ _ => false }
  kind := fun n => match n with
    | 2 => .dependsOn [.method ⟨none, 0⟩] 1
    | _ => .plain
  isBook := fun _ => false

theorem couple_decorated : couple.Decorated where
  plain := by
    intro f h
    match f with
    | 0 | 1 => exact ⟨rfl, rfl, rfl⟩
    | 2 => cases h
    | n + 3 => exact ⟨rfl, rfl, rfl⟩
  dependsOn := by
    intro f ds g h
    match f with
    | 0 | 1 => cases h
    | 2 => cases h; exact ⟨by decide, rfl, rfl, rfl⟩
    | n + 3 => cases h
  around := by
    intro f g h
    match f with
    | 0 | 1 | 2 => cases h
    | n + 3 => cases h

theorem couple_typed : WellTyped couple.suite := by
  intro c hc o ho
  simp only [couple, List.mem_cons, List.not_mem_nil, or_false] at hc
  rcases hc with rfl | rfl
  · have h2 : (identity couple.suite ⟨none, 0⟩).1 = none := by decide
    cases h2.symm.trans ho
  · have h2 : (identity couple.suite ⟨none, 2⟩).1 = none := by decide
    cases h2.symm.trans ho

private theorem couple_layers {f g : Nat} {ls : List (List (Dep Nat))} (h : Layers couple f ls g) :
    ls = [] ∨ (f = 2 ∧ ls = [[.method ⟨none, 0⟩]]) := by
  cases h with
  | plain => exact Or.inl rfl
  | around hk =>
    match f with
    | 0 | 1 | 2 => cases hk
    | n + 3 => cases hk
  | dependsOn hk hl =>
    match f with
    | 0 | 1 => cases hk
    | n + 3 => cases hk
    | 2 =>
      cases hk
      cases hl with
      | plain => exact Or.inr ⟨rfl, rfl⟩
      | around hk => cases hk
      | dependsOn hk => cases hk

private theorem couple_cases {n : Str} {m : Meth} (h : getCase couple.suite n = some m) :
    m = ⟨none, 0⟩ ∨ m = ⟨none, 2⟩ := by
  unfold getCase at h
  obtain ⟨x, hx, rfl⟩ := Option.map_eq_some_iff.mp h
  have := List.mem_of_find?_eq_some hx
  simp only [couple, List.mem_cons, List.not_mem_nil, or_false] at this
  rcases this with rfl | rfl
  · exact Or.inl rfl
  · exact Or.inr rfl

private theorem couple_plain (run : List Str) : Declared couple run where
  once := by
    intro n _ m hm ls g hl
    rcases couple_layers hl with rfl | ⟨-, rfl⟩
    · exact Nat.zero_le _
    · exact Nat.le_refl _
  found := by
    intro n _ m hm ls g hl ds hds d hdd _
    rcases couple_layers hl with rfl | ⟨hf, rfl⟩
    · cases hds
    · rw [List.mem_singleton] at hds
      subst hds
      rw [List.mem_singleton] at hdd
      cases hdd
      rcases couple_cases hm with rfl | rfl
      · cases hf
      · decide

/-- `t/a` returns `v`, `t/b` passes. -/
def coupleBody (v : Option Nat) : Nat → List (Arg Nat) → Result × Option Nat
  | 0, _ => (.OK, v)
  | _, _ => (.OK, none)

/-- A parallel run of both tests. -/
def coupleConf : PConf strokes := fourTests.ofSuite couple.suite ["t/a".toList, "t/b".toList]

private theorem vreach_steps {c : PConf fl} {w : DepWorld V} {body : Nat → List (Arg V) → Result × Option V}
    {s : VSt fl V} {t : PSt fl} (h : VReach c w body size st s) (hs : PSteps c s.run t)
    (he : ∀ n ∈ t.ready, ∃ e, s.job n = .ended e) : VReach c w body size st { s with run := t } := by
  have hmono : ∀ {r t : PSt fl}, PSteps c r t → ∀ n ∈ r.ready, n ∈ t.ready := by
    intro r t hs
    induction hs with
    | refl => exact fun _ h => h
    | step h1 _ ih => exact fun n hn => ih n (ready_step h1 hn)
  have main : ∀ {r : PSt fl}, PSteps c r t → VReach c w body size st { s with run := r } →
      VReach c w body size st { s with run := t } := by
    intro r hs h
    clear * - hs h he hmono
    induction hs with
    | refl => exact h
    | step h1 h2 ih => exact ih he (h.step (.run _ _ h1 (fun n hn => Or.inr (he n (hmono h2 n hn)))))
  exact main hs h

/-- `t/a` is running. -/
private def coupleFirst : PSt strokes :=
  { PSt.init coupleConf with
    spc := .starting []
    scheduled := ["t/a".toList]
    reserved := []
    started := ["t/a".toList] }

private theorem couple_first : PSteps coupleConf (PSt.init coupleConf) coupleFirst :=
  .step (.planned _ ["t/a".toList, "t/b".toList] ["t/a".toList] rfl (by decide) rfl (by decide)
    (by decide)) (.step (.start _ "t/a".toList [] rfl (by decide)) (.refl _))

/-- When `t/a` has passed, `t/b` is started. -/
private theorem couple_second : ∃ t, PSteps coupleConf coupleFirst t ∧ "t/b".toList ∈ t.started ∧
    t.ready = ["t/a".toList] := by
  let a := "t/a".toList
  have hc : collectOne coupleConf a (some (encode (toText strokes [(a, .OK, (0 : Nat))]))) =
      some (a, .res .OK, (0 : Nat)) := by
    unfold collectOne
    dsimp only
    have hn : CleanName a := by unfold CleanName; decide
    rw [C23_round_trip _ _ _ (by
      intro r hr
      rw [List.mem_singleton] at hr
      subst hr
      exact hn)]
    rfl
  have main : ∀ b, b = some (encode (toText strokes [(a, .OK, (0 : Nat))])) →
      ∃ t, PSteps coupleConf coupleFirst t ∧ "t/b".toList ∈ t.started ∧ t.ready = ["t/a".toList] := by
    intro b hb
    refine ⟨_, .step (.startedAll _ rfl) (.step (.finish _ a b (by decide) (by decide)
      ⟨.OK, (0 : Nat), hb⟩) (.step (.again _ rfl rfl)
      (.step (.seeReady _ a [] [] rfl (by simp [coupleFirst, PSt.init])) (.step (.swept _ [a] rfl)
      (.step (.leave _ [a] rfl (Or.inl (by simp))) (.step (.collected _ [a] [a]
        [(a, .res .OK, (0 : Nat))] rfl (List.Perm.refl _) (by
          have e : (if batchName a = batchName a then b else none) = b := if_pos rfl
          show [a].mapM (fun m => collectOne coupleConf m
            (if batchName m = batchName a then b else none)) = _
          rw [List.mapM_cons, List.mapM_nil, e, hb, hc]
          rfl))
      (.step (.publish _ _ rfl) (.step (.planned _ ["t/b".toList] ["t/b".toList] rfl
        (show (1 : Nat) < 2 by decide) rfl
        (show ["t/b".toList].Perm (remaining coupleConf
          { PSt.init coupleConf with done := [a] }) by decide)
        (show ["t/b".toList].Perm (plan coupleConf [a] ["t/b".toList] []) by decide))
      (.step (.start _ "t/b".toList [] rfl
        (show "t/b".toList ∉ [a] ∧ "t/b".toList ∉ [] by decide)) (.refl _)))))))))), ?_, rfl⟩
    exact List.mem_append.mpr (Or.inr List.mem_cons_self)
  exact main _ rfl

/-- What `t/b` does with what is loaded for `t/a`. -/
private def coupleNext : Loaded Nat → Calling Nat
  | .value v => .done (.called 1 [.case, .value v])
  | .missing => .done .missing
  | .keyError => .done .keyError
  | .hangs => .done .hangs

private theorem couple_task : callTask couple ⟨none, 2⟩ = .load "t/a".toList coupleNext := by
  have h : caseByMethod couple.suite ⟨none, 0⟩ = some "t/a".toList := by decide
  change argsTask couple none [.method ⟨none, 0⟩] (fun
    | .ok vs => fnTask couple 1 1 (.case :: vs)
    | .error e => .done e) = _
  unfold argsTask depTask resultTask
  dsimp only
  rw [h]
  dsimp only
  congr 1
  funext r
  cases r <;> rfl

/-- Process 1 executes `t/a`, then process `p` loads its result for `t/b`. -/
private theorem couple_run (v : Option Nat) (p : Nat) : ∃ (s : VSt strokes Nat),
    VReach coupleConf couple (coupleBody v) 8 (fun _ => none) s ∧
    s.job "t/a".toList = .ended ⟨"t/a".toList, .called 0 [.case], .OK, v⟩ ∧
    s.job "t/b".toList = .calling p (coupleNext (loadResult
      (if p = 1 then (Cache.lru 8 []).set "t/a".toList v else .lru 8 [])
      (Store.set (fun _ => none) "t/a".toList v) "t/a".toList).1) := by
  have h0 : VReach coupleConf couple (coupleBody v) 8 (fun _ => none) _ := .init
  have h1 := vreach_steps h0 couple_first (fun n h => by cases h)
  have h2 := h1.step (.take _ "t/a".toList 1 (by decide) rfl (fun _ h => h))
  have hba : "t/b".toList ≠ "t/a".toList := by decide
  have h3 := h2.step (.called _ "t/a".toList 1 (.called 0 [.case])
    ⟨"t/a".toList, .called 0 [.case], .OK, v⟩ rfl rfl)
  have h4 := h3.step (.save _ "t/a".toList 1 ⟨"t/a".toList, .called 0 [.case], .OK, v⟩
    rfl)
  obtain ⟨t, g1, g2, g3⟩ := couple_second
  have h5 := vreach_steps h4 g1 (by
    rw [g3]
    intro n hn
    rw [List.mem_singleton] at hn
    subst hn
    exact ⟨⟨"t/a".toList, .called 0 [.case], .OK, v⟩, rfl⟩)
  have h6 := h5.step (.take _ "t/b".toList p g2
    rfl (by
      intro x hx
      dsimp only at hx
      by_cases hxa : x = "t/a".toList
      · subst hxa
        rw [setJob_self] at hx
        exact hx
      · rw [setJob_other _ _ hxa, setJob_other _ _ hxa, setJob_other _ _ hxa] at hx
        exact hx))
  have e : startJob couple p "t/b".toList = .calling p (.load "t/a".toList coupleNext) := by
    rw [← couple_task]
    rfl
  have h7 := h6.step (.load _ "t/b".toList p "t/a".toList coupleNext
    (by dsimp only; rw [setJob_self]; exact e))
  refine ⟨_, h7, ?_, ?_⟩
  · rfl
  · dsimp only
    rw [setJob_self]
    rfl

private theorem couple_uses {n b : Str} (h : Uses couple n b) : b = "t/a".toList := by
  obtain ⟨m, ls, g, ds, d, hm, hl, hds, hdd, hb⟩ := h
  rcases couple_layers hl with rfl | ⟨hf, rfl⟩
  · cases hds
  · rw [List.mem_singleton] at hds
    subst hds
    rw [List.mem_singleton] at hdd
    cases hdd
    rcases couple_cases hm with rfl | rfl
    · cases hf
    · have : usedCase couple.suite ⟨none, 2⟩ ⟨none, 0⟩ = some "t/a".toList := by decide
      rw [this] at hb
      injection hb with hb
      exact hb.symm

/-- A parallel run in which `t/b` is executed by another process than `t/a`. -/
example : ∃ run es, selectedNames couple.suite ["*".toList] none 10 = some run ∧
    Declared couple (run.filter (fun _ => true)) ∧
    runEntries couple (coupleBody (some 5)) (.dict []) (fun _ => none) (run.filter (fun _ => true)) =
      some es ∧ Returning couple (run.filter (fun _ => true)) es ∧
    ∃ s, VReach (fourTests.ofSuite couple.suite (run.filter (fun _ => true))) couple (coupleBody (some 5))
        8 (fun _ => none) s ∧
      s.job "t/b".toList = .calling 0 (.done (.called 1 [.case, .value (some 5)])) := by
  refine ⟨["t/a".toList, "t/b".toList], [⟨"t/a".toList, .called 0 [.case], .OK, some 5⟩,
    ⟨"t/b".toList, .called 1 [.case, .value (some 5)], .OK, none⟩], by decide, couple_plain _, rfl, ?_, ?_⟩
  · intro e he _ hv n _ hu
    simp only [List.mem_cons, List.not_mem_nil, or_false] at he
    rcases he with rfl | rfl
    · cases hv
    · exact absurd (couple_uses hu) (by decide)
  · obtain ⟨s, h1, -, h2⟩ := couple_run (some 5) 0
    exact ⟨s, h1, h2⟩

/-- **C127 does not hold for dependencies that return `None`.** A test that depends on one without a
value passes in a sequential run, and in a parallel run if the same process executes both; if another
process does, it fails because its dependency is missing. -/
theorem C127_none_refuted : couple.Decorated ∧ WellTyped couple.suite ∧
    selectedNames couple.suite ["*".toList] none 10 = some ["t/a".toList, "t/b".toList] ∧
    Declared couple ["t/a".toList, "t/b".toList] ∧
    (runEntries couple (coupleBody none) (.lru 8 []) (fun _ => none)
      ["t/a".toList, "t/b".toList]).map (·.map (fun e => (e.name, e.result))) =
      some [("t/a".toList, .OK), ("t/b".toList, .OK)] ∧
    (∃ s e, VReach coupleConf couple (coupleBody none) 8 (fun _ => none) s ∧
      s.job "t/b".toList = .ended e ∧ e.result = .OK) ∧
    ∃ s e, VReach coupleConf couple (coupleBody none) 8 (fun _ => none) s ∧
      s.job "t/b".toList = .ended e ∧ e.result = .FAIL := by
  refine ⟨couple_decorated, couple_typed, by decide, couple_plain _, by decide, ?_, ?_⟩
  · obtain ⟨s, h1, -, h2⟩ := couple_run none 1
    have h3 := h1.step (.called s "t/b".toList 1 (.called 1 [.case, .value none])
      ⟨"t/b".toList, .called 1 [.case, .value none], .OK, none⟩ h2 rfl)
    have h4 := h3.step (.save _ "t/b".toList 1 ⟨"t/b".toList, .called 1 [.case, .value none], .OK, none⟩
      rfl)
    exact ⟨_, ⟨"t/b".toList, .called 1 [.case, .value none], .OK, none⟩, h4, rfl, rfl⟩
  · obtain ⟨s, h1, -, h2⟩ := couple_run none 0
    have h3 := h1.step (.called s "t/b".toList 0 .missing ⟨"t/b".toList, .missing, .FAIL, none⟩ h2 rfl)
    exact ⟨_, ⟨"t/b".toList, .missing, .FAIL, none⟩, h3, rfl, rfl⟩

end Verif.Props
