import Verif.Props.ReviewWorkers
import Verif.Props.Asking
import Verif.Props.Passing

/-! # C139: after a review with exit status 0 the tests pass -/

namespace Verif.Props
open Verif.Py Verif.Model Verif.Spec Verif.Lemmas

variable {fl : Durations} {P : Project} {cfg : Config} {ns selected : List Str} {fs : FS}

private theorem fine_ok {n : Str} {t : Option Str} (h : resultOf P t n = some .OK) : Fine P n t := by
  intro cfg hu
  unfold resultOf at h
  obtain ⟨s, h1, h2⟩ := Option.map_eq_some_iff.mp h
  unfold caseSpec
  rw [h1]
  dsimp only
  rw [h2, if_neg]
  rintro (h | h)
  · rw [hu] at h; cases h.2
  · cases h.1

theorem fine_passes {n : Str} {t : Option Str} (h : Fine P n t) :
    ∃ s, runTest (P.env t) (P.tests n).body = some s ∧ verdict (P.env t) s = .OK := by
  have h := h {} rfl
  unfold caseSpec at h
  cases hs : runTest (P.env t) (P.tests n).body with
  | none => rw [hs] at h; cases h
  | some s =>
    rw [hs] at h
    dsimp only at h
    rw [if_neg (by rintro (⟨-, h⟩ | ⟨-, h⟩) <;> cases h)] at h
    injection h with h _
    injection h with h
    exact ⟨s, rfl, h⟩

/-- Every test that is reached is `OK` or has been accepted, and the others are `OK`. -/
private theorem fine_rest : ∀ (todo : List Str) (snaps : Str → Option Str) (lines : List Str) (d : Dialogue), todo.Nodup →
    (∀ n ∈ todo, RepeatableTest P.u (P.tests n).body) → dialogue P cfg todo snaps lines = some d →
    (∀ x ∈ d.ends, x.2 = .OK) → (∀ n ∈ todo.drop d.ends.length, resultOf P (snaps n) n = some .OK) →
    (∀ n ∈ todo, Fine P n (d.snaps n)) ∧ ∀ n, n ∉ todo → d.snaps n = snaps n := by
  intro todo
  induction todo with
  | nil =>
    intro snaps lines d _ _ hd _ _
    cases hd
    exact ⟨fun n hn => absurd hn (by simp), fun n _ => rfl⟩
  | cons n todo ih =>
    intro snaps lines d hnd hr hd hok hrest
    obtain ⟨hn1, hn2⟩ := List.nodup_cons.mp hnd
    unfold dialogue at hd
    cases hc : caseAsked P cfg n (snaps n) lines with
    | none => rw [hc] at hd; cases hd
    | some z =>
      obtain ⟨⟨r, q⟩, t, rest⟩ := z
      rw [hc] at hd
      dsimp only at hd
      split at hd
      · cases hd
        have hr1 : r = .OK := hok (n, r) (by simp)
        subst hr1
        refine ⟨fun m hm => ?_, fun m hm => ?_⟩
        · show Fine P m (putSnap snaps n t m)
          rcases List.mem_cons.mp hm with rfl | hm
          · rw [putSnap, if_pos rfl]
            exact fine_case (hr m (by simp)) hc
          · have hne : m ≠ n := fun e => hn1 (e ▸ hm)
            rw [putSnap, if_neg hne]
            exact fine_ok (hrest m hm)
        · rw [List.mem_cons, not_or] at hm
          show putSnap snaps n t m = _
          rw [putSnap, if_neg hm.1]
      · cases hd' : dialogue P cfg todo (putSnap snaps n t) rest with
        | none => rw [hd'] at hd; cases hd
        | some d' =>
          rw [hd'] at hd
          cases hd
          have hr1 : r = .OK := hok (n, r) (by simp)
          subst hr1
          obtain ⟨k1, k2⟩ := ih _ _ d' hn2 (fun m hm => hr m (by simp [hm])) hd' (fun x hx => hok x (by simp [hx])) (by
            intro m hm
            have hne : m ≠ n := fun e => hn1 (e ▸ List.mem_of_mem_drop hm)
            rw [putSnap, if_neg hne]
            exact hrest m hm)
          refine ⟨?_, ?_⟩
          · intro m hm
            rcases List.mem_cons.mp hm with rfl | hm
            · show Fine P m (d'.snaps m)
              rw [k2 m hn1, putSnap, if_pos rfl]
              exact fine_case (hr m (by simp)) hc
            · exact k1 m hm
          · intro m hm
            rw [List.mem_cons, not_or] at hm
            show d'.snaps m = _
            rw [k2 m hm.2, putSnap, if_neg hm.1]

private theorem sound_sub {root : Path} {ms : List Str} (h : ∀ n ∈ ms, n ∈ ns) (hS : SoundTree root ns fs) : SoundTree root ms fs :=
  ⟨hS.wf, hS.cwd, fun n hn => hS.ways n (h n hn), fun n hn => hS.files n (h n hn), fun n hn => hS.dirs n (h n hn), hS.index, hS.base⟩

private theorem plain_sub {ms : List Str} (h : ∀ n ∈ ms, n ∈ ns) (hp : PlainNames ns) : PlainNames ms :=
  ⟨fun n hn => hp.1 n (h n hn), fun a ha b hb => hp.2 a (h a ha) b (h b hb)⟩

private theorem pass_after {names : List Str} (hp : PlainNames ns) (hcl : ∀ n ∈ ns, CleanName n) (hnd : names.Nodup)
    (hsub : ∀ n ∈ names, n ∈ ns) (hr : ∀ n ∈ names, RepeatableTest P.u (P.tests n).body) {snaps : Str → Option Str}
    {lines : List Str} {d : Dialogue} (hd : dialogue P cfg names snaps lines = some d) (hok : ∀ x ∈ d.ends, x.2 = .OK)
    (hrest : ∀ n ∈ names.drop d.ends.length, resultOf P (snaps n) n = some .OK) (hS : SoundTree P.root ns fs)
    (hsn : ∀ m ∈ ns, snapshot P.root fs m = d.snaps m) {report : Option Bytes} {old : List (Rec fl)}
    (hrep : ofFile P.u fl report = some old) (all : List Str) (runs : List (Rerun fl))
    (hx : ∀ x ∈ runs, NotAsking x.cfg ∧ x.cfg.update = false ∧ x.selected.Nodup ∧ ∀ n ∈ x.selected, n ∈ names) :
    PassOn P names all runs fs report := by
  obtain ⟨k1, -⟩ := fine_rest names snaps lines d hnd hr hd hok hrest
  refine passes_on (plain_sub hsub hp) (fun n hn => hcl n (hsub n hn)) runs _ _ _ (sound_sub hsub hS) hrep ?_
  intro x hm
  obtain ⟨h1, h2, h3, h4⟩ := hx x hm
  refine ⟨h1, h3, h4, fun n hn => ?_⟩
  rw [hsn n (hsub n hn)]
  exact k1 n hn x.cfg h2

/-- **C139**: if a review returns 0, then all further runs without questions of the recorded tests that were selected, or of
some of them, end with success and change no snapshot, whatever the user has answered: also if the user has left the review
before its end. The tests have to be repeatable (see C08). -/
theorem C139_review_partial (hcont : cfg.cont = false) (hp : PlainNames ns) (hcl : ∀ n ∈ ns, CleanName n)
    (hS : SoundTree P.root ns fs) (records : List (Rec fl))
    (hnd : ((records.filter (fun x => selected.contains x.1)).map (·.1)).Nodup)
    (hsub : ∀ x ∈ records, x.1 ∈ selected → x.1 ∈ ns)
    (hr : ∀ x ∈ records, x.1 ∈ selected → RepeatableTest P.u (P.tests x.1).body)
    (hout : ∀ x ∈ records, x.1 ∈ selected → ∃ s,
      runTest (P.env (snapshot P.root fs x.1)) (P.tests x.1).body = some s ∧
      x.2.1 = verdict (P.env (snapshot P.root fs x.1)) s ∧ Waits P.root x.1 s.out fs)
    (lines : List Str) {fs' : FS} {reviewed : List (Rec fl)} {log : List Reviewed}
    (hrev : review fl cfg P.root P.out none (some selected) records lines fs = (fs', some (reviewed, 0), log))
    {report : Option Bytes} {old : List (Rec fl)} (hrep : ofFile P.u fl report = some old) (all : List Str)
    (runs : List (Rerun fl)) (hx : ∀ x ∈ runs, NotAsking x.cfg ∧ x.cfg.update = false ∧ x.selected.Nodup ∧
      ∀ n ∈ x.selected, n ∈ (records.filter (fun x => selected.contains x.1)).map (·.1)) :
    PassOn P ((records.filter (fun x => selected.contains x.1)).map (·.1)) all runs fs' report := by
  have hmem : ∀ n ∈ (records.filter (fun x => selected.contains x.1)).map (·.1), ∃ x ∈ records, x.1 ∈ selected ∧ x.1 = n := by
    intro n hn
    obtain ⟨x, hx, rfl⟩ := List.mem_map.mp hn
    obtain ⟨h1, h2⟩ := List.mem_filter.mp hx
    exact ⟨x, h1, by simpa using h2, rfl⟩
  cases hd : dialogue P cfg ((records.filter (fun x => selected.contains x.1)).map (·.1)) (snapshot P.root fs) lines with
  | none =>
    have := C138_no_answer (fl := fl) hcont hp hS records hnd hsub hout lines hd
    rw [hrev] at this
    cases this
  | some d =>
    obtain ⟨g, rs, code, log', k1, k2, -, k4, -, k6, k7⟩ := C138_review (fl := fl) hcont hp hS records hnd hsub hout lines hd
    rw [hrev] at k1
    injection k1 with e1 k1
    injection k1 with k1 _
    injection k1 with k1
    injection k1 with e2 e3
    subst e1 e2
    have hall := k6.mp e3.symm
    have hboth : ∀ y ∈ d.ends ++ ((records.filter (fun x => selected.contains x.1)).drop d.ends.length).map key, y.2 = .OK := by
      rw [← k4]
      intro y hy
      obtain ⟨x, hx, rfl⟩ := List.mem_map.mp hy
      exact hall x (List.mem_filter.mp hx).1
    refine pass_after hp hcl hnd (fun n hn => ?_) (fun n hn => ?_) hd (fun x hx => hboth x (by simp [hx])) (fun n hn => ?_) k7 k2
      hrep all runs hx
    · obtain ⟨x, h1, h2, rfl⟩ := hmem n hn
      exact hsub x h1 h2
    · obtain ⟨x, h1, h2, rfl⟩ := hmem n hn
      exact hr x h1 h2
    · rw [← List.map_drop] at hn
      obtain ⟨x, h1, rfl⟩ := List.mem_map.mp hn
      obtain ⟨h2, h3⟩ := List.mem_filter.mp (List.mem_of_mem_drop h1)
      obtain ⟨s, a1, a2, -⟩ := hout x h2 (by simpa using h3)
      have a3 : x.2.1 = .OK := hboth (key x) (List.mem_append_right _ (List.mem_map_of_mem h1))
      unfold resultOf
      rw [a1, Option.map_some, ← a2, a3]

/-- **C139**: `booktest -p TESTS` without questions and then `booktest -w TESTS`: if the second command exits with 0, then
all further runs without questions of these tests end with success and change no snapshot. -/
theorem C139_workers_partial (S : Site) (w : World) (args : List Str) (later : Command fl) (dur : Str → fl.D) (zero : fl.D)
    (breaks : Str → Bool → Prop) (uses uses' : List (Str × CVal)) (cases : Option (List Str))
    (hr : Reads S.N (testChoices S.names) args uses cases) (hr' : Reads S.N (testChoices S.names) later.args uses' cases)
    (hn' : AsksFor uses' "--review".toList) (hc' : ¬ On S.P.u w.settings uses' "continue".toList)
    (hplain : ∀ key ∈ ["interactive".toList, "always_interactive".toList, "update".toList, "accept".toList,
      "fail_fast".toList, "continue".toList], ¬ On S.P.u w.settings uses key)
    (hset : ReadableSettings S.P.u w.settings) (hdef : cases = none → ReadableDefaults S.P.u w.settings)
    (hd : ∀ c ∈ S.suite.cases, (S.suite.info c.2.fn).deps = none) (hf : 0 < S.fuel)
    (hp : PlainNames S.names) (hcl : ∀ n ∈ S.names, CleanName n)
    (hbatch : ∀ a ∈ S.names, ∀ b ∈ S.names, batchName a = batchName b → a = b)
    (ht : SoundTree S.P.root S.names w.fs) (hb : ∀ n b, ¬ breaks n b)
    (hends : ∀ n ∈ S.names, resultOf S.P (snapshot S.P.root w.fs n) n ≠ none)
    (hrt : ∀ n ∈ S.names, RepeatableTest S.P.u (S.P.tests n).body)
    {c : RConf fl} {old : List (Rec fl)} (hrun : workersRun S args dur zero breaks w = some (c, old)) (ans : List Str)
    (σ : Nat → RSt fl) (hσ : FairRun c (mkdirs w.fs S.P.out) ans σ) (i : Nat) (x : Bool) (hi : (σ i).run.rpc = .ended x) :
    let r := booktest S later.args later.answers later.dur (workersEnd w c old (σ i)).world
    r.status.code = some 0 →
    ∃ selection selected, Selection S.P.u w.settings cases selection ∧
      selectedNames S.suite selection none S.fuel = some selected ∧ AllPass fl S r.world selected ∧
      r.world.settings = w.settings ∧
      ∀ (all : List Str) (runs : List (Rerun fl)), (∀ x ∈ runs, NotAsking x.cfg ∧ x.cfg.update = false ∧ x.selected.Nodup ∧
        ∀ n ∈ x.selected, n ∈ selected) → PassOn S.P selected all runs r.world.fs r.world.report := by
  intro r hcode
  obtain ⟨cfg, selection, selected, records, names, -, k2, k3, -, k5, k6, -, -, k7, k8⟩ := C138_workers S w args later dur zero breaks uses uses'
    cases hr hr' hn' hc' hplain hset hdef hd hf hp hcl hbatch ht hb hends hrun ans σ hσ i x hi
  obtain ⟨run, s1, s2, s3⟩ := select_free hd selection none none hf
  rw [k3] at s2
  cases s2
  refine ⟨selection, selected, k2, k3, ?_⟩
  cases hdl : dialogue S.P cfg names (snapshot S.P.root w.fs) later.answers with
  | none =>
    have := k7 hdl
    have hcode' : r.status.code = some 0 := hcode
    have this : r.status = .raises := this
    rw [this] at hcode'
    exact absurd hcode' (by decide)
  | some d =>
    obtain ⟨q1, reviewed, q2, -, q4, -, q6, q7, q8⟩ := k8 d hdl
    have hall := q6.mp hcode
    have hboth : ∀ y ∈ d.ends ++ (names.drop d.ends.length).filterMap
        (fun n => (resultOf S.P (snapshot S.P.root w.fs n) n).map (n, ·)), y.2 = .OK := by
      rw [← q4]
      intro y hy
      obtain ⟨x, hx, rfl⟩ := List.mem_map.mp hy
      exact hall x (List.mem_filter.mp hx).1
    have hsub : ∀ n ∈ names, n ∈ S.names := fun n hn => s3.2 n (k6.mem_iff.mp hn)
    have hrest : ∀ n ∈ names.drop d.ends.length, resultOf S.P (snapshot S.P.root w.fs n) n = some .OK := by
      intro n hn
      cases ho : resultOf S.P (snapshot S.P.root w.fs n) n with
      | none => exact absurd ho (hends n (hsub n (List.mem_of_mem_drop hn)))
      | some v =>
        have := hboth (n, v) (List.mem_append_right _ (List.mem_filterMap.mpr ⟨n, hn, by rw [ho]; rfl⟩))
        exact congrArg some this
    refine ⟨⟨s3.2, q7, ⟨_, q2⟩, fun n hn => ?_⟩, q8, fun all runs hx => ?_⟩
    · have hfine := (fine_rest names _ _ d (k6.nodup_iff.mpr s3.1) (fun n hn => hrt n (hsub n hn)) hdl
        (fun x hx => hboth x (by simp [hx])) hrest).1 n (k6.mem_iff.mpr hn)
      have := q1 n (s3.2 n hn)
      unfold Passes
      rw [show snapshot S.P.root r.world.fs n = d.snaps n from this]
      exact fine_passes hfine
    have hpass : PassOn S.P names all runs r.world.fs r.world.report := by
      refine pass_after hp hcl (k6.nodup_iff.mpr s3.1) hsub (fun n hn => hrt n (hsub n hn)) hdl (fun x hx => hboth x (by simp [hx]))
        hrest q7 q1 q2 all runs (fun x hm => ?_)
      · obtain ⟨a1, a2, a3, a4⟩ := hx x hm
        exact ⟨a1, a2, a3, fun n hn => k6.mem_iff.mpr (a4 n hn)⟩
    clear hx
    generalize r.world.fs = g at hpass
    generalize r.world.report = rep at hpass
    induction runs generalizing g rep with
    | nil => trivial
    | cons y ys ih =>
      obtain ⟨b1, b2, b3⟩ := hpass
      exact ⟨b1, fun n hn => b2 n (k6.mem_iff.mpr hn), ih _ _ b3⟩

/-- **C139**: the same at the level of commands: `booktest -p TESTS`, `booktest -w TESTS` that exits with 0, any number of
commands that run some of these tests, with or without workers, and one more: it exits with 0, and no snapshot has changed. -/
theorem C139_forever_partial (S : Site) (w : World) (args : List Str) (later : Command fl) (dur : Str → fl.D) (zero : fl.D)
    (breaks : Str → Bool → Prop) (uses uses' : List (Str × CVal)) (cases : Option (List Str))
    (hr : Reads S.N (testChoices S.names) args uses cases) (hr' : Reads S.N (testChoices S.names) later.args uses' cases)
    (hn' : AsksFor uses' "--review".toList) (hc' : ¬ On S.P.u w.settings uses' "continue".toList)
    (hplain : ∀ key ∈ ["interactive".toList, "always_interactive".toList, "update".toList, "accept".toList,
      "fail_fast".toList, "continue".toList], ¬ On S.P.u w.settings uses key)
    (hset : ReadableSettings S.P.u w.settings) (hdef : cases = none → ReadableDefaults S.P.u w.settings)
    (hd : ∀ c ∈ S.suite.cases, (S.suite.info c.2.fn).deps = none) (hf : 0 < S.fuel)
    (hp : PlainNames S.names) (hcl : ∀ n ∈ S.names, CleanName n)
    (hbatch : ∀ a ∈ S.names, ∀ b ∈ S.names, batchName a = batchName b → a = b)
    (ht : SoundTree S.P.root S.names w.fs) (hb : ∀ n b, ¬ breaks n b)
    (hends : ∀ n ∈ S.names, resultOf S.P (snapshot S.P.root w.fs n) n ≠ none)
    (hrt : ∀ n ∈ S.names, RepeatableTest S.P.u (S.P.tests n).body)
    {c : RConf fl} {old : List (Rec fl)} (hrun : workersRun S args dur zero breaks w = some (c, old)) (ans : List Str)
    (σ : Nat → RSt fl) (hσ : FairRun c (mkdirs w.fs S.P.out) ans σ) (i : Nat) (x : Bool) (hi : (σ i).run.rpc = .ended x) :
    let r := booktest S later.args later.answers later.dur (workersEnd w c old (σ i)).world
    r.status.code = some 0 →
    ∃ selection selected, Selection S.P.u w.settings cases selection ∧
      selectedNames S.suite selection none S.fuel = some selected ∧
      ∀ w', Checked fl S selected r.world w' →
        (∀ n ∈ S.names, snapshot S.P.root w'.fs n = snapshot S.P.root r.world.fs n) ∧
        ∀ args uses cases, Reads S.N (testChoices S.names) args uses cases → Checks S w' uses cases selected →
          ∀ e, Does fl S args w' e → e.status = .ends (some 0) := by
  intro r hcode
  obtain ⟨selection, selected, k1, k2, k3, -, -⟩ := C139_workers_partial S w args later dur zero breaks uses uses' cases hr hr' hn' hc'
    hplain hset hdef hd hf hp hcl hbatch ht hb hends hrt hrun ans σ hσ i x hi hcode
  exact ⟨selection, selected, k1, k2, fun w' h => (C126_forever S _ selected k3 hp hcl hbatch w' h).2⟩

private theorem dialogue_accepts (hacc : cfg.accept = true) (hq : NotAsking cfg) : ∀ (todo : List Str) (snaps : Str → Option Str)
    (lines : List Str), todo.Nodup → (∀ n ∈ todo, resultOf P (snaps n) n = some .OK ∨ resultOf P (snaps n) n = some .DIFF) →
    ∃ d, dialogue P cfg todo snaps lines = some d ∧ d.ends = todo.map (·, .OK) := by
  intro todo
  induction todo with
  | nil => exact fun snaps lines _ _ => ⟨_, rfl, rfl⟩
  | cons n todo ih =>
    intro snaps lines hnd hres
    obtain ⟨hn1, hn2⟩ := List.nodup_cons.mp hnd
    have hna : ∀ v, ¬ IsAsked cfg v := by
      intro v h
      unfold IsAsked at h
      rw [hq.1, hq.2] at h
      rcases h with h | ⟨-, h⟩ <;> cases h
    have hc : ∃ t, caseAsked P cfg n (snaps n) lines = some ((.OK, .NONE), t, lines) := by
      have h1 := hres n (by simp)
      unfold resultOf at h1
      unfold caseAsked
      cases ht : runTest (P.env (snaps n)) (P.tests n).body with
      | none => rw [ht] at h1; rcases h1 with h | h <;> cases h
      | some s =>
        rw [ht] at h1
        dsimp only
        rw [if_neg (hna _)]
        dsimp only
        by_cases hx : Request.NONE = .FREEZE ∨ AutoAccepted cfg (verdict (P.env (snaps n)) s)
        · rw [if_pos hx]
          exact ⟨_, rfl⟩
        · rw [if_neg hx]
          rcases h1 with h | h
          · injection h with h
            rw [h]
            exact ⟨_, rfl⟩
          · injection h with h
            exact absurd (Or.inr (Or.inr ⟨h, hacc⟩)) hx
    obtain ⟨t, hc⟩ := hc
    obtain ⟨d, k1, k2⟩ := ih (putSnap snaps n t) lines hn2 (by
      intro m hm
      have hne : m ≠ n := fun e => hn1 (e ▸ hm)
      rw [putSnap, if_neg hne]
      exact hres m (by simp [hm]))
    unfold dialogue
    rw [hc]
    dsimp only
    rw [if_neg (by rintro (h | h); cases h; exact h.2 rfl), k1]
    exact ⟨_, rfl, by rw [List.map_cons, ← k2]⟩

/-- **C139**: `booktest -p TESTS` and then `booktest -w -a TESTS` exits with 0 if no test fails and the records of other tests
are OK. -/
theorem C139_accept_all (S : Site) (w : World) (args : List Str) (later : Command fl) (dur : Str → fl.D) (zero : fl.D)
    (breaks : Str → Bool → Prop) (uses uses' : List (Str × CVal)) (cases : Option (List Str))
    (hr : Reads S.N (testChoices S.names) args uses cases) (hr' : Reads S.N (testChoices S.names) later.args uses' cases)
    (hn' : AsksFor uses' "--review".toList)
    (hoff : ∀ key ∈ ["continue".toList, "interactive".toList, "always_interactive".toList], ¬ On S.P.u w.settings uses' key)
    (hon : On S.P.u w.settings uses' "accept".toList)
    (hplain : ∀ key ∈ ["interactive".toList, "always_interactive".toList, "update".toList, "accept".toList,
      "fail_fast".toList, "continue".toList], ¬ On S.P.u w.settings uses key)
    (hset : ReadableSettings S.P.u w.settings) (hdef : cases = none → ReadableDefaults S.P.u w.settings)
    (hd : ∀ c ∈ S.suite.cases, (S.suite.info c.2.fn).deps = none) (hf : 0 < S.fuel)
    (hp : PlainNames S.names) (hcl : ∀ n ∈ S.names, CleanName n)
    (hbatch : ∀ a ∈ S.names, ∀ b ∈ S.names, batchName a = batchName b → a = b)
    (ht : SoundTree S.P.root S.names w.fs) (hb : ∀ n b, ¬ breaks n b)
    (hres : ∀ n ∈ S.names, resultOf S.P (snapshot S.P.root w.fs n) n = some .OK ∨
      resultOf S.P (snapshot S.P.root w.fs n) n = some .DIFF)
    (hold : ∀ selection selected, ∀ old : List (Rec fl), Selection S.P.u w.settings cases selection →
      selectedNames S.suite selection none S.fuel = some selected → ofFile S.P.u fl w.report = some old →
      ∀ x ∈ old, x.1 ∈ selected ∨ x.2.1 = .OK)
    {c : RConf fl} {old : List (Rec fl)} (hrun : workersRun S args dur zero breaks w = some (c, old)) (ans : List Str)
    (σ : Nat → RSt fl) (hσ : FairRun c (mkdirs w.fs S.P.out) ans σ) (i : Nat) (x : Bool) (hi : (σ i).run.rpc = .ended x) :
    (booktest S later.args later.answers later.dur (workersEnd w c old (σ i)).world).status.code = some 0 := by
  have hends : ∀ n ∈ S.names, resultOf S.P (snapshot S.P.root w.fs n) n ≠ none := by
    intro n hn h
    rcases hres n hn with h' | h' <;> (rw [h] at h'; cases h')
  obtain ⟨cfg, selection, selected, records, names, k1, k2, k3, -, k5, k6, k9, k10, -, k8⟩ := C138_workers S w args later dur zero
    breaks uses uses' cases hr hr' hn' (hoff _ (by simp)) hplain hset hdef hd hf hp hcl hbatch ht hb hends hrun ans σ hσ i x hi
  obtain ⟨run, s1, s2, s3⟩ := select_free hd selection none none hf
  rw [k3] at s2
  cases s2
  have fals : ∀ {b : Bool} {p : Prop}, (b = true ↔ p) → ¬ p → b = false := by
    intro b p h1 h2
    rw [← Bool.not_eq_true, h1]
    exact h2
  have hsub : ∀ n ∈ names, n ∈ S.names := fun n hn => s3.2 n (k6.mem_iff.mp hn)
  obtain ⟨d, d1, d2⟩ := dialogue_accepts (P := S.P) (k1.accept.mpr hon) ⟨fals k1.alwaysInteractive (hoff _ (by simp)),
    fals k1.interactive (hoff _ (by simp))⟩ names (snapshot S.P.root w.fs) later.answers (k6.nodup_iff.mpr s3.1)
    (fun n hn => hres n (hsub n hn))
  obtain ⟨-, reviewed, -, -, q4, q5, q6, -, -⟩ := k8 d d1
  rw [q6]
  intro y hy
  by_cases hys : selected.contains y.1 = true
  · have : key y ∈ (reviewed.filter (fun x => selected.contains x.1)).map key :=
      List.mem_map_of_mem (List.mem_filter.mpr ⟨hy, hys⟩)
    rw [q4, d2, List.drop_eq_nil_of_le (by simp), List.filterMap_nil, List.append_nil] at this
    obtain ⟨m, -, em⟩ := List.mem_map.mp this
    exact (congrArg (Prod.snd (α := Str)) em).symm
  · have h1 : y ∈ reviewed.filter (fun x => !selected.contains x.1) := List.mem_filter.mpr ⟨hy, by simpa using hys⟩
    rw [q5] at h1
    have h2 := k10.mem_iff.mp (List.mem_map_of_mem (f := key) h1)
    obtain ⟨z, hz, ez⟩ := List.mem_map.mp h2
    obtain ⟨hz1, hz2⟩ := List.mem_filter.mp hz
    have e1 : z.1 = y.1 := congrArg (Prod.fst (β := Result)) ez
    have e2 : z.2.1 = y.2.1 := congrArg (Prod.snd (α := Str)) ez
    rw [← e2]
    rcases hold selection selected old k2 k3 k9 z hz1 with h | h
    · exact absurd h (by simpa using hz2)
    · exact h

/-! ### A case that meets the hypotheses -/

private def greets (x : String) : TestFn := ⟨⟨[.header "# t".toList, .tln x.toList], none⟩, [], [], none⟩

/-- A new project with three tests. -/
private def three : Site where
  N := ⟨fun _ => none, fun _ => false⟩
  P := ⟨ascii, false, some, ["books".toList], fun n => if n = "test/a".toList then greets "a" else greets "b"⟩
  suite := { cases := [("test/a".toList, ⟨none, 0⟩), ("test/b".toList, ⟨none, 1⟩), ("test/c".toList, ⟨none, 2⟩)]
             info := fun _ => {}
             isInstance := fun _ _ => false }
  fuel := 10
  cpuCount := 4
  viewer := fun _ => 0
  coverage := ([], [])

private def fresh : World := ⟨⟨fun _ => none, [], []⟩, [([], .dir)], none, false⟩

private theorem silent (key : Str) (v : CVal) :
    ¬ Chosen ascii fresh.settings "~/.booktest".toList [] {} key (some v) := by
  intro h
  have h' := C58_priority_partial ascii fresh.settings [] (by simp [Dict.keys]) {} [] rfl key
  have := C58_unique ascii fresh.settings _ [] (by simp [Dict.keys]) {} key _ _ h h'
  cases this

private theorem on_mem {uses : List (Str × CVal)} {key : Str} (h : On ascii fresh.settings uses key) : key ∈ uses.map (·.1) := by
  obtain ⟨v, h, -⟩ := h
  cases h with
  | said _ h1 => exact List.mem_map_of_mem (f := (·.1)) (finally_mem h1)
  | unsaid _ _ h2 => exact absurd h2 (silent key v)

private theorem reads_p : Reads three.N (testChoices three.names) ["-p".toList] [("parallel".toList, .bool true)] none :=
  .options _ _ (.cons ["-p".toList] [] [("parallel".toList, .bool true)] []
    (.alone "-p".toList "-p".toList _ _ ⟨by decide, List.prefix_rfl, .inl rfl⟩ (.switch _ _ _ (by decide))) .nil)

private theorem reads_wa : Reads three.N (testChoices three.names) ["-w".toList, "-a".toList]
    [("command".toList, .str "--review".toList), ("accept".toList, .bool true)] none :=
  .options _ _ (.cons ["-w".toList] ["-a".toList] [("command".toList, .str "--review".toList)] _
    (.alone "-w".toList "-w".toList _ _ ⟨by decide, List.prefix_rfl, .inl rfl⟩ (.command _ _ (by decide)))
    (.cons ["-a".toList] [] [("accept".toList, .bool true)] []
      (.alone "-a".toList "-a".toList _ _ ⟨by decide, List.prefix_rfl, .inl rfl⟩ (.switch _ _ _ (by decide))) .nil))

private theorem fresh_sound (ns : List Str) : SoundTree ["books".toList] ns [([], .dir)] := by
  have g : ∀ p, FS.get [([], .dir)] p = if p = [] then some .dir else none := by
    intro p; rw [get_cons]; rfl
  refine ⟨?_, rfl, ?_, ?_, ?_, ?_, ?_⟩
  · intro p c h; rw [g, if_neg (by simp)] at h; cases h
  · intro n _ o q _ t; rw [g]; split <;> simp
  · intro n _ o x hx _; rw [g, if_neg (slot_ne_nil _ o n (Or.inr hx))]; simp
  · intro n _ o x hx t; rw [g]; split <;> simp
  · decide
  · intro q _ t; rw [g]; split <;> simp

private theorem three_plain : PlainNames three.names := by
  refine ⟨?_, by unfold NotNested; decide⟩
  intro n hn
  change n ∈ ["test/a".toList, "test/b".toList, "test/c".toList] at hn
  simp only [List.mem_cons, List.not_mem_nil, or_false] at hn
  rcases hn with rfl | rfl | rfl
  · exact ⟨by decide, by decide, by decide⟩
  · exact ⟨by decide, by decide, by decide⟩
  · exact ⟨by decide, by decide, by decide⟩

private theorem three_repeatable : ∀ n ∈ three.names, RepeatableTest three.P.u (three.P.tests n).body := by
  intro n hn
  change n ∈ ["test/a".toList, "test/b".toList, "test/c".toList] at hn
  simp only [List.mem_cons, List.not_mem_nil, or_false] at hn
  rcases hn with rfl | rfl | rfl
  · exact ⟨rfl, ⟨Or.inr rfl, trivial, trivial⟩, ⟨_, rfl, by decide⟩, by decide⟩
  · exact ⟨rfl, ⟨Or.inr rfl, trivial, trivial⟩, ⟨_, rfl, by decide⟩, by decide⟩
  · exact ⟨rfl, ⟨Or.inr rfl, trivial, trivial⟩, ⟨_, rfl, by decide⟩, by decide⟩

private theorem three_checks {w' : World} (hw : w'.settings = fresh.settings) {selected : List Str}
    (hsel : Selection three.P.u fresh.settings none ["test".toList, "book".toList])
    (hns : selectedNames three.suite ["test".toList, "book".toList] none three.fuel = some selected) :
    Checks three w' [("parallel".toList, .bool true)] none selected := by
  refine ⟨?_, ?_, ?_, ?_, ?_⟩
  · intro c h
    have := List.mem_map_of_mem (f := (·.1)) (finally_mem h)
    change "command".toList ∈ ["parallel".toList] at this
    revert this
    decide
  · intro key hk h
    rw [hw] at h
    have := on_mem h
    rw [List.map_cons, List.map_nil, List.mem_singleton] at this
    subst this
    revert hk
    decide
  · rw [hw]
    intro line hl _
    have : line ∈ ([] : List Str) := hl
    cases this
  · rw [hw]
    exact fun _ v hv => absurd hv (silent _ v)
  · obtain ⟨run, m1, m2, -⟩ := select_free (s := three.suite) (fun _ _ => rfl) ["test".toList, "book".toList]
      (some (fun n => (w'.fs.get (slot three.P.root true n ".bin".toList)).isSome)) none (fuel := three.fuel) (by decide)
    rw [hns] at m2
    cases m2
    refine ⟨selected, ⟨_, some (fun n => (w'.fs.get (slot three.P.root true n ".bin".toList)).isSome), by rw [hw]; exact hsel,
      ⟨⟨fun h => (nomatch h), fun h => ?_⟩, fun f hf n => ?_⟩, m1⟩, fun n h => h⟩
    · rw [hw] at h
      exact absurd (on_mem h) (by decide)
    · injection hf with hf
      rw [← hf]

/-- `booktest -p` in a new project comes to an end, `booktest -w -a` afterwards exits with 0, and all tests pass from then on. -/
example : ∃ c old, workersRun (fl := strokes) three ["-p".toList] (fun _ => (0 : Nat)) (0 : Nat)
      (fun _ _ => False) fresh = some (c, old) ∧
    ∃ σ, FairRun c (mkdirs fresh.fs three.P.out) [] σ ∧ ∃ i x, (σ i).run.rpc = .ended x ∧
    let r := booktest (fl := strokes) three ["-w".toList, "-a".toList] [] (fun _ => (0 : Nat)) (workersEnd fresh c old (σ i)).world
    r.status.code = some 0 ∧
    PassOn three.P ["test/a".toList, "test/b".toList, "test/c".toList] three.names
      [(⟨{}, ["test/b".toList], fun _ => (0 : Nat), []⟩ : Rerun strokes),
       ⟨{ failFast := true }, ["test/c".toList, "test/a".toList], fun _ => (0 : Nat), []⟩] r.world.fs r.world.report ∧
    ∀ e, Does strokes three ["-p".toList] r.world e → e.status = .ends (some 0) := by
  have hr : Reads three.N (testChoices three.names) [] [] none := .options _ _ .nil
  have off : ∀ key, ¬ On ascii fresh.settings [] key := fun key h => absurd (on_mem h) (by simp)
  have hset : ReadableSettings three.P.u fresh.settings := fun line hl _ => by
    have : line ∈ ([] : List Str) := hl
    cases this
  have hdef : (none : Option (List Str)) = none → ReadableDefaults three.P.u fresh.settings :=
    fun _ v hv => absurd hv (silent _ v)
  have hclean : ∀ n ∈ three.names, CleanName n := by unfold CleanName; decide
  have hbatch : ∀ a ∈ three.names, ∀ b ∈ three.names, batchName a = batchName b → a = b := by decide
  have hres : ∀ n ∈ three.names, resultOf three.P (snapshot three.P.root fresh.fs n) n = some .OK ∨
    resultOf three.P (snapshot three.P.root fresh.fs n) n = some .DIFF := by decide +kernel
  have hends : ∀ n ∈ three.names, resultOf three.P (snapshot three.P.root fresh.fs n) n ≠ none := by decide +kernel
  have hh : ∀ n ∈ three.names, runTest (three.P.env (snapshot three.P.root fresh.fs n)) (three.P.tests n).body ≠ none := by
    intro n hn h
    refine hends n hn ?_
    unfold resultOf
    rw [h]
    rfl
  obtain ⟨c, old, h1, ⟨σ, h2⟩, h3⟩ := C125_option (fl := strokes) three fresh [] [] [] (fun _ => (0 : Nat)) (0 : Nat)
    (fun _ _ => False) [] none hr (fun c h => absurd (finally_mem h) (by simp))
    (starts_free hset hdef rfl (fun _ _ => rfl) (by decide)) (by decide) (by simp) (off _) (off _) (off _) (off _) (off _)
    (fun _ _ h => absurd h (off _)) three_plain hclean hbatch (fresh_sound _) (fun _ _ h => h) hh
  obtain ⟨i, x, h4⟩ := (h3 σ h2).1
  have hw : AsksFor [("command".toList, .str "--review".toList), ("accept".toList, .bool true)] "--review".toList :=
    ⟨[], _, [_], rfl, rfl, fun y hy v' => by rw [List.mem_singleton.mp hy]; intro h; cases h⟩
  have hpl : ∀ key ∈ ["interactive".toList, "always_interactive".toList, "update".toList, "accept".toList,
      "fail_fast".toList, "continue".toList], ¬ On three.P.u fresh.settings [("parallel".toList, .bool true)] key := by
    intro key hk h
    have := on_mem h
    rw [List.map_cons, List.map_nil, List.mem_singleton] at this
    subst this
    revert hk
    decide
  have hoff : ∀ key ∈ ["continue".toList, "interactive".toList, "always_interactive".toList], ¬ On three.P.u fresh.settings
      [("command".toList, .str "--review".toList), ("accept".toList, .bool true)] key := by
    intro key hk h
    have := on_mem h
    rw [List.map_cons, List.map_cons, List.map_nil, List.mem_cons, List.mem_singleton] at this
    rcases this with rfl | rfl
    · revert hk
      decide
    · revert hk
      decide
  have hcode := C139_accept_all (fl := strokes) three fresh ["-p".toList]
    ⟨["-w".toList, "-a".toList], [], fun _ => (0 : Nat)⟩ (fun _ => (0 : Nat)) (0 : Nat) (fun _ _ => False)
    _ _ none reads_p reads_wa hw hoff
    ⟨.bool true, .said _ ⟨[_], _, [], rfl, rfl, by simp⟩ ⟨by decide, by decide, by decide⟩, ⟨by decide, by decide, by decide⟩⟩
    hpl hset hdef (fun _ _ => rfl) (by decide) three_plain hclean hbatch (fresh_sound _) (fun _ _ h => h) hres
    (fun _ _ old _ _ h x hx => by
      have h' : some ([] : List (Rec strokes)) = some old := h
      cases h'
      cases hx) h1 [] σ h2 i x h4
  obtain ⟨selection, selected, k1, k2, -, k8, k3⟩ := C139_workers_partial (fl := strokes) three fresh ["-p".toList]
    ⟨["-w".toList, "-a".toList], [], fun _ => (0 : Nat)⟩ (fun _ => (0 : Nat)) (0 : Nat) (fun _ _ => False)
    _ _ none reads_p reads_wa hw (hoff _ (by simp)) hpl hset hdef (fun _ _ => rfl) (by decide) three_plain hclean hbatch
    (fresh_sound _) (fun _ _ h => h) hends three_repeatable h1 [] σ h2 i x h4 hcode
  have hsel : selection = ["test".toList, "book".toList] := by
    cases k1 with
    | configured s h => exact absurd h (silent _ _)
    | usual _ => rfl
  subst hsel
  have : selectedNames three.suite ["test".toList, "book".toList] none three.fuel =
    some ["test/a".toList, "test/b".toList, "test/c".toList] := by decide +kernel
  rw [this] at k2
  injection k2 with k2
  subst k2
  obtain ⟨selection', selected', l1, l2, l3⟩ := C139_forever_partial (fl := strokes) three fresh ["-p".toList]
    ⟨["-w".toList, "-a".toList], [], fun _ => (0 : Nat)⟩ (fun _ => (0 : Nat)) (0 : Nat) (fun _ _ => False)
    _ _ none reads_p reads_wa hw (hoff _ (by simp)) hpl hset hdef (fun _ _ => rfl) (by decide) three_plain hclean hbatch
    (fresh_sound _) (fun _ _ h => h) hends three_repeatable h1 [] σ h2 i x h4 hcode
  have e1 := selection_unique l1 k1
  subst e1
  rw [this] at l2
  injection l2 with l2
  subst l2
  refine ⟨c, old, h1, σ, h2, i, x, h4, hcode, k3 _ _ ?_, (l3 _ (.none _)).2 _ _ none reads_p (three_checks k8 k1 this)⟩
  intro x hx
  simp only [List.mem_cons, List.not_mem_nil, or_false] at hx
  rcases hx with rfl | rfl
  · exact ⟨⟨rfl, rfl⟩, rfl, by decide, by decide⟩
  · exact ⟨⟨rfl, rfl⟩, rfl, by decide, by decide⟩

end Verif.Props
