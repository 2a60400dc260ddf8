import Verif.Spec.Passing
import Verif.Props.ExecWorkers

/-! # C126: what has been accepted passes from then on, with and without workers -/

namespace Verif.Props
open Verif.Py Verif.Model Verif.Spec Verif.Lemmas

variable {fl : Durations}

theorem sound_get {root : Path} {ns : List Str} {fs fs' : FS} (h : SoundTree root ns fs)
    (e : ∀ p, fs'.get p = fs.get p) : SoundTree root ns fs' := by
  refine ⟨?_, ?_, ?_, ?_, ?_, ?_, ?_⟩
  · intro p c hp
    rw [e] at hp ⊢
    exact h.wf p c hp
  · rw [e]; exact h.cwd
  · intro n hn o q hq t; rw [e]; exact h.ways n hn o q hq t
  · intro n hn o x hx hy; rw [e]; exact h.files n hn o x hx hy
  · intro n hn o x hx t; rw [e]; exact h.dirs n hn o x hx t
  · rw [e]; exact h.index
  · intro q hq t; rw [e]; exact h.base q hq t

theorem about_unique {S : Site} {w : World} {uses : List (Str × CVal)} {cases : Option (List Str)}
    {a b : Option (List Str)} (h : AboutTests S w uses cases a) (h' : AboutTests S w uses cases b) : a = b := by
  obtain ⟨s, t, h1, h2, h3⟩ := h
  obtain ⟨s', t', h1', h2', h3'⟩ := h'
  rw [← h3, ← h3', selection_unique h1 h1', stored_unique h2 h2']

/-- `-f` does not stop a run with `-a` of tests that can be repeated. -/
private theorem repeat_never {S : Site} {w : World} {uses : List (Str × CVal)} {ns : List Str}
    (ha : On S.P.u w.settings uses "accept".toList) (ht : ∀ n ∈ ns, RepeatableTest S.P.u (S.P.tests n).body) :
    NothingStops S w uses ns := by
  intro _ n hn s hs
  have hx := (case_twice (cfg := { accept := true }) (cfg' := {}) rfl (ht n hn) hs).1
  unfold caseSpec at hx
  rw [hs] at hx
  dsimp only at hx
  by_cases hv : AutoAccepted { accept := true } (verdict (S.P.env (snapshot S.P.root w.fs n)) s)
  · rcases hv with ⟨hv, -⟩ | ⟨hv, -⟩
    · exact Or.inl hv
    · exact Or.inr ⟨hv, ha⟩
  · rw [if_neg hv] at hx
    injection hx with hx
    exact Or.inl hx

/-- `-f` does not stop a run of tests that pass. -/
private theorem passes_never {S : Site} {w : World} {uses : List (Str × CVal)} {ns : List Str}
    (hns : ∀ n ∈ ns, Passes S.P w.fs n) : NothingStops S w uses ns := by
  intro _ n hn s hs
  obtain ⟨s', hs', hv⟩ := hns n hn
  rw [hs] at hs'
  cases hs'
  exact Or.inl hv

/-- A command without or with workers leaves what the run in one process leaves. -/
theorem does_run {S : Site} {w : World} {args : List Str} {uses : List (Str × CVal)} {cases : Option (List Str)}
    {ns : List Str} {e : CommandEnd} (hr : Reads S.N (testChoices S.names) args uses cases) (hc : Checks S w uses cases ns)
    (hrep : ∃ records, ofFile S.P.u fl w.report = some records)
    (hplain : PlainNames S.names) (hclean : ∀ n ∈ S.names, CleanName n)
    (hbatch : ∀ a ∈ S.names, ∀ b ∈ S.names, batchName a = batchName b → a = b)
    (hS : SoundTree S.P.root S.names w.fs)
    (hh : ∀ n ∈ ns, runTest (S.P.env (snapshot S.P.root w.fs n)) (S.P.tests n).body ≠ none)
    (hf : NothingStops S w uses ns) (hd : Does fl S args w e) :
    ∃ cfg selected records ans, ∃ dur : Str → fl.D, ConfigSaid S.P.u w.settings uses cfg ∧
      AboutTests S w uses cases (some selected) ∧ ofFile S.P.u fl w.report = some records ∧
      let r := runProject S.P cfg dur S.names selected w.fs ans w.report
      e.world.settings = w.settings ∧ (∀ v, r.result = some v → e.status = .ends (some (exitCode v))) ∧
      (∀ p, e.world.fs.get p = r.fs.get p) ∧
      ((∃ old, ofFile S.P.u fl r.report = some old) → ∃ old, ofFile S.P.u fl e.world.report = some old) := by
  obtain ⟨names, hab, hnames⟩ := hc.about
  cases hd with
  | here ans dur hstatus =>
    rcases booktest_reads (w := w) hr ans dur with ⟨e, he⟩ | ⟨config, sel, selected, records, cmd, hprep, -, hcmd, e⟩
    · exfalso
      cases he with
      | settings h => exact h hc.settings
      | defaults h1 h2 => exact h2 (hc.defaults h1)
      | selection h => cases about_unique hab h
      | report h =>
        obtain ⟨r, h'⟩ := hrep
        rw [h'] at h; cases h
    · have hcmd0 : cmd = none := by
        cases cmd with
        | none => rfl
        | some c => exact absurd ((hcmd c).mp rfl) (hc.run c)
      have hv : isOn config "coverage".toList = false := by
        rw [← Bool.not_eq_true, isOn_iff (hprep.said "coverage".toList (by decide))]; exact hc.off _ (by simp)
      have hrun : booktest S args ans dur w = runCommand S config dur selected ans w := by
        rw [e, hcmd0, dispatch_run]
        unfold runCovered
        rw [hv]
        exact if_neg (by decide)
      have hhere : booktest S args ans dur w = runHere S config dur selected ans w := by
        cases hp : isOn config "parallel".toList with
        | false =>
          rw [hrun]
          unfold runCommand
          rw [hp]
          exact if_neg (by decide)
        | true =>
          exfalso
          apply hstatus (workers S.N.int S.cpuCount (config.get "parallel".toList))
          rw [hrun]
          unfold runCommand
          rw [hp, if_pos rfl]
      refine ⟨configOf config, selected, records, ans, dur, config_on hprep,
        ⟨sel, _, selection_said hr hprep.said hprep.chosen, stored_said hprep.said, hprep.names⟩, hprep.records, ?_⟩
      rw [hhere]
      refine ⟨rfl, ?_, fun p => rfl, fun h => h⟩
      intro v hv
      show (match (runProject S.P (configOf config) dur S.names selected w.fs ans w.report).result with
        | some v => Status.ends (some (exitCode v))
        | none => .raises) = _
      rw [hv]
  | workers ans dur zero c records σ i x h1 h2 h3 =>
    obtain ⟨config, sel, selected, hprep, -, -, -, -, hall⟩ := workers_core hr (hc.off _ (by simp)) (hc.off _ (by simp))
      (hc.off _ (by simp)) (fun names' hab' hfast n hn => hf hfast n (hnames n (by cases about_unique hab hab'; exact hn)))
      hplain hclean hbatch hS (fun _ _ h => h)
      (fun names' hab' n hn => hh n (hnames n (by cases about_unique hab hab'; exact hn))) h1 ans
    obtain ⟨g1, g2, g3, g4, g5, ps, ss, g6, g7, -⟩ := (hall σ h2).2 i x h3 ans config rfl
    refine ⟨configOf config, selected, records, ans, dur, config_on hprep,
      ⟨sel, _, selection_said hr hprep.said hprep.chosen, stored_said hprep.said, hprep.names⟩, hprep.records, ?_⟩
    refine ⟨rfl, ?_, g5, fun _ => ⟨_, g6⟩⟩
    intro v hv
    rw [g1]
    show (match (runProject S.P (configOf config) dur S.names selected w.fs ans w.report).result with
      | some v => Status.ends (some (exitCode v))
      | none => .raises) = _
    rw [hv]

/-- **C126**: such commands come to an end, with or without workers (if their number is possible), if no test hangs and, with
workers, `-f` stops nothing. -/
theorem C126_ends (S : Site) (w : World) (args : List Str) (uses : List (Str × CVal)) (cases : Option (List Str))
    (ns ans : List Str) (dur : Str → fl.D) (zero : fl.D) (hr : Reads S.N (testChoices S.names) args uses cases)
    (hc : Checks S w uses cases ns) (hrep : ∃ records, ofFile S.P.u fl w.report = some records)
    (hplain : PlainNames S.names) (hclean : ∀ n ∈ S.names, CleanName n)
    (hbatch : ∀ a ∈ S.names, ∀ b ∈ S.names, batchName a = batchName b → a = b)
    (hS : SoundTree S.P.root S.names w.fs)
    (hh : ∀ n ∈ ns, runTest (S.P.env (snapshot S.P.root w.fs n)) (S.P.tests n).body ≠ none)
    (hw : ∀ v, Setting S.P.u w.settings uses "parallel".toList (some v) → Given v →
      (workers S.N.int S.cpuCount (some v)).isSome = true)
    (hf : On S.P.u w.settings uses "parallel".toList → NothingStops S w uses ns) : ∃ e, Does fl S args w e := by
  obtain ⟨names, hab, hnames⟩ := hc.about
  have hs : ¬ CannotStart fl S w uses cases := by
    intro he
    cases he with
    | settings h => exact h hc.settings
    | defaults h1 h2 => exact h2 (hc.defaults h1)
    | selection h => cases about_unique hab h
    | report h =>
      obtain ⟨r, h'⟩ := hrep
      rw [h'] at h; cases h
  obtain ⟨config, sel, selected, records, k1, k2, k3⟩ := workers_begin hr hc.run hs dur zero (fun _ _ => False) ans
  have hv : isOn config "coverage".toList = false := by
    rw [← Bool.not_eq_true, isOn_iff (k1.said "coverage".toList (by decide))]; exact hc.off _ (by simp)
  by_cases hp : On S.P.u w.settings uses "parallel".toList
  · have hp' : isOn config "parallel".toList = true := (isOn_iff (k1.said "parallel".toList (by decide))).mpr hp
    have hwk : (workers S.N.int S.cpuCount (config.get "parallel".toList)).isSome = true := by
      obtain ⟨v, h1, h2⟩ := hp
      rw [setting_unique (k1.said "parallel".toList (by decide)) h1]
      exact hw v h1 h2
    rw [if_pos ⟨hp', hv, hwk⟩] at k2
    obtain ⟨_, _, _, -, -, -, -, ⟨σ, hσ⟩, hall⟩ := workers_core hr (hc.off _ (by simp)) (hc.off _ (by simp))
      (hc.off _ (by simp)) (fun names' hab' hfast n hn => hf hp hfast n (hnames n (by cases about_unique hab hab'; exact hn)))
      hplain hclean hbatch hS (fun _ _ h => h)
      (fun names' hab' n hn => hh n (hnames n (by cases about_unique hab hab'; exact hn))) k2 ans
    obtain ⟨⟨i, x, hx⟩, -⟩ := hall σ hσ
    exact ⟨_, .workers ans dur zero _ _ σ i x k2 hσ hx⟩
  · refine ⟨_, .here ans dur ?_⟩
    have hp' : isOn config "parallel".toList = false := by
      rw [← Bool.not_eq_true, isOn_iff (k1.said "parallel".toList (by decide))]; exact hp
    intro k
    rw [k3]
    unfold runCovered runCommand
    rw [hv, hp']
    show (runHere S config dur selected ans w).status ≠ _
    unfold runHere
    dsimp only
    split <;> exact fun h => nomatch h

/-- **C126**: `booktest -a TESTS`, with or without workers, exits with 0, and from then on the tests pass: they can be
repeated in the sense of C08. -/
theorem C126_accept (S : Site) (w : World) (args : List Str) (uses : List (Str × CVal)) (cases : Option (List Str))
    (ns : List Str) (hr : Reads S.N (testChoices S.names) args uses cases) (hc : Checks S w uses cases ns)
    (ha : On S.P.u w.settings uses "accept".toList) (hk : ¬ On S.P.u w.settings uses "continue".toList)
    (hrep : ∃ records, ofFile S.P.u fl w.report = some records)
    (hplain : PlainNames S.names) (hclean : ∀ n ∈ S.names, CleanName n)
    (hbatch : ∀ a ∈ S.names, ∀ b ∈ S.names, batchName a = batchName b → a = b)
    (hS : SoundTree S.P.root S.names w.fs) (ht : ∀ n ∈ ns, RepeatableTest S.P.u (S.P.tests n).body)
    (e : CommandEnd) (hd : Does fl S args w e) :
    e.status = .ends (some 0) ∧ e.world.settings = w.settings ∧
    ∃ selected, AboutTests S w uses cases (some selected) ∧ AllPass fl S e.world selected := by
  have hends : ∀ n ∈ ns, ∃ s, runTest (S.P.env (snapshot S.P.root w.fs n)) (S.P.tests n).body = some s :=
    fun n hn => C100_repeatable (S.P.env (snapshot S.P.root w.fs n)) (ht n hn)
  obtain ⟨cfg, selected, records, ans, dur, h1, h2, h3, h4, h5, h6, h7⟩ := does_run hr hc hrep hplain hclean hbatch hS
    (fun n hn h => by obtain ⟨s, hs⟩ := hends n hn; rw [hs] at h; cases h) (repeat_never ha ht) hd
  have hsub := about_in h2
  have hin : ∀ n ∈ selected, n ∈ ns := by
    obtain ⟨names, g1, g2⟩ := hc.about
    cases about_unique g1 h2
    exact g2
  have hq : NotAsking cfg := ⟨by rw [← Bool.not_eq_true, h1.alwaysInteractive]; exact hc.off _ (by simp),
    by rw [← Bool.not_eq_true, h1.interactive]; exact hc.off _ (by simp)⟩
  have hcont : cfg.cont = false := by rw [← Bool.not_eq_true, h1.cont]; exact hk
  have htodo : toRun cfg records selected = selected := by
    unfold toRun
    simp [hcont]
  have hnd : selected.Nodup := by
    obtain ⟨s, t, -, -, h⟩ := h2
    exact (C31_selected h).1
  obtain ⟨k1, k2, k3, k4⟩ := project_passes hq hplain hsub hnd hS ans dur S.names h3 (fun n hn => hclean n (hsub n hn)) (by
    intro n hn
    rw [htodo] at hn
    obtain ⟨s, hs⟩ := hends n (hin n hn)
    exact (case_twice (cfg' := cfg) (h1.accept.mpr ha) (ht n (hin n hn)) hs).1)
  refine ⟨h5 _ k1, h4, selected, h2, hsub, sound_get k2 h6, h7 k3, ?_⟩
  intro n hn
  obtain ⟨s, hs⟩ := hends n (hin n hn)
  have hsnap : snapshot S.P.root e.world.fs n = (caseSpec S.P cfg n (snapshot S.P.root w.fs n)).2 := by
    have : snapshot S.P.root e.world.fs n = snapshot S.P.root
        (runProject S.P cfg dur S.names selected w.fs ans w.report).fs n := by
      unfold snapshot; rw [h6]
    rw [this, k4 n (hsub n hn), htodo, if_pos hn]
  have hplainly := (case_twice (cfg' := {}) (h1.accept.mpr ha) (ht n (hin n hn)) hs).2.1
  unfold Passes
  rw [hsnap]
  unfold caseSpec at hplainly
  cases hrun : runTest (S.P.env (caseSpec S.P cfg n (snapshot S.P.root w.fs n)).2) (S.P.tests n).body with
  | none =>
    unfold caseSpec at hrun
    rw [hrun] at hplainly
    cases hplainly
  | some s' =>
    refine ⟨s', rfl, ?_⟩
    unfold caseSpec at hrun
    rw [hrun] at hplainly
    dsimp only at hplainly
    rw [if_neg (by rintro (⟨-, h⟩ | ⟨-, h⟩) <;> cases h)] at hplainly
    injection hplainly

/-- **C126**: a further run of such tests, with or without workers, exits with 0; it changes no snapshot, and the tests still
pass. -/
theorem C126_again (S : Site) (w : World) (ns : List Str) (hns : AllPass fl S w ns) (args : List Str)
    (uses : List (Str × CVal)) (cases : Option (List Str))
    (hr : Reads S.N (testChoices S.names) args uses cases) (hc : Checks S w uses cases ns)
    (hplain : PlainNames S.names) (hclean : ∀ n ∈ S.names, CleanName n)
    (hbatch : ∀ a ∈ S.names, ∀ b ∈ S.names, batchName a = batchName b → a = b)
    (e : CommandEnd) (hd : Does fl S args w e) :
    e.status = .ends (some 0) ∧ e.world.settings = w.settings ∧ AllPass fl S e.world ns ∧
    ∀ n ∈ S.names, snapshot S.P.root e.world.fs n = snapshot S.P.root w.fs n := by
  obtain ⟨cfg, selected, records, ans, dur, h1, h2, h3, h4, h5, h6, h7⟩ := does_run hr hc hns.report hplain hclean hbatch
    hns.files (fun n hn h => by obtain ⟨s, hs, -⟩ := hns.passes n hn; rw [hs] at h; cases h) (passes_never hns.passes) hd
  have hsub := about_in h2
  have hin : ∀ n ∈ selected, n ∈ ns := by
    obtain ⟨names, g1, g2⟩ := hc.about
    cases about_unique g1 h2
    exact g2
  have hq : NotAsking cfg := ⟨by rw [← Bool.not_eq_true, h1.alwaysInteractive]; exact hc.off _ (by simp),
    by rw [← Bool.not_eq_true, h1.interactive]; exact hc.off _ (by simp)⟩
  have hu : cfg.update = false := by rw [← Bool.not_eq_true, h1.update]; exact hc.off _ (by simp)
  have hspec : ∀ n ∈ ns, caseSpec S.P cfg n (snapshot S.P.root w.fs n) = (.done .OK .NONE, snapshot S.P.root w.fs n) := by
    intro n hn
    obtain ⟨s, hs, hv⟩ := hns.passes n hn
    unfold caseSpec
    rw [hs]
    dsimp only
    rw [hv, if_neg (by
      rintro (⟨-, h⟩ | ⟨h, -⟩)
      · rw [hu] at h; cases h
      · cases h)]
  have hnd : selected.Nodup := by
    obtain ⟨s, t, -, -, h⟩ := h2
    exact (C31_selected h).1
  obtain ⟨k1, k2, k3, k4⟩ := project_passes hq hplain hsub hnd hns.files ans dur S.names h3
    (fun n hn => hclean n (hsub n hn)) (by
    intro n hn
    rw [hspec n (hin n (List.mem_filter.mp hn).1)])
  have hsnap : ∀ n ∈ S.names, snapshot S.P.root e.world.fs n = snapshot S.P.root w.fs n := by
    intro n hn
    have : snapshot S.P.root e.world.fs n = snapshot S.P.root
        (runProject S.P cfg dur S.names selected w.fs ans w.report).fs n := by
      unfold snapshot; rw [h6]
    rw [this, k4 n hn]
    split
    · rename_i hm
      rw [hspec n (hin n (List.mem_filter.mp hm).1)]
    · rfl
  refine ⟨h5 _ k1, h4, ⟨hns.known, sound_get k2 h6, h7 k3, ?_⟩, hsnap⟩
  intro n hn
  unfold Passes
  rw [hsnap n (hns.known n hn)]
  exact hns.passes n hn

/-- **C126**: the same for any number of further runs, each of them with or without workers. -/
theorem C126_forever (S : Site) (w : World) (ns : List Str) (hns : AllPass fl S w ns)
    (hplain : PlainNames S.names) (hclean : ∀ n ∈ S.names, CleanName n)
    (hbatch : ∀ a ∈ S.names, ∀ b ∈ S.names, batchName a = batchName b → a = b) (w' : World) (h : Checked fl S ns w w') :
    AllPass fl S w' ns ∧ (∀ n ∈ S.names, snapshot S.P.root w'.fs n = snapshot S.P.root w.fs n) ∧
    ∀ args uses cases, Reads S.N (testChoices S.names) args uses cases → Checks S w' uses cases ns →
      ∀ e, Does fl S args w' e → e.status = .ends (some 0) := by
  have main : AllPass fl S w' ns ∧ ∀ n ∈ S.names, snapshot S.P.root w'.fs n = snapshot S.P.root w.fs n := by
    induction h with
    | none => exact ⟨hns, fun _ _ => rfl⟩
    | more args uses cases e _ hr hc hd ih =>
      obtain ⟨-, -, h1, h2⟩ := C126_again S _ ns ih.1 args uses cases hr hc hplain hclean hbatch e hd
      exact ⟨h1, fun n hn => (h2 n hn).trans (ih.2 n hn)⟩
  exact ⟨main.1, main.2, fun args uses cases hr hc e hd =>
    (C126_again S w' ns main.1 args uses cases hr hc hplain hclean hbatch e hd).1⟩

/-! ### A case that meets the hypotheses -/

private def salute (x : String) : TestFn := ⟨⟨[.header "# t".toList, .tln x.toList], none⟩, [], [], none⟩

/-- A new project with two tests. -/
private def spot : Site where
  N := ⟨fun _ => none, fun _ => false⟩
  P := ⟨ascii, false, some, ["books".toList], fun n => if n = "test/a".toList then salute "a" else salute "b"⟩
  suite := { cases := [("test/a".toList, ⟨none, 0⟩), ("test/b".toList, ⟨none, 1⟩)]
             info := fun _ => {}
             isInstance := fun _ _ => false }
  fuel := 10
  cpuCount := 4
  viewer := fun _ => 0
  coverage := ([], [])

private def blank : World := ⟨⟨fun _ => none, [], []⟩, [([], .dir)], none, false⟩

private def pa : List (Str × CVal) :=
  [("parallel".toList, .bool true), ("accept".toList, .bool true), ("fail_fast".toList, .bool true)]

private theorem spot_selects (stored : Option (Str → Bool)) :
    selectedNames spot.suite ["test".toList, "book".toList] stored spot.fuel = some spot.names := by
  obtain ⟨run, h1, h2, -⟩ := select_free (s := spot.suite) (fun _ _ => rfl) ["test".toList, "book".toList] stored none
    (fuel := spot.fuel) (by decide)
  have h3 : selectedNames spot.suite ["test".toList, "book".toList] none spot.fuel = some spot.names := by decide +kernel
  rw [h1, ← h2, h3]

private theorem final_pa {key : Str} {v : CVal} (h : Finally pa key v) : (key, v) ∈ pa := by
  obtain ⟨pre, x, post, h1, h2, -⟩ := h
  rw [h1, h2]
  simp

private theorem quiet_pa {key : Str} {o : Option CVal} :
    Chosen ascii blank.settings "~/.booktest".toList [] {} key o → o = none := by
  intro h
  have h' := C58_priority_partial ascii blank.settings [] (by simp [Dict.keys]) {} [] rfl key
  exact C58_unique ascii blank.settings _ [] (by simp [Dict.keys]) {} key _ _ h h'

private theorem off_pa {key : Str} (h1 : key ≠ "parallel".toList) (h2 : key ≠ "accept".toList)
    (h3 : key ≠ "fail_fast".toList) : ¬ On ascii blank.settings pa key := by
  rintro ⟨v, h, -⟩
  cases h with
  | said _ h =>
    rcases List.mem_cons.mp (final_pa h) with e | e
    · injection e with e; exact h1 e
    · rcases List.mem_cons.mp e with e | e
      · injection e with e; exact h2 e
      · rw [List.mem_singleton] at e
        injection e with e; exact h3 e
  | unsaid _ _ h => cases quiet_pa h

private theorem checks_pa {w : World} (hw : w.settings = blank.settings) : Checks spot w pa none spot.names := by
  refine ⟨?_, ?_, ?_, ?_, spot.names, ?_, fun _ h => h⟩
  · intro c hc
    have := final_pa hc
    revert this
    unfold pa
    intro h
    rcases List.mem_cons.mp h with e | e
    · injection e with e
      exact absurd e (by decide)
    · rcases List.mem_cons.mp e with e | e
      · injection e with e
        exact absurd e (by decide)
      · rw [List.mem_singleton] at e
        injection e with e
        exact absurd e (by decide)
  · rw [hw]
    intro key hk
    refine off_pa ?_ ?_ ?_ <;> (rintro rfl; revert hk; decide)
  · rw [hw]; intro line hl
    cases (show line ∈ ([] : List Str) from hl)
  · rw [hw]; exact fun _ v hv => nomatch quiet_pa hv
  · refine ⟨_, some (fun n => (w.fs.get (slot spot.P.root true n ".bin".toList)).isSome), .usual (by
      rw [hw]; exact C58_priority_partial ascii blank.settings [] (by simp [Dict.keys]) {} [] rfl _), ⟨?_, ?_⟩, spot_selects _⟩
    · rw [hw]
      constructor
      · intro h; cases h
      · exact fun h => absurd h (off_pa (by decide) (by decide) (by decide))
    · intro f hf n
      cases hf
      rfl

/-- `booktest -p -a -f` in a new project and then again. -/
example : ∃ e e', Does strokes spot ["-p".toList, "-a".toList, "-f".toList] blank e ∧ e.status = .ends (some 0) ∧
    Does strokes spot ["-p".toList, "-a".toList, "-f".toList] e.world e' ∧ e'.status = .ends (some 0) ∧
    ∀ n ∈ spot.names, snapshot spot.P.root e'.world.fs n = snapshot spot.P.root e.world.fs n := by
  have hr : Reads spot.N (testChoices spot.names) ["-p".toList, "-a".toList, "-f".toList] pa none :=
    .options _ _ (.cons ["-p".toList] _ [("parallel".toList, .bool true)] _
      (.alone "-p".toList "-p".toList _ _ ⟨by decide, List.prefix_rfl, .inl rfl⟩ (.switch _ _ _ (by decide)))
      (.cons ["-a".toList] _ [("accept".toList, .bool true)] _
        (.alone "-a".toList "-a".toList _ _ ⟨by decide, List.prefix_rfl, .inl rfl⟩ (.switch _ _ _ (by decide)))
        (.cons ["-f".toList] [] [("fail_fast".toList, .bool true)] []
          (.alone "-f".toList "-f".toList _ _ ⟨by decide, List.prefix_rfl, .inl rfl⟩ (.switch _ _ _ (by decide))) .nil)))
  have hset : Setting ascii blank.settings pa "parallel".toList (some (.bool true)) :=
    .said _ ⟨[], _, _, rfl, rfl, by
      intro x hx v e
      rcases List.mem_cons.mp hx with hx | hx
      · rw [hx] at e
        injection e with e
        exact absurd e (by decide)
      · rw [List.mem_singleton.mp hx] at e
        injection e with e
        exact absurd e (by decide)⟩ ⟨by decide, by decide, by decide⟩
  have ha : On ascii blank.settings pa "accept".toList :=
    ⟨.bool true, .said _ ⟨[("parallel".toList, .bool true)], _, [("fail_fast".toList, .bool true)], rfl, rfl, by
      intro x hx v e
      rw [List.mem_singleton.mp hx] at e
      injection e with e
      exact absurd e (by decide)⟩ ⟨by decide, by decide, by decide⟩,
      ⟨by decide, by decide, by decide⟩⟩
  have hplain : PlainNames spot.names := by
    refine ⟨?_, by unfold NotNested; decide⟩
    intro n hn
    change n ∈ ["test/a".toList, "test/b".toList] at hn
    simp only [List.mem_cons, List.not_mem_nil, or_false] at hn
    rcases hn with rfl | rfl <;> exact ⟨by decide, by decide, by decide⟩
  have hclean : ∀ n ∈ spot.names, CleanName n := by unfold CleanName; decide
  have hbatch : ∀ a ∈ spot.names, ∀ b ∈ spot.names, batchName a = batchName b → a = b := by decide
  have hS : SoundTree spot.P.root spot.names blank.fs := by
    have g : ∀ p, FS.get [([], .dir)] p = if p = [] then some .dir else none := by
      intro p; rw [get_cons]; rfl
    refine ⟨?_, rfl, ?_, ?_, ?_, ?_, ?_⟩
    · intro p c h; change (FS.get [([], .dir)] _).isSome = true at h; rw [g, if_neg (by simp)] at h; cases h
    · intro n _ o q _ t; change FS.get [([], .dir)] _ ≠ _; rw [g]; split <;> simp
    · intro n _ o x hx _; change FS.get [([], .dir)] _ ≠ _
      rw [g, if_neg (slot_ne_nil _ o n (Or.inr hx))]; simp
    · intro n _ o x hx t; change FS.get [([], .dir)] _ ≠ _; rw [g]; split <;> simp
    · decide
    · intro q _ t; change FS.get [([], .dir)] _ ≠ _; rw [g]; split <;> simp
  have ht : ∀ n ∈ spot.names, RepeatableTest spot.P.u (spot.P.tests n).body := by
    intro n hn
    change n ∈ ["test/a".toList, "test/b".toList] at hn
    simp only [List.mem_cons, List.not_mem_nil, or_false] at hn
    rcases hn with rfl | rfl
    · exact ⟨rfl, ⟨Or.inr rfl, trivial, trivial⟩, ⟨_, rfl, by decide⟩, by decide⟩
    · exact ⟨rfl, ⟨Or.inr rfl, trivial, trivial⟩, ⟨_, rfl, by decide⟩, by decide⟩
  have hw : ∀ v, Setting ascii blank.settings pa "parallel".toList (some v) → Given v →
      (workers spot.N.int spot.cpuCount (some v)).isSome = true := by
    intro v h _
    have := setting_unique h hset
    injection this with this
    rw [this]
    decide
  have hends : ∀ (w : World), ∀ n ∈ spot.names,
      runTest (spot.P.env (snapshot spot.P.root w.fs n)) (spot.P.tests n).body ≠ none := by
    intro w n hn h
    obtain ⟨s, hs⟩ := C100_repeatable (spot.P.env (snapshot spot.P.root w.fs n)) (ht n hn)
    rw [hs] at h; cases h
  obtain ⟨e, he⟩ := C126_ends (fl := strokes) spot blank _ _ _ spot.names [] (fun _ => (0 : Nat)) (0 : Nat) hr (checks_pa rfl)
    ⟨[], rfl⟩ hplain hclean hbatch hS (hends _) hw (fun _ => repeat_never ha ht)
  obtain ⟨k1, k2, selected, k3, k4⟩ := C126_accept spot blank _ _ _ _ hr (checks_pa rfl) ha (off_pa (by decide) (by decide) (by decide))
    ⟨[], rfl⟩ hplain hclean hbatch hS ht e he
  have hsel : selected = spot.names := by
    obtain ⟨s, t, h1, -, h2⟩ := k3
    cases h1 with
    | configured x hx => cases quiet_pa hx
    | usual _ =>
      rw [spot_selects] at h2
      injection h2 with h2
      exact h2.symm
  subst hsel
  obtain ⟨e', he'⟩ := C126_ends (fl := strokes) spot e.world _ _ _ spot.names [] (fun _ => (0 : Nat)) (0 : Nat) hr
    (checks_pa k2) k4.report hplain hclean hbatch k4.files (hends _) (by rw [k2]; exact hw)
    (fun _ => passes_never k4.passes)
  obtain ⟨j1, -, -, j2⟩ := C126_again spot e.world _ k4 _ _ _ hr (checks_pa k2) hplain hclean hbatch e' he'
  exact ⟨e, e', he, k1, he', j1, j2⟩

end Verif.Props
