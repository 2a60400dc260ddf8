import Verif.Spec.PassingDependents
import Verif.Props.ExecDependents
import Verif.Props.Passing

/-! # C131: what has been accepted passes from then on, in projects whose tests get the results of others -/

namespace Verif.Props
open Verif.Py Verif.Model Verif.Spec Verif.Lemmas

variable {fl : Durations} {S : Site} {D : DProject} {w : World}

/-! ### Values -/

private theorem about_filled {g g' : Str → Values} {uses : List (Str × CVal)} {cases : Option (List Str)}
    {x : Option (List Str)} (h : AboutTests (S.over (D.filled g)) w uses cases x) :
    AboutTests (S.over (D.filled g')) w uses cases x := by
  obtain ⟨sel, st, h1, h2, h3⟩ := h
  exact ⟨sel, st, h1, ⟨h2.refresh, h2.there⟩, h3⟩

private theorem checks_filled {g g' : Str → Values} {uses : List (Str × CVal)} {cases : Option (List Str)}
    {ns : List Str} (h : Checks (S.over (D.filled g)) w uses cases ns) : Checks (S.over (D.filled g')) w uses cases ns := by
  obtain ⟨names, h1, h2⟩ := h.about
  exact ⟨h.run, h.off, h.settings, h.defaults, names, about_filled h1, h2⟩

/-- A test that has been executed and has not failed has stored what it returns. -/
private theorem cases_value {P : Project} {cfg : Config} {ns l : List Str} {fs : FS} (hq : NotAsking cfg) (hp : PlainNames ns)
    (hl : ∀ n ∈ l, n ∈ ns) (hnd : l.Nodup) (hS : SoundTree P.root ns fs) (ans : List Str) {n : Str} (hn : n ∈ l)
    (hok : (caseSpec P cfg n (snapshot P.root fs n)).1 = .done .OK .NONE) :
    storeOf P.out (runCases P cfg l (fs, ans)).1 n = (P.tests n).returns := by
  obtain ⟨l1, l2, rfl⟩ := List.append_of_mem hn
  obtain ⟨k1, k2, k3⟩ := List.nodup_append.mp hnd
  obtain ⟨k4, k5⟩ := List.nodup_cons.mp k2
  have hnn : n ∈ ns := hl n hn
  have hn1 : n ∉ l1 := fun h => k3 n h n (by simp) rfl
  obtain ⟨f1, e1, s1, -, s2⟩ := runCases_ok (P := P) hq hp l1 (fun m hm => hl m (by simp [hm])) k1 hS ans
  have hsnap : snapshot P.root f1 n = snapshot P.root fs n := by rw [s2 n hnn, if_neg hn1]
  obtain ⟨f2, e2, s3, -⟩ := runCase_ok (P := P) hq hp hnn s1 ans
  rw [hsnap, hok] at e2
  have e3 : runCases P cfg (l1 ++ n :: l2) (fs, ans) = runCases P cfg l2 (f2, ans) := by
    unfold runCases at e1 ⊢
    rw [List.foldl_append, e1, List.foldl_cons, e2]
  rw [e3, cases_frame hq hp ans l2 (fun m hm => hl m (by simp [hm])) k5 s3 n hnn k4]
  exact value_after (P := P) (cfg := cfg) (n := n) (st := (f1, ans)) (st' := (f2, ans)) e2 (by decide)

private theorem made_store {ns : List Str} {fs : FS} (hS : SoundTree D.root ns fs) (n : Str) :
    storeOf D.dirs.out (mkdirs fs D.dirs.out) n = storedValue D.root fs n := by
  obtain ⟨-, g⟩ := mkdirs_ok hS.wf hS.cwd hS.base
  show (match (mkdirs fs (booksDir D.root true)).get (slot D.root true n ".bin".toList) with | some (.file v) => some v | _ => none) = _
  rw [g, if_neg]
  · rfl
  · intro h
    obtain ⟨q, e, hq⟩ := slot_out D.root n
    rw [e] at h
    have h1 : booksDir D.root true = D.root ++ [".out".toList] := rfl
    rw [h1] at h
    have h2 := h.length_le
    have h3 := List.length_pos_iff.mpr hq
    simp only [List.length_append, List.length_cons, List.length_nil] at h2
    omega

/-- Values that the tests leave as they are. -/
structure Foreseen (S : Site) (D : DProject) (w : World) (cfg : Config) (selected : List Str) (records : List (Rec fl))
    (ans : List Str) (val : Str → Option Str) : Prop where
  stored : ∀ k ∈ S.names, val k = storeOf D.dirs.out (runCases (filledP D val) cfg (toRun cfg records selected)
    (mkdirs w.fs D.dirs.out, ans)).1 k
  ok : ∀ n ∈ selected, (caseSpec (filledP D val) cfg n (snapshot D.root w.fs n)).1 = .done .OK .NONE

private theorem ok_runs {P : Project} {cfg : Config} {n : Str} {snap : Option Str}
    (h : (caseSpec P cfg n snap).1 = .done .OK .NONE) : ∃ s, runTest (P.env snap) (P.tests n).body = some s ∧
      (verdict (P.env snap) s = .OK ∨ AutoAccepted cfg (verdict (P.env snap) s)) := by
  unfold caseSpec at h
  cases hr : runTest (P.env snap) (P.tests n).body with
  | none => rw [hr] at h; cases h
  | some s =>
    rw [hr] at h
    dsimp only at h
    refine ⟨s, rfl, ?_⟩
    by_cases ha : AutoAccepted cfg (verdict (P.env snap) s)
    · exact Or.inr ha
    · rw [if_neg ha] at h
      injection h with h
      exact Or.inl h

private theorem ok_never {cfg : Config} {uses : List (Str × CVal)} {selected : List Str} {val : Str → Option Str}
    (hs : ConfigSaid D.u w.settings uses cfg) 
    (h : ∀ n ∈ selected, (caseSpec (filledP D val) cfg n (snapshot D.root w.fs n)).1 = .done .OK .NONE) :
    NothingStops (S.over (filledP D val)) w uses selected := by
  intro _ n hn s hr
  obtain ⟨s', hs', h2⟩ := ok_runs (h n hn)
  rw [show runTest ((filledP D val).env (snapshot D.root w.fs n)) ((filledP D val).tests n).body = some s from hr] at hs'
  cases hs'
  rcases h2 with h2 | ⟨h2, -⟩ | ⟨h2, h3⟩
  · exact Or.inl h2
  · exact Or.inl h2
  · exact Or.inr ⟨h2, hs.accept.mp h3⟩

private theorem small_cache : EmptyCache processCache := ⟨by decide, rfl⟩

/-- A run in one process with such values. -/
private theorem here_filled (hplain : PlainNames S.names) (hS : SoundTree D.root S.names w.fs) {config : Dict CVal}
    (hq : NotAsking (configOf config)) {selected : List Str} (hsub : ∀ n ∈ selected, n ∈ S.names) (hnd : selected.Nodup)
    (ho : DepsFirst D S.names selected) (dur : Str → fl.D) (ans : List Str) {records : List (Rec fl)}
    (hrec : ofFile D.u fl w.report = some records) {val : Str → Option Str}
    (hv : Foreseen S D w (configOf config) selected records ans val) :
    runHereD S D config dur selected ans w = runHere (S.over (filledP D val)) config dur selected ans w := by
  have hran : ranNames (runAsync D.u fl (configOf config) (projectOutcome (filledP D val) (configOf config) dur
      (mkdirs w.fs D.dirs.out, ans)) selected w.report).1 = toRun (configOf config) records selected :=
    passes_ran (P := filledP D val) hq hplain hsub hnd hS ans dur hrec (fun n hn => hv.ok n (List.mem_filter.mp hn).1)
  obtain ⟨h1, h2⟩ := runs_filled (fl := fl) hq hplain hS hsub hnd ho small_cache dur S.names ans w.report val (by
    intro k hk
    rw [hran]
    exact hv.stored k hk)
  unfold runHereD runEventsD
  dsimp only
  rw [← h1, ← h2]
  rfl

/-- The run with workers with such values. -/
private theorem workers_filled (hl : Linked S D) {args : List Str} {uses : List (Str × CVal)} {cases : Option (List Str)}
    {ns : List Str} (hr : Reads S.N (testChoices S.names) args uses cases) (hc : Checks (S.over D.dirs) w uses cases ns)
    (hplain : PlainNames S.names) (hclean : ∀ n ∈ S.names, CleanName n)
    (hbatch : ∀ a ∈ S.names, ∀ b ∈ S.names, batchName a = batchName b → a = b)
    (hS : SoundTree D.root S.names w.fs) {dur : Str → fl.D} {zero : fl.D} {c : DConf fl} {records : List (Rec fl)}
    (hrun : workersRunD S D args dur zero (fun _ _ => False) w = some (c, records)) (ans : List Str) :
    ∃ selected, ConfigSaid D.u w.settings uses c.cfg ∧ AboutTests (S.over D.dirs) w uses cases (some selected) ∧
      ofFile D.u fl w.report = some records ∧ ∀ val, Foreseen S D w c.cfg selected records ans val →
        workersRun (S.over (filledP D val)) args dur zero (fun _ _ => False) w = some (c.conf (filledP D val), records) ∧
        c.D = D ∧ DSetting c S.names w.fs val ∧
        NeverStops (filledP D val) c.cfg w.fs c.todo ∧
        (∀ n ∈ c.todo, ∀ d ∈ c.waits n, d ∈ c.todo → selected.idxOf d < selected.idxOf n) ∧
        ∀ n ∈ c.todo, runTest ((filledP D val).env (snapshot D.root w.fs n)) ((filledP D val).tests n).body ≠ none := by
  obtain ⟨hcD, hover⟩ := workersD_over hrun
  subst hcD
  obtain ⟨config0, sel0, selected0, hprep0, hconf0, -⟩ := begun (S := S.over (c.D.filled fun _ => .error [])) hr (hover _) ans
  have hcfg0 : c.cfg = configOf config0 := congrArg RConf.cfg hconf0
  have hab0 : AboutTests (S.over c.D.dirs) w uses cases (some selected0) :=
    ⟨sel0, _, selection_said (S := S.over (c.D.filled fun _ => .error [])) hr hprep0.said hprep0.chosen, stored_said hprep0.said, hprep0.names⟩
  have hsaid : ConfigSaid c.D.u w.settings uses c.cfg := by rw [hcfg0]; exact config_on hprep0
  refine ⟨selected0, hsaid, hab0, hprep0.records, fun val hv => ?_⟩
  have hun : ∀ names, AboutTests (S.over (filledP c.D val)) w uses cases (some names) → names = selected0 := by
    intro names h
    cases about_unique (about_filled h) hab0
    rfl
  obtain ⟨config, sel, selected, hB, -⟩ := workers_facts (S := S.over (filledP c.D val)) hr (hc.off _ (by simp)) (hc.off _ (by simp))
    (hc.off _ (by simp)) (fun names hab => by rw [hun names hab]; exact ok_never hsaid hv.ok)
    hclean hbatch (fun _ _ h => h) (fun names hab n hn h => by
      rw [hun names hab] at hn
      obtain ⟨s, hs, -⟩ := ok_runs (hv.ok n hn)
      rw [show runTest ((filledP c.D val).env (snapshot c.D.root w.fs n)) ((filledP c.D val).tests n).body = none from h] at hs
      cases hs) (hover _) ans
  have hselected : selected = selected0 := hun _
    ⟨sel, _, selection_said (S := S.over (filledP c.D val)) hr hB.prepared.said hB.prepared.chosen, stored_said hB.prepared.said, hB.prepared.names⟩
  have hccfg : c.cfg = configOf config := congrArg RConf.cfg hB.conf
  have hq : NotAsking c.cfg := by rw [hccfg]; exact hB.quiet
  have hupd : c.cfg.update = false := by rw [hccfg]; exact hB.update
  have hnames : ∀ n ∈ c.todo, n ∈ S.names := hB.names
  have htodo : c.todo = toRun c.cfg records selected := hB.todo
  subst hselected
  refine ⟨hover _, rfl, ?_, hB.stops, hB.rank, hB.ends⟩
  exact {
    tidy := ⟨hB.tidy.todo, hB.tidy.batches, hB.tidy.names⟩
    quiet := hq
    update := hupd
    plain := hplain
    sound := hS
    sub := hnames
    breaks := hB.unbroken
    first := depsFirst_sub (selected_first hl hB.prepared.names) (by
      rw [htodo]
      exact List.filter_sublist)
    waits := by
      intro n hn d hd hdt
      obtain ⟨m, hm⟩ := names_case (hnames n hn)
      have hw : c.waits = fun n => match getCase S.suite n with
        | none => []
        | some m => methodDependencies S.suite m (doneAndTodo (configOf config) records selected).2 none :=
        congrArg RConf.deps hB.conf
      rw [hw]
      dsimp only
      rw [hm]
      exact mem_methodDependencies.mpr ⟨linked_declares hl hm hd, Or.inr (by rintro ⟨f, h, -⟩; cases h)⟩
    val := ⟨ans, fun k hk => by rw [htodo]; exact hv.stored k hk⟩ }

/-- All commands, with such values. -/
private theorem doesD_does (hl : Linked S D) {args : List Str} {uses : List (Str × CVal)} {cases : Option (List Str)}
    {ns : List Str} (hr : Reads S.N (testChoices S.names) args uses cases) (hc : Checks (S.over D.dirs) w uses cases ns)
    (hrep : ∃ records, ofFile D.u fl w.report = some records)
    (hplain : PlainNames S.names) (hclean : ∀ n ∈ S.names, CleanName n)
    (hbatch : ∀ a ∈ S.names, ∀ b ∈ S.names, batchName a = batchName b → a = b)
    (hS : SoundTree D.root S.names w.fs)
    {Q : (Str → Option Str) → Prop}
    (hG : ∀ cfg selected, ∀ records : List (Rec fl), ∀ ans, ConfigSaid D.u w.settings uses cfg →
      AboutTests (S.over D.dirs) w uses cases (some selected) → ofFile D.u fl w.report = some records →
      ∃ val, Q val ∧ Foreseen S D w cfg selected records ans val)
    {e : CommandEnd} (hd : DoesD fl S D args w e) :
    ∃ cfg selected, ∃ records : List (Rec fl), ∃ ans val, ConfigSaid D.u w.settings uses cfg ∧
      AboutTests (S.over D.dirs) w uses cases (some selected) ∧ ofFile D.u fl w.report = some records ∧
      Q val ∧ Foreseen S D w cfg selected records ans val ∧ Does fl (S.over (filledP D val)) args w e := by
  cases hd with
  | here ans dur hstatus =>
    have hoff : ∀ key ∈ ["interactive".toList, "always_interactive".toList, "update".toList, "coverage".toList],
      ¬ On D.u w.settings uses key := hc.off
    rcases commandD_reads (D := D) (w := w) hr ans dur with h | ⟨config, sel, selected, records, hprep, h1, h2⟩
    · obtain ⟨names, hab, hnames⟩ := hc.about
      rcases booktest_reads (S := S.over D.dirs) (w := w) hr ans dur with ⟨-, he⟩ |
        ⟨config, sel, selected, records, cmd, hprep, -⟩
      · exfalso
        cases he with
        | settings h => exact h hc.settings
        | defaults h1 h2 => exact h2 (hc.defaults h1)
        | selection h => cases about_unique hab h
        | report h =>
          obtain ⟨r, h'⟩ := hrep
          rw [show ofFile D.u fl w.report = none from h] at h'; cases h'
      · have hab' : AboutTests (S.over D.dirs) w uses cases (some selected) :=
          ⟨sel, _, selection_said (S := S.over D.dirs) hr hprep.said hprep.chosen, stored_said hprep.said, hprep.names⟩
        obtain ⟨val, hQ, hv⟩ := hG _ _ _ ans (config_on hprep) hab' hprep.records
        refine ⟨_, _, _, ans, val, config_on hprep, hab', hprep.records, hQ, hv, ?_⟩
        have := h fun n => valuesOf val (D.deps n)
        rw [← this] at hstatus ⊢
        exact .here ans dur hstatus
    · have hab' : AboutTests (S.over D.dirs) w uses cases (some selected) :=
        ⟨sel, _, selection_said (S := S.over D.dirs) hr hprep.said hprep.chosen, stored_said hprep.said, hprep.names⟩
      have hsaid := config_on hprep
      obtain ⟨val, hQ, hv⟩ := hG _ _ _ ans hsaid hab' hprep.records
      refine ⟨_, _, _, ans, val, hsaid, hab', hprep.records, hQ, hv, ?_⟩
      have hcov : isOn config "coverage".toList = false := by
        rw [← Bool.not_eq_true, isOn_iff (hprep.said "coverage".toList (by decide))]; exact hc.off _ (by simp)
      have hq : NotAsking (configOf config) := ⟨by rw [← Bool.not_eq_true, hsaid.alwaysInteractive]; exact hc.off _ (by simp),
        by rw [← Bool.not_eq_true, hsaid.interactive]; exact hc.off _ (by simp)⟩
      have hs := C31_selected hprep.names
      have hsub : ∀ n ∈ selected, n ∈ S.names := fun n hn => by
        obtain ⟨m, hm⟩ := hs.2.2.2 n hn
        exact List.mem_map.mpr ⟨_, hm, rfl⟩
      have hrunD : runCoveredD S D config dur selected ans w = runCovered (S.over (filledP D val)) config dur selected ans w := by
        unfold runCoveredD runCovered
        rw [hcov]
        show runCommandD S D config dur selected ans w = runCommand (S.over (filledP D val)) config dur selected ans w
        unfold runCommandD runCommand
        rw [here_filled hplain hS hq hsub hs.1 (selected_first hl hprep.names) dur ans hprep.records hv]
        rfl
      have he : booktestD S D args ans dur w = booktest (S.over (filledP D val)) args ans dur w :=
        (h1.trans hrunD).trans (h2 _).symm
      rw [he] at hstatus ⊢
      exact .here ans dur hstatus
  | workers ans dur zero c records σ i x h1 h2 h3 =>
    obtain ⟨selected, g1, g2, g3, g4⟩ := workers_filled hl hr hc hplain hclean hbatch hS h1 ans
    obtain ⟨val, hQ, hv⟩ := hG _ _ _ ans g1 g2 g3
    refine ⟨_, _, _, ans, val, g1, g2, g3, hQ, hv, ?_⟩
    obtain ⟨k1, k2, k3, -⟩ := g4 val hv
    subst k2
    obtain ⟨τ, hτ, heq⟩ := fair_values k3 (by decide) h2
    have hrunE : (τ i).run = (σ i).r.run := by rw [← heq i]
    have hfsE : (τ i).fs = (σ i).r.fs := by rw [← heq i]
    have hE : workersEnd w (c.conf (filledP c.D val)) records (τ i) = workersEndD w c records (σ i) := by
      unfold workersEndD workersEnd RSt.finish
      rw [hrunE, hfsE]
      rfl
    rw [← hE]
    exact .workers ans dur zero _ _ τ i x k1 hτ (by rw [hrunE]; exact h3)

/-- Such commands come to an end. -/
private theorem doesD_exists (hl : Linked S D) {args : List Str} {uses : List (Str × CVal)} {cases : Option (List Str)}
    {ns : List Str} (hr : Reads S.N (testChoices S.names) args uses cases) (hc : Checks (S.over D.dirs) w uses cases ns)
    (hrep : ∃ records, ofFile D.u fl w.report = some records)
    (hplain : PlainNames S.names) (hclean : ∀ n ∈ S.names, CleanName n)
    (hbatch : ∀ a ∈ S.names, ∀ b ∈ S.names, batchName a = batchName b → a = b)
    (hS : SoundTree D.root S.names w.fs)
    (hG : ∀ cfg selected, ∀ records : List (Rec fl), ∀ ans, ConfigSaid D.u w.settings uses cfg →
      AboutTests (S.over D.dirs) w uses cases (some selected) → ofFile D.u fl w.report = some records →
      ∃ val, Foreseen S D w cfg selected records ans val) (ans : List Str) (dur : Str → fl.D) (zero : fl.D)
    (hw : ∀ v, Setting D.u w.settings uses "parallel".toList (some v) → Given v →
      (workers S.N.int S.cpuCount (some v)).isSome = true) : ∃ e, DoesD fl S D args w e := by
  obtain ⟨names, hab, hnames⟩ := hc.about
  have hs : ¬ CannotStart fl (S.over D.dirs) w uses cases := by
    intro he
    cases he with
    | settings h => exact h hc.settings
    | defaults h1 h2 => exact h2 (hc.defaults h1)
    | selection h => cases about_unique hab h
    | report h =>
      obtain ⟨r, h'⟩ := hrep
      rw [show ofFile D.u fl w.report = none from h] at h'; cases h'
  obtain ⟨config, sel, selected, records, k1, k2, k3⟩ := workers_begin (S := S.over D.dirs) hr hc.run hs dur zero (fun _ _ => False) ans
  have hv : isOn config "coverage".toList = false := by
    rw [← Bool.not_eq_true, isOn_iff (k1.said "coverage".toList (by decide))]; exact hc.off _ (by simp)
  by_cases hp : On D.u w.settings uses "parallel".toList
  · have hp' : isOn config "parallel".toList = true := (isOn_iff (k1.said "parallel".toList (by decide))).mpr hp
    have hwk : (workers (S.over D.dirs).N.int (S.over D.dirs).cpuCount (config.get "parallel".toList)).isSome = true := by
      obtain ⟨v, h1, h2⟩ := hp
      rw [setting_unique (k1.said "parallel".toList (by decide)) h1]
      exact hw v h1 h2
    rw [if_pos ⟨hp', hv, hwk⟩] at k2
    obtain ⟨c, hcrun⟩ : ∃ c, workersRunD S D args dur zero (fun _ _ => False) w = some (c, records) := by
      unfold workersRunD
      rw [k2]
      exact ⟨_, rfl⟩
    obtain ⟨selected', g1, g2, g3, g4⟩ := workers_filled hl hr hc hplain hclean hbatch hS hcrun ans
    obtain ⟨val, hval⟩ := hG _ _ _ ans g1 g2 g3
    obtain ⟨j1, j2, j3, j4, j5, j6⟩ := g4 val hval
    subst j2
    obtain ⟨σ, hσ⟩ := exists_fairD (size := 8) (ans := ans) j3 (by decide) j4 j5 j6
    obtain ⟨τ, hτ, heq⟩ := fair_values j3 (by decide) hσ
    have hun : ∀ names, AboutTests (S.over (filledP c.D val)) w uses cases (some names) → names = selected' := by
      intro names h
      cases about_unique (about_filled h) g2
      rfl
    obtain ⟨_, _, _, -, -, -, -, -, hall⟩ := workers_core (S := S.over (filledP c.D val)) hr (hc.off _ (by simp)) (hc.off _ (by simp))
      (hc.off _ (by simp)) (fun names hab => by rw [hun names hab]; exact ok_never g1 hval.ok)
      hplain hclean hbatch hS (fun _ _ h => h) (fun names hab n hn h => by
        rw [hun names hab] at hn
        obtain ⟨s, hs, -⟩ := ok_runs (hval.ok n hn)
        rw [show runTest ((filledP c.D val).env (snapshot c.D.root w.fs n)) ((filledP c.D val).tests n).body = none from h] at hs
        cases hs) j1 ans
    obtain ⟨⟨i, x, hx⟩, -⟩ := hall τ hτ
    have hrunE : (τ i).run = (σ i).r.run := by rw [← heq i]
    exact ⟨_, .workers ans dur zero c records σ i x hcrun hσ (by rw [← hrunE]; exact hx)⟩
  · refine ⟨_, .here ans dur ?_⟩
    have hp' : isOn config "parallel".toList = false := by
      rw [← Bool.not_eq_true, isOn_iff (k1.said "parallel".toList (by decide))]; exact hp
    intro k
    rcases commandD_reads (D := D) (w := w) hr ans dur with h | ⟨config', sel', selected', records', hprep, h1, -⟩
    · rw [← h fun _ => .error []]
      rw [show booktest (S.over (D.filled fun _ => .error [])) args ans dur w = _ from k3]
      unfold runCovered runCommand
      rw [hv, hp']
      show (runHere (S.over D.dirs) config dur selected ans w).status ≠ _
      unfold runHere
      dsimp only
      split <;> exact fun h => nomatch h
    · have hv2 : isOn config' "coverage".toList = false := by
        rw [← Bool.not_eq_true, isOn_iff (hprep.said "coverage".toList (by decide))]; exact hc.off _ (by simp)
      have hp2 : isOn config' "parallel".toList = false := by
        rw [← Bool.not_eq_true, isOn_iff (hprep.said "parallel".toList (by decide))]; exact hp
      rw [h1]
      unfold runCoveredD runCommandD
      rw [hv2, hp2]
      show (runHereD S D config' dur selected' ans w).status ≠ _
      unfold runHereD
      dsimp only
      split <;> exact fun h => nomatch h

/-- The values after a command in which every test is OK. -/
private theorem end_store {val : Str → Option Str} {args : List Str} {uses : List (Str × CVal)} {cases : Option (List Str)}
    {selected : List Str} (hr : Reads S.N (testChoices S.names) args uses cases) (hc : Checks (S.over D.dirs) w uses cases selected)
    (hab : AboutTests (S.over D.dirs) w uses cases (some selected))
    (hrep : ∃ records, ofFile D.u fl w.report = some records)
    (hplain : PlainNames S.names) (hclean : ∀ n ∈ S.names, CleanName n)
    (hbatch : ∀ a ∈ S.names, ∀ b ∈ S.names, batchName a = batchName b → a = b)
    (hS : SoundTree D.root S.names w.fs)
    {cfg0 : Config} (h0 : ConfigSaid D.u w.settings uses cfg0)
    (hok : ∀ cfg, ConfigSaid D.u w.settings uses cfg → ∀ n ∈ selected,
      (caseSpec (filledP D val) cfg n (snapshot D.root w.fs n)).1 = .done .OK .NONE)
    {e : CommandEnd} (hd : Does fl (S.over (filledP D val)) args w e) :
    ∃ cfg, ∃ records : List (Rec fl), ConfigSaid D.u w.settings uses cfg ∧ ∀ k ∈ S.names, storedValue D.root e.world.fs k =
      if k ∈ toRun cfg records selected then ((filledP D val).tests k).returns else storedValue D.root w.fs k := by
  obtain ⟨cfg, selected', records, ans, dur, h1, h2, h3, -, -, h6, -⟩ := does_run (S := S.over (filledP D val)) hr (checks_filled hc)
    hrep hplain hclean hbatch hS (fun n hn h => by
      obtain ⟨s, hs, -⟩ := ok_runs (hok cfg0 h0 n hn)
      rw [show runTest ((filledP D val).env (snapshot D.root w.fs n)) ((filledP D val).tests n).body = none from h] at hs
      cases hs) (ok_never h0 (hok cfg0 h0)) hd
  cases about_unique (about_filled h2) hab
  refine ⟨cfg, records, h1, fun k hk => ?_⟩
  have hq : NotAsking cfg := ⟨by rw [← Bool.not_eq_true, h1.alwaysInteractive]; exact hc.off _ (by simp),
    by rw [← Bool.not_eq_true, h1.interactive]; exact hc.off _ (by simp)⟩
  have hsub := about_in hab
  have hnd : selected.Nodup := by
    obtain ⟨s, t, -, -, h⟩ := hab
    exact (C31_selected h).1
  have e1 : storedValue D.root e.world.fs k = storedValue D.root (runProject (filledP D val) cfg dur S.names selected w.fs ans w.report).fs k := by
    unfold storedValue
    rw [h6]
    rfl
  have hran := passes_ran (P := filledP D val) hq hplain hsub hnd hS ans dur h3
    (fun n hn => hok cfg h1 n (List.mem_filter.mp hn).1)
  have hrun := run_store (filledP D val) cfg dur S.names selected w.fs ans w.report k
  rw [hran] at hrun
  rw [e1]
  refine hrun.trans ?_
  have hS0 := mkOut_ok (P := filledP D val) hplain hS
  have hsub' : ∀ n ∈ toRun cfg records selected, n ∈ S.names := fun n hn => hsub n (List.mem_filter.mp hn).1
  split
  · rename_i hm
    refine cases_value hq hplain hsub' (hnd.filter _) hS0.1 ans hm ?_
    rw [hS0.2.1 k hk]
    exact hok cfg h1 k (List.mem_filter.mp hm).1
  · rename_i hm
    exact (cases_frame hq hplain ans _ hsub' (hnd.filter _) hS0.1 k hk hm).trans (made_store hS k)

/-! ### Tests that pass -/

private theorem values_congr {val val' : Str → Option Str} : ∀ {ds : List Str}, (∀ d ∈ ds, val d = val' d) →
    valuesOf val ds = valuesOf val' ds := by
  intro ds
  induction ds with
  | nil => intro _; rfl
  | cons d ds ih =>
    intro h
    unfold valuesOf
    rw [h d (by simp), ih fun x hx => h x (by simp [hx])]

private theorem filled_congr {val val' : Str → Option Str} {n : Str} (h : ∀ d ∈ D.deps n, val d = val' d) :
    (filledP D val).tests n = (filledP D val').tests n := by
  show D.given n (valuesOf val (D.deps n)) = D.given n (valuesOf val' (D.deps n))
  rw [values_congr h]

private theorem deps_known (hl : Linked S D) {n : Str} (hn : n ∈ S.names) : ∀ d ∈ D.deps n, d ∈ S.names := by
  intro d hd
  obtain ⟨m, hm⟩ := names_case hn
  exact declared_name (linked_declares hl hm hd)

private theorem pass_spec {P : Project} {cfg : Config} {n : Str} {fs : FS} (hu : cfg.update = false) (h : Passes P fs n) :
    caseSpec P cfg n (snapshot P.root fs n) = (.done .OK .NONE, snapshot P.root fs n) := by
  obtain ⟨s, hs, hv⟩ := h
  unfold caseSpec
  rw [hs]
  dsimp only
  rw [hv, if_neg (by
    rintro (⟨-, h⟩ | ⟨h, -⟩)
    · rw [hu] at h; cases h
    · cases h)]

private theorem narrowed {uses : List (Str × CVal)} {cases : Option (List Str)} {ns selected : List Str}
    (hc : Checks (S.over D.dirs) w uses cases ns) (hab : AboutTests (S.over D.dirs) w uses cases (some selected)) :
    Checks (S.over D.dirs) w uses cases selected ∧ ∀ n ∈ selected, n ∈ ns := by
  obtain ⟨names, h1, h2⟩ := hc.about
  cases about_unique h1 hab
  exact ⟨⟨hc.run, hc.off, hc.settings, hc.defaults, _, hab, fun _ h => h⟩, h2⟩

private theorem pass_ok {ns : List Str} (hns : AllPassD fl S D w ns) {uses : List (Str × CVal)} {cases : Option (List Str)}
    {selected : List Str} (hc : Checks (S.over D.dirs) w uses cases ns)
    (hab : AboutTests (S.over D.dirs) w uses cases (some selected)) {cfg : Config} (h1 : ConfigSaid D.u w.settings uses cfg) :
    ∀ n ∈ selected, (caseSpec (filledP D (storedValue D.root w.fs)) cfg n (snapshot D.root w.fs n)).1 = .done .OK .NONE := by
  intro n hn
  have hu : cfg.update = false := by rw [← Bool.not_eq_true, h1.update]; exact hc.off _ (by simp)
  have := pass_spec hu (hns.passes n ((narrowed hc hab).2 n hn))
  exact congrArg (·.1) this

private theorem pass_seen {ns : List Str} (hns : AllPassD fl S D w ns) (hplain : PlainNames S.names)
    {uses : List (Str × CVal)} {cases : Option (List Str)} (hc : Checks (S.over D.dirs) w uses cases ns) :
    ∀ cfg selected, ∀ records : List (Rec fl), ∀ ans, ConfigSaid D.u w.settings uses cfg →
      AboutTests (S.over D.dirs) w uses cases (some selected) → ofFile D.u fl w.report = some records →
      Foreseen S D w cfg selected records ans (storedValue D.root w.fs) := by
  intro cfg selected records ans h1 h2 h3
  have hok := pass_ok hns hc h2 h1
  refine ⟨fun k hk => ?_, hok⟩
  have hq : NotAsking cfg := ⟨by rw [← Bool.not_eq_true, h1.alwaysInteractive]; exact hc.off _ (by simp),
    by rw [← Bool.not_eq_true, h1.interactive]; exact hc.off _ (by simp)⟩
  have hsub := about_in h2
  have hnd : selected.Nodup := by
    obtain ⟨s, t, -, -, h⟩ := h2
    exact (C31_selected h).1
  have hS0 := mkOut_ok (P := filledP D (storedValue D.root w.fs)) hplain hns.files
  have hsub' : ∀ n ∈ toRun cfg records selected, n ∈ S.names := fun n hn => hsub n (List.mem_filter.mp hn).1
  by_cases hm : k ∈ toRun cfg records selected
  · have h4 := cases_value (P := filledP D (storedValue D.root w.fs)) hq hplain hsub' (hnd.filter _) hS0.1 ans hm (by
      rw [hS0.2.1 k hk]
      exact hok k (List.mem_filter.mp hm).1)
    exact (hns.values k ((narrowed hc h2).2 k (List.mem_filter.mp hm).1)).trans h4.symm
  · exact ((cases_frame hq hplain ans _ hsub' (hnd.filter _) hS0.1 k hk hm).trans (made_store hns.files k)).symm

/-- **C131**: a further run of tests that pass, with or without workers, exits with 0; it changes neither a snapshot nor the
value of a test, and the tests still pass. -/
theorem C131_again (hl : Linked S D) {ns : List Str} (hns : AllPassD fl S D w ns) (args : List Str)
    (uses : List (Str × CVal)) (cases : Option (List Str))
    (hr : Reads S.N (testChoices S.names) args uses cases) (hc : Checks (S.over D.dirs) w uses cases ns)
    (hplain : PlainNames S.names) (hclean : ∀ n ∈ S.names, CleanName n)
    (hbatch : ∀ a ∈ S.names, ∀ b ∈ S.names, batchName a = batchName b → a = b)
    (e : CommandEnd) (hd : DoesD fl S D args w e) :
    e.status = .ends (some 0) ∧ e.world.settings = w.settings ∧ AllPassD fl S D e.world ns ∧
    (∀ n ∈ S.names, snapshot D.root e.world.fs n = snapshot D.root w.fs n) ∧
    ∀ n ∈ S.names, storedValue D.root e.world.fs n = storedValue D.root w.fs n := by
  obtain ⟨cfg0, names, _, _, val, h0, hab, -, rfl, -, hdoes⟩ := doesD_does hl hr hc hns.report hplain hclean hbatch hns.files
    (Q := fun val => val = storedValue D.root w.fs)
    (fun cfg selected records ans a b c => ⟨_, rfl, pass_seen hns hplain hc cfg selected records ans a b c⟩) hd
  have hnames := (narrowed hc hab).2
  have hall : AllPass fl (S.over (filledP D (storedValue D.root w.fs))) w ns :=
    ⟨hns.known, hns.files, hns.report, hns.passes⟩
  obtain ⟨h1, h2, h3, h4⟩ := C126_again _ w ns hall args uses cases hr (checks_filled hc) hplain hclean hbatch e hdoes
  obtain ⟨cfg, records, -, h5⟩ := end_store hr (narrowed hc hab).1 hab hns.report hplain hclean hbatch hns.files h0
    (fun cfg hcfg => pass_ok hns hc hab hcfg) hdoes
  have h6 : ∀ n ∈ S.names, storedValue D.root e.world.fs n = storedValue D.root w.fs n := by
    intro n hn
    rw [h5 n hn]
    split
    · rename_i hm
      exact (hns.values n (hnames n (List.mem_filter.mp hm).1)).symm
    · rfl
  have h7 : ∀ n ∈ ns, (Spec.DProject.with D e.world.fs).tests n = (Spec.DProject.with D w.fs).tests n := by
    intro n hn
    exact filled_congr fun d hd => h6 d (deps_known hl (hns.known n hn) d hd)
  refine ⟨h1, h2, ⟨hns.known, h3.files, h3.report, ?_, ?_⟩, h4, h6⟩
  · intro n hn
    have := h3.passes n hn
    unfold Passes at this ⊢
    rw [h7 n hn]
    exact this
  · intro n hn
    rw [h6 n (hns.known n hn), h7 n hn]
    exact hns.values n hn

/-- **C131**: the same for any number of further runs, each of them with or without workers. -/
theorem C131_forever (hl : Linked S D) {ns : List Str} (hns : AllPassD fl S D w ns)
    (hplain : PlainNames S.names) (hclean : ∀ n ∈ S.names, CleanName n)
    (hbatch : ∀ a ∈ S.names, ∀ b ∈ S.names, batchName a = batchName b → a = b) (w' : World) (h : CheckedD fl S D ns w w') :
    AllPassD fl S D w' ns ∧ (∀ n ∈ S.names, snapshot D.root w'.fs n = snapshot D.root w.fs n) ∧
    (∀ n ∈ S.names, storedValue D.root w'.fs n = storedValue D.root w.fs n) ∧
    ∀ args uses cases, Reads S.N (testChoices S.names) args uses cases → Checks (S.over D.dirs) w' uses cases ns →
      ∀ e, DoesD fl S D args w' e → e.status = .ends (some 0) := by
  have main : AllPassD fl S D w' ns ∧ (∀ n ∈ S.names, snapshot D.root w'.fs n = snapshot D.root w.fs n) ∧
      ∀ n ∈ S.names, storedValue D.root w'.fs n = storedValue D.root w.fs n := by
    induction h with
    | none => exact ⟨hns, fun _ _ => rfl, fun _ _ => rfl⟩
    | more args uses cases e _ hr hc hd ih =>
      obtain ⟨-, -, h1, h2, h3⟩ := C131_again hl ih.1 args uses cases hr hc hplain hclean hbatch e hd
      exact ⟨h1, fun n hn => (h2 n hn).trans (ih.2.1 n hn), fun n hn => (h3 n hn).trans (ih.2.2 n hn)⟩
  exact ⟨main.1, main.2.1, main.2.2, fun args uses cases hr hc e hd =>
    (C131_again hl main.1 args uses cases hr hc hplain hclean hbatch e hd).1⟩

/-- **C131**: such runs come to an end, with or without workers (if their number is possible). -/
theorem C131_ends (hl : Linked S D) {ns : List Str} (hns : AllPassD fl S D w ns) (args : List Str)
    (uses : List (Str × CVal)) (cases : Option (List Str)) (ans : List Str) (dur : Str → fl.D) (zero : fl.D)
    (hr : Reads S.N (testChoices S.names) args uses cases) (hc : Checks (S.over D.dirs) w uses cases ns)
    (hplain : PlainNames S.names) (hclean : ∀ n ∈ S.names, CleanName n)
    (hbatch : ∀ a ∈ S.names, ∀ b ∈ S.names, batchName a = batchName b → a = b)
    (hw : ∀ v, Setting D.u w.settings uses "parallel".toList (some v) → Given v →
      (workers S.N.int S.cpuCount (some v)).isSome = true) : ∃ e, DoesD fl S D args w e :=
  doesD_exists hl hr hc hns.report hplain hclean hbatch hns.files
    (fun cfg selected records ans a b c => ⟨_, pass_seen hns hplain hc cfg selected records ans a b c⟩) ans dur zero hw

/-! ### Tests that are accepted -/

private theorem values_there {val : Str → Option Str} {may : Str → Str → Prop} : ∀ {ds : List Str},
    (∀ d ∈ ds, ∃ v, val d = some v ∧ may d v) → ∃ vs, Possible may ds vs ∧ valuesOf val ds = .ok (vs.map some) := by
  intro ds
  induction ds with
  | nil => intro _; exact ⟨[], ⟨rfl, fun p hp => by cases hp⟩, rfl⟩
  | cons d ds ih =>
    intro h
    obtain ⟨vs, h1, h2⟩ := ih fun x hx => h x (by simp [hx])
    obtain ⟨v, hd, hv⟩ := h d (by simp)
    refine ⟨v :: vs, ⟨by simp [h1.1], ?_⟩, ?_⟩
    · intro p hp
      rw [List.zip_cons_cons] at hp
      rcases List.mem_cons.mp hp with rfl | hp
      · exact hv
      · exact h1.2 p hp
    · unfold valuesOf
      rw [hd, h2]
      rfl

private theorem repeat_ok {may : Str → Str → Prop} {ns : List Str} (ht : RepeatableD D w.fs may ns) {cfg : Config} (ha : cfg.accept = true) {n : Str} (hn : n ∈ ns)
    {val : Str → Option Str} {vs : List Str} (hl : Possible may (D.deps n) vs) (hv : valuesOf val (D.deps n) = .ok (vs.map some))
    (snap : Option Str) : RepeatableTest D.u ((filledP D val).tests n).body ∧
      (caseSpec (filledP D val) cfg n snap).1 = .done .OK .NONE := by
  have hr : RepeatableTest D.u ((filledP D val).tests n).body := by
    show RepeatableTest D.u (D.given n (valuesOf val (D.deps n))).body
    rw [hv]
    exact ht.test n hn vs hl
  obtain ⟨s, hs⟩ := C100_repeatable ((filledP D val).env snap) hr
  exact ⟨hr, (case_twice (P := filledP D val) (cfg' := cfg) ha hr hs).1⟩

/-- What is known about the values after a run that accepts. -/
private structure Settles (S : Site) (D : DProject) (w : World) (may : Str → Str → Prop) (selected : List Str) (val : Str → Option Str) : Prop where
  called : ∀ n ∈ selected, ∃ vs, Possible may (D.deps n) vs ∧ valuesOf val (D.deps n) = .ok (vs.map some)
  value : ∀ k ∈ S.names, val k = if k ∈ selected then ((filledP D val).tests k).returns else storedValue D.root w.fs k

private theorem accept_seen {may : Str → Str → Prop} (hl : Linked S D) {uses : List (Str × CVal)} {cases : Option (List Str)} {ns : List Str}
    (hc : Checks (S.over D.dirs) w uses cases ns) (hplain : PlainNames S.names) (hS : SoundTree D.root S.names w.fs)
    (ha : On D.u w.settings uses "accept".toList) (hk : ¬ On D.u w.settings uses "continue".toList)
    (ht : RepeatableD D w.fs may ns) :
    ∀ cfg selected, ∀ records : List (Rec fl), ∀ ans, ConfigSaid D.u w.settings uses cfg →
      AboutTests (S.over D.dirs) w uses cases (some selected) → ofFile D.u fl w.report = some records →
      ∃ val, (∀ sel', AboutTests (S.over D.dirs) w uses cases (some sel') → Settles S D w may sel' val) ∧
        Foreseen S D w cfg selected records ans val := by
  intro cfg selected records ans h1 h2 h3
  have hsame : ∀ sel', AboutTests (S.over D.dirs) w uses cases (some sel') → sel' = selected := by
    intro sel' h
    cases about_unique h h2
    rfl
  have hin := (narrowed hc h2).2
  have hq : NotAsking cfg := ⟨by rw [← Bool.not_eq_true, h1.alwaysInteractive]; exact hc.off _ (by simp),
    by rw [← Bool.not_eq_true, h1.interactive]; exact hc.off _ (by simp)⟩
  have hcont : cfg.cont = false := by rw [← Bool.not_eq_true, h1.cont]; exact hk
  have hacc : cfg.accept = true := h1.accept.mpr ha
  have htodo : toRun cfg records selected = selected := by
    unfold toRun
    simp [hcont]
  have hsub := about_in h2
  obtain ⟨sel, stored, -, hstored, hsel⟩ := h2
  have hsel' : selectedNames S.suite sel stored S.fuel = some selected := hsel
  have hs31 := C31_selected hsel'
  have hnd := hs31.1
  have hfirst := selected_first hl hsel'
  have hS0 := mkOut_ok (P := D.dirs) hplain hS
  let val := storedValue D.root (runCasesD D cfg selected ((mkdirs w.fs D.dirs.out, ans), processCache)).1.1
  have hfix : ∀ k ∈ S.names, val k = storeOf D.dirs.out (runCases (filledP D val) cfg selected (mkdirs w.fs D.dirs.out, ans)).1 k := by
    intro k hk
    have key := casesD_empty (D := D) hq hplain ans hsub hnd hS0.1 hfirst small_cache val _ (Or.inl rfl) (fun k hk => rfl)
    show storeOf _ _ k = _
    rw [key.2]
    rfl
  have good : ∀ l2 l1, selected = l1 ++ l2 →
      (∀ n ∈ l1, ∃ vs, Possible may (D.deps n) vs ∧ valuesOf val (D.deps n) = .ok (vs.map some)) →
      ∀ n ∈ l2, ∃ vs, Possible may (D.deps n) vs ∧ valuesOf val (D.deps n) = .ok (vs.map some) := by
    intro l2
    induction l2 with
    | nil => intro _ _ _ n hn; cases hn
    | cons n l2 ih =>
      intro l1 e hgood
      have hn : n ∈ selected := by rw [e]; simp
      obtain ⟨m, hm⟩ := names_case (hsub n hn)
      have hthis : ∃ vs, Possible may (D.deps n) vs ∧ valuesOf val (D.deps n) = .ok (vs.map some) := by
        refine values_there fun d hd => ?_
        have hdn := deps_known hl (hsub n hn) d hd
        by_cases hds : d ∈ selected
        · have hd1 : d ∈ l1 := by
            have h4 := hfirst.before l1 n l2 e d hd
            rw [e] at hds
            exact (List.mem_append.mp hds).resolve_right h4
          obtain ⟨vs, h5, h6⟩ := hgood d hd1
          obtain ⟨-, h7⟩ := repeat_ok ht hacc (hin d hds) h5 h6 (snapshot D.root w.fs d)
          have h8 := cases_value (P := filledP D val) hq hplain hsub hnd hS0.1 ans hds (by
            show (caseSpec (filledP D val) cfg d (snapshot D.root (mkdirs w.fs D.dirs.out) d)).1 = _
            rw [show snapshot D.root (mkdirs w.fs D.dirs.out) d = snapshot D.root w.fs d from hS0.2.1 d hdn]
            exact h7)
          have h11 : (filledP D val).tests d = D.fn d (vs.map some) := by
            show D.given d (valuesOf val (D.deps d)) = _
            rw [h6]; rfl
          rw [hfix d hdn]
          cases hv : storeOf D.dirs.out (runCases (filledP D val) cfg selected (mkdirs w.fs D.dirs.out, ans)).1 d with
          | none =>
            have h10 : ((filledP D val).tests d).returns = none := h8.symm.trans hv
            exact absurd (h11 ▸ h10) (hl.returns n m hm d hd (vs.map some))
          | some v =>
            have h10 : ((filledP D val).tests d).returns = some v := h8.symm.trans hv
            exact ⟨v, rfl, ht.returns d (hin d hds) vs h5 v (h11 ▸ h10)⟩
        · have hun : isSelected d sel = false := by
            cases hx : isSelected d sel with
            | false => rfl
            | true =>
              exfalso
              obtain ⟨c, hc1, hc2⟩ := List.mem_map.mp hdn
              have := hs31.2.1 c hc1 (by rw [hc2]; exact hx)
              rw [hc2] at this
              exact hds this
          have h4 := mt (C33_cached hsel' hn hm (linked_declares hl hm hd) hun).mpr hds
          cases hst : stored with
          | none => exact absurd (Or.inl hst) h4
          | some f =>
            have h5 : f d = true := by
              cases hx : f d with
              | true => rfl
              | false => exact absurd (Or.inr ⟨f, hst, hx⟩) h4
            have h6 := (hstored.there f hst d).mp h5
            rw [hfix d hdn]
            have h7 := (cases_frame (P := filledP D val) hq hplain ans selected hsub hnd hS0.1 d hdn hds).trans (made_store hS d)
            rw [show storeOf D.dirs.out (runCases (filledP D val) cfg selected (mkdirs w.fs D.dirs.out, ans)).1 d = _ from h7]
            have h9 := hS.files d hdn true ".bin".toList mem_bin (by decide)
            cases hg : w.fs.get (slot D.root true d ".bin".toList) with
            | none => rw [show w.fs.get (slot (S.over D.dirs).P.root true d ".bin".toList) = none from hg] at h6; cases h6
            | some x =>
              cases x with
              | dir => exact absurd hg h9
              | file v =>
                have h10 : storedValue D.root w.fs d = some v := by
                  unfold storedValue
                  rw [hg]
                exact ⟨v, h10, ht.stored d v h10⟩
      intro k hk
      rcases List.mem_cons.mp hk with rfl | hk
      · exact hthis
      · refine ih (l1 ++ [n]) (by rw [e]; simp) ?_ k hk
        intro x hx
        rcases List.mem_append.mp hx with hx | hx
        · exact hgood x hx
        · rw [List.mem_singleton.mp hx]; exact hthis
  have hgood := good selected [] rfl (fun _ h => by cases h)
  refine ⟨val, ?_, ?_, ?_⟩
  · intro sel' hsel'
    rw [hsame sel' hsel']
    refine ⟨hgood, fun k hk => ?_⟩
    rw [hfix k hk]
    split
    · rename_i hks
      obtain ⟨vs, h5, h6⟩ := hgood k hks
      obtain ⟨-, h7⟩ := repeat_ok ht hacc (hin k hks) h5 h6 (snapshot D.root w.fs k)
      exact cases_value (P := filledP D val) hq hplain hsub hnd hS0.1 ans hks (by
        show (caseSpec (filledP D val) cfg k (snapshot D.root (mkdirs w.fs D.dirs.out) k)).1 = _
        rw [show snapshot D.root (mkdirs w.fs D.dirs.out) k = snapshot D.root w.fs k from hS0.2.1 k hk]
        exact h7)
    · rename_i hks
      exact (cases_frame (P := filledP D val) hq hplain ans selected hsub hnd hS0.1 k hk hks).trans (made_store hS k)
  · rw [htodo]; exact hfix
  · intro n hn
    obtain ⟨vs, h5, h6⟩ := hgood n hn
    exact (repeat_ok ht hacc (hin n hn) h5 h6 _).2

/-- **C131**: a run that accepts, with or without workers, exits with 0 and leaves all the tests that it has been about
passing, with the values that it has stored. -/
theorem C131_accept (hl : Linked S D) (may : Str → Str → Prop) (args : List Str) (uses : List (Str × CVal)) (cases : Option (List Str)) (ns : List Str)
    (hr : Reads S.N (testChoices S.names) args uses cases) (hc : Checks (S.over D.dirs) w uses cases ns)
    (ha : On D.u w.settings uses "accept".toList) (hk : ¬ On D.u w.settings uses "continue".toList)
    (hrep : ∃ records, ofFile D.u fl w.report = some records)
    (hplain : PlainNames S.names) (hclean : ∀ n ∈ S.names, CleanName n)
    (hbatch : ∀ a ∈ S.names, ∀ b ∈ S.names, batchName a = batchName b → a = b)
    (hS : SoundTree D.root S.names w.fs) (ht : RepeatableD D w.fs may ns) (e : CommandEnd) (hd : DoesD fl S D args w e) :
    e.status = .ends (some 0) ∧ e.world.settings = w.settings ∧
    ∃ selected, AboutTests (S.over D.dirs) w uses cases (some selected) ∧ AllPassD fl S D e.world selected := by
  obtain ⟨cfg0, selected, _, _, val, h0, hab, -, hset, -, hdoes⟩ := doesD_does hl hr hc hrep hplain hclean hbatch hS
    (Q := fun val => ∀ sel', AboutTests (S.over D.dirs) w uses cases (some sel') → Settles S D w may sel' val)
    (accept_seen hl hc hplain hS ha hk ht) hd
  have hin := (narrowed hc hab).2
  have hs := hset selected hab
  have hrt : ∀ n ∈ selected, RepeatableTest D.u ((filledP D val).tests n).body := by
    intro n hn
    obtain ⟨vs, h1, h2⟩ := hs.called n hn
    exact (repeat_ok ht (h0.accept.mpr ha) (hin n hn) h1 h2 (snapshot D.root w.fs n)).1
  obtain ⟨h1, h2, selected', h3, h4⟩ := C126_accept (S.over (filledP D val)) w args uses cases selected hr
    (checks_filled (narrowed hc hab).1) ha hk hrep hplain hclean hbatch hS hrt e hdoes
  have hsel : selected' = selected := by
    cases about_unique (about_filled (g' := fun _ => .ok []) h3) (about_filled (g' := fun _ => .ok []) hab)
    rfl
  subst hsel
  obtain ⟨cfg, records, h5, h6⟩ := end_store hr (narrowed hc hab).1 hab hrep hplain hclean hbatch hS h0
    (fun cfg hcfg n hn => by
      obtain ⟨vs, g1, g2⟩ := hs.called n hn
      exact (repeat_ok ht (hcfg.accept.mpr ha) (hin n hn) g1 g2 _).2) hdoes
  have hcont : cfg.cont = false := by rw [← Bool.not_eq_true, h5.cont]; exact hk
  have htodo : toRun cfg records selected' = selected' := by
    unfold toRun
    simp [hcont]
  rw [htodo] at h6
  have h7 : ∀ k ∈ S.names, storedValue D.root e.world.fs k = val k := by
    intro k hk
    rw [h6 k hk, ← hs.value k hk]
  have hknown : ∀ n ∈ selected', n ∈ S.names := about_in (S := S.over D.dirs) hab
  have h8 : ∀ n ∈ selected', (Spec.DProject.with D e.world.fs).tests n = (filledP D val).tests n := by
    intro n hn
    exact filled_congr fun d hd => h7 d (deps_known hl (hknown n hn) d hd)
  refine ⟨h1, h2, selected', hab, hknown, h4.files, h4.report, ?_, ?_⟩
  · intro n hn
    have := h4.passes n hn
    unfold Passes at this ⊢
    rw [h8 n hn]
    exact this
  · intro n hn
    rw [h6 n (hknown n hn), if_pos hn, h8 n hn]

/-- **C131**: a run that accepts comes to an end, with or without workers (if their number is possible). -/
theorem C131_accept_ends (hl : Linked S D) (may : Str → Str → Prop) (args : List Str) (uses : List (Str × CVal)) (cases : Option (List Str))
    (ns : List Str) (hr : Reads S.N (testChoices S.names) args uses cases) (hc : Checks (S.over D.dirs) w uses cases ns)
    (ha : On D.u w.settings uses "accept".toList) (hk : ¬ On D.u w.settings uses "continue".toList)
    (hrep : ∃ records, ofFile D.u fl w.report = some records)
    (hplain : PlainNames S.names) (hclean : ∀ n ∈ S.names, CleanName n)
    (hbatch : ∀ a ∈ S.names, ∀ b ∈ S.names, batchName a = batchName b → a = b)
    (hS : SoundTree D.root S.names w.fs) (ht : RepeatableD D w.fs may ns) (ans : List Str) (dur : Str → fl.D) (zero : fl.D)
    (hw : ∀ v, Setting D.u w.settings uses "parallel".toList (some v) → Given v →
      (workers S.N.int S.cpuCount (some v)).isSome = true) : ∃ e, DoesD fl S D args w e :=
  doesD_exists hl hr hc hrep hplain hclean hbatch hS
    (fun cfg selected records ans a b c => (accept_seen hl hc hplain hS ha hk ht cfg selected records ans a b c).imp
      fun _ h => h.2) ans dur zero hw

/-! ### A case that meets the hypotheses -/

private def pa : List (Str × CVal) := [("parallel".toList, .bool true), ("accept".toList, .bool true)]

private def sums : DProject := handedOn (some "5".toList)

private theorem final_pa {key : Str} {v : CVal} (h : Finally pa key v) : (key, v) ∈ pa := by
  obtain ⟨pre, x, post, h1, h2, -⟩ := h
  rw [h1, h2]
  simp

private theorem quiet_pa {key : Str} {o : Option CVal} :
    Chosen ascii started.settings "~/.booktest".toList [] {} key o → o = none := by
  intro h
  have h' := C58_priority_partial ascii started.settings [] (by simp [Dict.keys]) {} [] rfl key
  exact C58_unique ascii started.settings _ [] (by simp [Dict.keys]) {} key _ _ h h'

private theorem off_pa {key : Str} (h1 : key ≠ "parallel".toList) (h2 : key ≠ "accept".toList) :
    ¬ On ascii started.settings pa key := by
  rintro ⟨v, h, -⟩
  cases h with
  | said _ h =>
    rcases List.mem_cons.mp (final_pa h) with e | e
    · injection e with e; exact h1 e
    · rw [List.mem_singleton] at e
      injection e with e; exact h2 e
  | unsaid _ _ h => cases quiet_pa h

private theorem shop_selects (stored : Option (Str → Bool)) : ∃ selected,
    selectedNames shop.suite ["test".toList, "book".toList] stored shop.fuel = some selected := by
  refine C31_computed (rank := fun n => if n = "test/b".toList then 1 else 0) ?_ ?_
  · rintro a b ⟨m, hm, ds, d, h1, h2, h3⟩
    simp only [shop, List.mem_cons, List.not_mem_nil, or_false] at hm
    rcases hm with hm | hm | hm
    · cases hm
      have h1 : some [(⟨none, 0⟩ : Meth)] = some ds := h1
      injection h1 with h1
      subst h1
      rw [List.mem_singleton.mp h2] at h3
      have h3 : some "test/a".toList = some b := h3
      injection h3 with h3
      subst h3
      decide
    · cases hm; cases (show (none : Option (List Meth)) = some ds from h1)
    · cases hm; cases (show (none : Option (List Meth)) = some ds from h1)
  · intro c _
    split <;> decide

private theorem selected_all {stored : Option (Str → Bool)} {selected : List Str}
    (h : selectedNames shop.suite ["test".toList, "book".toList] stored shop.fuel = some selected) :
    ∀ n, n ∈ selected ↔ n ∈ shop.names := by
  have h1 := C31_selected h
  intro n
  constructor
  · intro hn
    obtain ⟨m, hm⟩ := h1.2.2.2 n hn
    exact List.mem_map.mpr ⟨_, hm, rfl⟩
  · intro hn
    obtain ⟨c, hc, rfl⟩ := List.mem_map.mp hn
    refine h1.2.1 c hc ?_
    revert c
    decide

private theorem checks_pa {w : World} (hw : w.settings = started.settings) : Checks (shop.over sums.dirs) w pa none shop.names := by
  obtain ⟨selected, hsel⟩ := shop_selects (some (fun n => (w.fs.get (slot sums.dirs.root true n ".bin".toList)).isSome))
  refine ⟨?_, ?_, ?_, ?_, selected, ?_, fun n hn => (selected_all hsel n).mp hn⟩
  · intro c hc
    have := final_pa hc
    revert this
    unfold pa
    intro h
    rcases List.mem_cons.mp h with e | e
    · injection e with e
      exact absurd e (by decide)
    · rw [List.mem_singleton] at e
      injection e with e
      exact absurd e (by decide)
  · rw [hw]
    intro key hk
    refine off_pa ?_ ?_ <;> (rintro rfl; revert hk; decide)
  · rw [hw]; intro line hl
    cases (show line ∈ ([] : List Str) from hl)
  · rw [hw]; exact fun _ v hv => nomatch quiet_pa hv
  · refine ⟨_, some (fun n => (w.fs.get (slot sums.dirs.root true n ".bin".toList)).isSome), .usual (by
      rw [hw]; exact C58_priority_partial ascii started.settings [] (by simp [Dict.keys]) {} [] rfl _), ⟨?_, ?_⟩, hsel⟩
    · rw [hw]
      constructor
      · intro h; cases h
      · exact fun h => absurd h (off_pa (by decide) (by decide))
    · intro f hf n
      cases hf
      rfl

/-- `booktest -p -a` in a new project in which a test prints what another one returns, and then again. -/
example : ∃ e e', DoesD strokes shop sums ["-p".toList, "-a".toList] started e ∧ e.status = .ends (some 0) ∧
    DoesD strokes shop sums ["-p".toList, "-a".toList] e.world e' ∧ e'.status = .ends (some 0) ∧
    ∀ n ∈ shop.names, snapshot sums.root e'.world.fs n = snapshot sums.root e.world.fs n := by
  have hr : Reads shop.N (testChoices shop.names) ["-p".toList, "-a".toList] pa none :=
    .options _ _ (.cons ["-p".toList] _ [("parallel".toList, .bool true)] _
      (.alone "-p".toList "-p".toList _ _ ⟨by decide, List.prefix_rfl, .inl rfl⟩ (.switch _ _ _ (by decide)))
      (.cons ["-a".toList] [] [("accept".toList, .bool true)] []
        (.alone "-a".toList "-a".toList _ _ ⟨by decide, List.prefix_rfl, .inl rfl⟩ (.switch _ _ _ (by decide))) .nil))
  have hset : Setting ascii started.settings pa "parallel".toList (some (.bool true)) :=
    .said _ ⟨[], _, _, rfl, rfl, by
      intro x hx v e
      rw [List.mem_singleton.mp hx] at e
      injection e with e
      exact absurd e (by decide)⟩ ⟨by decide, by decide, by decide⟩
  have ha : On ascii started.settings pa "accept".toList :=
    ⟨.bool true, .said _ ⟨[("parallel".toList, .bool true)], _, [], rfl, rfl, by
      intro x hx v e
      cases hx⟩ ⟨by decide, by decide, by decide⟩,
      ⟨by decide, by decide, by decide⟩⟩
  have hclean : ∀ n ∈ shop.names, CleanName n := by unfold CleanName; decide
  have hbatch : ∀ a ∈ shop.names, ∀ b ∈ shop.names, batchName a = batchName b → a = b := by decide
  have ht : RepeatableD sums started.fs (fun _ v => v = "5".toList) shop.names := by
    refine ⟨?_, ?_, ?_⟩
    · intro n v h
      have g : FS.get [([], .dir)] (slot ["books".toList] true n ".bin".toList) = none := by
        rw [get_cons, if_neg (slot_ne_nil _ true n (Or.inr mem_bin))]; rfl
      have h : storedValue ["books".toList] [([], .dir)] n = some v := h
      unfold storedValue at h
      rw [g] at h
      cases h
    · intro n hn vs hvs
      change n ∈ ["test/b".toList, "test/a".toList, "test/c".toList] at hn
      simp only [List.mem_cons, List.not_mem_nil, or_false] at hn
      rcases hn with rfl | rfl | rfl
      · obtain ⟨h1, h2⟩ := hvs
        match vs, h1, h2 with
        | [v], _, h2 =>
          have hv : v = "5".toList := h2 ("test/a".toList, v) (by exact List.mem_singleton.mpr rfl)
          subst hv
          exact ⟨rfl, ⟨Or.inr rfl, trivial, trivial⟩, ⟨_, rfl, by decide⟩, by decide⟩
      · obtain ⟨h1, h2⟩ := hvs
        match vs, h1 with
        | [], _ => exact ⟨rfl, ⟨Or.inr rfl, trivial, trivial⟩, ⟨_, rfl, by decide⟩, by decide⟩
      · obtain ⟨h1, h2⟩ := hvs
        match vs, h1 with
        | [], _ => exact ⟨rfl, ⟨Or.inr rfl, trivial, trivial⟩, ⟨_, rfl, by decide⟩, by decide⟩
    · intro n _ vs _ v h
      have h : some "5".toList = some v := h
      injection h with h
      exact h.symm
  have hw : ∀ v, Setting ascii started.settings pa "parallel".toList (some v) → Given v →
      (workers shop.N.int shop.cpuCount (some v)).isSome = true := by
    intro v h _
    have := setting_unique h hset
    injection this with this
    rw [this]
    decide
  have hk := off_pa (key := "continue".toList) (by decide) (by decide)
  obtain ⟨e, he⟩ := C131_accept_ends (fl := strokes) shop_linked _ _ _ _ shop.names hr (checks_pa rfl) ha hk
    ⟨[], rfl⟩ shop_plain hclean hbatch started_sound ht [] (fun _ => (0 : Nat)) (0 : Nat) hw
  obtain ⟨k1, k2, selected, k3, k4⟩ := C131_accept (fl := strokes) shop_linked _ _ _ _ _ hr (checks_pa rfl) ha hk
    ⟨[], rfl⟩ shop_plain hclean hbatch started_sound ht e he
  have hc : Checks (shop.over sums.dirs) e.world pa none selected := by
    obtain ⟨names, h1, h2⟩ := (checks_pa k2).about
    refine ⟨(checks_pa k2).run, (checks_pa k2).off, (checks_pa k2).settings, (checks_pa k2).defaults, names, h1, ?_⟩
    intro n hn
    obtain ⟨s, t, g1, -, g2⟩ := k3
    cases g1 with
    | configured x hx => cases quiet_pa hx
    | usual _ => exact (selected_all g2 n).mpr (h2 n hn)
  obtain ⟨e', he'⟩ := C131_ends (fl := strokes) shop_linked k4 _ _ _ [] (fun _ => (0 : Nat)) (0 : Nat) hr hc shop_plain hclean
    hbatch (by rw [k2]; exact hw)
  obtain ⟨j1, -, -, j2, -⟩ := C131_again (fl := strokes) shop_linked k4 _ _ _ hr hc shop_plain hclean hbatch e' he'
  exact ⟨e, e', he, k1, he', j1, j2⟩

end Verif.Props
