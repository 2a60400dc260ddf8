import Verif.Model.ExecWorkers
import Verif.Props.Exec
import Verif.Props.FairRun

/-! # C125: commands with workers leave what commands without workers leave -/

namespace Verif.Props
open Verif.Py Verif.Model Verif.Spec Verif.Lemmas

variable {fl : Durations}

theorem begun {S : Site} {w : World} {args : List Str} {uses : List (Str × CVal)} {cases : Option (List Str)}
    (hr : Reads S.N (testChoices S.names) args uses cases) {dur : Str → fl.D} {zero : fl.D}
    {breaks : Str → Bool → Prop} {c : RConf fl} {records : List (Rec fl)}
    (h : workersRun S args dur zero breaks w = some (c, records)) (ans : List Str) :
    ∃ config sel selected, Prepared (fl := fl) S w uses cases config sel selected records ∧
      c = workersConf S config dur zero breaks records selected ∧ AsksRun uses ∧
      isOn config "coverage".toList = false ∧
      ∃ k, booktest S args ans dur w = { world := w, status := .workers (some k) } := by
  obtain ⟨values, hp, hu⟩ := C106_complete S.N S.names args uses cases hr
  unfold workersRun at h
  rw [hp] at h
  dsimp only at h
  cases hc : execConfig S.P.u none w.settings [] (argsOf values) with
  | none => rw [hc] at h; cases h
  | some config =>
    rw [hc] at h
    dsimp only at h
    cases hs : selectionOf config cases with
    | none => rw [hs] at h; cases h
    | some sel =>
      rw [hs] at h
      dsimp only at h
      cases hn : selectedNames S.suite sel (storedIn S.P config w.fs) S.fuel with
      | none => rw [hn] at h; cases h
      | some selected =>
        rw [hn] at h
        dsimp only at h
        cases ho : ofFile S.P.u fl w.report with
        | none => rw [ho] at h; cases h
        | some rs =>
          rw [ho] at h
          dsimp only at h
          by_cases hif : commandOf values = none ∧ isOn config "parallel".toList = true ∧
              isOn config "coverage".toList = false ∧
              (workers S.N.int S.cpuCount (config.get "parallel".toList)).isSome = true
          · rw [if_pos hif] at h
            injection h with h
            injection h with h1 h2
            subst h2
            obtain ⟨k, hk⟩ := Option.isSome_iff_exists.mp hif.2.2.2
            refine ⟨config, sel, selected, ⟨fun key hk => config_said hr hp hc hk, hs, hn, ho, execConfig_nodup hc⟩,
              h1.symm, ?_, hif.2.2.1, k, ?_⟩
            · intro x hx
              have := (hu.command x).mpr hx
              rw [hif.1] at this
              cases this
            · unfold booktest
              rw [hp]
              dsimp only
              unfold execParsed
              rw [hc]
              dsimp only
              rw [hs]
              dsimp only
              rw [hn]
              dsimp only
              rw [ho]
              dsimp only
              rw [hif.1, dispatch_run]
              unfold runCovered runCommand
              rw [hif.2.1, hif.2.2.1, hk]
              rfl
          · rw [if_neg hif] at h; cases h

private theorem before_rank {l : List Str} {a b : Str} (h : Before l b a) : l.idxOf b < l.idxOf a := by
  obtain ⟨l1, l2, rfl, h1, h2⟩ := h
  rw [List.idxOf_append, if_pos h2, List.idxOf_append, if_neg h1]
  have := List.idxOf_lt_length_iff.mpr h2
  omega

/-- What is known of the run with workers that a command begins. -/
structure Begun (S : Site) (w : World) (uses : List (Str × CVal)) (cases : Option (List Str)) (dur : Str → fl.D)
    (zero : fl.D) (breaks : Str → Bool → Prop) (c : RConf fl) (records : List (Rec fl)) (config : Dict CVal)
    (sel selected : List Str) : Prop where
  prepared : Prepared (fl := fl) S w uses cases config sel selected records
  conf : c = workersConf S config dur zero breaks records selected
  run : AsksRun uses
  uncovered : isOn config "coverage".toList = false
  quiet : NotAsking (configOf config)
  update : (configOf config).update = false
  todo : c.todo = toRun c.cfg records selected
  sub : ∀ n ∈ c.todo, n ∈ selected
  names : ∀ n ∈ c.todo, n ∈ S.names
  stops : NeverStops c.P c.cfg w.fs c.todo
  tidy : Tidy c
  rank : ∀ n ∈ c.todo, ∀ d ∈ c.deps n, d ∈ c.todo → selected.idxOf d < selected.idxOf n
  unbroken : ∀ n b, ¬ c.breaks n b
  ends : ∀ n ∈ c.todo, runTest (c.P.env (snapshot c.P.root w.fs n)) (c.P.tests n).body ≠ none

theorem workers_facts {S : Site} {w : World} {args : List Str} {dur : Str → fl.D} {zero : fl.D}
    {breaks : Str → Bool → Prop} {uses : List (Str × CVal)} {cases : Option (List Str)}
    (hr : Reads S.N (testChoices S.names) args uses cases)
    (hi : ¬ On S.P.u w.settings uses "interactive".toList) (hI : ¬ On S.P.u w.settings uses "always_interactive".toList)
    (hu : ¬ On S.P.u w.settings uses "update".toList) 
    (hf : ∀ names, AboutTests S w uses cases (some names) → NothingStops S w uses names)
    (hclean : ∀ n ∈ S.names, CleanName n)
    (hbatch : ∀ a ∈ S.names, ∀ b ∈ S.names, batchName a = batchName b → a = b)
    (hb : ∀ n b, ¬ breaks n b)
    (hh : ∀ names, AboutTests S w uses cases (some names) → ∀ n ∈ names,
      runTest (S.P.env (snapshot S.P.root w.fs n)) (S.P.tests n).body ≠ none)
    {c : RConf fl} {records : List (Rec fl)} (hrun : workersRun S args dur zero breaks w = some (c, records))
    (ans : List Str) :
    ∃ config sel selected, Begun S w uses cases dur zero breaks c records config sel selected ∧
      ∃ k, booktest S args ans dur w = { world := w, status := .workers (some k) } := by
  obtain ⟨config, sel, selected1, hprep, hc, hrn, hcov, k, hbt⟩ := begun hr hrun ans
  have habout : AboutTests S w uses cases (some selected1) :=
    ⟨sel, _, selection_said hr hprep.said hprep.chosen, stored_said hprep.said, hprep.names⟩
  have hsaid := config_on hprep
  have hcP : c.P = S.P := by rw [hc]; rfl
  have hccfg : c.cfg = configOf config := by rw [hc]; rfl
  have hctodo : c.todo = listed (configOf config) records selected1 := by rw [hc]; rfl
  have hask : NotAsking (configOf config) :=
    ⟨by rw [← Bool.not_eq_true, hsaid.alwaysInteractive]; exact hI,
     by rw [← Bool.not_eq_true, hsaid.interactive]; exact hi⟩
  have hupd : (configOf config).update = false := by rw [← Bool.not_eq_true, hsaid.update]; exact hu
  have htodo : c.todo = toRun c.cfg records selected1 := by
    rw [hctodo, hccfg]; exact (doneAndTodo_eq (configOf config) records selected1).1
  have hselected := C31_selected hprep.names
  have hin : ∀ n ∈ c.todo, n ∈ selected1 := by
    intro n hn
    rw [htodo] at hn
    exact (List.mem_filter.mp hn).1
  have hnames : ∀ n ∈ c.todo, n ∈ S.names := by
    intro n hn
    obtain ⟨m, hm⟩ := hselected.2.2.2 n (hin n hn)
    exact List.mem_map.mpr ⟨_, hm, rfl⟩
  have hff : NeverStops c.P c.cfg w.fs c.todo := by
    rw [hcP, hccfg]
    intro h n hn s hs
    rcases hf _ habout (hsaid.failFast.mp h) n (hin n hn) s hs with h | ⟨h1, h2⟩
    · exact Or.inl h
    · exact Or.inr (Or.inr ⟨h1, hsaid.accept.mpr h2⟩)
  have ht : Tidy c := by
    refine ⟨?_, ?_, ?_⟩
    · rw [htodo]; exact hselected.1.filter _
    · exact fun a ha b hb => hbatch a (hnames a ha) b (hnames b hb)
    · exact fun n hn => hclean n (hnames n hn)
  have hrank : ∀ n ∈ c.todo, ∀ d ∈ c.deps n, d ∈ c.todo → selected1.idxOf d < selected1.idxOf n := by
    intro n hn d hd hdt
    refine before_rank ?_
    rw [hc] at hd
    change d ∈ (match getCase S.suite n with
      | none => []
      | some m => methodDependencies S.suite m _ none) at hd
    cases hm : getCase S.suite n with
    | none => rw [hm] at hd; cases hd
    | some m =>
      rw [hm] at hd
      refine C32_dependencies_first hprep.names (hin n hn) hm (mem_methodDependencies.mp hd).1 ?_
      rcases (selectedNames_spec hprep.names).2.2 d (hin d hdt) with h | h
      · exact Or.inl h.1
      · exact Or.inr h.1
  have hbr : ∀ n b, ¬ c.breaks n b := by rw [hc]; exact hb
  have hh' : ∀ n ∈ c.todo, runTest (c.P.env (snapshot c.P.root w.fs n)) (c.P.tests n).body ≠ none := by
    intro n hn
    rw [hcP]; exact hh _ habout n (hin n hn)
  exact ⟨config, sel, selected1, ⟨hprep, hc, hrn, hcov, hask, hupd, htodo, hin, hnames, hff, ht, hrank, hbr, hh'⟩, k, hbt⟩

/-- What a run with workers leaves, compared with the run in one process of the same tests. -/
theorem workers_core {S : Site} {w : World} {args : List Str} {dur : Str → fl.D} {zero : fl.D}
    {breaks : Str → Bool → Prop} {uses : List (Str × CVal)} {cases : Option (List Str)}
    (hr : Reads S.N (testChoices S.names) args uses cases)
    (hi : ¬ On S.P.u w.settings uses "interactive".toList) (hI : ¬ On S.P.u w.settings uses "always_interactive".toList)
    (hu : ¬ On S.P.u w.settings uses "update".toList) 
    (hf : ∀ names, AboutTests S w uses cases (some names) → NothingStops S w uses names)
    (hplain : PlainNames S.names) (hclean : ∀ n ∈ S.names, CleanName n)
    (hbatch : ∀ a ∈ S.names, ∀ b ∈ S.names, batchName a = batchName b → a = b)
    (hS : SoundTree S.P.root S.names w.fs) (hb : ∀ n b, ¬ breaks n b)
    (hh : ∀ names, AboutTests S w uses cases (some names) → ∀ n ∈ names,
      runTest (S.P.env (snapshot S.P.root w.fs n)) (S.P.tests n).body ≠ none)
    {c : RConf fl} {records : List (Rec fl)} (hrun : workersRun S args dur zero breaks w = some (c, records))
    (ans : List Str) :
    ∃ config sel selected, Prepared (fl := fl) S w uses cases config sel selected records ∧ AsksRun uses ∧
      isOn config "coverage".toList = false ∧
      (∃ k, booktest S args ans dur w = { world := w, status := .workers (some k) }) ∧
      (∃ σ, FairRun c (mkdirs w.fs S.P.out) ans σ) ∧ ∀ σ, FairRun c (mkdirs w.fs S.P.out) ans σ →
      (∃ i x, (σ i).run.rpc = .ended x) ∧ ∀ i x, (σ i).run.rpc = .ended x → ∀ ans' config', configOf config' = configOf config →
      let e := workersEnd w c records (σ i)
      let e' := runHere S config' dur selected ans' w
      e.status = e'.status ∧ e.ran.Perm e'.ran ∧
      e.world.settings = e'.world.settings ∧ e.world.metrics = e'.world.metrics ∧
      (∀ p, e.world.fs.get p = e'.world.fs.get p) ∧
      ∃ ps ss, ofFile S.P.u fl e.world.report = some ps ∧ ofFile S.P.u fl e'.world.report = some ss ∧
        (ps.map key).Perm (ss.map key) := by
  obtain ⟨config, sel, selected1, ⟨hprep, hc, hrn, hcov, hask, hupd, htodo, hin, hnames, hff, ht, hrank, hbr, hh'⟩, k, hbt⟩ :=
    workers_facts hr hi hI hu hf hclean hbatch hb hh hrun ans
  have hcu : c.u = S.P.u := by rw [hc]; rfl
  have hcP : c.P = S.P := by rw [hc]; rfl
  have hccfg : c.cfg = configOf config := by rw [hc]; rfl
  have hcall : c.all = S.names := by rw [hc]; rfl
  have hcdur : c.dur = dur := by rw [hc]; rfl
  have hS' : SoundTree c.P.root S.names w.fs := by rw [hcP]; exact hS
  refine ⟨config, sel, selected1, hprep, hrn, hcov, ⟨k, hbt⟩, ?_, ?_⟩
  · have := C124_exists (ans := ans) ht (by rw [hccfg]; exact hask) (by rw [hccfg]; exact hupd) hff
      hplain hS' hnames hbr hrank hh'
    rw [hcP] at this
    exact this
  · intro σ hσ
    have hσ' : FairRun c (mkdirs w.fs c.P.out) ans σ := by rw [hcP]; exact hσ
    have gends := fun ans' : List Str => C124_ends (ans' := ans') ht
      (by rw [hccfg]; exact hask) (by rw [hccfg]; exact hupd) hff (by rw [hcu, hcP])
      hplain hS' hnames hbr hrank hh' (file := w.report) (by rw [hcu]; exact hprep.records) htodo hσ'
    refine ⟨(gends []).1, fun i x g1 ans' config' hconf => ?_⟩
    obtain ⟨rfl, g2, ⟨g, g3, g4⟩, ⟨ps, ss, g5, g6, g7⟩, v, g8, g9⟩ := (gends ans').2 i x g1
    rw [hcP, hccfg, hcdur, hcall] at g4 g6 g8
    rw [hcu] at g5 g6
    have hres : ∃ r, (runAsync S.P.u fl (configOf config) (projectOutcome S.P (configOf config) dur
        (mkdirs w.fs S.P.out, ans')) selected1 w.report).2 = some r := by
      cases hnone : (runAsync S.P.u fl (configOf config) (projectOutcome S.P (configOf config) dur
        (mkdirs w.fs S.P.out, ans')) selected1 w.report).2 with
      | some r => exact ⟨r, rfl⟩
      | none =>
        unfold runProject at g8
        dsimp only at g8
        rw [hnone] at g8
        cases g8
    obtain ⟨r, hres⟩ := hres
    unfold runHere
    rw [hconf]
    dsimp only
    rw [g8, hres]
    refine ⟨?_, ?_, rfl, ?_, ?_, ps, ss, g5, g6, g7⟩
    · unfold workersEnd
      rw [g1, g3]
      dsimp only
      rw [g9]
    · have hR := run_reach (fair_run_reach hσ' i)
      have hinv := inv_reach ht.todo hR
      have hst : (σ i).run.started.Perm c.todo := by
        refine (List.perm_ext_iff_of_nodup hinv.nodup ht.todo).mpr fun n => ⟨hinv.sub n, fun hn => ?_⟩
        have hw := winv_reach (named_pconf ht) hR
        have hrec := hw.rec_
        rw [g1] at hrec
        obtain ⟨k, -, pre, h3, h4⟩ := hrec
        obtain ⟨lost, hcount, -⟩ := hw.count
        refine (hinv.mem_started n).mpr (Or.inl (hcount.mem_iff.mp ?_))
        have hn := g2.mem_iff.mpr hn
        rw [h4] at hn
        simp only [List.mem_append]
        rcases List.mem_append.mp hn with hn | hn
        · exact Or.inl (Or.inl (Or.inl (h3.subset hn)))
        · obtain ⟨x, hx, rfl⟩ := List.mem_map.mp hn
          exact Or.inl (Or.inl (Or.inr (List.mem_map_of_mem (List.mem_of_mem_take hx))))
      have hran : ranNames (runEvents S.P (configOf config) dur selected1 w.fs ans' w.report) = c.todo := by
        have := same_ran ht (by rw [hccfg]; exact hask) (by rw [hccfg]; exact hupd) hff (by rw [hcu, hcP]) hplain hS' hnames
          (file := w.report) (by rw [hcu]; exact hprep.records) htodo (fair_run_reach hσ' i) (by
            intro n hn
            obtain ⟨x, hx, rfl⟩ := List.mem_map.mp (g2.mem_iff.mpr hn)
            exact ⟨_, _, hx⟩) ans'
        rw [hcP, hccfg, hcdur] at this
        exact this
      rw [hran]
      exact hst
    · show true = _
      simp
    · intro p
      unfold workersEnd
      rw [g3]
      exact g4 p

theorem about_in {S : Site} {w : World} {uses : List (Str × CVal)} {cases : Option (List Str)}
    {names : List Str} (h : AboutTests S w uses cases (some names)) : ∀ n ∈ names, n ∈ S.names := by
  obtain ⟨sel, st, -, -, h⟩ := h
  intro n hn
  obtain ⟨m, hm⟩ := (C31_selected h).2.2.2 n hn
  exact List.mem_map.mpr ⟨_, hm, rfl⟩

/-- The command without workers, of two that differ in what they say about workers. -/
theorem run_here {S : Site} {w : World} {args args' ans : List Str} {dur : Str → fl.D}
    {uses uses' : List (Str × CVal)} {cases : Option (List Str)}
    (hr : Reads S.N (testChoices S.names) args uses cases) (hr' : Reads S.N (testChoices S.names) args' uses' cases)
    (hsame : ∀ key v, key ≠ "parallel".toList → (Finally uses key v ↔ Finally uses' key v))
    (hp' : ¬ On S.P.u w.settings uses' "parallel".toList)
    {config : Dict CVal} {sel selected : List Str} {records : List (Rec fl)}
    (hprep : Prepared (fl := fl) S w uses cases config sel selected records) (hrn : AsksRun uses)
    (hcov : isOn config "coverage".toList = false) {k : Nat}
    (hbt : booktest S args ans dur w = { world := w, status := .workers (some k) }) (ans' : List Str) :
    ∃ config', configOf config' = configOf config ∧ booktest S args' ans' dur w = runHere S config' dur selected ans' w := by
  have hset : ∀ key o, key ≠ "parallel".toList →
      (Setting S.P.u w.settings uses key o ↔ Setting S.P.u w.settings uses' key o) := by
    intro key o hk
    constructor
    · intro h
      cases h with
      | said v h1 h2 => exact .said v ((hsame key v hk).mp h1) h2
      | unsaid _ h1 h2 => exact .unsaid _ (fun v hv => h1 v ((hsame key v hk).mpr hv)) h2
    · intro h
      cases h with
      | said v h1 h2 => exact .said v ((hsame key v hk).mpr h1) h2
      | unsaid _ h1 h2 => exact .unsaid _ (fun v hv => h1 v ((hsame key v hk).mp hv)) h2
  have hon : ∀ key, key ≠ "parallel".toList → (On S.P.u w.settings uses key ↔ On S.P.u w.settings uses' key) := by
    intro key hk
    exact ⟨fun ⟨v, h1, h2⟩ => ⟨v, (hset key _ hk).mp h1, h2⟩, fun ⟨v, h1, h2⟩ => ⟨v, (hset key _ hk).mpr h1, h2⟩⟩
  rcases prepared_both (fl := fl) (w := w) (w' := w) hr hr' rfl rfl rfl (hon _ (by decide)) ans ans' dur dur with
    ⟨e, e'⟩ | ⟨config1, config', sel1, selected1, records1, records', cmd, cmd', h1, h2, hcmd, hcmd', e, e'⟩
  · rw [e] at hbt
    injection hbt with _ _ _ hx
    cases hx
  have hrec : records' = records := by
    have := hprep.records
    rw [h2.records] at this
    injection this
  subst hrec
  have hsel : selected1 = selected := by
    have e1 : sel1 = sel := selection_unique (selection_said hr h1.said h1.chosen) (selection_said hr hprep.said hprep.chosen)
    have e2 := stored_unique (stored_said h1.said) (stored_said hprep.said)
    have e3 := h1.names
    rw [e1, e2, hprep.names] at e3
    injection e3 with e3
    exact e3.symm
  subst hsel
  have hcfg : ∀ key, key ≠ "command".toList → key ≠ "parallel".toList → isOn config key = isOn config' key := by
    intro key hk hk'
    rw [Bool.eq_iff_iff, isOn_iff (hprep.said key hk), isOn_iff (h2.said key hk)]
    exact hon key hk'
  have hconf : configOf config' = configOf config := by
    unfold configOf
    rw [hcfg _ (by decide) (by decide), hcfg _ (by decide) (by decide), hcfg _ (by decide) (by decide),
      hcfg _ (by decide) (by decide), hcfg _ (by decide) (by decide), hcfg _ (by decide) (by decide)]
  have hp2 : isOn config' "parallel".toList = false := by
    rw [← Bool.not_eq_true, isOn_iff (h2.said "parallel".toList (by decide))]; exact hp'
  have hv2 : isOn config' "coverage".toList = false := by
    rw [← hcfg _ (by decide) (by decide)]; exact hcov
  have hcmd0 : cmd' = none := by
    cases cmd' with
    | none => rfl
    | some x =>
      exact absurd ((hsame "command".toList (.str x) (by decide)).mpr ((hcmd' x).mp rfl)) (hrn x)
  have erun : booktest S args' ans' dur w = runHere S config' dur selected1 ans' w := by
    rw [e', hcmd0, dispatch_run]
    unfold runCovered runCommand
    rw [hp2, hv2]
    rfl
  exact ⟨config', hconf, erun⟩

/-- **C125**: of two commands that differ in what they say about workers only, the one with workers leaves what the other
one leaves. (See `C125_option` for the conditions.) -/
theorem C125_same (S : Site) (w : World) (args args' ans ans' : List Str) (dur : Str → fl.D) (zero : fl.D)
    (breaks : Str → Bool → Prop) (uses uses' : List (Str × CVal)) (cases : Option (List Str))
    (hr : Reads S.N (testChoices S.names) args uses cases) (hr' : Reads S.N (testChoices S.names) args' uses' cases)
    (hsame : ∀ key v, key ≠ "parallel".toList → (Finally uses key v ↔ Finally uses' key v))
    (hp' : ¬ On S.P.u w.settings uses' "parallel".toList)
    (hi : ¬ On S.P.u w.settings uses "interactive".toList) (hI : ¬ On S.P.u w.settings uses "always_interactive".toList)
    (hu : ¬ On S.P.u w.settings uses "update".toList) 
    (hf : ∀ names, AboutTests S w uses cases (some names) → NothingStops S w uses names)
    (hplain : PlainNames S.names) (hclean : ∀ n ∈ S.names, CleanName n)
    (hbatch : ∀ a ∈ S.names, ∀ b ∈ S.names, batchName a = batchName b → a = b)
    (hS : SoundTree S.P.root S.names w.fs) (hb : ∀ n b, ¬ breaks n b)
    (hh : ∀ n ∈ S.names, runTest (S.P.env (snapshot S.P.root w.fs n)) (S.P.tests n).body ≠ none)
    {c : RConf fl} {records : List (Rec fl)} (hrun : workersRun S args dur zero breaks w = some (c, records)) :
    (∃ σ, FairRun c (mkdirs w.fs S.P.out) ans σ) ∧ ∀ σ, FairRun c (mkdirs w.fs S.P.out) ans σ →
      (∃ i x, (σ i).run.rpc = .ended x) ∧ ∀ i x, (σ i).run.rpc = .ended x →
      let e := workersEnd w c records (σ i)
      let e' := booktest S args' ans' dur w
      e.status = e'.status ∧ e.ran.Perm e'.ran ∧
      e.world.settings = e'.world.settings ∧ e.world.metrics = e'.world.metrics ∧
      (∀ p, e.world.fs.get p = e'.world.fs.get p) ∧
      ∃ ps ss, ofFile S.P.u fl e.world.report = some ps ∧ ofFile S.P.u fl e'.world.report = some ss ∧
        (ps.map key).Perm (ss.map key) := by
  obtain ⟨config, sel, selected, hprep, hrn, hcov, ⟨k, hbt⟩, hex, hall⟩ := workers_core hr hi hI hu hf hplain hclean hbatch
    hS hb (fun names hab n hn => hh n (about_in hab n hn)) hrun ans
  obtain ⟨config', hconf, erun⟩ := run_here hr hr' hsame hp' hprep hrn hcov hbt ans'
  refine ⟨hex, fun σ hσ => ?_⟩
  obtain ⟨g1, g2⟩ := hall σ hσ
  refine ⟨g1, fun i x hx => ?_⟩
  rw [erun]
  exact g2 i x hx ans' config' hconf

/-! ### Commands with `-p` -/

theorem workers_begin {S : Site} {w : World} {args : List Str} {uses : List (Str × CVal)}
    {cases : Option (List Str)} (hr : Reads S.N (testChoices S.names) args uses cases) (hn : AsksRun uses)
    (hs : ¬ CannotStart fl S w uses cases) (dur : Str → fl.D) (zero : fl.D) (breaks : Str → Bool → Prop)
    (ans : List Str) :
    ∃ config sel selected records, Prepared (fl := fl) S w uses cases config sel selected records ∧
      workersRun S args dur zero breaks w =
        (if isOn config "parallel".toList = true ∧ isOn config "coverage".toList = false ∧
            (workers S.N.int S.cpuCount (config.get "parallel".toList)).isSome = true then
          some (workersConf S config dur zero breaks records selected, records) else none) ∧
      booktest S args ans dur w = runCovered S config dur selected ans w := by
  obtain ⟨values, hp, hu⟩ := C106_complete S.N S.names args uses cases hr
  have hcmd : commandOf values = none := by
    cases hx : commandOf values with
    | none => rfl
    | some x => exact absurd ((hu.command x).mp hx) (hn x)
  unfold workersRun booktest
  rw [hp]
  dsimp only
  unfold execParsed
  cases hc : execConfig S.P.u none w.settings [] (argsOf values) with
  | none =>
    refine absurd (.settings fun h => ?_) hs
    obtain ⟨line, hl, h1, h2⟩ := (C58_error S.P.u w.settings [] (argsOf values)).mp hc
    exact h2 (h line hl h1)
  | some config =>
    have said : ∀ key, key ≠ "command".toList → Setting S.P.u w.settings uses key (config.get key) :=
      fun key hk => config_said hr hp hc hk
    dsimp only
    cases hsl : selectionOf config cases with
    | none =>
      refine absurd ?_ hs
      cases cases with
      | some _ => cases hsl
      | none =>
        refine .defaults rfl fun h => ?_
        have h1 := setting_default hr (said "default_tests".toList (by decide))
        unfold selectionOf at hsl
        cases hg : config.get "default_tests".toList with
        | none => rw [hg] at hsl; cases hsl
        | some v =>
          rw [hg] at hsl h1
          obtain ⟨x, rfl⟩ := h v h1
          cases hsl
    | some sel =>
      dsimp only
      cases hnm : selectedNames S.suite sel (storedIn S.P config w.fs) S.fuel with
      | none =>
        exact absurd (.selection ⟨sel, _, selection_said hr said hsl, stored_said said, hnm⟩) hs
      | some selected =>
        dsimp only
        cases ho : ofFile S.P.u fl w.report with
        | none => exact absurd (.report ho) hs
        | some records =>
          refine ⟨config, sel, selected, records, ⟨said, hsl, hnm, ho, execConfig_nodup hc⟩, ?_, ?_⟩
          · dsimp only
            by_cases hif : isOn config "parallel".toList = true ∧ isOn config "coverage".toList = false ∧
                (workers S.N.int S.cpuCount (config.get "parallel".toList)).isSome = true
            · rw [if_pos hif, if_pos ⟨hcmd, hif⟩]
            · rw [if_neg hif, if_neg (fun h => hif h.2)]
          · dsimp only
            rw [hcmd, dispatch_run]

/-- **C125**: a command begins a run with workers exactly if it comes to one: tests are to be run, `-p` is switched
on with a number of processes that is possible, and there is no coverage. -/
theorem C125_begins (S : Site) (w : World) (args ans : List Str) (dur : Str → fl.D) (zero : fl.D)
    (breaks : Str → Bool → Prop) (uses : List (Str × CVal)) (cases : Option (List Str))
    (hr : Reads S.N (testChoices S.names) args uses cases) (hn : AsksRun uses) (hs : ¬ CannotStart fl S w uses cases)
    (hv : ¬ On S.P.u w.settings uses "coverage".toList) :
    (workersRun S args dur zero breaks w).isSome = true ↔
      ∃ k, (booktest S args ans dur w).status = .workers (some k) := by
  obtain ⟨config, sel, selected, records, h1, h2, h3⟩ := workers_begin hr hn hs dur zero breaks ans
  have hv' : isOn config "coverage".toList = false := by
    rw [← Bool.not_eq_true, isOn_iff (h1.said "coverage".toList (by decide))]; exact hv
  have hrun : runCovered S config dur selected ans w = runCommand S config dur selected ans w := by
    unfold runCovered
    rw [hv']
    exact if_neg (by decide)
  rw [h2, h3, hrun]
  unfold runCommand
  cases hp : isOn config "parallel".toList with
  | false =>
    rw [if_neg (fun h => Bool.noConfusion h.1), if_neg Bool.noConfusion]
    refine ⟨fun h => (by cases h), ?_⟩
    rintro ⟨k, h⟩
    unfold runHere at h
    dsimp only at h
    split at h <;> cases h
  | true =>
    cases hk : workers S.N.int S.cpuCount (config.get "parallel".toList) with
    | none =>
      rw [if_neg (fun h => Bool.noConfusion h.2.2), if_pos rfl]
      exact ⟨fun h => (by cases h), fun ⟨k, h⟩ => (by cases h)⟩
    | some k =>
      rw [if_pos ⟨rfl, hv', rfl⟩, if_pos rfl]
      exact ⟨fun _ => ⟨k, rfl⟩, fun _ => rfl⟩

/-- **C125**: the tests that workers execute are those that the command is to run (C107). At any moment, whatever happened
before: when an operation of a test has been executed, the tests that it declares as dependencies have ended, if they are
among these, and tests that share a resource are not executed at the same time. -/
theorem C125_order (S : Site) (w : World) (args : List Str) (dur : Str → fl.D) (zero : fl.D)
    (breaks : Str → Bool → Prop) (uses : List (Str × CVal)) (cases : Option (List Str))
    (hr : Reads S.N (testChoices S.names) args uses cases) {c : RConf fl} {records : List (Rec fl)}
    (hrun : workersRun S args dur zero breaks w = some (c, records)) (ans : List Str) (s : RSt fl)
    (H : RReach c (mkdirs w.fs S.P.out) ans s) :
    ToDo fl S w uses cases c.todo ∧ (∀ n ∈ s.ran, n ∈ c.todo) ∧
    (∀ n m d, n ∈ s.ran → getCase S.suite n = some m → Declares S.suite m d → d ∈ c.todo → d ∈ s.run.ready) ∧
    ∀ a b m m', s.Works a → s.Works b → a ≠ b → getCase S.suite a = some m → getCase S.suite b = some m' →
      ∀ r ∈ methodResources S.suite m, r ∉ methodResources S.suite m' := by
  obtain ⟨config, sel, selected, hprep, hc, -⟩ := begun hr hrun ans
  have htodo : c.todo = toRun (configOf config) records selected := by
    rw [hc]; exact (doneAndTodo_eq (configOf config) records selected).1
  have hnd : c.todo.Nodup := by rw [htodo]; exact (C31_selected hprep.names).1.filter _
  refine ⟨⟨selected, records, configOf config, ⟨sel, _, selection_said hr hprep.said hprep.chosen, stored_said hprep.said,
    hprep.names⟩, hprep.records, config_on hprep, htodo⟩, ?_, ?_, ?_⟩
  · exact fun n hn => (C37_once (c := c.pconf) hnd (run_reach H)).2 n (ran_started H n hn)
  · intro n m d hn hm hd hdt
    refine C118_dependencies hnd H hn ?_ hdt
    rw [hc]
    show d ∈ (match getCase S.suite n with
      | none => []
      | some m => methodDependencies S.suite m _ none)
    rw [hm]
    exact mem_methodDependencies.mpr ⟨hd, Or.inr (by simp [Spec.Stored])⟩
  · intro a b m m' ha hb hne hm hm' r h1 h2
    refine C118_exclusive hnd H ha hb hne r ?_ ?_
    · rw [hc]
      show r ∈ (match getCase S.suite a with
        | none => []
        | some m => methodResources S.suite m)
      rw [hm]; exact h1
    · rw [hc]
      show r ∈ (match getCase S.suite b with
        | none => []
        | some m => methodResources S.suite m)
      rw [hm']; exact h2

private theorem word_p (N : Numbers) : Word N ["-p".toList] [("parallel".toList, .bool true)] :=
  .alone "-p".toList "-p".toList "parallel".toList (.bool true) ⟨by decide, List.prefix_refl _, Or.inl rfl⟩
    (.switch _ _ _ (by decide))

private theorem reads_p {N : Numbers} {choices args : List Str} {uses : List (Str × CVal)} {cases : Option (List Str)}
    (h : Reads N choices args uses cases) :
    Reads N choices ("-p".toList :: args) (("parallel".toList, .bool true) :: uses) cases := by
  have hw : ∀ {ws us}, Words N ws us → Words N ("-p".toList :: ws) (("parallel".toList, .bool true) :: us) :=
    fun h => .cons ["-p".toList] _ [("parallel".toList, .bool true)] _ (word_p N) h
  cases h with
  | options _ _ h => exact .options _ _ (hw h)
  | names before names after us uses h1 h2 h3 h4 => exact .names ("-p".toList :: before) names after _ uses (hw h1) h2 h3 h4
  | dashes before plain others uses h1 h2 h3 h4 => exact .dashes ("-p".toList :: before) plain others _ (hw h1) h2 h3 h4
  | dashesOnly before uses h => exact .dashesOnly ("-p".toList :: before) _ (hw h)

private theorem finally_other {uses : List (Str × CVal)} {k key : Str} {x v : CVal} (hk : key ≠ k) :
    Finally ((k, x) :: uses) key v ↔ Finally uses key v := by
  constructor
  · rintro ⟨pre, y, post, h1, h2, h3⟩
    cases pre with
    | nil =>
      injection h1 with h1 _
      rw [h2] at h1
      injection h1 with h1
      exact absurd h1.symm hk
    | cons z pre =>
      injection h1 with _ h1
      exact ⟨pre, y, post, h1, h2, h3⟩
  · rintro ⟨pre, y, post, h1, h2, h3⟩
    exact ⟨(k, x) :: pre, y, post, by rw [h1]; rfl, h2, h3⟩

private theorem finally_first {uses : List (Str × CVal)} {k : Str} {x : CVal} (h : ∀ v, (k, v) ∉ uses) :
    Finally ((k, x) :: uses) k x := by
  refine ⟨[], (k, x), uses, rfl, rfl, ?_⟩
  intro y hy v e
  rw [e] at hy
  exact h v hy

/-- `-p` in front of the arguments. -/
theorem option_p {S : Site} {w : World} {args : List Str} (dur : Str → fl.D) (zero : fl.D)
    (breaks : Str → Bool → Prop) {uses : List (Str × CVal)} {cases : Option (List Str)}
    (hr : Reads S.N (testChoices S.names) args uses cases) (hn : AsksRun uses) (hs : ¬ CannotStart fl S w uses cases)
    (hcpu : 0 < S.cpuCount) (hno : ∀ v, ("parallel".toList, v) ∉ uses)
    (hv : ¬ On S.P.u w.settings uses "coverage".toList)
    (hf : ∀ names, AboutTests S w uses cases (some names) → NothingStops S w uses names) :
    ∃ uses2, Reads S.N (testChoices S.names) ("-p".toList :: args) uses2 cases ∧
      (∀ key v, key ≠ "parallel".toList → (Finally uses2 key v ↔ Finally uses key v)) ∧
      (∀ key, key ≠ "parallel".toList → On S.P.u w.settings uses2 key → On S.P.u w.settings uses key) ∧
      (∀ names, AboutTests S w uses2 cases (some names) → NothingStops S w uses2 names) ∧
      ∃ c records, workersRun S ("-p".toList :: args) dur zero breaks w = some (c, records) := by
  have hr2 := reads_p hr
  have hsame : ∀ key v, key ≠ "parallel".toList →
      (Finally (("parallel".toList, .bool true) :: uses) key v ↔ Finally uses key v) :=
    fun key v hk => finally_other hk
  have hset : ∀ key o, key ≠ "parallel".toList →
      (Setting S.P.u w.settings (("parallel".toList, .bool true) :: uses) key o ↔ Setting S.P.u w.settings uses key o) := by
    intro key o hk
    constructor
    · intro h
      cases h with
      | said v h1 h2 => exact .said v ((hsame key v hk).mp h1) h2
      | unsaid _ h1 h2 => exact .unsaid _ (fun v hv => h1 v ((hsame key v hk).mpr hv)) h2
    · intro h
      cases h with
      | said v h1 h2 => exact .said v ((hsame key v hk).mpr h1) h2
      | unsaid _ h1 h2 => exact .unsaid _ (fun v hv => h1 v ((hsame key v hk).mp hv)) h2
  have hon : ∀ key, key ≠ "parallel".toList → On S.P.u w.settings (("parallel".toList, .bool true) :: uses) key →
      On S.P.u w.settings uses key := by
    rintro key hk ⟨v, h1, h2⟩
    exact ⟨v, (hset key _ hk).mp h1, h2⟩
  have hn2 : AsksRun (("parallel".toList, .bool true) :: uses) := by
    intro c hc
    exact hn c ((hsame _ _ (by decide)).mp hc)
  have hs2 : ¬ CannotStart fl S w (("parallel".toList, .bool true) :: uses) cases := by
    intro h
    apply hs
    cases h with
    | settings h => exact .settings h
    | defaults h1 h2 => exact .defaults h1 h2
    | selection h =>
      obtain ⟨sel, st, h1, h2, h3⟩ := h
      refine .selection ⟨sel, st, h1, ⟨?_, h2.there⟩, h3⟩
      rw [h2.refresh]
      exact ⟨hon _ (by decide), fun ⟨v, h1, h2⟩ => ⟨v, (hset _ _ (by decide)).mpr h1, h2⟩⟩
    | report h => exact .report h
  have hf2 : ∀ names, AboutTests S w (("parallel".toList, .bool true) :: uses) cases (some names) →
      NothingStops S w (("parallel".toList, .bool true) :: uses) names := by
    rintro names ⟨sel, st, h1, h2, h3⟩ hfast n hn s hs
    have hab : AboutTests S w uses cases (some names) := by
      refine ⟨sel, st, h1, ⟨?_, h2.there⟩, h3⟩
      rw [h2.refresh]
      exact ⟨hon _ (by decide), fun ⟨v, h1, h2⟩ => ⟨v, (hset _ _ (by decide)).mpr h1, h2⟩⟩
    rcases hf names hab (hon _ (by decide) hfast) n hn s hs with e | ⟨e1, v, e2, e3⟩
    · exact Or.inl e
    · exact Or.inr ⟨e1, v, (hset _ _ (by decide)).mpr e2, e3⟩
  obtain ⟨config, sel, selected, records, h1, h2, -⟩ := workers_begin hr2 hn2 hs2 dur zero breaks []
  have hset2 : config.get "parallel".toList = some (.bool true) :=
    setting_unique (h1.said "parallel".toList (by decide))
      (.said _ (finally_first hno) ⟨by decide, by decide, by decide⟩)
  have hif : isOn config "parallel".toList = true ∧ isOn config "coverage".toList = false ∧
      (workers S.N.int S.cpuCount (config.get "parallel".toList)).isSome = true := by
    refine ⟨?_, ?_, ?_⟩
    · unfold isOn; rw [hset2]; rfl
    · rw [← Bool.not_eq_true, isOn_iff (h1.said "coverage".toList (by decide))]
      exact fun h => hv (hon _ (by decide) h)
    · rw [hset2]
      show (if ((S.cpuCount : Int)) < 1 then none else some (S.cpuCount : Int).toNat).isSome = true
      rw [if_neg (by omega)]
      rfl
  rw [if_pos hif] at h2
  exact ⟨_, hr2, hsame, hon, hf2, _, _, h2⟩

/-- **C125**: `booktest -p ARGUMENTS` leaves what `booktest ARGUMENTS` leaves: the same files, the same results in the
report, the same exit status, having executed the same tests. This is so for every execution in which no process is kept
waiting forever, and there are such executions. Conditions: nobody is asked, neither `-u` nor coverage is switched
on, `-f` stops nothing, no test hangs, the names of the tests are plain, and their batches have different directories. Dependencies may be
any that the selection of tests can cope with. -/
theorem C125_option (S : Site) (w : World) (args ans ans' : List Str) (dur : Str → fl.D) (zero : fl.D)
    (breaks : Str → Bool → Prop) (uses : List (Str × CVal)) (cases : Option (List Str))
    (hr : Reads S.N (testChoices S.names) args uses cases) (hn : AsksRun uses) (hs : ¬ CannotStart fl S w uses cases)
    (hcpu : 0 < S.cpuCount) (hno : ∀ v, ("parallel".toList, v) ∉ uses)
    (hp : ¬ On S.P.u w.settings uses "parallel".toList) (hv : ¬ On S.P.u w.settings uses "coverage".toList)
    (hi : ¬ On S.P.u w.settings uses "interactive".toList) (hI : ¬ On S.P.u w.settings uses "always_interactive".toList)
    (hu : ¬ On S.P.u w.settings uses "update".toList) 
    (hf : ∀ names, AboutTests S w uses cases (some names) → NothingStops S w uses names)
    (hplain : PlainNames S.names) (hclean : ∀ n ∈ S.names, CleanName n)
    (hbatch : ∀ a ∈ S.names, ∀ b ∈ S.names, batchName a = batchName b → a = b)
    (hS : SoundTree S.P.root S.names w.fs) (hb : ∀ n b, ¬ breaks n b)
    (hh : ∀ n ∈ S.names, runTest (S.P.env (snapshot S.P.root w.fs n)) (S.P.tests n).body ≠ none) :
    ∃ c records, workersRun S ("-p".toList :: args) dur zero breaks w = some (c, records) ∧
      (∃ σ, FairRun c (mkdirs w.fs S.P.out) ans σ) ∧ ∀ σ, FairRun c (mkdirs w.fs S.P.out) ans σ →
      (∃ i x, (σ i).run.rpc = .ended x) ∧ ∀ i x, (σ i).run.rpc = .ended x →
      let e := workersEnd w c records (σ i)
      let e' := booktest S args ans' dur w
      e.status = e'.status ∧ e.ran.Perm e'.ran ∧
      e.world.settings = e'.world.settings ∧ e.world.metrics = e'.world.metrics ∧
      (∀ p, e.world.fs.get p = e'.world.fs.get p) ∧
      ∃ ps ss, ofFile S.P.u fl e.world.report = some ps ∧ ofFile S.P.u fl e'.world.report = some ss ∧
        (ps.map key).Perm (ss.map key) := by
  obtain ⟨uses2, hr2, hsame, hon, hf2, c, records, h2⟩ := option_p dur zero breaks hr hn hs hcpu hno hv hf
  exact ⟨_, _, h2, C125_same S w _ args ans ans' dur zero breaks _ uses cases hr2 hr hsame hp
    (fun h => hi (hon _ (by decide) h)) (fun h => hI (hon _ (by decide) h)) (fun h => hu (hon _ (by decide) h))
    hf2 hplain hclean hbatch hS hb hh h2⟩

/-! ### A case that meets the hypotheses -/

private def greet (x : String) : TestFn := ⟨⟨[.header "# t".toList, .tln x.toList], none⟩, [], [], none⟩

/-- A new project with three tests, one of which depends on another one. -/
private def place : Site where
  N := ⟨fun _ => none, fun _ => false⟩
  P := ⟨ascii, false, some, ["books".toList], fun n => if n = "test/a".toList then greet "a" else greet "b"⟩
  suite := { cases := [("test/a".toList, ⟨none, 0⟩), ("test/b".toList, ⟨none, 1⟩), ("test/c".toList, ⟨none, 2⟩)]
             info := fun n => if n = 1 then { deps := some [⟨none, 0⟩] } else {}
             isInstance := fun _ _ => false }
  fuel := 10
  cpuCount := 4
  viewer := fun _ => 0
  coverage := ([], [])

private def untouched : World := ⟨⟨fun _ => none, [], []⟩, [([], .dir)], none, false⟩

private theorem unsaid_off (key : Str) : ¬ On ascii untouched.settings [] key := by
  rintro ⟨v, h, -⟩
  cases h with
  | said _ h1 =>
    obtain ⟨pre, x, post, h1, -⟩ := h1
    simp at h1
  | unsaid _ _ h2 =>
    have h' := C58_priority_partial ascii untouched.settings [] (by simp [Dict.keys]) {} [] rfl key
    have := C58_unique ascii untouched.settings _ [] (by simp [Dict.keys]) {} key _ _ h2 h'
    cases this

/-- `booktest -p` and `booktest` in a new project meet the hypotheses. -/
example : ∃ c records, workersRun (fl := strokes) place ["-p".toList] (fun _ => (0 : Nat)) (0 : Nat)
      (fun _ _ => False) untouched = some (c, records) ∧ (∃ σ, FairRun c (mkdirs untouched.fs place.P.out) [] σ) ∧
    c.deps "test/b".toList = ["test/a".toList] := by
  have hr : Reads place.N (testChoices place.names) [] [] none := .options _ _ .nil
  have off := unsaid_off
  have hs : ¬ CannotStart strokes place untouched [] none := by
    rcases booktest_reads (w := untouched) (fl := strokes) hr [] (fun _ => (0 : Nat)) with ⟨e, -⟩ | ⟨_, _, _, _, _, -, h, -, -⟩
    · exact absurd (congrArg (·.status.code) e) (by decide +kernel)
    · exact h
  obtain ⟨c, records, h1, h2, -⟩ := C125_option (fl := strokes) place untouched [] [] [] (fun _ => (0 : Nat)) (0 : Nat)
    (fun _ _ => False) [] none hr (fun c hc => by obtain ⟨pre, x, post, h1, -⟩ := hc; simp at h1) hs (by decide)
    (fun v h => by cases h) (off _) (off _) (off _) (off _) (off _) (fun _ _ h => absurd h (off _))
    (by
      refine ⟨?_, by unfold NotNested; decide⟩
      intro n hn
      change n ∈ ["test/a".toList, "test/b".toList, "test/c".toList] at hn
      simp only [List.mem_cons, List.not_mem_nil, or_false] at hn
      rcases hn with rfl | rfl | rfl <;> exact ⟨by decide, by decide, by decide⟩)
    (by unfold CleanName; decide) (by decide)
    (by
      have g : ∀ p, FS.get [([], .dir)] p = if p = [] then some .dir else none := by
        intro p; rw [get_cons]; rfl
      refine ⟨?_, rfl, ?_, ?_, ?_, ?_, ?_⟩
      · intro p c h; change (FS.get [([], .dir)] _).isSome = true at h; rw [g, if_neg (by simp)] at h; cases h
      · intro n _ o q _ t; change FS.get [([], .dir)] _ ≠ _; rw [g]; split <;> simp
      · intro n _ o x hx _; change FS.get [([], .dir)] _ ≠ _
        rw [g, if_neg (slot_ne_nil _ o n (Or.inr hx))]; simp
      · intro n _ o x hx t; change FS.get [([], .dir)] _ ≠ _; rw [g]; split <;> simp
      · decide
      · intro q _ t; change FS.get [([], .dir)] _ ≠ _; rw [g]; split <;> simp)
    (fun _ _ h => h)
    (by
      intro n hn
      change n ∈ ["test/a".toList, "test/b".toList, "test/c".toList] at hn
      simp only [List.mem_cons, List.not_mem_nil, or_false] at hn
      rcases hn with rfl | rfl | rfl <;> exact fun e => absurd (congrArg Option.isSome e) (by decide +kernel))
  refine ⟨c, records, h1, h2, ?_⟩
  have h3 : ((workersRun (fl := strokes) place ["-p".toList] (fun _ => (0 : Nat)) (0 : Nat)
      (fun _ _ => False) untouched).map (fun r => r.1.deps "test/b".toList)) = some ["test/a".toList] := by
    decide +kernel
  rw [h1] at h3
  injection h3

end Verif.Props
