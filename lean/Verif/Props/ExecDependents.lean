import Verif.Model.ExecDependents
import Verif.Props.ExecWorkers
import Verif.Props.DependentsWorkers
import Verif.Lemmas.Sessions

/-! # C130: whole commands in projects whose tests have dependencies -/

namespace Verif.Props
open Verif.Py Verif.Model Verif.Spec Verif.Lemmas

variable {fl : Durations} {S : Site} {D : DProject} {w : World}

/-- The results that a test loads are those of the tests that its dependencies stand for (C34, C94; decorated once), the
scheduler finds these tests, and tests that others depend on return something. -/
structure Linked (S : Site) (D : DProject) : Prop where
  typed : WellTyped S.suite
  uses : ∀ n m, getCase S.suite n = some m →
    D.deps n = ((S.suite.info m.fn).deps.getD []).filterMap (usedCase S.suite m)
  found : ∀ n m, getCase S.suite n = some m → ∀ d ∈ (S.suite.info m.fn).deps.getD [],
    (caseByMethod S.suite (bindIfUnbound S.suite m d)).isSome = true
  returns : ∀ n m, getCase S.suite n = some m → ∀ d ∈ D.deps n, ∀ vs, (D.fn d vs).returns ≠ none

theorem linked_declares (h : Linked S D) {n : Str} {m : Meth} (hm : getCase S.suite n = some m) {d : Str}
    (hd : d ∈ D.deps n) : Declares S.suite m d := by
  rw [h.uses n m hm] at hd
  obtain ⟨x, hx, hu⟩ := List.mem_filterMap.mp hd
  obtain ⟨b, hb⟩ := Option.isSome_iff_exists.mp (h.found n m hm x hx)
  have := C34_scheduled_used_partial h.typed hb
  rw [hu] at this
  injection this with this
  subst this
  cases hds : (S.suite.info m.fn).deps with
  | none => rw [hds] at hx; cases hx
  | some ds => rw [hds] at hx; exact ⟨ds, x, hds, hx, hb⟩

theorem declared_name {m : Meth} {d : Str} (h : Declares S.suite m d) : d ∈ S.names := by
  obtain ⟨ds, x, -, -, h⟩ := h
  unfold caseByMethod at h
  cases hf : S.suite.cases.find? (fun c => matchMethod S.suite (bindIfUnbound S.suite m x) c.2) with
  | none => rw [hf] at h; cases h
  | some y =>
    rw [hf] at h
    injection h with h
    rw [← h]
    exact List.mem_map_of_mem (List.mem_of_find?_eq_some hf)

theorem names_case {n : Str} (h : n ∈ S.names) : ∃ m, getCase S.suite n = some m := by
  obtain ⟨x, hx, rfl⟩ := List.mem_map.mp h
  unfold getCase
  cases hf : S.suite.cases.find? (fun c => c.1 == x.1) with
  | some y => exact ⟨_, rfl⟩
  | none =>
    have := List.find?_eq_none.mp hf x hx
    simp at this

private theorem before_split {l l1 l2 : List Str} (hnd : l.Nodup) {a b : Str} (h : Before l b a) (e : l = l1 ++ a :: l2) :
    b ∈ l1 := by
  obtain ⟨k1, k2, e', h1, h2⟩ := h
  have : k1 = l1 := by
    have i1 : l.idxOf a = k1.length := by
      rw [e', List.idxOf_append, if_neg h1]; simp
    have h3 : a ∉ l1 := by
      rw [e] at hnd
      exact fun ha => (List.nodup_append.mp hnd).2.2 a ha a (by simp) rfl
    have i2 : l.idxOf a = l1.length := by
      rw [e, List.idxOf_append, if_neg h3]; simp
    have : l.take (l.idxOf a) = k1 := by rw [i1, e']; simp
    rw [← this, i2, e]; simp
  rw [← this]; exact h2

/-- The selected tests can be executed in their order. -/
theorem selected_first (h : Linked S D) {sel selected : List Str} {stored : Option (Str → Bool)}
    (hsel : selectedNames S.suite sel stored S.fuel = some selected) : DepsFirst D S.names selected := by
  have hs := C31_selected hsel
  have hname : ∀ n ∈ selected, n ∈ S.names := by
    intro n hn
    obtain ⟨m, hm⟩ := hs.2.2.2 n hn
    exact List.mem_map.mpr ⟨_, hm, rfl⟩
  refine ⟨?_, ?_, ?_⟩
  · intro n hn d hd
    obtain ⟨m, hm⟩ := names_case (hname n hn)
    exact declared_name (linked_declares h hm hd)
  · intro l1 n l2 e d hd hin
    have hn : n ∈ selected := by rw [e]; simp
    have hdin : d ∈ selected := by rw [e]; exact List.mem_append_right _ hin
    obtain ⟨m, hm⟩ := names_case (hname n hn)
    have hb := C32_dependencies_first hsel hn hm (linked_declares h hm hd) (by
      rcases (selectedNames_spec hsel).2.2 d hdin with h | h
      · exact Or.inl h.1
      · exact Or.inr h.1)
    have h1 := before_split hs.1 hb e
    have hnd := hs.1
    rw [e] at hnd
    exact (List.nodup_append.mp hnd).2.2 d h1 d hin rfl
  · intro n hn d hd _ vs
    obtain ⟨m, hm⟩ := names_case (hname n hn)
    exact h.returns n m hm d hd vs

/-! ### Runs in one process -/

private theorem cache_empty : EmptyCache processCache := ⟨by decide, rfl⟩

theorem with_congr {f g : FS} (h : ∀ n, storedValue D.root f n = storedValue D.root g n) :
    Spec.DProject.with D f = Spec.DProject.with D g := by
  have : storedValue D.root f = storedValue D.root g := funext h
  unfold Spec.DProject.with
  rw [this]

private theorem here_values (hplain : PlainNames S.names) (hS : SoundTree D.root S.names w.fs) {config : Dict CVal}
    (hq : NotAsking (configOf config)) {selected : List Str} (hsub : ∀ n ∈ selected, n ∈ S.names) (hnd : selected.Nodup)
    (ho : DepsFirst D S.names selected) (dur : Str → fl.D) (ans : List Str) :
    let e := runHereD S D config dur selected ans w
    e = runHere (S.over (Spec.DProject.with D e.world.fs)) config dur selected ans w := by
  obtain ⟨h1, -, h3⟩ := stored_values (fl := fl) hq hplain hS hsub hnd ho cache_empty dur S.names ans w.report
  intro e
  have hfs : e.world.fs = (runProjectD D (configOf config) dur S.names selected w.fs ans w.report processCache).fs := rfl
  rw [hfs]
  show runHereD S D config dur selected ans w = _
  unfold runHereD runEventsD
  dsimp only
  generalize runProjectD D (configOf config) dur S.names selected w.fs ans w.report processCache = r at h1 h3 ⊢
  rw [h3]
  generalize hP : Spec.DProject.with D r.fs = P at h1 h3 ⊢
  have hu : P.u = D.u := by rw [← hP]; rfl
  have ho' : P.out = D.dirs.out := by rw [← hP]; rfl
  unfold runHere runEvents
  have hn : (S.over P).names = S.names := rfl
  have hPP : (S.over P).P = P := rfl
  dsimp only
  rw [hn, hPP, ← h1, hu, ho']
  rfl

private theorem openW_other {q p : Path} {text : Str} {f g : FS} (h : openW q text f = .ok g) (hp : p ≠ q) : g.get p = f.get p := by
  unfold openW at h
  repeat' split at h
  all_goals first | cases h | skip
  all_goals (unfold FS.write; rw [get_cons, if_neg hp])

theorem slot_out (root : Path) (n : Str) : ∃ q, slot root true n ".bin".toList = root ++ ".out".toList :: q ∧ q ≠ [] := by
  refine ⟨split '/' (n ++ ".bin".toList), ?_, split_ne_nil _ _⟩
  unfold slot booksDir
  simp

private theorem coverage_values (texts : Str × Str) (f : FS) (n : Str) :
    storedValue D.root (writeCoverage texts f).1 n = storedValue D.root f n := by
  obtain ⟨q, e, hq⟩ := slot_out D.root n
  have hne : ∀ x : Str, slot D.root true n ".bin".toList ≠ [x] := by
    intro x h
    rw [e] at h
    have := congrArg List.length h
    cases q with
    | nil => exact hq rfl
    | cons _ _ => simp at this; omega
  have hget : (writeCoverage texts f).1.get (slot D.root true n ".bin".toList) = f.get (slot D.root true n ".bin".toList) := by
    unfold writeCoverage
    cases e1 : openW [".coverage".toList] texts.1 f with
    | error _ => rfl
    | ok g1 =>
      dsimp only
      cases e2 : openW ["coverage.xml".toList] texts.2 g1 with
      | error _ => exact openW_other e1 (hne _)
      | ok g2 => exact (openW_other e2 (hne _)).trans (openW_other e1 (hne _))
  unfold storedValue
  rw [hget]

private theorem coverage_single {p : Path} (h : isCoverageFile p = true) : p.length = 1 := by
  unfold isCoverageFile at h
  split at h
  · rfl
  · cases h

private theorem covered_values (hplain : PlainNames S.names) (hS : SoundTree D.root S.names w.fs) {config : Dict CVal}
    (hq : NotAsking (configOf config)) {selected : List Str} (hsub : ∀ n ∈ selected, n ∈ S.names) (hnd : selected.Nodup)
    (ho : DepsFirst D S.names selected) (dur : Str → fl.D) (ans : List Str) :
    let e := runCoveredD S D config dur selected ans w
    e = runCovered (S.over (Spec.DProject.with D e.world.fs)) config dur selected ans w := by
  have command : ∀ w' : World, SoundTree D.root S.names w'.fs →
      let e := runCommandD S D config dur selected ans w'
      e = runCommand (S.over (Spec.DProject.with D e.world.fs)) config dur selected ans w' := by
    intro w' hS'
    unfold runCommandD runCommand
    split
    · rfl
    · exact here_values hplain hS' hq hsub hnd ho dur ans
  intro e
  show runCoveredD S D config dur selected ans w = _
  have he : e = runCoveredD S D config dur selected ans w := rfl
  unfold runCoveredD at he ⊢
  unfold runCovered
  by_cases hcov : isOn config "coverage".toList = true
  · rw [if_pos hcov] at he ⊢
    rw [if_pos hcov]
    by_cases hany : w.fs.any (fun e => isCoverageFile e.1 && w.fs.isDir e.1) = true
    · rw [if_pos hany, if_pos hany]
    · rw [if_neg hany] at he ⊢
      rw [if_neg hany]
      obtain ⟨a1, -⟩ := top_removed (fs := w.fs) hS isCoverageFile (fun p hp => coverage_single hp) (by
        intro p hp hd
        apply hany
        rw [List.any_eq_true]
        have hm : (p, Node.dir) ∈ w.fs := there_mem hd
        exact ⟨_, hm, by rw [hp, Bool.true_and, isDir_iff]; exact hd⟩)
      have hc := command { w with fs := w.fs.filter (fun e => !isCoverageFile e.1) } a1
      dsimp only at hc he ⊢
      generalize runCommandD S D config dur selected ans { w with fs := w.fs.filter (fun e => !isCoverageFile e.1) } = r at hc he ⊢
      have hv : Spec.DProject.with D e.world.fs = Spec.DProject.with D r.world.fs := by
        refine with_congr fun n => ?_
        rw [he]
        split
        · rfl
        · exact coverage_values _ _ n
      rw [hv, ← hc]
      rfl
  · rw [if_neg hcov] at he ⊢
    rw [if_neg hcov]
    rw [he]
    exact command w hS

/-! ### Commands -/

private theorem command_over (g : Str → Values) {c : Str} (hc : c ∈ commands.map (·.2)) (config : Dict CVal) (dur : Str → fl.D)
    (selected : List Str) (records : List (Rec fl)) (ans : List Str) :
    dispatch (S.over (D.filled g)) config dur selected records ans w (some c) =
      dispatch (S.over D.dirs) config dur selected records ans w (some c) := by
  have h1 : (S.over (D.filled g)).P.root = (S.over D.dirs).P.root := rfl
  have h2 : (S.over (D.filled g)).P.out = (S.over D.dirs).P.out := rfl
  have h3 : garbageIn (S.over (D.filled g)).P (S.over (D.filled g)).names w =
    garbageIn (S.over D.dirs).P (S.over D.dirs).names w := rfl
  have h4 : cleanWorld (S.over (D.filled g)).P (S.over (D.filled g)).names w =
    cleanWorld (S.over D.dirs).P (S.over D.dirs).names w := rfl
  have h5 : snapshotName (S.over (D.filled g)).P = snapshotName (S.over D.dirs).P := rfl
  have h6 : (S.over (D.filled g)).viewer = (S.over D.dirs).viewer := rfl
  unfold dispatch
  dsimp only
  rw [h1, h2, h3, h4, h5, h6]
  simp only [commands, List.map_cons, List.map_nil, List.mem_cons, List.not_mem_nil, or_false] at hc
  by_cases k1 : some c = some "--setup".toList
  · rw [if_pos k1, if_pos k1]
  rw [if_neg k1, if_neg k1]
  by_cases k2 : some c = some "--config".toList
  · rw [if_pos k2, if_pos k2]
  rw [if_neg k2, if_neg k2]
  by_cases k3 : some c = some "--garbage".toList
  · rw [if_pos k3, if_pos k3]
  rw [if_neg k3, if_neg k3]
  by_cases k4 : some c = some "--print".toList
  · rw [if_pos k4, if_pos k4]
  rw [if_neg k4, if_neg k4]
  by_cases k5 : some c = some "--path".toList
  · rw [if_pos k5, if_pos k5]
  rw [if_neg k5, if_neg k5]
  by_cases k6 : some c = some "--view".toList
  · rw [if_pos k6, if_pos k6]
  rw [if_neg k6, if_neg k6]
  by_cases k7 : some c = some "--clean".toList
  · rw [if_pos k7, if_pos k7]
  rw [if_neg k7, if_neg k7]
  by_cases k8 : some c = some "-l".toList
  · rw [if_pos k8, if_pos k8]
  rw [if_neg k8, if_neg k8]
  by_cases k9 : some c = some "--review".toList
  · rw [if_pos k9, if_pos k9]
  rw [if_neg k9, if_neg k9]
  by_cases k10 : some c = some "--forget".toList
  · rw [if_pos k10, if_pos k10]
  exfalso
  rcases hc with h | h | h | h | h | h | h | h | h | h | h
  · exact k8 (congrArg some h)
  · exact k9 (congrArg some h)
  · exact k9 (congrArg some h)
  · exact k10 (congrArg some h)
  · exact k4 (congrArg some h)
  · exact k5 (congrArg some h)
  · exact k6 (congrArg some h)
  · exact k3 (congrArg some h)
  · exact k7 (congrArg some h)
  · exact k2 (congrArg some h)
  · exact k1 (congrArg some h)

/-- What a command does, with any values of the tests. -/
theorem commandD_reads {args : List Str} {uses : List (Str × CVal)} {cases : Option (List Str)}
    (hr : Reads S.N (testChoices S.names) args uses cases) (ans : List Str) (dur : Str → fl.D) :
    (∀ g, booktest (S.over (D.filled g)) args ans dur w = booktestD S D args ans dur w) ∨
    ∃ config sel selected records, Prepared (fl := fl) (S.over D.dirs) w uses cases config sel selected records ∧
      booktestD S D args ans dur w = runCoveredD S D config dur selected ans w ∧
      ∀ g, booktest (S.over (D.filled g)) args ans dur w = runCovered (S.over (D.filled g)) config dur selected ans w := by
  obtain ⟨values, hp, hu⟩ := C106_complete S.N S.names args uses cases hr
  have hp' : ∀ g, parseArgs (S.over (D.filled g)).N (S.over (D.filled g)).names args = .ok values cases := fun g => hp
  have hD : booktestD S D args ans dur w = execParsedD S D dur values cases ans w := by
    unfold booktestD; rw [hp]
  have hB : ∀ g, booktest (S.over (D.filled g)) args ans dur w = execParsed (S.over (D.filled g)) dur values cases ans w := by
    intro g; unfold booktest; rw [hp' g]
  simp only [hD, hB]
  unfold execParsedD execParsed
  cases hc : execConfig D.u none w.settings [] (argsOf values) with
  | none =>
    left; intro g
    rw [show execConfig (S.over (D.filled g)).P.u none w.settings [] (argsOf values) = none from hc]
  | some config =>
    have hc' : ∀ g, execConfig (S.over (D.filled g)).P.u none w.settings [] (argsOf values) = some config := fun g => hc
    simp only [hc']
    cases hs : selectionOf config cases with
    | none => left; intro g; rfl
    | some sel =>
      dsimp only
      cases hn : selectedNames S.suite sel (storedIn D.dirs config w.fs) S.fuel with
      | none =>
        left; intro g
        rw [show selectedNames (S.over (D.filled g)).suite sel (storedIn (S.over (D.filled g)).P config w.fs)
          (S.over (D.filled g)).fuel = none from hn]
      | some selected =>
        have hn' : ∀ g, selectedNames (S.over (D.filled g)).suite sel (storedIn (S.over (D.filled g)).P config w.fs)
          (S.over (D.filled g)).fuel = some selected := fun g => hn
        simp only [hn']
        cases ho : ofFile D.u fl w.report with
        | none =>
          left; intro g
          rw [show ofFile (S.over (D.filled g)).P.u fl w.report = none from ho]
        | some records =>
          have ho' : ∀ g, ofFile (S.over (D.filled g)).P.u fl w.report = some records := fun g => ho
          simp only [ho']
          cases hcmd : commandOf values with
          | some c =>
            left; intro g
            exact command_over g (asked_command hr ((hu.command c).mp hcmd)) config dur selected records ans
          | none =>
            right
            exact ⟨config, sel, selected, records, ⟨fun key hk => config_said hr hp hc hk, hs, hn, ho,
              execConfig_nodup hc⟩, rfl, fun g => rfl⟩

/-- **C130**: a command in a project whose tests have dependencies is, in everything, the command in the project whose tests
are called with the values that are stored when the command is over. (So that C107 and the like say what it does.) -/
theorem C130_values_partial (hl : Linked S D) {args : List Str} {uses : List (Str × CVal)} {cases : Option (List Str)}
    (hr : Reads S.N (testChoices S.names) args uses cases)
    (hi : ¬ On D.u w.settings uses "interactive".toList) (hI : ¬ On D.u w.settings uses "always_interactive".toList)
    (hplain : PlainNames S.names) (hS : SoundTree D.root S.names w.fs) (ans : List Str) (dur : Str → fl.D) :
    let e := booktestD S D args ans dur w
    e = booktest (S.over (Spec.DProject.with D e.world.fs)) args ans dur w := by
  intro e
  rcases commandD_reads (D := D) (w := w) hr ans dur with h | ⟨config, sel, selected, records, hprep, h1, h2⟩
  · exact (h _).symm
  · have hq : NotAsking (configOf config) := by
      have := config_on hprep
      exact ⟨by rw [← Bool.not_eq_true, this.alwaysInteractive]; exact hI,
        by rw [← Bool.not_eq_true, this.interactive]; exact hi⟩
    have hs := C31_selected hprep.names
    have hv := covered_values (w := w) hplain hS hq (fun n hn => by
      obtain ⟨m, hm⟩ := hs.2.2.2 n hn
      exact List.mem_map.mpr ⟨_, hm, rfl⟩) hs.1 (selected_first hl hprep.names) dur ans
    dsimp only at hv
    rw [← h1] at hv
    exact hv.trans (h2 _).symm

/-! ### Commands with workers -/

/-- The run with workers, with any values of the tests. -/
theorem workersRun_over (S : Site) (D : DProject) (g : Str → Values) (args : List Str) (dur : Str → fl.D) (zero : fl.D)
    (breaks : Str → Bool → Prop) (w : World) :
    workersRun (S.over (D.filled g)) args dur zero breaks w =
      (workersRunD S D args dur zero breaks w).map fun r => (r.1.conf (D.filled g), r.2) := by
  unfold workersRunD workersRun
  have hp : parseArgs (S.over (D.filled g)).N (S.over (D.filled g)).names args =
    parseArgs (S.over D.dirs).N (S.over D.dirs).names args := rfl
  rw [hp]
  cases parseArgs (S.over D.dirs).N (S.over D.dirs).names args with
  | help => rfl
  | error => rfl
  | ok values names =>
    dsimp only
    have hx : execConfig (S.over (D.filled g)).P.u none w.settings [] (argsOf values) =
      execConfig (S.over D.dirs).P.u none w.settings [] (argsOf values) := rfl
    rw [hx]
    cases execConfig (S.over D.dirs).P.u none w.settings [] (argsOf values) with
    | none => rfl
    | some config =>
      dsimp only
      cases selectionOf config names with
      | none => rfl
      | some sel =>
        dsimp only
        have hx : selectedNames (S.over (D.filled g)).suite sel (storedIn (S.over (D.filled g)).P config w.fs)
            (S.over (D.filled g)).fuel =
          selectedNames (S.over D.dirs).suite sel (storedIn (S.over D.dirs).P config w.fs) (S.over D.dirs).fuel := rfl
        rw [hx]
        cases selectedNames (S.over D.dirs).suite sel (storedIn (S.over D.dirs).P config w.fs) (S.over D.dirs).fuel with
        | none => rfl
        | some selected =>
          dsimp only
          have hx : ofFile (S.over (D.filled g)).P.u fl w.report = ofFile (S.over D.dirs).P.u fl w.report := rfl
          rw [hx]
          cases ofFile (S.over D.dirs).P.u fl w.report with
          | none => rfl
          | some rs =>
            dsimp only
            by_cases hif : commandOf values = none ∧ isOn config "parallel".toList = true ∧
                isOn config "coverage".toList = false ∧
                (workers (S.over D.dirs).N.int (S.over D.dirs).cpuCount (config.get "parallel".toList)).isSome = true
            · rw [if_pos hif]
              exact (if_pos hif).trans rfl
            · rw [if_neg hif]
              exact (if_neg hif).trans rfl

theorem workersD_over {args : List Str} {dur : Str → fl.D} {zero : fl.D} {breaks : Str → Bool → Prop} {c : DConf fl}
    {records : List (Rec fl)} (h : workersRunD S D args dur zero breaks w = some (c, records)) :
    c.D = D ∧ ∀ g, workersRun (S.over (D.filled g)) args dur zero breaks w = some (c.conf (D.filled g), records) := by
  refine ⟨?_, fun g => ?_⟩
  · unfold workersRunD at h
    obtain ⟨⟨c0, r0⟩, h0, h⟩ := Option.map_eq_some_iff.mp h
    injection h with hc hr
    rw [← hc]
  · rw [workersRun_over, h]; rfl

/-- The values that are stored after a run. -/
theorem run_store (P : Project) (cfg : Config) (dur : Str → fl.D) (all selected : List Str) (fs : FS) (ans : List Str)
    (file : Option Bytes) (n : Str) :
    storedValue P.root (runProject P cfg dur all selected fs ans file).fs n =
      storeOf P.out (runCases P cfg (ranNames (runAsync P.u fl cfg (projectOutcome P cfg dur (mkdirs fs P.out, ans)) selected file).1)
        (mkdirs fs P.out, ans)).1 n := by
  unfold runProject
  dsimp only
  cases (runAsync P.u fl cfg (projectOutcome P cfg dur (mkdirs fs P.out, ans)) selected file).2 with
  | none => rfl
  | some rv =>
    dsimp only
    split
    · rfl
    · rename_i g hg
      show (match g.get (slot P.root true n ".bin".toList) with | some (.file v) => some v | _ => none) = _
      rw [openW_other hg]
      · rfl
      · intro e
        obtain ⟨q, e', -⟩ := slot_out P.root n
        rw [e'] at e
        injection List.append_cancel_left e with e _
        exact absurd e (by decide)

/-- **C130**: of two commands that differ in what they say about workers only, in a project whose tests have dependencies, the
one with workers leaves what the other one leaves. (See `C130_option_partial` for the conditions.) -/
theorem C130_same_partial (hl : Linked S D) (args args' ans ans' : List Str) (dur : Str → fl.D) (zero : fl.D)
    (breaks : Str → Bool → Prop) (uses uses' : List (Str × CVal)) (cases : Option (List Str))
    (hr : Reads S.N (testChoices S.names) args uses cases) (hr' : Reads S.N (testChoices S.names) args' uses' cases)
    (hsame : ∀ key v, key ≠ "parallel".toList → (Finally uses key v ↔ Finally uses' key v))
    (hp' : ¬ On D.u w.settings uses' "parallel".toList)
    (hi : ¬ On D.u w.settings uses "interactive".toList) (hI : ¬ On D.u w.settings uses "always_interactive".toList)
    (hi' : ¬ On D.u w.settings uses' "interactive".toList) (hI' : ¬ On D.u w.settings uses' "always_interactive".toList)
    (hu : ¬ On D.u w.settings uses "update".toList)
    (hf : let S' := S.over (Spec.DProject.with D (booktestD S D args' ans' dur w).world.fs)
      ∀ names, AboutTests S' w uses cases (some names) → NothingStops S' w uses names)
    (hplain : PlainNames S.names) (hclean : ∀ n ∈ S.names, CleanName n)
    (hbatch : ∀ a ∈ S.names, ∀ b ∈ S.names, batchName a = batchName b → a = b)
    (hS : SoundTree D.root S.names w.fs) (hb : ∀ n b, ¬ breaks n b)
    (hh : let P := Spec.DProject.with D (booktestD S D args' ans' dur w).world.fs
      ∀ n ∈ S.names, runTest (P.env (snapshot P.root w.fs n)) (P.tests n).body ≠ none)
    {c : DConf fl} {records : List (Rec fl)} (hrun : workersRunD S D args dur zero breaks w = some (c, records)) :
    (∃ σ, FairRunD c 8 (mkdirs w.fs D.dirs.out) ans σ) ∧ ∀ σ, FairRunD c 8 (mkdirs w.fs D.dirs.out) ans σ →
      (∃ i x, (σ i).r.run.rpc = .ended x) ∧ ∀ i x, (σ i).r.run.rpc = .ended x →
      let e := workersEndD w c records (σ i)
      let e' := booktestD S D args' ans' dur w
      e.status = e'.status ∧ e.ran.Perm e'.ran ∧
      e.world.settings = e'.world.settings ∧ e.world.metrics = e'.world.metrics ∧
      (∀ p, e.world.fs.get p = e'.world.fs.get p) ∧
      ∃ ps ss, ofFile D.u fl e.world.report = some ps ∧ ofFile D.u fl e'.world.report = some ss ∧
        (ps.map key).Perm (ss.map key) := by
  have hval := C130_values_partial hl hr' hi' hI' hplain hS ans' dur
  dsimp only at hval hf hh
  generalize he : booktestD S D args' ans' dur w = e' at hval hf hh ⊢
  obtain ⟨hcD, hover⟩ := workersD_over hrun
  subst hcD
  have hrunP : workersRun (S.over (Spec.DProject.with c.D e'.world.fs)) args dur zero breaks w =
    some (c.conf (Spec.DProject.with c.D e'.world.fs), records) := hover _
  obtain ⟨config, sel, selected, hB, k, hbt⟩ := workers_facts (S := S.over (Spec.DProject.with c.D e'.world.fs)) hr hi hI hu hf
    hclean hbatch hb (fun names hab n hn => hh n (about_in hab n hn)) hrunP ans
  obtain ⟨config', hconf, erun⟩ := run_here (S := S.over (Spec.DProject.with c.D e'.world.fs)) hr hr' hsame hp' hB.prepared hB.run
    hB.uncovered hbt ans'
  have hccfg : c.cfg = configOf config := congrArg RConf.cfg hB.conf
  have hcdur : c.dur = dur := congrArg RConf.dur hB.conf
  have hq : NotAsking c.cfg := by rw [hccfg]; exact hB.quiet
  have hupd : c.cfg.update = false := by rw [hccfg]; exact hB.update
  have hnames : ∀ n ∈ c.todo, n ∈ S.names := hB.names
  have hold : ofFile c.D.u fl w.report = some records := hB.prepared.records
  have hsel := hB.prepared.names
  -- the sequential run executes all tests
  have hran : ranNames (runAsync c.D.u fl c.cfg (projectOutcome (Spec.DProject.with c.D e'.world.fs) c.cfg c.dur
      (mkdirs w.fs c.D.dirs.out, ans')) selected w.report).1 = c.todo := by
    obtain ⟨τ, hτ⟩ := C124_exists (c := c.conf (Spec.DProject.with c.D e'.world.fs)) (ans := ans) hB.tidy hq hupd hB.stops hplain hS
      hnames hB.unbroken hB.rank hB.ends
    obtain ⟨⟨i, x, h1⟩, h2⟩ := C124_ends (c := c.conf (Spec.DProject.with c.D e'.world.fs)) hB.tidy hq hupd hB.stops rfl hplain hS
      hnames hB.unbroken hB.rank hB.ends hold hB.todo hτ ans'
    refine same_ran (c := c.conf (Spec.DProject.with c.D e'.world.fs)) hB.tidy hq hupd hB.stops rfl hplain hS hnames
      hold hB.todo (fair_run_reach hτ i) ?_ ans'
    intro n hn
    obtain ⟨y, hy, rfl⟩ := List.mem_map.mp ((h2 i x h1).2.1.mem_iff.mpr hn)
    exact ⟨_, _, hy⟩
  have hfs : e'.world.fs = (runProject (Spec.DProject.with c.D e'.world.fs) c.cfg c.dur S.names selected w.fs ans' w.report).fs := by
    have := congrArg (fun e => e.world.fs) (hval.trans erun)
    rw [hccfg, hcdur, ← hconf]
    exact this
  have hset : DSetting c S.names w.fs (storedValue c.D.root e'.world.fs) := {
    tidy := ⟨hB.tidy.todo, hB.tidy.batches, hB.tidy.names⟩
    quiet := hq
    update := hupd
    plain := hplain
    sound := hS
    sub := hnames
    breaks := hB.unbroken
    first := depsFirst_sub (selected_first hl hsel) (by
      have := hB.todo
      rw [show c.todo = toRun c.cfg records selected from this]
      exact List.filter_sublist)
    waits := by
      intro n hn d hd hdt
      obtain ⟨m, hm⟩ := names_case (hnames n hn)
      have hw : c.waits = fun n => match getCase S.suite n with
        | none => []
        | some m => methodDependencies S.suite m (doneAndTodo (configOf config) records selected).2 none :=
        congrArg RConf.deps hB.conf
      rw [hw]
      dsimp only
      rw [hm]
      exact mem_methodDependencies.mpr ⟨linked_declares hl hm hd, Or.inr (by rintro ⟨f, h, -⟩; cases h)⟩
    val := by
      refine ⟨ans', fun k _ => ?_⟩
      have h1 := run_store (Spec.DProject.with c.D e'.world.fs) c.cfg c.dur S.names selected w.fs ans' w.report k
      rw [← hfs] at h1
      refine h1.trans ?_
      have h2 : ranNames (runAsync (Spec.DProject.with c.D e'.world.fs).u fl c.cfg (projectOutcome (Spec.DProject.with c.D e'.world.fs)
        c.cfg c.dur (mkdirs w.fs (Spec.DProject.with c.D e'.world.fs).out, ans')) selected w.report).1 = c.todo := hran
      rw [h2]
      rfl }
  have key := (C125_same (S.over (Spec.DProject.with c.D e'.world.fs)) w args args' ans ans' dur zero breaks uses uses' cases hr hr' hsame
    hp' hi hI hu hf hplain hclean hbatch hS hb hh hrunP).2
  refine ⟨exists_fairD hset (by decide) hB.stops hB.rank hB.ends, fun σ hσ => ?_⟩
  obtain ⟨τ, hτ, heq⟩ := fair_values hset (by decide) hσ
  have hrunE : ∀ i, (τ i).run = (σ i).r.run := fun i => by rw [← heq i]
  have hfsE : ∀ i, (τ i).fs = (σ i).r.fs := fun i => by rw [← heq i]
  obtain ⟨⟨i, x, h1⟩, h2⟩ := key τ hτ
  refine ⟨⟨i, x, by rw [← hrunE]; exact h1⟩, fun i x hx => ?_⟩
  have h3 := h2 i x (by rw [hrunE]; exact hx)
  have hE : workersEnd w (c.conf (Spec.DProject.with c.D e'.world.fs)) records (τ i) = workersEndD w c records (σ i) := by
    unfold workersEndD workersEnd RSt.finish
    rw [hrunE, hfsE]
    rfl
  dsimp only at h3
  rw [hE, ← hval] at h3
  exact h3

/-- **C130**: `booktest -p ARGUMENTS` leaves what `booktest ARGUMENTS` leaves, in projects whose tests get the results of other
tests: the same files, the same results in the report, the same exit status, having executed the same tests. This is so for
every execution in which no process is kept waiting forever, whichever process takes which test, and there are such
executions. Conditions: those of C125 (with the values that the tests get), and that tests that others depend on return something. -/
theorem C130_option_partial (hl : Linked S D) (args ans ans' : List Str) (dur : Str → fl.D) (zero : fl.D)
    (breaks : Str → Bool → Prop) (uses : List (Str × CVal)) (cases : Option (List Str))
    (hr : Reads S.N (testChoices S.names) args uses cases) (hn : AsksRun uses)
    (hs : ¬ CannotStart fl (S.over D.dirs) w uses cases)
    (hcpu : 0 < S.cpuCount) (hno : ∀ v, ("parallel".toList, v) ∉ uses)
    (hp : ¬ On D.u w.settings uses "parallel".toList) (hv : ¬ On D.u w.settings uses "coverage".toList)
    (hi : ¬ On D.u w.settings uses "interactive".toList) (hI : ¬ On D.u w.settings uses "always_interactive".toList)
    (hu : ¬ On D.u w.settings uses "update".toList)
    (hf : let S' := S.over (Spec.DProject.with D (booktestD S D args ans' dur w).world.fs)
      ∀ names, AboutTests S' w uses cases (some names) → NothingStops S' w uses names)
    (hplain : PlainNames S.names) (hclean : ∀ n ∈ S.names, CleanName n)
    (hbatch : ∀ a ∈ S.names, ∀ b ∈ S.names, batchName a = batchName b → a = b)
    (hS : SoundTree D.root S.names w.fs) (hb : ∀ n b, ¬ breaks n b)
    (hh : let P := Spec.DProject.with D (booktestD S D args ans' dur w).world.fs
      ∀ n ∈ S.names, runTest (P.env (snapshot P.root w.fs n)) (P.tests n).body ≠ none) :
    ∃ c records, workersRunD S D ("-p".toList :: args) dur zero breaks w = some (c, records) ∧
      (∃ σ, FairRunD c 8 (mkdirs w.fs D.dirs.out) ans σ) ∧ ∀ σ, FairRunD c 8 (mkdirs w.fs D.dirs.out) ans σ →
      (∃ i x, (σ i).r.run.rpc = .ended x) ∧ ∀ i x, (σ i).r.run.rpc = .ended x →
      let e := workersEndD w c records (σ i)
      let e' := booktestD S D args ans' dur w
      e.status = e'.status ∧ e.ran.Perm e'.ran ∧
      e.world.settings = e'.world.settings ∧ e.world.metrics = e'.world.metrics ∧
      (∀ p, e.world.fs.get p = e'.world.fs.get p) ∧
      ∃ ps ss, ofFile D.u fl e.world.report = some ps ∧ ofFile D.u fl e'.world.report = some ss ∧
        (ps.map key).Perm (ss.map key) := by
  have hs' : ¬ CannotStart fl (S.over (Spec.DProject.with D (booktestD S D args ans' dur w).world.fs)) w uses cases := by
    intro h
    apply hs
    cases h with
    | settings h => exact .settings h
    | defaults h1 h2 => exact .defaults h1 h2
    | selection h =>
      obtain ⟨sel, st, h1, h2, h3⟩ := h
      exact .selection ⟨sel, st, h1, ⟨h2.refresh, h2.there⟩, h3⟩
    | report h => exact .report h
  obtain ⟨uses2, hr2, hsame, hon, hf2, c0, records, h0⟩ := option_p
    (S := S.over (Spec.DProject.with D (booktestD S D args ans' dur w).world.fs)) dur zero breaks hr hn hs' hcpu hno hv hf
  obtain ⟨c, hc⟩ : ∃ c, workersRunD S D ("-p".toList :: args) dur zero breaks w = some (c, records) := by
    have h1 := workersRun_over S D (fun n => valuesOf (storedValue D.root (booktestD S D args ans' dur w).world.fs) (D.deps n))
      ("-p".toList :: args) dur zero breaks w
    rw [show workersRun (S.over (D.filled fun n => valuesOf (storedValue D.root (booktestD S D args ans' dur w).world.fs) (D.deps n)))
      ("-p".toList :: args) dur zero breaks w = some (c0, records) from h0] at h1
    obtain ⟨r, h2, h3⟩ := Option.map_eq_some_iff.mp h1.symm
    injection h3 with _ h3
    exact ⟨r.1, by rw [h2, ← h3]⟩
  exact ⟨c, records, hc, C130_same_partial hl _ args ans ans' dur zero breaks uses2 uses cases hr2 hr hsame hp
    (fun h => hi (hon _ (by decide) h)) (fun h => hI (hon _ (by decide) h)) hi hI (fun h => hu (hon _ (by decide) h))
    hf2 hplain hclean hbatch hS hb hh hc⟩

/-! ### Cases that meet the hypotheses -/

/-- `test/b` prints the value of `test/a`. -/
def handedOn (value : Option Str) : DProject where
  u := ascii
  pointErrorPos := false
  refmt := some
  root := ["books".toList]
  deps := fun n => if n = "test/b".toList then ["test/a".toList] else []
  fn := fun n vs => ⟨⟨[.header "# t".toList, .tln (match vs with | [some v] => v | _ => n)], none⟩, [], [], value⟩
  missing := fun n d => (n ++ d, [])

/-- A new project with three tests, one of which depends on another one that comes later. -/
def shop : Site where
  N := ⟨fun _ => none, fun _ => false⟩
  P := (handedOn none).dirs
  suite := { cases := [("test/b".toList, ⟨none, 1⟩), ("test/a".toList, ⟨none, 0⟩), ("test/c".toList, ⟨none, 2⟩)]
             info := fun n => if n = 1 then { deps := some [⟨none, 0⟩] } else {}
             isInstance := fun _ _ => false }
  fuel := 10
  cpuCount := 4
  viewer := fun _ => 0
  coverage := ([], [])

def started : World := ⟨⟨fun _ => none, [], []⟩, [([], .dir)], none, false⟩

theorem shop_case {n : Str} {m : Meth} (h : getCase shop.suite n = some m) :
    (n = "test/b".toList ∧ m = ⟨none, 1⟩) ∨ (n = "test/a".toList ∧ m = ⟨none, 0⟩) ∨ (n = "test/c".toList ∧ m = ⟨none, 2⟩) := by
  unfold getCase at h
  obtain ⟨y, hy, rfl⟩ := Option.map_eq_some_iff.mp h
  have h1 := List.mem_of_find?_eq_some hy
  have h2 := List.find?_some hy
  have h3 : y.1 = n := by simpa using h2
  simp only [shop, List.mem_cons, List.not_mem_nil, or_false] at h1
  rcases h1 with rfl | rfl | rfl
  · exact Or.inl ⟨h3.symm, rfl⟩
  · exact Or.inr (Or.inl ⟨h3.symm, rfl⟩)
  · exact Or.inr (Or.inr ⟨h3.symm, rfl⟩)

private theorem shop_typed : WellTyped shop.suite := by
  intro c hc o ho
  simp only [shop, List.mem_cons, List.not_mem_nil, or_false] at hc
  rcases hc with rfl | rfl | rfl <;> (have ho : (none : Option Nat) = some o := ho; cases ho)

private theorem shop_uses (v : Option Str) : ∀ n m, getCase shop.suite n = some m →
    (handedOn v).deps n = ((shop.suite.info m.fn).deps.getD []).filterMap (usedCase shop.suite m) := by
  intro n m h
  rcases shop_case h with ⟨rfl, rfl⟩ | ⟨rfl, rfl⟩ | ⟨rfl, rfl⟩ <;> rfl

private theorem shop_found : ∀ n m, getCase shop.suite n = some m → ∀ d ∈ (shop.suite.info m.fn).deps.getD [],
    (caseByMethod shop.suite (bindIfUnbound shop.suite m d)).isSome = true := by
  intro n m h d hd
  rcases shop_case h with ⟨rfl, rfl⟩ | ⟨rfl, rfl⟩ | ⟨rfl, rfl⟩
  · rw [List.mem_singleton.mp hd]; decide
  · cases hd
  · cases hd

theorem shop_plain : PlainNames shop.names := by
  refine ⟨?_, by unfold NotNested; decide⟩
  intro n hn
  change n ∈ ["test/b".toList, "test/a".toList, "test/c".toList] at hn
  simp only [List.mem_cons, List.not_mem_nil, or_false] at hn
  rcases hn with rfl | rfl | rfl <;> exact ⟨by decide, by decide, by decide⟩

theorem started_sound : SoundTree ["books".toList] shop.names started.fs := by
  have g : ∀ p, FS.get [([], .dir)] p = if p = [] then some .dir else none := by
    intro p; rw [get_cons]; rfl
  refine ⟨?_, rfl, ?_, ?_, ?_, ?_, ?_⟩
  · intro p c h; change (FS.get [([], .dir)] _).isSome = true at h; rw [g, if_neg (by simp)] at h; cases h
  · intro n _ o q _ t; change FS.get [([], .dir)] _ ≠ _; rw [g]; split <;> simp
  · intro n _ o x hx _; change FS.get [([], .dir)] _ ≠ _
    rw [g, if_neg (slot_ne_nil _ o n (Or.inr hx))]; simp
  · intro n _ o x hx t; change FS.get [([], .dir)] _ ≠ _; rw [g]; split <;> simp
  · decide
  · intro q _ t; change FS.get [([], .dir)] _ ≠ _; rw [g]; split <;> simp

theorem started_off (key : Str) : ¬ On ascii started.settings [] key := by
  rintro ⟨v, h, -⟩
  cases h with
  | said _ h1 =>
    obtain ⟨pre, x, post, h1, -⟩ := h1
    simp at h1
  | unsaid _ _ h2 =>
    have h' := C58_priority_partial ascii started.settings [] (by simp [Dict.keys]) {} [] rfl key
    have := C58_unique ascii started.settings _ [] (by simp [Dict.keys]) {} key _ _ h2 h'
    cases this

theorem shop_linked : Linked shop (handedOn (some "5".toList)) :=
  ⟨shop_typed, shop_uses _, shop_found, fun _ _ _ _ _ _ e => by cases e⟩

private theorem shop_reads : Reads shop.N (testChoices shop.names) [] [] none := .options _ _ .nil

/-- `booktest -p` and `booktest` in a new project meet the hypotheses. `test/a` is executed first. -/
example : Linked shop (handedOn (some "5".toList)) ∧ ∃ c records, workersRunD (fl := strokes) shop (handedOn (some "5".toList)) ["-p".toList]
      (fun _ => (0 : Nat)) (0 : Nat) (fun _ _ => False) started = some (c, records) ∧
    (∃ σ, FairRunD c 8 (mkdirs started.fs (handedOn (some "5".toList)).dirs.out) [] σ) ∧
    c.waits "test/b".toList = ["test/a".toList] ∧ c.todo = ["test/a".toList, "test/b".toList, "test/c".toList] := by
  refine ⟨shop_linked, ?_⟩
  have hs : ¬ CannotStart strokes (shop.over (handedOn (some "5".toList)).dirs) started [] none := by
    rcases booktest_reads (S := shop.over (handedOn (some "5".toList)).dirs) (w := started) (fl := strokes) shop_reads [] (fun _ => (0 : Nat)) with
      ⟨e, -⟩ | ⟨_, _, _, _, _, -, h, -, -⟩
    · exact absurd (congrArg (·.ran) e) (by decide +kernel)
    · exact h
  obtain ⟨c, records, h1, h2, -⟩ := C130_option_partial (fl := strokes) (w := started) shop_linked [] [] [] (fun _ => (0 : Nat)) (0 : Nat)
    (fun _ _ => False) [] none shop_reads (fun c hc => by obtain ⟨pre, x, post, h1, -⟩ := hc; simp at h1) hs (by decide)
    (fun v h => by cases h) (started_off _) (started_off _) (started_off _) (started_off _) (started_off _)
    (fun _ _ h => absurd h (started_off _)) shop_plain (by unfold CleanName; decide) (by decide) started_sound (fun _ _ h => h)
    (by
      intro P n hn
      change n ∈ ["test/b".toList, "test/a".toList, "test/c".toList] at hn
      simp only [List.mem_cons, List.not_mem_nil, or_false] at hn
      rcases hn with rfl | rfl | rfl <;> exact fun e => absurd (congrArg Option.isSome e) (by decide +kernel))
  refine ⟨c, records, h1, h2, ?_⟩
  have h3 : ((workersRunD (fl := strokes) shop (handedOn (some "5".toList)) ["-p".toList] (fun _ => (0 : Nat)) (0 : Nat)
      (fun _ _ => False) started).map (fun r => (r.1.waits "test/b".toList, r.1.todo))) =
      some (["test/a".toList], ["test/a".toList, "test/b".toList, "test/c".toList]) := by
    decide +kernel
  rw [h1] at h3
  injection h3 with h3
  injection h3 with h3 h4
  exact ⟨h3, h4⟩

example : ((booktestD (fl := strokes) shop (handedOn (some "5".toList)) ["-a".toList] [] (fun _ => (0 : Nat)) started).world.fs.get
    ["books".toList, "test".toList, "b.md".toList]) = some (.file "# t\n\n5\n".toList) := by decide +kernel

/-- **C130** needs that tests that others depend on return something: what is stored for a test that returns `None` does not
determine what the command does. -/
theorem C130_none_refuted : ∃ (S : Site) (D : DProject) (w : World), WellTyped S.suite ∧
    (∀ n m, getCase S.suite n = some m → D.deps n = ((S.suite.info m.fn).deps.getD []).filterMap (usedCase S.suite m)) ∧
    (∀ n m, getCase S.suite n = some m → ∀ d ∈ (S.suite.info m.fn).deps.getD [],
      (caseByMethod S.suite (bindIfUnbound S.suite m d)).isSome = true) ∧
    Reads S.N (testChoices S.names) ["-a".toList] [("accept".toList, .bool true)] none ∧ PlainNames S.names ∧
    SoundTree D.root S.names w.fs ∧
    let e := booktestD (fl := strokes) S D ["-a".toList] [] (fun _ => (0 : Nat)) w
    e.status = .ends (some 0) ∧
    (booktest (fl := strokes) (S.over (Spec.DProject.with D e.world.fs)) ["-a".toList] [] (fun _ => (0 : Nat)) w).status =
      .ends (some (-1)) := by
  refine ⟨shop, handedOn none, started, shop_typed, shop_uses _, shop_found, ?_, shop_plain, started_sound, ?_, ?_⟩
  · exact .options _ _ (.cons ["-a".toList] [] [("accept".toList, .bool true)] []
      (.alone "-a".toList "-a".toList "accept".toList (.bool true) ⟨by decide, List.prefix_refl _, Or.inl rfl⟩
        (.switch _ _ _ (by decide))) .nil)
  · decide +kernel
  · decide +kernel

end Verif.Props
