import Verif.Props.ReviewAgain

/-! # C141: a run and any number of reviews, as commands -/

namespace Verif.Props
open Verif.Py Verif.Model Verif.Spec Verif.Lemmas

variable {fl : Durations} {fs : FS}

/-- The selected tests have been recorded and can be reviewed. -/
structure ToReview (fl : Durations) (S : Site) (w : World) (selected : List Str) : Prop where
  metrics : w.metrics = true
  files : SoundTree S.P.root S.names w.fs
  records : ∃ records : List (Rec fl), ofFile S.P.u fl w.report = some records ∧
    ((records.filter (fun x => selected.contains x.1)).map (·.1)).Perm selected ∧
    ∀ x ∈ records, x.1 ∈ selected → Reviewable S.P (snapshot S.P.root w.fs) w.fs (key x)

/-- The command is `booktest -w` for the tests `cases`, without `-c`, `-I` and `-u`. -/
structure IsReview (S : Site) (settings : ConfigWorld) (cases : Option (List Str)) (args : List Str) (uses : List (Str × CVal)) :
    Prop where
  reads : Reads S.N (testChoices S.names) args uses cases
  asks : AsksFor uses "--review".toList
  off : ∀ key ∈ ["continue".toList, "always_interactive".toList, "update".toList], ¬ On S.P.u settings uses key

/-- Reviews one after the other, as commands. Each of them is the dialogue about the selected tests in the order of the report,
with the snapshots that are there when it begins, and ends with an exception if the lines of the user do not suffice; the
records of other tests stay. If in the end all records of the
selected tests are OK, then these tests pass. -/
def ReviewDays {fl : Durations} (S : Site) (selected : List Str) : List (Command fl × List (Str × CVal)) → World → Prop
  | [], w => ∀ records : List (Rec fl), ofFile S.P.u fl w.report = some records →
      (∀ x ∈ records, x.1 ∈ selected → x.2.1 = .OK) → AllPass fl S w selected
  | c :: cs, w => ∃ cfg records, ConfigSaid S.P.u w.settings c.2 cfg ∧ ofFile S.P.u fl w.report = some records ∧
    ((records.filter (fun x => selected.contains x.1)).map (·.1)).Perm selected ∧
    (dialogue S.P cfg ((records.filter (fun x => selected.contains x.1)).map (·.1)) (snapshot S.P.root w.fs) c.1.answers = none →
      (booktest S c.1.args c.1.answers c.1.dur w).status = .raises) ∧
    ∀ d, dialogue S.P cfg ((records.filter (fun x => selected.contains x.1)).map (·.1)) (snapshot S.P.root w.fs) c.1.answers = some d →
      let r := booktest S c.1.args c.1.answers c.1.dur w
      (∀ m ∈ S.names, snapshot S.P.root r.world.fs m = d.snaps m) ∧ r.world.settings = w.settings ∧
      ∃ reviewed, ofFile S.P.u fl r.world.report = some reviewed ∧ reviewed.map (·.1) = records.map (·.1) ∧
        (reviewed.filter (fun x => selected.contains x.1)).map key = d.ends ++
          ((records.filter (fun x => selected.contains x.1)).drop d.ends.length).map key ∧
        reviewed.filter (fun x => !selected.contains x.1) = records.filter (fun x => !selected.contains x.1) ∧
        (r.status.code = some 0 ↔ ∀ x ∈ reviewed, x.2.1 = .OK) ∧ ReviewDays S selected cs r.world

private theorem names_kept {selected : List Str} {a b : List (Rec fl)} (h : a.map (·.1) = b.map (·.1)) :
    (a.filter (fun x => selected.contains x.1)).map (·.1) = (b.filter (fun x => selected.contains x.1)).map (·.1) := by
  have e : ∀ l : List (Rec fl), (l.filter (fun x => selected.contains x.1)).map (·.1) =
      (l.map (·.1)).filter (fun n => selected.contains n) := by
    intro l
    rw [List.filter_map]
    rfl
  rw [e, e, h]

/-- **C141**: any number of `booktest -w` commands about tests that can be reviewed. -/
theorem C141_reviews_partial (S : Site) {settings : ConfigWorld} (cases : Option (List Str)) {selection selected : List Str}
    (hset : ReadableSettings S.P.u settings) (hdef : cases = none → ReadableDefaults S.P.u settings)
    (hd : ∀ c ∈ S.suite.cases, (S.suite.info c.2.fn).deps = none) (hf : 0 < S.fuel)
    (hp : PlainNames S.names) (hrt : ∀ n ∈ S.names, RepeatableTest S.P.u (S.P.tests n).body)
    (hsel : Selection S.P.u settings cases selection) (hns : selectedNames S.suite selection none S.fuel = some selected)
    (cs : List (Command fl × List (Str × CVal))) (hcs : ∀ c ∈ cs, IsReview S settings cases c.1.args c.2) :
    ∀ w : World, w.settings = settings → ToReview fl S w selected → ReviewDays S selected cs w := by
  obtain ⟨run, s1, s2, s3, s4⟩ := select_free hd selection none none hf
  rw [hns] at s2
  cases s2
  have fals : ∀ {b : Bool} {p : Prop}, (b = true ↔ p) → ¬ p → b = false := by
    intro b p h1 h2
    rw [← Bool.not_eq_true, h1]
    exact h2
  induction cs with
  | nil =>
    intro w _ hw records hrec hok
    obtain ⟨records', r1, r2, r3⟩ := hw.records
    rw [hrec] at r1
    cases r1
    refine ⟨s4, hw.files, ⟨_, hrec⟩, fun n hn => ?_⟩
    obtain ⟨x, hx, rfl⟩ := List.mem_map.mp (r2.mem_iff.mpr hn)
    obtain ⟨h1, -⟩ := List.mem_filter.mp hx
    obtain ⟨s, a1, a2, -⟩ := r3 x h1 hn
    exact ⟨s, a1, a2.symm.trans (hok x h1 hn)⟩
  | cons c cs ih =>
    intro w hw0 hw
    subst hw0
    obtain ⟨records, r1, r2, r3⟩ := hw.records
    have hc := hcs c (by simp)
    obtain ⟨config, cmd, said, -, hcmd, e⟩ := command_free (w := w) hc.reads c.1.answers c.1.dur hset hdef r1 hd hf hsel hns
    rw [(hcmd _).mpr hc.asks, review_is, hw.metrics, if_pos rfl] at e
    refine ⟨configOf config, records, said, r1, r2, fun hdl => ?_, fun d hdl => ?_⟩
    · have := C140_no_answer_partial (fl := fl) (P := S.P) (cfg := configOf config)
        (fals said.cont (hc.off _ (by simp))) (fals said.alwaysInteractive (hc.off _ (by simp)))
        (fals said.update (hc.off _ (by simp))) hp hw.files records (r2.nodup_iff.mpr s3) (fun x _ hx => s4 _ hx)
        (fun x _ hx => hrt _ (s4 _ hx)) r3 c.1.answers hdl
      rw [e]
      generalize review fl (configOf config) S.P.root S.P.out none (some selected) records c.1.answers w.fs = z at this
      obtain ⟨z1, z2, z3⟩ := z
      dsimp only at this
      subst this
      rfl
    obtain ⟨fs', reviewed, code, log, q1, q2, q3, q4, q5, q6, q7, q8⟩ := C140_again_partial (P := S.P) (cfg := configOf config)
      (fals said.cont (hc.off _ (by simp))) (fals said.alwaysInteractive (hc.off _ (by simp)))
      (fals said.update (hc.off _ (by simp))) hp hw.files records (r2.nodup_iff.mpr s3) (fun x _ hx => s4 _ hx)
      (fun x _ hx => hrt _ (s4 _ hx)) r3 c.1.answers hdl
    have hclean : ∀ y ∈ reviewed, CleanName y.1 := by
      intro y hy
      have : y.1 ∈ reviewed.map (·.1) := List.mem_map_of_mem hy
      rw [q3] at this
      obtain ⟨z, hz, ez⟩ := List.mem_map.mp this
      rw [← ez]
      exact ofFile_clean S.P.u fl r1 z hz
    rw [q1] at e
    dsimp only at e
    have hback : ofFile S.P.u fl (booktest S c.1.args c.1.answers c.1.dur w).world.report = some reviewed := by
      rw [e]
      show ofFile S.P.u fl (applyEvs (some []) (reviewed.map (Ev.write (fl := fl)))) = some reviewed
      rw [applyEvs_some _ _ (fun hc => by obtain ⟨q, -, hq⟩ := List.mem_map.mp hc; cases hq), List.nil_append, writes_map,
        C23_round_trip _ _ _ hclean]
    have hsettings : (booktest S c.1.args c.1.answers c.1.dur w).world.settings = w.settings := by rw [e]
    have hfiles : (booktest S c.1.args c.1.answers c.1.dur w).world.fs = fs' := by rw [e]
    refine ⟨by rw [hfiles]; exact q2, hsettings, reviewed, hback, q3, q4, q5, ?_,
      ih (fun y hy => hcs y (by simp [hy])) _ hsettings ⟨by rw [e], by rw [hfiles]; exact q7,
        reviewed, hback, by rw [names_kept q3]; exact r2, by rw [hfiles]; exact q8⟩⟩
    rw [e, ← q6]
    show some (exitStatus (some code)) = some 0 ↔ _
    rcases review_code q1 with rfl | rfl
    · decide
    · decide

private theorem snapshot_get {root : Path} {g : FS} (h : ∀ p, g.get p = fs.get p) (n : Str) :
    snapshot root g n = snapshot root fs n := by
  unfold snapshot
  rw [h]

private theorem waits_get {root : Path} {g : FS} {n out : Str} (h : ∀ p, g.get p = fs.get p) (hw : Waits root n out fs) :
    Waits root n out g :=
  ⟨fun o => by rw [h]; exact hw.dir o, by rw [h]; exact hw.out⟩

/-- **C141**: after `booktest -p TESTS` without questions, however its workers are scheduled, any number of `booktest -w TESTS`
commands, with any answers. -/
theorem C141_workers_partial (S : Site) (w : World) (args : List Str) (dur : Str → fl.D) (zero : fl.D)
    (breaks : Str → Bool → Prop) (uses : List (Str × CVal)) (cases : Option (List Str))
    (hr : Reads S.N (testChoices S.names) args uses cases)
    (hplain : ∀ key ∈ ["interactive".toList, "always_interactive".toList, "update".toList, "accept".toList,
      "fail_fast".toList, "continue".toList], ¬ On S.P.u w.settings uses key)
    (hset : ReadableSettings S.P.u w.settings) (hdef : cases = none → ReadableDefaults S.P.u w.settings)
    (hd : ∀ c ∈ S.suite.cases, (S.suite.info c.2.fn).deps = none) (hf : 0 < S.fuel)
    (hp : PlainNames S.names) (hcl : ∀ n ∈ S.names, CleanName n)
    (hbatch : ∀ a ∈ S.names, ∀ b ∈ S.names, batchName a = batchName b → a = b)
    (ht : SoundTree S.P.root S.names w.fs) (hb : ∀ n b, ¬ breaks n b)
    (hends : ∀ n ∈ S.names, resultOf S.P (snapshot S.P.root w.fs n) n ≠ none)
    (hrt : ∀ n ∈ S.names, RepeatableTest S.P.u (S.P.tests n).body)
    {c : RConf fl} {old : List (Rec fl)} (hrun : workersRun S args dur zero breaks w = some (c, old)) (ans : List Str)
    (σ : Nat → RSt fl) (hσ : FairRun c (mkdirs w.fs S.P.out) ans σ) (i : Nat) (x : Bool) (hi : (σ i).run.rpc = .ended x)
    (cs : List (Command fl × List (Str × CVal))) (hcs : ∀ c ∈ cs, IsReview S w.settings cases c.1.args c.2) :
    ∃ selection selected, Selection S.P.u w.settings cases selection ∧
      selectedNames S.suite selection none S.fuel = some selected ∧
      (∀ m ∈ S.names, snapshot S.P.root (workersEnd w c old (σ i)).world.fs m = snapshot S.P.root w.fs m) ∧
      ReviewDays S selected cs (workersEnd w c old (σ i)).world := by
  let e := workersEnd w c old (σ i)
  have hends2 : ∀ n ∈ S.names, runTest (S.P.env (snapshot S.P.root w.fs n)) (S.P.tests n).body ≠ none := by
    intro n hn h
    refine hends n hn ?_
    unfold resultOf
    rw [h]
    rfl
  obtain ⟨config, sel, selected, hprep, hrn, -, -, -, hall⟩ := workers_core hr (hplain _ (by simp)) (hplain _ (by simp))
    (hplain _ (by simp)) (fun _ _ h => absurd h (hplain _ (by simp))) hp hcl hbatch ht hb
    (fun names ha n hn => hends2 n (about_in ha n hn)) hrun ans
  obtain ⟨-, f2, f3, f4, f5, ps, ss, f6, f7, f8⟩ := (hall σ hσ).2 i x hi [] config rfl
  obtain ⟨run, g1, g2, g3, g4⟩ := select_free hd sel (storedIn S.P config w.fs) none hf
  rw [hprep.names] at g1
  cases g1
  have hsel := selection_said hr hprep.said hprep.chosen
  have hsub : ∀ n ∈ selected, n ∈ S.names := g4
  have fals : ∀ {b : Bool} {p : Prop}, (b = true ↔ p) → ¬ p → b = false := by
    intro b p h1 h2
    rw [← Bool.not_eq_true, h1]
    exact h2
  have said := config_on hprep
  have hplainrun : PlainRun (configOf config) :=
    ⟨⟨fals said.alwaysInteractive (hplain _ (by simp)), fals said.interactive (hplain _ (by simp))⟩,
     fals said.update (hplain _ (by simp)), fals said.accept (hplain _ (by simp)),
     fals said.failFast (hplain _ (by simp)), fals said.cont (hplain _ (by simp))⟩
  obtain ⟨p1, p2, p3, new, p4, p5, p6⟩ := plain_left (P := S.P) hplainrun hp ht g3 hsub (fun n hn => hcl n (hsub n hn))
    hprep.records dur S.names [] (fun n hn => hends n (hsub n hn))
  have f7' : ofFile S.P.u fl (runProject S.P (configOf config) dur S.names selected w.fs [] w.report).report = some ss := f7
  rw [p6] at f7'
  injection f7' with f7'
  have f5' : ∀ p, e.world.fs.get p = (runProject S.P (configOf config) dur S.names selected w.fs [] w.report).fs.get p := f5
  have hS := sound_get p1 f5'
  have hsn : ∀ m ∈ S.names, snapshot S.P.root e.world.fs m = snapshot S.P.root w.fs m :=
    fun m hm => (snapshot_get f5' m).trans (p2 m hm)
  -- the records of the tests
  have hfs : ss.filter (fun x => selected.contains x.1) = new := by
    rw [← f7', List.filter_append, List.filter_eq_nil_iff.mpr, List.nil_append, List.filter_eq_self]
    · intro y hy
      have : y.1 ∈ selected := by rw [← p4]; exact List.mem_map_of_mem hy
      simpa using this
    · intro y hy
      have := (List.mem_filter.mp hy).2
      simpa using this
  have hperm : ((ps.filter (fun x => selected.contains x.1)).map key).Perm (new.map key) := by
    have h1 : ∀ l : List (Rec fl), (l.filter (fun x => selected.contains x.1)).map key =
        (l.map key).filter (fun k => selected.contains k.1) := by
      intro l
      rw [List.filter_map]
      rfl
    rw [h1, ← hfs, h1]
    exact f8.filter _
  have hnperm : ((ps.filter (fun x => selected.contains x.1)).map (·.1)).Perm selected := by
    have h1 : ∀ l : List (Rec fl), l.map (·.1) = (l.map key).map (·.1) := fun l => by rw [List.map_map]; rfl
    have h2 := hperm.map (·.1)
    rw [← h1, ← h1, p4] at h2
    exact h2
  have hres : ∀ y ∈ ps, y.1 ∈ selected → resultOf S.P (snapshot S.P.root w.fs y.1) y.1 = some y.2.1 := by
    intro y hy hys
    have h1 : key y ∈ (ps.filter (fun x => selected.contains x.1)).map key :=
      List.mem_map_of_mem (List.mem_filter.mpr ⟨hy, by simpa using hys⟩)
    obtain ⟨z, hz, ez⟩ := List.mem_map.mp (hperm.mem_iff.mp h1)
    have h2 := p5 z hz
    have e1 : z.1 = y.1 := congrArg (Prod.fst (β := Result)) ez
    have e2 : z.2.1 = y.2.1 := congrArg (Prod.snd (α := Str)) ez
    rw [e1, e2] at h2
    exact h2
  refine ⟨sel, selected, hsel, g2, hsn, C141_reviews_partial S cases hset hdef hd hf hp hrt hsel g2 cs hcs _ rfl
    ⟨rfl, hS, ps, f6, hnperm, ?_⟩⟩
  intro y hy hys
  have h1 := hres y hy hys
  unfold resultOf at h1
  obtain ⟨s, h2, h3⟩ := Option.map_eq_some_iff.mp h1
  have e1 : snapshot S.P.root e.world.fs (key y).1 = snapshot S.P.root w.fs y.1 := hsn _ (hsub _ hys)
  exact ⟨s, by rw [e1]; exact h2, by rw [e1]; exact h3.symm, fun _ => waits_get f5' (p3 y.1 hys s h2)⟩

private theorem is_run {S : Site} {config : Dict CVal} {dur : Str → fl.D} {selected ans : List Str} {records : List (Rec fl)}
    {w : World} (hp : isOn config "parallel".toList = false) (hv : isOn config "coverage".toList = false) :
    dispatch S config dur selected records ans w none = runHere S config dur selected ans w := by
  rw [dispatch_run]
  unfold runCovered runCommand
  rw [hv, hp]
  rfl

/-- **C141**: after `booktest TESTS` without questions and workers, any number of `booktest -w TESTS` commands, with any answers. -/
theorem C141_run_partial (S : Site) (w : World) (plain : Command fl) (uses : List (Str × CVal)) (cases : Option (List Str))
    (hr : Reads S.N (testChoices S.names) plain.args uses cases) (hn : AsksRun uses)
    (hplain : ∀ key ∈ ["interactive".toList, "always_interactive".toList, "update".toList, "accept".toList,
      "fail_fast".toList, "continue".toList, "parallel".toList, "coverage".toList], ¬ On S.P.u w.settings uses key)
    (hset : ReadableSettings S.P.u w.settings) (hdef : cases = none → ReadableDefaults S.P.u w.settings)
    (hrep : (ofFile S.P.u fl w.report).isSome)
    (hd : ∀ c ∈ S.suite.cases, (S.suite.info c.2.fn).deps = none) (hf : 0 < S.fuel)
    (hp : PlainNames S.names) (hcl : ∀ n ∈ S.names, CleanName n) (ht : SoundTree S.P.root S.names w.fs)
    (hends : ∀ n ∈ S.names, resultOf S.P (snapshot S.P.root w.fs n) n ≠ none)
    (hrt : ∀ n ∈ S.names, RepeatableTest S.P.u (S.P.tests n).body)
    (cs : List (Command fl × List (Str × CVal))) (hcs : ∀ c ∈ cs, IsReview S w.settings cases c.1.args c.2) :
    ∃ selection selected, Selection S.P.u w.settings cases selection ∧
      selectedNames S.suite selection none S.fuel = some selected ∧
      (∀ m ∈ S.names, snapshot S.P.root (booktest S plain.args plain.answers plain.dur w).world.fs m = snapshot S.P.root w.fs m) ∧
      ReviewDays S selected cs (booktest S plain.args plain.answers plain.dur w).world := by
  obtain ⟨old, hold⟩ := Option.isSome_iff_exists.mp hrep
  obtain ⟨selection, selected, hsel, hns, hnd, hsub⟩ : ∃ selection selected, Selection S.P.u w.settings cases selection ∧
      selectedNames S.suite selection none S.fuel = some selected ∧ selected.Nodup ∧ ∀ n ∈ selected, n ∈ S.names := by
    rcases booktest_reads (w := w) hr plain.answers plain.dur with ⟨-, h⟩ | ⟨config, sel, selected', records, cmd, hprep, -⟩
    · exact absurd h (starts_free hset hdef hrep hd hf)
    · obtain ⟨run, h1, h2, h3, h4⟩ := select_free hd sel (storedIn S.P config w.fs) none hf
      exact ⟨sel, run, selection_said hr hprep.said hprep.chosen, h2, h3, h4⟩
  have hcl' : ∀ n ∈ selected, CleanName n := fun n hn => hcl n (hsub n hn)
  have hends' : ∀ n ∈ selected, resultOf S.P (snapshot S.P.root w.fs n) n ≠ none := fun n hn => hends n (hsub n hn)
  obtain ⟨config, cmd, said, off, hcmd, e⟩ := command_free hr plain.answers plain.dur hset hdef hold hd hf hsel hns
  have hnone : cmd = none := by
    cases cmd with
    | none => rfl
    | some c => exact absurd ((hcmd c).mp rfl) (hn c)
  rw [hnone, is_run (off _ (by decide) (hplain _ (by simp))) (off _ (by decide) (hplain _ (by simp)))] at e
  have fals : ∀ {b : Bool} {p : Prop}, (b = true ↔ p) → ¬ p → b = false := by
    intro b p h1 h2
    rw [← Bool.not_eq_true, h1]
    exact h2
  have hplainrun : PlainRun (configOf config) :=
    ⟨⟨fals said.alwaysInteractive (hplain _ (by simp)), fals said.interactive (hplain _ (by simp))⟩,
     fals said.update (hplain _ (by simp)), fals said.accept (hplain _ (by simp)),
     fals said.failFast (hplain _ (by simp)), fals said.cont (hplain _ (by simp))⟩
  obtain ⟨p1, p2, p3, new, p4, p5, p6⟩ := plain_left (P := S.P) hplainrun hp ht hnd hsub hcl' hold plain.dur S.names plain.answers hends'
  have hmet : (booktest S plain.args plain.answers plain.dur w).world.metrics = true := by
    obtain ⟨es, d1, -, -⟩ := dialogue_plain (P := S.P) hplainrun plain.answers (snapshot S.P.root w.fs) selected hends'
    have c1 := (C133_dialogue (cfg := configOf config) hp ht hsub hcl' hold plain.dur S.names plain.answers
      (by rw [toRun_all hplainrun.cont]; exact d1)).1
    refine C136_run S w plain.args plain.answers plain.dur uses cases hr hn (some (exitCode (worst (es.map (·.2))))) ?_
    rw [e]
    show (match (runProject S.P (configOf config) plain.dur S.names selected w.fs plain.answers w.report).result with
      | some v => Status.ends (some (exitCode v))
      | none => Status.raises) = _
    rw [c1]
  have hfs : (booktest S plain.args plain.answers plain.dur w).world.fs =
      (runProject S.P (configOf config) plain.dur S.names selected w.fs plain.answers w.report).fs := by rw [e]; rfl
  have hnew : ∀ x ∈ new, x.1 ∈ selected := fun x hx => by rw [← p4]; exact List.mem_map_of_mem hx
  have ef : (old.filter (fun x => !selected.contains x.1) ++ new).filter (fun x => selected.contains x.1) = new := by
    rw [List.filter_append, List.filter_eq_nil_iff.mpr, List.filter_eq_self.mpr, List.nil_append]
    · intro x hx
      simpa using hnew x hx
    · intro x hx
      simpa using (List.mem_filter.mp hx).2
  refine ⟨selection, selected, hsel, hns, by rw [hfs]; exact p2,
    C141_reviews_partial S cases hset hdef hd hf hp hrt hsel hns cs hcs _ (by rw [e]; rfl)
    ⟨hmet, by rw [hfs]; exact p1, _, by rw [e]; exact p6, by rw [ef, p4], ?_⟩⟩
  rw [hfs]
  intro x hx hs
  have hxn : x ∈ new := by
    rw [← ef]
    exact List.mem_filter.mpr ⟨hx, by simpa using hs⟩
  have h := p5 x hxn
  unfold resultOf at h
  obtain ⟨s, a1, a2⟩ := Option.map_eq_some_iff.mp h
  have e1 : snapshot S.P.root (runProject S.P (configOf config) plain.dur S.names selected w.fs plain.answers w.report).fs (key x).1 =
    snapshot S.P.root w.fs x.1 := p2 _ (hsub _ hs)
  exact ⟨s, by rw [e1]; exact a1, by rw [e1]; exact a2.symm, fun _ => p3 _ hs s a1⟩

/-! ### A case that meets the hypotheses -/

private def greets (x : String) : TestFn := ⟨⟨[.header "# t".toList, .tln x.toList], none⟩, [], [], none⟩

/-- A new project with three tests. -/
private def three : Site where
  N := ⟨fun _ => none, fun _ => false⟩
  P := ⟨ascii, false, some, ["books".toList], fun n => if n = "test/a".toList then greets "a" else greets "b"⟩
  suite := { cases := [("test/a".toList, ⟨none, 0⟩), ("test/b".toList, ⟨none, 1⟩), ("test/c".toList, ⟨none, 2⟩)]
             info := fun _ => {}
             isInstance := fun _ _ => false }
  fuel := 10
  cpuCount := 4
  viewer := fun _ => 0
  coverage := ([], [])

private def fresh : World := ⟨⟨fun _ => none, [], []⟩, [([], .dir)], none, false⟩

private theorem silent (key : Str) (v : CVal) :
    ¬ Chosen ascii fresh.settings "~/.booktest".toList [] {} key (some v) := by
  intro h
  have h' := C58_priority_partial ascii fresh.settings [] (by simp [Dict.keys]) {} [] rfl key
  have := C58_unique ascii fresh.settings _ [] (by simp [Dict.keys]) {} key _ _ h h'
  cases this

private theorem on_mem {uses : List (Str × CVal)} {key : Str} (h : On ascii fresh.settings uses key) : key ∈ uses.map (·.1) := by
  obtain ⟨v, h, -⟩ := h
  cases h with
  | said _ h1 => exact List.mem_map_of_mem (f := (·.1)) (finally_mem h1)
  | unsaid _ _ h2 => exact absurd h2 (silent key v)

private theorem reads_wa : Reads three.N (testChoices three.names) ["-w".toList, "-a".toList]
    [("command".toList, .str "--review".toList), ("accept".toList, .bool true)] none :=
  .options _ _ (.cons ["-w".toList] ["-a".toList] [("command".toList, .str "--review".toList)] _
    (.alone "-w".toList "-w".toList _ _ ⟨by decide, List.prefix_rfl, .inl rfl⟩ (.command _ _ (by decide)))
    (.cons ["-a".toList] [] [("accept".toList, .bool true)] []
      (.alone "-a".toList "-a".toList _ _ ⟨by decide, List.prefix_rfl, .inl rfl⟩ (.switch _ _ _ (by decide))) .nil))

private theorem fresh_sound (ns : List Str) : SoundTree ["books".toList] ns [([], .dir)] := by
  have g : ∀ p, FS.get [([], .dir)] p = if p = [] then some .dir else none := by
    intro p; rw [get_cons]; rfl
  refine ⟨?_, rfl, ?_, ?_, ?_, ?_, ?_⟩
  · intro p c h; rw [g, if_neg (by simp)] at h; cases h
  · intro n _ o q _ t; rw [g]; split <;> simp
  · intro n _ o x hx _; rw [g, if_neg (slot_ne_nil _ o n (Or.inr hx))]; simp
  · intro n _ o x hx t; rw [g]; split <;> simp
  · decide
  · intro q _ t; rw [g]; split <;> simp

private theorem three_plain : PlainNames three.names := by
  refine ⟨?_, by unfold NotNested; decide⟩
  intro n hn
  change n ∈ ["test/a".toList, "test/b".toList, "test/c".toList] at hn
  simp only [List.mem_cons, List.not_mem_nil, or_false] at hn
  rcases hn with rfl | rfl | rfl
  · exact ⟨by decide, by decide, by decide⟩
  · exact ⟨by decide, by decide, by decide⟩
  · exact ⟨by decide, by decide, by decide⟩

private theorem three_repeatable : ∀ n ∈ three.names, RepeatableTest three.P.u (three.P.tests n).body := by
  intro n hn
  change n ∈ ["test/a".toList, "test/b".toList, "test/c".toList] at hn
  simp only [List.mem_cons, List.not_mem_nil, or_false] at hn
  rcases hn with rfl | rfl | rfl
  · exact ⟨rfl, ⟨Or.inr rfl, trivial, trivial⟩, ⟨_, rfl, by decide⟩, by decide⟩
  · exact ⟨rfl, ⟨Or.inr rfl, trivial, trivial⟩, ⟨_, rfl, by decide⟩, by decide⟩
  · exact ⟨rfl, ⟨Or.inr rfl, trivial, trivial⟩, ⟨_, rfl, by decide⟩, by decide⟩

private theorem reads_wi : Reads three.N (testChoices three.names) ["-w".toList, "-i".toList]
    [("command".toList, .str "--review".toList), ("interactive".toList, .bool true)] none :=
  .options _ _ (.cons ["-w".toList] ["-i".toList] [("command".toList, .str "--review".toList)] _
    (.alone "-w".toList "-w".toList _ _ ⟨by decide, List.prefix_rfl, .inl rfl⟩ (.command _ _ (by decide)))
    (.cons ["-i".toList] [] [("interactive".toList, .bool true)] []
      (.alone "-i".toList "-i".toList _ _ ⟨by decide, List.prefix_rfl, .inl rfl⟩ (.switch _ _ _ (by decide))) .nil))

private theorem is_review_i : IsReview three fresh.settings none ["-w".toList, "-i".toList]
    [("command".toList, .str "--review".toList), ("interactive".toList, .bool true)] := by
  refine ⟨reads_wi, ⟨[], _, [_], rfl, rfl, fun y hy v' => by rw [List.mem_singleton.mp hy]; intro h; cases h⟩, ?_⟩
  intro key hk h
  have := on_mem h
  rw [List.map_cons, List.map_cons, List.map_nil, List.mem_cons, List.mem_singleton] at this
  rcases this with rfl | rfl
  · revert hk
    decide
  · revert hk
    decide

private theorem is_review_a : IsReview three fresh.settings none ["-w".toList, "-a".toList]
    [("command".toList, .str "--review".toList), ("accept".toList, .bool true)] := by
  refine ⟨reads_wa, ⟨[], _, [_], rfl, rfl, fun y hy v' => by rw [List.mem_singleton.mp hy]; intro h; cases h⟩, ?_⟩
  intro key hk h
  have := on_mem h
  rw [List.map_cons, List.map_cons, List.map_nil, List.mem_cons, List.mem_singleton] at this
  rcases this with rfl | rfl
  · revert hk
    decide
  · revert hk
    decide

/-- A new project with three tests: `booktest`, then `booktest -w -i`, in which the user accepts the first test and quits,
`booktest -w -i`, in which the user skips the second test and accepts the third one, and `booktest -w -a`. -/
example : ReviewDays (fl := strokes) three ["test/a".toList, "test/b".toList, "test/c".toList]
    [(⟨["-w".toList, "-i".toList], ["a".toList, "q".toList], fun _ => (0 : Nat)⟩,
        [("command".toList, .str "--review".toList), ("interactive".toList, .bool true)]),
     (⟨["-w".toList, "-i".toList], ["c".toList, "a".toList], fun _ => (0 : Nat)⟩,
        [("command".toList, .str "--review".toList), ("interactive".toList, .bool true)]),
     (⟨["-w".toList, "-a".toList], [], fun _ => (0 : Nat)⟩,
        [("command".toList, .str "--review".toList), ("accept".toList, .bool true)])]
    (booktest (fl := strokes) three [] [] (fun _ => (0 : Nat)) fresh).world := by
  have off : ∀ key, ¬ On ascii fresh.settings [] key := fun key h => absurd (on_mem h) (by simp)
  have hset : ReadableSettings three.P.u fresh.settings := fun line hl _ => by
    have : line ∈ ([] : List Str) := hl
    cases this
  have hdef : (none : Option (List Str)) = none → ReadableDefaults three.P.u fresh.settings :=
    fun _ v hv => absurd hv (silent _ v)
  obtain ⟨selection, selected, k1, k2, -, k3⟩ := C141_run_partial (fl := strokes) three fresh ⟨[], [], fun _ => (0 : Nat)⟩ [] none
    (.options _ _ .nil) (fun c h => absurd (finally_mem h) (by simp)) (fun key _ => off key) hset hdef rfl (fun _ _ => rfl)
    (by decide) three_plain (by unfold CleanName; decide) (fresh_sound _) (by decide +kernel) three_repeatable
    [(⟨["-w".toList, "-i".toList], ["a".toList, "q".toList], fun _ => (0 : Nat)⟩,
        [("command".toList, .str "--review".toList), ("interactive".toList, .bool true)]),
     (⟨["-w".toList, "-i".toList], ["c".toList, "a".toList], fun _ => (0 : Nat)⟩,
        [("command".toList, .str "--review".toList), ("interactive".toList, .bool true)]),
     (⟨["-w".toList, "-a".toList], [], fun _ => (0 : Nat)⟩,
        [("command".toList, .str "--review".toList), ("accept".toList, .bool true)])] (by
      intro c hc
      simp only [List.mem_cons, List.not_mem_nil, or_false] at hc
      rcases hc with rfl | rfl | rfl
      · exact is_review_i
      · exact is_review_i
      · exact is_review_a)
  have hsel : selection = ["test".toList, "book".toList] := by
    cases k1 with
    | configured s h => exact absurd h (silent _ _)
    | usual _ => rfl
  subst hsel
  have : selectedNames three.suite ["test".toList, "book".toList] none three.fuel =
    some ["test/a".toList, "test/b".toList, "test/c".toList] := by decide +kernel
  rw [this] at k2
  injection k2 with k2
  subst k2
  exact k3

/-- The status of a command, as something that can be compared. -/
private def stopped : Status → Bool
  | .raises => true
  | _ => false

/-- **C141**, what does not hold: that a review can be continued after one that has been left because no more lines can be read
(or by Ctrl-C). The user has accepted the first of three tests when the lines end. Its output has become the
snapshot, but the report is written at the end of a review only, and still says that there are differences; `booktest -w -a`
then ends with an exception at this test, and does so again, until the test is run again. -/
theorem C141_interrupted_refuted : ∃ (S : Site) (w : World) (n : Str),
    let w1 := (booktest (fl := strokes) S [] [] (fun _ => (0 : Nat)) w).world
    let e2 := booktest (fl := strokes) S ["-w".toList, "-i".toList] ["a".toList] (fun _ => (0 : Nat)) w1
    let e3 := booktest (fl := strokes) S ["-w".toList, "-a".toList] [] (fun _ => (0 : Nat)) e2.world
    let e4 := booktest (fl := strokes) S ["-w".toList, "-a".toList] [] (fun _ => (0 : Nat)) e3.world
    snapshot S.P.root w1.fs n = none ∧ e2.status = .raises ∧ (snapshot S.P.root e2.world.fs n).isSome ∧
    resultOf S.P (snapshot S.P.root e2.world.fs n) n = some .OK ∧ e3.status = .raises ∧ e4.status = .raises ∧
    (booktest (fl := strokes) S ["-w".toList, "-a".toList] [] (fun _ => (0 : Nat)) w1).status.code = some 0 := by
  have up : ∀ s : Status, stopped s = true → s = .raises := by
    intro s h
    cases s with
    | raises => rfl
    | _ => cases h
  refine ⟨three, fresh, "test/a".toList, by decide +kernel, up _ (by decide +kernel), by decide +kernel, by decide +kernel,
    up _ (by decide +kernel), up _ (by decide +kernel), by decide +kernel⟩

end Verif.Props
