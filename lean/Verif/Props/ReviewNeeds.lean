import Verif.Props.Exec

/-! # C136: `--review` needs a run that has come to its end -/

namespace Verif.Props
open Verif.Py Verif.Model Verif.Spec Verif.Lemmas

variable {fl : Durations}

theorem review_is (S : Site) (config : Dict CVal) (dur : Str → fl.D) (cases : List Str)
    (records : List (Rec fl)) (ans : List Str) (w : World) :
    dispatch S config dur cases records ans w (some "--review".toList) =
      if w.metrics then
        match review fl (configOf config) S.P.root S.P.out none (some cases) records ans w.fs with
        | (fs, none, _) => { world := { w with fs := fs }, status := .raises }
        | (fs, some (rs, rv), _) =>
          { world := { w with fs := fs, report := applyEvs w.report (.truncate :: rs.map .write) }
            status := .ends (some rv) }
      else { world := w, status := .raises } := rfl

/-- **C136**: without `metrics.json`, `--review` ends with an exception and changes nothing, whatever the report says. -/
theorem C136_needed (S : Site) (w : World) (args ans : List Str) (dur : Str → fl.D) (uses : List (Str × CVal))
    (cases : Option (List Str)) (hr : Reads S.N (testChoices S.names) args uses cases)
    (hc : AsksFor uses "--review".toList) (hm : w.metrics = false) :
    booktest S args ans dur w = { world := w, status := .raises } := by
  rcases booktest_reads (w := w) hr ans dur with ⟨e, -⟩ | ⟨config, sel, selected, records, cmd, -, -, hcmd, e⟩
  · exact e
  · rw [e, (hcmd _).mpr hc, review_is, hm]
    rfl

private theorem runHere_metrics (S : Site) (config : Dict CVal) (dur : Str → fl.D) (cases ans : List Str) (w : World) :
    (w.metrics = true → (runHere S config dur cases ans w).world.metrics = true) ∧
    ∀ v, (runHere S config dur cases ans w).status = .ends v → (runHere S config dur cases ans w).world.metrics = true := by
  constructor
  · intro h
    show (w.metrics || _) = true
    rw [h]
    rfl
  · intro v h
    show (w.metrics || Option.isSome (runAsync S.P.u fl (configOf config) (projectOutcome S.P (configOf config) dur
      (mkdirs w.fs S.P.out, ans)) cases w.report).2) = true
    have h' : (match (runProject S.P (configOf config) dur S.names cases w.fs ans w.report).result with
      | some v => Status.ends (some (exitCode v))
      | none => Status.raises) = Status.ends v := h
    cases hd : (runAsync S.P.u fl (configOf config) (projectOutcome S.P (configOf config) dur
      (mkdirs w.fs S.P.out, ans)) cases w.report).2 with
    | some x => exact Bool.or_true _
    | none =>
      exfalso
      have : (runProject S.P (configOf config) dur S.names cases w.fs ans w.report).result = none := by
        unfold runProject
        dsimp only
        rw [hd]
      rw [this] at h'
      cases h'

private theorem runCommand_metrics (S : Site) (config : Dict CVal) (dur : Str → fl.D) (cases ans : List Str) (w : World) :
    (w.metrics = true → (runCommand S config dur cases ans w).world.metrics = true) ∧
    ∀ v, (runCommand S config dur cases ans w).status = .ends v →
      (runCommand S config dur cases ans w).world.metrics = true := by
  unfold runCommand
  split
  · exact ⟨id, fun v h => nomatch h⟩
  · exact runHere_metrics S config dur cases ans w

private theorem runCovered_metrics (S : Site) (config : Dict CVal) (dur : Str → fl.D) (cases ans : List Str) (w : World) :
    (w.metrics = true → (runCovered S config dur cases ans w).world.metrics = true) ∧
    ∀ v, (runCovered S config dur cases ans w).status = .ends v →
      (runCovered S config dur cases ans w).world.metrics = true := by
  unfold runCovered
  split
  · split
    · exact ⟨id, fun v h => nomatch h⟩
    · have key := runCommand_metrics S config dur cases ans { w with fs := w.fs.filter (fun e => !isCoverageFile e.1) }
      dsimp only at key ⊢
      generalize runCommand S config dur cases ans { w with fs := w.fs.filter (fun e => !isCoverageFile e.1) } = r at key ⊢
      split
      · exact key
      · refine ⟨key.1, fun v h => key.2 v ?_⟩
        by_cases hx : (writeCoverage S.coverage r.world.fs).2 = true
        · dsimp only at h
          rw [if_pos hx] at h
          exact h
        · dsimp only at h
          rw [if_neg hx] at h
          cases h
  · exact runCommand_metrics S config dur cases ans w

/-- **C136**: a run in this process that ends without an exception leaves `metrics.json`, with or without coverage, whatever
the verdicts are. -/
theorem C136_run (S : Site) (w : World) (args ans : List Str) (dur : Str → fl.D) (uses : List (Str × CVal))
    (cases : Option (List Str)) (hr : Reads S.N (testChoices S.names) args uses cases) (hn : AsksRun uses) (v : Option Int)
    (h : (booktest S args ans dur w).status = .ends v) : (booktest S args ans dur w).world.metrics = true := by
  rcases booktest_reads (w := w) hr ans dur with ⟨e, -⟩ | ⟨config, sel, selected, records, cmd, -, -, hcmd, e⟩
  · rw [e] at h
    cases h
  · rw [e] at h ⊢
    cases cmd with
    | some c => exact absurd ((hcmd c).mp rfl) (hn c)
    | none => exact (runCovered_metrics S config dur selected ans w).2 v h

/-- What a command does to `metrics.json`: only `--clean` removes it, and only a run makes it. -/
private theorem command_metrics (S : Site) (w : World) (args ans : List Str) (dur : Str → fl.D) :
    (w.metrics = true → (booktest S args ans dur w).world.metrics = false →
      ∃ uses cases, Reads S.N (testChoices S.names) args uses cases ∧ AsksFor uses "--clean".toList) ∧
    (w.metrics = false → (booktest S args ans dur w).world.metrics = true →
      ∃ uses cases, Reads S.N (testChoices S.names) args uses cases ∧ AsksRun uses) := by
  by_cases hr : ∃ uses cases, Reads S.N (testChoices S.names) args uses cases
  · obtain ⟨uses, cases, hr⟩ := hr
    have same : (booktest S args ans dur w).world.metrics = w.metrics →
        (w.metrics = true → (booktest S args ans dur w).world.metrics = false →
          ∃ uses cases, Reads S.N (testChoices S.names) args uses cases ∧ AsksFor uses "--clean".toList) ∧
        (w.metrics = false → (booktest S args ans dur w).world.metrics = true →
          ∃ uses cases, Reads S.N (testChoices S.names) args uses cases ∧ AsksRun uses) := by
      intro h
      rw [h]
      exact ⟨fun a b => (nomatch a.symm.trans b), fun a b => (nomatch a.symm.trans b)⟩
    rcases booktest_reads (w := w) hr ans dur with ⟨e, -⟩ | ⟨config, sel, selected, records, cmd, -, -, hcmd, e⟩
    · exact same (by rw [e])
    · cases cmd with
      | none =>
        refine ⟨fun a b => ?_, fun _ _ => ⟨uses, cases, hr, fun c hx => nomatch (hcmd c).mpr hx⟩⟩
        rw [e, dispatch_run, (runCovered_metrics S config dur selected ans w).1 a] at b
        cases b
      | some c =>
        have hc := (hcmd c).mp rfl
        have hin := asked_command hr hc
        simp only [commands, List.map_cons, List.map_nil, List.mem_cons, List.not_mem_nil, or_false] at hin
        by_cases hcl : c = "--clean".toList
        · refine ⟨fun _ _ => ⟨uses, cases, hr, hcl ▸ hc⟩, fun a b => ?_⟩
          rw [e, hcl] at b
          have : (if isGarbageOut S.P S.names "metrics.json".toList then false else w.metrics) = true := b
          rw [a] at this
          split at this <;> cases this
        · refine same ?_
          rw [e]
          have rv : (dispatch S config dur selected records ans w (some "--review".toList)).world.metrics = w.metrics := by
            rw [review_is]
            split
            · split <;> rfl
            · rfl
          rcases hin with rfl | rfl | rfl | rfl | rfl | rfl | rfl | rfl | rfl | rfl | rfl
          · first | rfl | exact absurd rfl hcl
          · exact rv
          · exact rv
          · show World.metrics (CommandEnd.world (if _ then _ else _)) = _
            split <;> rfl
          · first | rfl | exact absurd rfl hcl
          · first | rfl | exact absurd rfl hcl
          · first | rfl | exact absurd rfl hcl
          · first | rfl | exact absurd rfl hcl
          · first | rfl | exact absurd rfl hcl
          · first | rfl | exact absurd rfl hcl
          · show World.metrics (CommandEnd.world (match setupBooktest config ans with | none => _ | some text => _)) = _
            cases setupBooktest config ans <;> rfl
  · have : (booktest S args ans dur w).world = w := by
      rcases booktest_rejected (w := w) (fun uses cases hx => hr ⟨uses, cases, hx⟩) ans dur with e | e <;> rw [e]
    rw [this]
    exact ⟨fun a b => (nomatch a.symm.trans b), fun a b => (nomatch a.symm.trans b)⟩

private theorem session_kept (S : Site) : ∀ (cs : List (Command fl)) (w : World), w.metrics = true →
    (∀ c ∈ cs, ∀ uses cases, Reads S.N (testChoices S.names) c.args uses cases → ¬ AsksFor uses "--clean".toList) →
    (session S w cs).metrics = true := by
  intro cs
  induction cs with
  | nil => intro w h _; exact h
  | cons c cs ih =>
    intro w h hcs
    refine ih _ ?_ (fun d hd => hcs d (List.mem_cons_of_mem _ hd))
    cases hm : (booktest S c.args c.answers c.dur w).world.metrics with
    | true => rfl
    | false =>
      obtain ⟨uses, cases, hr, ha⟩ := (command_metrics S w c.args c.answers c.dur).1 h hm
      exact absurd ha (hcs c List.mem_cons_self uses cases hr)

/-- **C136**: whatever commands are given one after the other: after a run that has ended without an exception,
`metrics.json` is there until `--clean` is given. -/
theorem C136_kept (S : Site) (w : World) (before after : List (Command fl)) (c : Command fl) (uses : List (Str × CVal))
    (cases : Option (List Str)) (hr : Reads S.N (testChoices S.names) c.args uses cases) (hn : AsksRun uses) (v : Option Int)
    (h : (booktest S c.args c.answers c.dur (session S w before)).status = .ends v)
    (hcl : ∀ d ∈ after, ∀ uses cases, Reads S.N (testChoices S.names) d.args uses cases → ¬ AsksFor uses "--clean".toList) :
    (session S w (before ++ c :: after)).metrics = true := by
  have e : session S w (before ++ c :: after) =
      session S (booktest S c.args c.answers c.dur (session S w before)).world after := by
    unfold session
    rw [List.foldl_append, List.foldl_cons]
  rw [e]
  exact session_kept S after _ (C136_run S _ c.args c.answers c.dur uses cases hr hn v h) hcl

/-- **C136**: whatever commands are given one after the other in a project without `metrics.json`: `--review` ends with an
exception and changes nothing unless one of them has been a run. -/
theorem C136_before (S : Site) (w : World) (cs : List (Command fl)) (hm : w.metrics = false)
    (hcs : ∀ c ∈ cs, ∀ uses cases, Reads S.N (testChoices S.names) c.args uses cases → ¬ AsksRun uses)
    (args ans : List Str) (dur : Str → fl.D) (uses : List (Str × CVal)) (cases : Option (List Str))
    (hr : Reads S.N (testChoices S.names) args uses cases) (hc : AsksFor uses "--review".toList) :
    booktest S args ans dur (session S w cs) = { world := session S w cs, status := .raises } := by
  refine C136_needed S _ args ans dur uses cases hr hc ?_
  clear hr hc
  induction cs generalizing w with
  | nil => exact hm
  | cons c cs ih =>
    refine ih _ ?_ (fun d hd => hcs d (List.mem_cons_of_mem _ hd))
    cases hx : (booktest S c.args c.answers c.dur w).world.metrics with
    | false => rfl
    | true =>
      obtain ⟨uses, cases, hr, ha⟩ := (command_metrics S w c.args c.answers c.dur).2 hm hx
      exact absurd ha (hcs c List.mem_cons_self uses cases hr)

/-- **C136**: after `--clean`, `--review` ends with an exception and changes nothing until tests are run again, if no test has
the name of `metrics.json`. -/
theorem C136_clean (S : Site) (hroot : S.P.root ≠ []) (hparts : ∀ c ∈ S.P.root, c ≠ [])
    (hnames : ∀ n ∈ S.names, Normal n) (hno : ¬ OfTest S.names [".out".toList, "metrics.json".toList]) (w : World)
    (clean : Command fl) (uses₀ : List (Str × CVal)) (cases₀ : Option (List Str))
    (hr₀ : Reads S.N (testChoices S.names) clean.args uses₀ cases₀) (hc₀ : AsksFor uses₀ "--clean".toList)
    (hs : ¬ CannotStart fl S w uses₀ cases₀) (cs : List (Command fl))
    (hcs : ∀ c ∈ cs, ∀ uses cases, Reads S.N (testChoices S.names) c.args uses cases → ¬ AsksRun uses)
    (args ans : List Str) (dur : Str → fl.D) (uses : List (Str × CVal)) (cases : Option (List Str))
    (hr : Reads S.N (testChoices S.names) args uses cases) (hc : AsksFor uses "--review".toList) :
    booktest S args ans dur (session S w (clean :: cs)) = { world := session S w (clean :: cs), status := .raises } :=
  C136_before S (booktest S clean.args clean.answers clean.dur w).world cs
    ((C107_clean S hroot hparts hnames w clean.args clean.answers clean.dur uses₀ cases₀ hr₀ hc₀ hs).2.2.2.2.2.2.2.2.2.2 hno)
    hcs args ans dur uses cases hr hc

private theorem quietLoop {cfg : Config} (hc : NotAsking cfg) (hu : cfg.update = false) (ha : cfg.accept = false)
    (exp out : Path) (passed : List Str) (cases : Option (List Str)) :
    ∀ (rs : List (Rec fl)) (abort : Bool) (fs : FS) (ans : List Str),
      (reviewLoop fl cfg exp out passed cases rs abort fs ans).2.1 = some (rs.map (fun r => (r.1, .res r.2.1, r.2.2))) := by
  intro rs
  induction rs with
  | nil => intro abort fs ans; rfl
  | cons r rs ih =>
    intro abort fs ans
    obtain ⟨n, res, d⟩ := r
    unfold reviewLoop
    split
    · rw [caseReview_auto hc, if_neg]
      · dsimp only
        rw [ih]
        rfl
      · rintro (⟨-, h⟩ | ⟨-, h⟩)
        · rw [hu] at h; cases h
        · rw [ha] at h; cases h
    · dsimp only
      rw [ih]
      rfl

private theorem raw_back : ∀ rs : List (Rec fl), (rs.map (fun r => ((r.1, Raw.res r.2.1, r.2.2) : Str × Raw × fl.D))).mapM rawRec = some rs := by
  intro rs
  induction rs with
  | nil => rfl
  | cons r rs ih =>
    rw [List.map_cons, List.mapM_cons, ih]
    rfl

/-- **C136**: with `metrics.json`, `--review` with none of `-u`, `-a`, `-i` and `-I` comes to its end whatever the files are: it
changes no file and no record, and succeeds exactly if all records are OK, those of other tests among them. -/
theorem C136_reviews (S : Site) (w : World) (args ans : List Str) (dur : Str → fl.D) (uses : List (Str × CVal))
    (cases : Option (List Str)) (hr : Reads S.N (testChoices S.names) args uses cases)
    (hc : AsksFor uses "--review".toList) (hs : ¬ CannotStart fl S w uses cases) (hm : w.metrics = true)
    (hq : Unasked S.P.u w.settings uses) :
    let e := booktest S args ans dur w
    e.world.fs = w.fs ∧ e.world.settings = w.settings ∧ e.world.metrics = true ∧ e.ran = [] ∧
    ∃ records, ofFile S.P.u fl w.report = some records ∧ ofFile S.P.u fl e.world.report = some records ∧
      ((∀ r ∈ records, r.2.1 = .OK) → e.status.code = some 0) ∧
      ((∃ r ∈ records, r.2.1 ≠ .OK) → e.status.code = some 255) := by
  intro e
  rcases booktest_reads (w := w) hr ans dur with ⟨e', h⟩ | ⟨config, sel, selected, records, cmd, hprep, -, hcmd, e'⟩
  · exact absurd h hs
  · have hon := config_on hprep
    obtain ⟨hu, ha, hi, hal, -⟩ := hq
    have off : ∀ {b : Bool} {p : Prop}, (b = true ↔ p) → ¬ p → b = false := by
      intro b p h1 h2
      cases b with
      | false => rfl
      | true => exact absurd (h1.mp rfl) h2
    have hask : NotAsking (configOf config) := ⟨off hon.alwaysInteractive hal, off hon.interactive hi⟩
    have hu' := off hon.update hu
    have ha' := off hon.accept ha
    have hl := quietLoop (fl := fl) hask hu' ha' S.P.root S.P.out (passed records) (some selected) records false w.fs ans
    have hf := reviewLoop_fs (fl := fl) hask hu' ha' S.P.root S.P.out (passed records) (some selected) records false w.fs ans
    have hrv : review fl (configOf config) S.P.root S.P.out none (some selected) records ans w.fs =
        (w.fs, some (records, if (records.map (fun r => ((r.1, Raw.res r.2.1, r.2.2) : Str × Raw × fl.D))).any
          (fun x => decide (x.2.1 ≠ .res .OK)) then -1 else 0),
          (reviewLoop fl (configOf config) S.P.root S.P.out (passed records) (some selected) records false w.fs ans).2.2) := by
      unfold review
      dsimp only [Option.getD_none]
      rw [hl]
      dsimp only
      rw [hf, raw_back]
      rfl
    have ee : e = _ := e'
    rw [(hcmd _).mpr hc, review_is, hm, if_pos rfl, hrv] at ee
    rw [ee]
    refine ⟨rfl, rfl, rfl, rfl, records, hprep.records, ?_, fun h => ?_, fun h => ?_⟩
    · obtain ⟨evs, h1, h2⟩ := C65_forget S.P.u fl [] w.report records hprep.records
      have hall : forgetRecords records [] = records := List.filter_eq_self.mpr (fun _ _ => rfl)
      unfold forget at h1
      rw [hprep.records, Option.map_some, Option.some.injEq, hall] at h1
      rw [← h1] at h2
      have hf' : records.filter (fun r => decide (r.1 ∉ ([] : List Str))) = records :=
        List.filter_eq_self.mpr (fun _ _ => rfl)
      rw [hf'] at h2
      exact h2
    · show some (exitStatus (some (if _ then _ else _))) = _
      rw [if_neg]
      · rfl
      · rw [List.any_map, List.any_eq_true]
        rintro ⟨r, hr', hx⟩
        have hx := of_decide_eq_true hx
        exact hx (congrArg Raw.res (h r hr'))
    · obtain ⟨r, hr', hx⟩ := h
      show some (exitStatus (some (if _ then _ else _))) = _
      rw [if_pos]
      · rfl
      · rw [List.any_map, List.any_eq_true]
        exact ⟨r, hr', decide_eq_true (fun hy => hx (by injection hy))⟩

/-! ### Cases that meet the hypotheses -/

private def greets (x : String) : TestFn := ⟨⟨[.header "# t".toList, .tln x.toList], none⟩, [], [], none⟩

/-- A new project with two tests. -/
private def pair : Site where
  N := ⟨fun _ => none, fun _ => false⟩
  P := ⟨ascii, false, some, ["books".toList], fun n => if n = "test/a".toList then greets "a" else greets "b"⟩
  suite := { cases := [("test/a".toList, ⟨none, 0⟩), ("test/b".toList, ⟨none, 1⟩)]
             info := fun _ => {}
             isInstance := fun _ _ => false }
  fuel := 10
  cpuCount := 4
  viewer := fun _ => 0
  coverage := ([], [])

private def empty : World := ⟨⟨fun _ => none, [], []⟩, [([], .dir)], none, false⟩

private theorem reads_review : Reads pair.N (testChoices pair.names) ["-w".toList]
    [("command".toList, .str "--review".toList)] none :=
  .options _ _ (.cons ["-w".toList] [] [("command".toList, .str "--review".toList)] []
    (.alone "-w".toList "-w".toList _ _ ⟨by decide, List.prefix_rfl, .inl rfl⟩ (.command _ _ (by decide))) .nil)

private theorem asks_review : AsksFor [("command".toList, CVal.str "--review".toList)] "--review".toList :=
  ⟨[], _, [], rfl, rfl, by simp⟩

/-- A run that ends, a review of it, and a review after `--clean`. -/
example :
    let run := fun (w : World) (args : List String) =>
      booktest (fl := strokes) pair (args.map (·.toList)) [] (fun _ => (0 : Nat)) w
    (run empty []).status = .ends (some (-1)) ∧ (run empty []).world.metrics = true ∧
    (run (run empty []).world ["-w"]).status = .ends (some (-1)) ∧
    (run (run empty ["-a"]).world ["-w"]).status = .ends (some 0) ∧
    (run (run (run empty ["-a"]).world ["--clean"]).world ["-w"]).status = .raises ∧
    (run (run (run (run empty ["-a"]).world ["--clean"]).world ["-l"]).world ["-w"]).status = .raises ∧
    (run (run (run (run empty ["-a"]).world ["--clean"]).world []).world ["-w"]).status = .ends (some 0) := by
  decide +kernel

/-- **C136**, refuted: what has been recorded can be reviewed. The first run of the project ends when the user ends the input
at the second question: the test before is recorded, but `booktest -w` ends with an exception, whatever the answers are. -/
theorem C136_recorded_refuted : ∃ (S : Site) (w : World) (args ans : List Str) (records : List (Rec strokes)),
    let left := (booktest (fl := strokes) S args ans (fun _ => (0 : Nat)) w).world
    ofFile S.P.u strokes left.report = some records ∧ records ≠ [] ∧
    ∀ ans', booktest (fl := strokes) S ["-w".toList] ans' (fun _ => (0 : Nat)) left =
      { world := left, status := .raises } := by
  refine ⟨pair, empty, ["-i".toList], ["c".toList], [("test/a".toList, .DIFF, (0 : Nat))], by decide +kernel, by simp, ?_⟩
  intro ans'
  exact C136_needed pair _ _ ans' _ _ none reads_review asks_review (by decide +kernel)

end Verif.Props
