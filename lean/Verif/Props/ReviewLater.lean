import Verif.Props.Afterwards
import Verif.Props.ReviewNeeds

/-! # C137: `booktest` and then `booktest -w` are `booktest` with questions -/

namespace Verif.Props
open Verif.Py Verif.Model Verif.Spec Verif.Lemmas

variable {fl : Durations}

theorem starts_free {S : Site} {w : World} {uses : List (Str × CVal)} {cases : Option (List Str)}
    (hset : ReadableSettings S.P.u w.settings) (hdef : cases = none → ReadableDefaults S.P.u w.settings)
    (hrep : (ofFile S.P.u fl w.report).isSome) (hd : ∀ c ∈ S.suite.cases, (S.suite.info c.2.fn).deps = none)
    (hf : 0 < S.fuel) : ¬ CannotStart fl S w uses cases := by
  intro h
  cases h with
  | settings h => exact h hset
  | defaults h1 h2 => exact h2 (hdef h1)
  | selection h =>
    obtain ⟨sel, stored, -, -, h⟩ := h
    obtain ⟨run, h1, -⟩ := select_free hd sel stored none hf
    rw [h1] at h
    cases h
  | report h => rw [h] at hrep; cases hrep

/-- What a command with readable settings does if tests do not depend on each other. -/
theorem command_free {S : Site} {w : World} {args : List Str} {uses : List (Str × CVal)} {cases : Option (List Str)}
    (hr : Reads S.N (testChoices S.names) args uses cases) (ans : List Str) (dur : Str → fl.D)
    (hset : ReadableSettings S.P.u w.settings) (hdef : cases = none → ReadableDefaults S.P.u w.settings)
    {old : List (Rec fl)} (hrep : ofFile S.P.u fl w.report = some old)
    (hd : ∀ c ∈ S.suite.cases, (S.suite.info c.2.fn).deps = none) (hf : 0 < S.fuel) {selection selected : List Str}
    (hsel : Selection S.P.u w.settings cases selection) (hns : selectedNames S.suite selection none S.fuel = some selected) :
    ∃ config cmd, ConfigSaid S.P.u w.settings uses (configOf config) ∧
      (∀ key, key ≠ "command".toList → ¬ On S.P.u w.settings uses key → isOn config key = false) ∧
      (∀ c, cmd = some c ↔ AsksFor uses c) ∧
      booktest S args ans dur w = dispatch S config dur selected old ans w cmd := by
  rcases booktest_reads (w := w) hr ans dur with ⟨-, h⟩ | ⟨config, sel, selected', records, cmd, hprep, -, hcmd, e⟩
  · exact absurd h (starts_free hset hdef (by rw [hrep]; rfl) hd hf)
  · have e1 : sel = selection := selection_unique (selection_said hr hprep.said hprep.chosen) hsel
    subst e1
    obtain ⟨run, h1, h2, -⟩ := select_free hd sel (storedIn S.P config w.fs) none hf
    rw [hprep.names] at h1
    rw [hns] at h2
    cases h1
    cases h2
    have e2 := hprep.records
    rw [hrep] at e2
    cases e2
    refine ⟨config, cmd, config_on hprep, fun key hk hx => ?_, hcmd, e⟩
    rw [← Bool.not_eq_true, isOn_iff (hprep.said key hk)]
    exact hx

private theorem is_run {S : Site} {config : Dict CVal} {dur : Str → fl.D} {selected ans : List Str} {records : List (Rec fl)}
    {w : World} (hp : isOn config "parallel".toList = false) (hv : isOn config "coverage".toList = false) :
    dispatch S config dur selected records ans w none = runHere S config dur selected ans w := by
  rw [dispatch_run]
  unfold runCovered runCommand
  rw [hv, hp]
  rfl

theorem review_code {cfg : Config} {exp out : Path} {passed : Option (List Str)} {cases : Option (List Str)}
    {records : List (Rec fl)} {ans : List Str} {fs fs' : FS} {rs : List (Rec fl)} {code : Int} {log : List Reviewed}
    (h : review fl cfg exp out passed cases records ans fs = (fs', some (rs, code), log)) : code = -1 ∨ code = 0 := by
  unfold review at h
  dsimp only at h
  split at h
  · cases h
  · injection h with _ h
    injection h with h _
    rw [Option.map_eq_some_iff] at h
    obtain ⟨x, -, h⟩ := h
    injection h with _ h
    rw [← h]
    split
    · exact .inl rfl
    · exact .inr rfl

private theorem ends_result {S : Site} {config : Dict CVal} {dur : Str → fl.D} {selected ans : List Str} {w : World}
    {v : Option Int} (h : (runHere S config dur selected ans w).status = .ends v) :
    (runProject S.P (configOf config) dur S.names selected w.fs ans w.report).result ≠ none := by
  intro hx
  have h' : (match (runProject S.P (configOf config) dur S.names selected w.fs ans w.report).result with
    | some v => Status.ends (some (exitCode v))
    | none => Status.raises) = Status.ends v := h
  rw [hx] at h'
  cases h'

private theorem same_bool {a b : Bool} {p q : Prop} (h1 : a = true ↔ p) (h2 : b = true ↔ q) (h : p ↔ q) : a = b := by
  cases a <;> cases b
  · rfl
  · exact absurd (h1.mpr (h.mpr (h2.mp rfl))) (by decide)
  · exact absurd (h2.mpr (h.mp (h1.mp rfl))) (by decide)
  · rfl

/-- **C137**: `booktest TESTS` without questions, followed by `booktest -w TESTS` with any of `-i`, `-I`, `-a`, `-u`, `-f` and
with lines of the user, leaves the snapshots that `booktest TESTS` with these options and lines leaves, if that one ends
without an exception; in the report are the same results, followed by those of the tests that it has not reached. The
exit status of the review is 0 exactly if all results that it leaves are OK. -/
theorem C137_commands (S : Site) (w : World) (plain asking later : Command fl) (uses₀ uses uses' : List (Str × CVal))
    (cases : Option (List Str)) (hr₀ : Reads S.N (testChoices S.names) plain.args uses₀ cases)
    (hr : Reads S.N (testChoices S.names) asking.args uses cases)
    (hr' : Reads S.N (testChoices S.names) later.args uses' cases)
    (hn₀ : AsksRun uses₀) (hn : AsksRun uses) (hn' : AsksFor uses' "--review".toList)
    (hplain : ∀ key ∈ ["interactive".toList, "always_interactive".toList, "update".toList, "accept".toList,
      "fail_fast".toList, "continue".toList, "parallel".toList, "coverage".toList], ¬ On S.P.u w.settings uses₀ key)
    (hhere : ∀ key ∈ ["continue".toList, "parallel".toList, "coverage".toList], ¬ On S.P.u w.settings uses key)
    (hsame : ∀ key ∈ ["interactive".toList, "always_interactive".toList, "update".toList, "accept".toList,
      "fail_fast".toList, "continue".toList], (On S.P.u w.settings uses' key ↔ On S.P.u w.settings uses key))
    (hlines : later.answers = asking.answers)
    (hset : ReadableSettings S.P.u w.settings) (hdef : cases = none → ReadableDefaults S.P.u w.settings)
    (hrep : (ofFile S.P.u fl w.report).isSome)
    (hd : ∀ c ∈ S.suite.cases, (S.suite.info c.2.fn).deps = none) (hf : 0 < S.fuel)
    (hp : PlainNames S.names) (hcl : ∀ n ∈ S.names, CleanName n) (ht : SoundTree S.P.root S.names w.fs)
    (hends : ∀ n ∈ S.names, resultOf S.P (snapshot S.P.root w.fs n) n ≠ none) (v : Option Int)
    (hasked : (booktest S asking.args asking.answers asking.dur w).status = .ends v) :
    let i := booktest S asking.args asking.answers asking.dur w
    let r := booktest S later.args later.answers later.dur (booktest S plain.args plain.answers plain.dur w).world
    (∀ m ∈ S.names, snapshot S.P.root r.world.fs m = snapshot S.P.root i.world.fs m) ∧
    ∃ selection selected recorded reviewed, Selection S.P.u w.settings cases selection ∧
      selectedNames S.suite selection none S.fuel = some selected ∧
      ofFile S.P.u fl i.world.report = some recorded ∧ ofFile S.P.u fl r.world.report = some reviewed ∧
      reviewed.map key = recorded.map key ++
        (selected.filter (fun n => !(recorded.map (·.1)).contains n)).filterMap
          (fun n => (resultOf S.P (snapshot S.P.root w.fs n) n).map (n, ·)) ∧
      (r.status.code = some 0 ↔ ∀ x ∈ reviewed, x.2.1 = .OK) := by
  intro i r
  obtain ⟨old, hold⟩ := Option.isSome_iff_exists.mp hrep
  -- the selection
  obtain ⟨selection, selected, hsel, hns, hnd, hsub⟩ : ∃ selection selected, Selection S.P.u w.settings cases selection ∧
      selectedNames S.suite selection none S.fuel = some selected ∧ selected.Nodup ∧ ∀ n ∈ selected, n ∈ S.names := by
    rcases booktest_reads (w := w) hr₀ plain.answers plain.dur with ⟨-, h⟩ | ⟨config, sel, selected', records, cmd, hprep, -⟩
    · exact absurd h (starts_free hset hdef hrep hd hf)
    · obtain ⟨run, h1, h2, h3, h4⟩ := select_free hd sel (storedIn S.P config w.fs) none hf
      exact ⟨sel, run, selection_said hr₀ hprep.said hprep.chosen, h2, h3, h4⟩
  have hcl' : ∀ n ∈ selected, CleanName n := fun n hn => hcl n (hsub n hn)
  have hends' : ∀ n ∈ selected, resultOf S.P (snapshot S.P.root w.fs n) n ≠ none := fun n hn => hends n (hsub n hn)
  have none_of : ∀ {us : List (Str × CVal)} {cmd : Option Str}, AsksRun us → (∀ c, cmd = some c ↔ AsksFor us c) → cmd = none := by
    intro us cmd h1 h2
    cases cmd with
    | none => rfl
    | some c => exact absurd ((h2 c).mp rfl) (h1 c)
  -- the plain run
  obtain ⟨config₀, cmd₀, said₀, off₀, hcmd₀, e₀⟩ := command_free hr₀ plain.answers plain.dur hset hdef hold hd hf hsel hns
  rw [none_of hn₀ hcmd₀, is_run (off₀ _ (by decide) (hplain _ (by simp))) (off₀ _ (by decide) (hplain _ (by simp)))] at e₀
  have fals : ∀ {b : Bool} {p : Prop}, (b = true ↔ p) → ¬ p → b = false := by
    intro b p h1 h2
    rw [← Bool.not_eq_true, h1]
    exact h2
  have hplainrun : PlainRun (configOf config₀) :=
    ⟨⟨fals said₀.alwaysInteractive (hplain _ (by simp)), fals said₀.interactive (hplain _ (by simp))⟩,
     fals said₀.update (hplain _ (by simp)), fals said₀.accept (hplain _ (by simp)),
     fals said₀.failFast (hplain _ (by simp)), fals said₀.cont (hplain _ (by simp))⟩
  -- the run with questions
  obtain ⟨config, cmd, said, off, hcmd, e⟩ := command_free hr asking.answers asking.dur hset hdef hold hd hf hsel hns
  rw [none_of hn hcmd, is_run (off _ (by decide) (hhere _ (by simp))) (off _ (by decide) (hhere _ (by simp)))] at e
  have hcont := fals said.cont (hhere _ (by simp))
  have hres : (runProject S.P (configOf config) asking.dur S.names selected w.fs asking.answers w.report).result ≠ none :=
    ends_result (by rw [← e]; exact hasked)
  obtain ⟨records, q1, fs', reviewed, code, log, q2, q3, ⟨recorded, q4, q5⟩, q6⟩ := C134_review_later (fl := fl) (P := S.P)
    hplainrun hcont hp ht hnd hsub hcl' hold plain.dur asking.dur S.names asking.answers plain.answers hends' hres
  -- what the plain run leaves
  have hw₀ : (booktest S plain.args plain.answers plain.dur w).world.settings = w.settings := by rw [e₀]; rfl
  have hrep₀ : ofFile S.P.u fl (booktest S plain.args plain.answers plain.dur w).world.report = some records := by
    rw [e₀]; exact q1
  have hfs₀ : (booktest S plain.args plain.answers plain.dur w).world.fs =
      (runProject S.P (configOf config₀) plain.dur S.names selected w.fs plain.answers w.report).fs := by rw [e₀]; rfl
  have hmet : (booktest S plain.args plain.answers plain.dur w).world.metrics = true := by
    obtain ⟨es, d1, -, -⟩ := dialogue_plain (P := S.P) hplainrun plain.answers (snapshot S.P.root w.fs) selected hends'
    have c1 := (C133_dialogue (cfg := configOf config₀) hp ht hsub hcl' hold plain.dur S.names plain.answers
      (by rw [toRun_all hplainrun.cont]; exact d1)).1
    refine C136_run S w plain.args plain.answers plain.dur uses₀ cases hr₀ hn₀ (some (exitCode (worst (es.map (·.2))))) ?_
    rw [e₀]
    show (match (runProject S.P (configOf config₀) plain.dur S.names selected w.fs plain.answers w.report).result with
      | some v => Status.ends (some (exitCode v))
      | none => Status.raises) = _
    rw [c1]
  -- the review
  obtain ⟨config', cmd', said', -, hcmd', e'⟩ := command_free (w := (booktest S plain.args plain.answers plain.dur w).world)
    hr' later.answers later.dur (by rw [hw₀]; exact hset) (by rw [hw₀]; exact hdef) hrep₀ hd hf (by rw [hw₀]; exact hsel) hns
  rw [hw₀] at said'
  have hcfg : configOf config' = configOf config := by
    have h1 := same_bool said'.alwaysInteractive said.alwaysInteractive (hsame _ (by simp))
    have h2 := same_bool said'.interactive said.interactive (hsame _ (by simp))
    have h3 := same_bool said'.update said.update (hsame _ (by simp))
    have h4 := same_bool said'.accept said.accept (hsame _ (by simp))
    have h5 := same_bool said'.cont said.cont (hsame _ (by simp))
    have h6 := same_bool said'.failFast said.failFast (hsame _ (by simp))
    generalize configOf config' = a at h1 h2 h3 h4 h5 h6
    generalize configOf config = b at h1 h2 h3 h4 h5 h6
    cases a
    cases b
    dsimp only at h1 h2 h3 h4 h5 h6
    rw [h1, h2, h3, h4, h5, h6]
  have er : r = _ := e'
  rw [(hcmd' _).mpr hn', review_is, hmet, if_pos rfl, hcfg, hlines, hfs₀, q2] at er
  have ei : i = _ := e
  have hclean : ∀ x ∈ reviewed, CleanName x.1 := by
    intro x hx
    have := List.mem_map_of_mem (f := key) hx
    rw [q5] at this
    rcases List.mem_append.mp this with h | h
    · obtain ⟨y, hy, ey⟩ := List.mem_map.mp h
      have := ofFile_clean S.P.u fl q4 y hy
      have e1 : y.1 = x.1 := congrArg (Prod.fst (β := Result)) ey
      rw [← e1]
      exact this
    · obtain ⟨n, h1, h2⟩ := List.mem_filterMap.mp h
      obtain ⟨y, -, h3⟩ := Option.map_eq_some_iff.mp h2
      have e1 : n = x.1 := congrArg Prod.fst h3
      rw [← e1]
      exact hcl' n (List.mem_filter.mp h1).1
  rw [er, ei]
  refine ⟨q3, selection, selected, recorded, reviewed, hsel, hns, q4, ?_, q5, ?_⟩
  · show ofFile S.P.u fl (applyEvs (some []) (reviewed.map (Ev.write (fl := fl)))) = some reviewed
    rw [applyEvs_some _ _ (fun hc => by obtain ⟨q, -, hq⟩ := List.mem_map.mp hc; cases hq), List.nil_append, writes_map,
      C23_round_trip _ _ _ hclean]
  · rw [← q6]
    show some (exitStatus (some code)) = some 0 ↔ _
    rcases review_code q2 with rfl | rfl
    · decide
    · decide

/-! ### A case that meets the hypotheses -/

private def greets (x : String) : TestFn := ⟨⟨[.header "# t".toList, .tln x.toList], none⟩, [], [], none⟩

/-- A new project with three tests. -/
private def trio : Site where
  N := ⟨fun _ => none, fun _ => false⟩
  P := ⟨ascii, false, some, ["books".toList], fun n => if n = "test/a".toList then greets "a" else greets "b"⟩
  suite := { cases := [("test/a".toList, ⟨none, 0⟩), ("test/b".toList, ⟨none, 1⟩), ("test/c".toList, ⟨none, 2⟩)]
             info := fun _ => {}
             isInstance := fun _ _ => false }
  fuel := 10
  cpuCount := 4
  viewer := fun _ => 0
  coverage := ([], [])

private def empty : World := ⟨⟨fun _ => none, [], []⟩, [([], .dir)], none, false⟩

private theorem silent (key : Str) (v : CVal) :
    ¬ Chosen ascii empty.settings "~/.booktest".toList [] {} key (some v) := by
  intro h
  have h' := C58_priority_partial ascii empty.settings [] (by simp [Dict.keys]) {} [] rfl key
  have := C58_unique ascii empty.settings _ [] (by simp [Dict.keys]) {} key _ _ h h'
  cases this

private theorem reads_nothing : Reads trio.N (testChoices trio.names) [] [] none := .options _ _ .nil

private theorem reads_i : Reads trio.N (testChoices trio.names) ["-i".toList] [("interactive".toList, .bool true)] none :=
  .options _ _ (.cons ["-i".toList] [] [("interactive".toList, .bool true)] []
    (.alone "-i".toList "-i".toList _ _ ⟨by decide, List.prefix_rfl, .inl rfl⟩ (.switch _ _ _ (by decide))) .nil)

private theorem reads_wi : Reads trio.N (testChoices trio.names) ["-w".toList, "-i".toList]
    [("command".toList, .str "--review".toList), ("interactive".toList, .bool true)] none :=
  .options _ _ (.cons ["-w".toList] ["-i".toList] [("command".toList, .str "--review".toList)] _
    (.alone "-w".toList "-w".toList _ _ ⟨by decide, List.prefix_rfl, .inl rfl⟩ (.command _ _ (by decide)))
    (.cons ["-i".toList] [] [("interactive".toList, .bool true)] []
      (.alone "-i".toList "-i".toList _ _ ⟨by decide, List.prefix_rfl, .inl rfl⟩ (.switch _ _ _ (by decide))) .nil))

private theorem on_mem {uses : List (Str × CVal)} {key : Str} (h : On ascii empty.settings uses key) : key ∈ uses.map (·.1) := by
  obtain ⟨v, h, -⟩ := h
  cases h with
  | said _ h1 => exact List.mem_map_of_mem (f := (·.1)) (finally_mem h1)
  | unsaid _ _ h2 => exact absurd h2 (silent key v)

private theorem on_i : On ascii empty.settings [("interactive".toList, .bool true)] "interactive".toList :=
  ⟨.bool true, .said _ ⟨[], _, [], rfl, rfl, by simp⟩ ⟨by decide, by decide, by decide⟩, ⟨by decide, by decide, by decide⟩⟩

private theorem on_wi : On ascii empty.settings
    [("command".toList, .str "--review".toList), ("interactive".toList, .bool true)] "interactive".toList :=
  ⟨.bool true, .said _ ⟨[_], _, [], rfl, rfl, by simp⟩ ⟨by decide, by decide, by decide⟩, ⟨by decide, by decide, by decide⟩⟩

private theorem empty_sound (ns : List Str) : SoundTree ["books".toList] ns [([], .dir)] := by
  have g : ∀ p, FS.get [([], .dir)] p = if p = [] then some .dir else none := by
    intro p; rw [get_cons]; rfl
  refine ⟨?_, rfl, ?_, ?_, ?_, ?_, ?_⟩
  · intro p c h; rw [g, if_neg (by simp)] at h; cases h
  · intro n _ o q _ t; rw [g]; split <;> simp
  · intro n _ o x hx _; rw [g, if_neg (slot_ne_nil _ o n (Or.inr hx))]; simp
  · intro n _ o x hx t; rw [g]; split <;> simp
  · decide
  · intro q _ t; rw [g]; split <;> simp

/-- `booktest -i` with the lines `a` and `q` on the one hand, `booktest` and `booktest -w -i` with these lines on the other. -/
example :
    let i := booktest (fl := strokes) trio ["-i".toList] ["a".toList, "q".toList] (fun _ => (0 : Nat)) empty
    let r := booktest (fl := strokes) trio ["-w".toList, "-i".toList] ["a".toList, "q".toList] (fun _ => (0 : Nat))
      (booktest (fl := strokes) trio [] [] (fun _ => (0 : Nat)) empty).world
    (∀ m ∈ trio.names, snapshot trio.P.root r.world.fs m = snapshot trio.P.root i.world.fs m) ∧
    snapshot trio.P.root r.world.fs "test/a".toList = some "# t\n\na\n".toList ∧
    (ofFile ascii strokes i.world.report).map (·.map key) = some [("test/a".toList, .OK), ("test/b".toList, .DIFF)] ∧
    (ofFile ascii strokes r.world.report).map (·.map key) =
      some [("test/a".toList, .OK), ("test/b".toList, .DIFF), ("test/c".toList, .DIFF)] := by
  refine ⟨(C137_commands (fl := strokes) trio empty ⟨[], [], fun _ => (0 : Nat)⟩
    ⟨["-i".toList], ["a".toList, "q".toList], fun _ => (0 : Nat)⟩
    ⟨["-w".toList, "-i".toList], ["a".toList, "q".toList], fun _ => (0 : Nat)⟩ _ _ _ none reads_nothing reads_i reads_wi
    ?_ ?_ ?_ (fun key _ h => absurd (on_mem h) (by simp)) (fun key hk h => ?_) ?_ rfl (fun line hl hcount => ?_)
    (fun _ v hv => absurd hv (silent _ v)) rfl (fun _ _ => rfl) (by decide) ?_ (by unfold CleanName; decide) ?_ (by decide +kernel)
    (some (-1)) (by decide +kernel)).1, by decide +kernel, by decide +kernel, by decide +kernel⟩
  · intro c h
    exact absurd (finally_mem h) (by simp)
  · intro c h
    have := List.mem_map_of_mem (f := (·.1)) (finally_mem h)
    change "command".toList ∈ ["interactive".toList] at this
    revert this
    decide
  · refine ⟨[], _, [_], rfl, rfl, fun y hy v' => ?_⟩
    rw [List.mem_singleton.mp hy]
    intro h
    cases h
  · have := on_mem h
    rw [List.map_cons, List.map_nil, List.mem_singleton] at this
    subst this
    revert hk
    decide
  · intro key hk
    by_cases hx : key = "interactive".toList
    · subst hx
      exact ⟨fun _ => on_i, fun _ => on_wi⟩
    · constructor
      · intro h
        have := on_mem h
        rw [List.map_cons, List.map_cons, List.map_nil, List.mem_cons, List.mem_singleton] at this
        rcases this with h | h
        · exfalso
          change key = "command".toList at h
          rw [h] at hk
          revert hk
          decide
        · exact absurd h hx
      · intro h
        have := on_mem h
        rw [List.map_cons, List.map_nil, List.mem_singleton] at this
        exact absurd this hx
  · have : line ∈ ([] : List Str) := hl
    cases this
  · refine ⟨?_, by unfold NotNested; decide⟩
    intro n hn
    change n ∈ ["test/a".toList, "test/b".toList, "test/c".toList] at hn
    simp only [List.mem_cons, List.not_mem_nil, or_false] at hn
    rcases hn with rfl | rfl | rfl
    · exact ⟨by decide, by decide, by decide⟩
    · exact ⟨by decide, by decide, by decide⟩
    · exact ⟨by decide, by decide, by decide⟩
  · exact empty_sound _

end Verif.Props
