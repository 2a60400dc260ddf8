import Verif.Spec.Exec
import Verif.Props.Config
import Verif.Props.Cli
import Verif.Lemmas.ProjectRun
import Verif.Lemmas.Run

/-! # Lemmas about whole commands -/

namespace Verif.Lemmas
open Verif.Py Verif.Model Verif.Spec Verif.Props

theorem given_iff (v : CVal) : v.truthy = true ↔ Given v := by
  unfold Given
  cases v with
  | bool b => cases b <;> simp [CVal.truthy]
  | str s => simp [CVal.truthy]
  | int n => simp [CVal.truthy]

theorem finally_unique {uses : List (Str × CVal)} {key : Str} {v v' : CVal} (h : Finally uses key v)
    (h' : Finally uses key v') : v = v' := by
  rw [← lastOf_iff] at h h'
  rw [h] at h'
  cases h'
  rfl

theorem setting_unique {u : Unicode} {w : ConfigWorld} {uses : List (Str × CVal)} {key : Str} {o o' : Option CVal}
    (h : Setting u w uses key o) (h' : Setting u w uses key o') : o = o' := by
  cases h with
  | said v h1 h2 =>
    cases h' with
    | said v' g1 g2 => rw [finally_unique h1 g1]
    | unsaid _ g1 g2 => exact absurd h2 (g1 _ h1)
  | unsaid _ h1 h2 =>
    cases h' with
    | said v' g1 g2 => exact absurd g2 (h1 _ g1)
    | unsaid _ g1 g2 => exact C58_unique u w _ [] (by simp [Dict.keys]) {} key _ _ h2 g2

theorem config_said {N : Numbers} {u : Unicode} {w : ConfigWorld} {names args : List Str} {values config : Dict CVal}
    {uses : List (Str × CVal)} {cases : Option (List Str)} (hr : Reads N (testChoices names) args uses cases)
    (hp : parseArgs N names args = .ok values cases)
    (hc : execConfig u none w [] (argsOf values) = some config) {key : Str} (hk : key ≠ "command".toList) :
    Setting u w uses key (config.get key) := by
  cases hb : execConfig u none w [] {} with
  | none =>
    rw [C58_error] at hb
    rw [(C58_error u w [] (argsOf values)).mpr hb] at hc
    cases hc
  | some before =>
    obtain ⟨h1, h2⟩ := C106_settings N u none w [] names args values config before uses cases hr hp hc hb key hk
    by_cases hs : ∃ v, Finally uses key v ∧ Given v
    · obtain ⟨v, hv, hg⟩ := hs
      rw [h1 v hv hg]
      exact .said v hv hg
    · have hs' : ∀ v, Finally uses key v → ¬ Given v := fun v hv hg => hs ⟨v, hv, hg⟩
      rw [h2 hs']
      exact .unsaid _ hs' (C58_priority_partial u w [] (by simp [Dict.keys]) {} before hb key)

theorem isOn_iff {u : Unicode} {w : ConfigWorld} {uses : List (Str × CVal)} {config : Dict CVal} {key : Str}
    (h : Setting u w uses key (config.get key)) : isOn config key = true ↔ On u w uses key := by
  unfold isOn
  constructor
  · intro ht
    cases hg : config.get key with
    | none => rw [hg] at ht; cases ht
    | some v =>
      rw [hg] at ht h
      exact ⟨v, h, (given_iff v).mp ht⟩
  · rintro ⟨v, hs, hv⟩
    rw [setting_unique h hs]
    exact (given_iff v).mpr hv

/-- Everything that a command finds out before it does something. -/
structure Prepared {fl : Durations} (S : Site) (w : World) (uses : List (Str × CVal)) (cases : Option (List Str))
    (config : Dict CVal) (selection selected : List Str) (records : List (Rec fl)) : Prop where
  said : ∀ key, key ≠ "command".toList → Setting S.P.u w.settings uses key (config.get key)
  chosen : selectionOf config cases = some selection
  names : selectedNames S.suite selection (storedIn S.P config w.fs) S.fuel = some selected
  records : ofFile S.P.u fl w.report = some records
  nodup : config.keys.Nodup

/-! ### The settings are a dictionary -/

theorem parseLines_nodup {u : Unicode} : ∀ {lines : List Str} {c c' : Dict CVal}, c.keys.Nodup →
    parseLines u lines c = some c' → c'.keys.Nodup
  | [], _, _, h, e => by cases e; exact h
  | line :: rest, c, c', h, e => by
    unfold parseLines at e
    split at e
    · exact parseLines_nodup h e
    · split at e
      · cases e
      · exact parseLines_nodup (Dict.nodup_set h _ _) e

theorem parseConfigFile_nodup {u : Unicode} {w : ConfigWorld} {file : Str} {c c' : Dict CVal} (h : c.keys.Nodup)
    (e : parseConfigFile u w file c = some c') : c'.keys.Nodup := by
  unfold parseConfigFile at e
  split at e
  · cases e; exact h
  · exact parseLines_nodup h e

theorem parseEnviron_nodup {u : Unicode} : ∀ {vars : List (Str × Str)} {c : Dict CVal}, c.keys.Nodup →
    (parseEnviron u vars c).keys.Nodup
  | [], _, h => h
  | (key, value) :: rest, c, h => by
    unfold parseEnviron
    split
    · exact parseEnviron_nodup (Dict.nodup_set h _ _)
    · exact parseEnviron_nodup h

theorem setIf_nodup {b : Bool} {key : Str} {v : CVal} {c : Dict CVal} (h : c.keys.Nodup) :
    (setIf b key v c).keys.Nodup := by
  unfold setIf
  split
  · exact Dict.nodup_set h _ _
  · exact h

theorem execConfig_nodup {u : Unicode} {w : ConfigWorld} {a : Args} {config : Dict CVal}
    (h : execConfig u none w [] a = some config) : config.keys.Nodup := by
  simp only [execConfig, getDefaultConfig, resolveDefaultConfig, Option.map_eq_some_iff] at h
  obtain ⟨d, hd, rfl⟩ := h
  rcases h1 : parseConfigFile u w "~/.booktest".toList [] with _ | c1
  · rw [h1] at hd; cases hd
  rw [h1] at hd
  change (parseConfigFile u w ".booktest".toList c1).bind _ = _ at hd
  rcases h2 : parseConfigFile u w ".booktest".toList c1 with _ | c2
  · rw [h2] at hd; cases hd
  rw [h2] at hd
  change some (parseEnviron u w.environ c2) = some d at hd
  cases hd
  have : (setAll (parseEnviron u w.environ c2) []).keys.Nodup :=
    parseEnviron_nodup (parseConfigFile_nodup (parseConfigFile_nodup (by simp [Dict.keys]) h1) h2)
  unfold setFlags
  dsimp only
  repeat' apply setIf_nodup
  exact this

/-- The default tests are not on the command line. -/
theorem no_default {N : Numbers} {names args : List Str} {uses : List (Str × CVal)} {cases : Option (List Str)}
    (hr : Reads N (testChoices names) args uses cases) (v : CVal) (hf : Finally uses "default_tests".toList v) :
    ¬ Given v := by
  intro hg
  obtain ⟨values, _, hu⟩ := C106_complete N names args uses cases hr
  have := (hu.settings "default_tests".toList v (by decide)).mpr ⟨hf, hg⟩
  generalize hk : "default_tests".toList = k at this
  cases this <;> revert hk <;> decide

theorem setting_default {N : Numbers} {u : Unicode} {w : ConfigWorld} {names args : List Str}
    {uses : List (Str × CVal)} {cases : Option (List Str)} (hr : Reads N (testChoices names) args uses cases)
    {o : Option CVal} (h : Setting u w uses "default_tests".toList o) :
    Chosen u w "~/.booktest".toList [] {} "default_tests".toList o := by
  cases h with
  | said v h1 h2 => exact absurd h2 (no_default hr v h1)
  | unsaid _ _ h2 => exact h2

theorem stored_said {S : Site} {w : World} {uses : List (Str × CVal)} {config : Dict CVal}
    (said : ∀ key, key ≠ "command".toList → Setting S.P.u w.settings uses key (config.get key)) :
    StoredSaid S w uses (storedIn S.P config w.fs) := by
  constructor
  · unfold storedIn
    rw [← isOn_iff (said "refresh_sources".toList (by decide))]
    split
    · rename_i h; exact ⟨fun _ => h, fun _ => rfl⟩
    · rename_i h; exact ⟨fun hx => (nomatch hx), fun hx => absurd hx h⟩
  · intro f hf n
    unfold storedIn at hf
    split at hf
    · cases hf
    · cases hf; exact Iff.rfl

theorem stored_unique {S : Site} {w : World} {uses : List (Str × CVal)} {st st' : Option (Str → Bool)}
    (h : StoredSaid S w uses st) (h' : StoredSaid S w uses st') : st = st' := by
  cases st with
  | none => exact (h'.refresh.mpr (h.refresh.mp rfl)).symm
  | some f =>
    cases st' with
    | none => exact absurd (h.refresh.mpr (h'.refresh.mp rfl)) (by simp)
    | some g =>
      congr 1
      funext n
      rw [Bool.eq_iff_iff, h.there f rfl n, h'.there g rfl n]

theorem selection_said {S : Site} {w : World} {args : List Str} {uses : List (Str × CVal)}
    {cases : Option (List Str)} (hr : Reads S.N (testChoices S.names) args uses cases) {config : Dict CVal}
    {selection : List Str}
    (said : ∀ key, key ≠ "command".toList → Setting S.P.u w.settings uses key (config.get key))
    (h1 : selectionOf config cases = some selection) :
    Selection S.P.u w.settings cases selection := by
  have h2 := setting_default hr (said "default_tests".toList (by decide))
  cases cases with
  | some names => cases h1; exact .given _
  | none =>
    unfold selectionOf at h1
    cases hg : config.get "default_tests".toList with
    | none =>
      rw [hg] at h1 h2
      cases h1
      exact .usual h2
    | some v =>
      rw [hg] at h1 h2
      cases v with
      | str s => cases h1; exact .configured s h2
      | bool b => cases h1
      | int n => cases h1

theorem selection_unique {u : Unicode} {w : ConfigWorld} {cases : Option (List Str)} {s s' : List Str}
    (h : Selection u w cases s) (h' : Selection u w cases s') : s = s' := by
  cases h with
  | given names => cases h'; rfl
  | configured x h1 =>
    cases h' with
    | configured x' h2 => cases C58_unique u w _ [] (by simp [Dict.keys]) {} _ _ _ h1 h2; rfl
    | usual h2 => cases C58_unique u w _ [] (by simp [Dict.keys]) {} _ _ _ h1 h2
  | usual h1 =>
    cases h' with
    | configured x' h2 => cases C58_unique u w _ [] (by simp [Dict.keys]) {} _ _ _ h1 h2
    | usual h2 => rfl

/-- A command that has found out everything can start. -/
theorem prepared_starts {fl : Durations} {S : Site} {w : World} {args : List Str} {values : Dict CVal}
    {uses : List (Str × CVal)} {cases : Option (List Str)} (hr : Reads S.N (testChoices S.names) args uses cases)
    {config : Dict CVal} {selection selected : List Str} {records : List (Rec fl)}
    (hc : execConfig S.P.u none w.settings [] (argsOf values) = some config)
    (h : Prepared S w uses cases config selection selected records) : ¬ CannotStart fl S w uses cases := by
  intro hx
  cases hx with
  | settings hs =>
    apply hs
    intro line hl h1
    by_cases h2 : '=' ∈ strip S.P.u line
    · exact h2
    · rw [(C58_error S.P.u w.settings [] (argsOf values)).mpr ⟨line, hl, h1, h2⟩] at hc
      cases hc
  | defaults hn hd =>
    subst hn
    apply hd
    intro v hv
    have h1 := setting_default hr (h.said "default_tests".toList (by decide))
    have h2 := C58_unique S.P.u w.settings _ [] (by simp [Dict.keys]) {} _ _ _ h1 hv
    have h3 := h.chosen
    unfold selectionOf at h3
    rw [h2] at h3
    cases v with
    | str s => exact ⟨s, rfl⟩
    | bool b => cases h3
    | int n => cases h3
  | selection hs =>
    obtain ⟨s, st, h1, h2, h3⟩ := hs
    rw [selection_unique h1 (selection_said hr h.said h.chosen), stored_unique h2 (stored_said h.said), h.names] at h3
    cases h3
  | report ho => rw [h.records] at ho; cases ho

theorem execParsed_prepared {fl : Durations} {S : Site} {w : World} {args : List Str} {values : Dict CVal}
    {uses : List (Str × CVal)} {cases : Option (List Str)} (hr : Reads S.N (testChoices S.names) args uses cases)
    (hp : parseArgs S.N S.names args = .ok values cases) (ans : List Str) (dur : Str → fl.D) :
    (execParsed S dur values cases ans w = { world := w, status := .raises } ∧ CannotStart fl S w uses cases) ∨
    ∃ config selection selected records, Prepared (fl := fl) S w uses cases config selection selected records ∧
      ¬ CannotStart fl S w uses cases ∧
      execParsed S dur values cases ans w = dispatch S config dur selected records ans w (commandOf values) := by
  unfold execParsed
  cases hc : execConfig S.P.u none w.settings [] (argsOf values) with
  | none =>
    refine .inl ⟨rfl, .settings fun h => ?_⟩
    obtain ⟨line, hl, h1, h2⟩ := (C58_error S.P.u w.settings [] (argsOf values)).mp hc
    exact h2 (h line hl h1)
  | some config =>
    have said : ∀ key, key ≠ "command".toList → Setting S.P.u w.settings uses key (config.get key) :=
      fun key hk => config_said hr hp hc hk
    dsimp only
    cases hs : selectionOf config cases with
    | none =>
      refine .inl ⟨rfl, ?_⟩
      cases cases with
      | some _ => cases hs
      | none =>
        refine .defaults rfl fun h => ?_
        have h1 := setting_default hr (said "default_tests".toList (by decide))
        unfold selectionOf at hs
        cases hg : config.get "default_tests".toList with
        | none => rw [hg] at hs; cases hs
        | some v =>
          rw [hg] at hs h1
          obtain ⟨x, rfl⟩ := h v h1
          cases hs
    | some selection =>
      dsimp only
      cases hn : selectedNames S.suite selection (storedIn S.P config w.fs) S.fuel with
      | none =>
        exact .inl ⟨rfl, .selection ⟨selection, _, selection_said hr said hs, stored_said said, hn⟩⟩
      | some selected =>
        dsimp only
        cases ho : ofFile S.P.u fl w.report with
        | none => exact .inl ⟨rfl, .report ho⟩
        | some records =>
          have hprep : Prepared S w uses cases config selection selected records :=
            ⟨said, hs, hn, ho, execConfig_nodup hc⟩
          exact .inr ⟨config, selection, selected, records, hprep, prepared_starts hr hc hprep, rfl⟩

/-- What a command line that can be read does. -/
theorem booktest_reads {fl : Durations} {S : Site} {w : World} {args : List Str}
    {uses : List (Str × CVal)} {cases : Option (List Str)} (hr : Reads S.N (testChoices S.names) args uses cases)
    (ans : List Str) (dur : Str → fl.D) :
    (booktest S args ans dur w = { world := w, status := .raises } ∧ CannotStart fl S w uses cases) ∨
    ∃ config selection selected records cmd,
      Prepared (fl := fl) S w uses cases config selection selected records ∧ ¬ CannotStart fl S w uses cases ∧ (∀ c, cmd = some c ↔ AsksFor uses c) ∧
      booktest S args ans dur w = dispatch S config dur selected records ans w cmd := by
  obtain ⟨values, hp, hu⟩ := C106_complete S.N S.names args uses cases hr
  have hb : booktest S args ans dur w = execParsed S dur values cases ans w := by
    unfold booktest; rw [hp]
  rw [hb]
  rcases execParsed_prepared (fl := fl) (w := w) hr hp ans dur with h | ⟨config, sel, selected, records, h1, h0, h2⟩
  · exact .inl h
  · exact .inr ⟨config, sel, selected, records, commandOf values, h1, h0, hu.command, h2⟩

theorem booktest_rejected {fl : Durations} {S : Site} {w : World} {args : List Str}
    (h : ∀ uses cases, ¬ Reads S.N (testChoices S.names) args uses cases) (ans : List Str) (dur : Str → fl.D) :
    booktest S args ans dur w = { world := w, status := .help } ∨
    booktest S args ans dur w = { world := w, status := .usage } := by
  unfold booktest
  cases hp : parseArgs S.N S.names args with
  | help => exact .inl rfl
  | error => exact .inr rfl
  | ok values cases =>
    obtain ⟨uses, h1, _⟩ := C106_sound S.N S.names args values cases hp
    exact absurd h1 (h _ _)

theorem config_on {fl : Durations} {S : Site} {w : World} {uses : List (Str × CVal)} {cases : Option (List Str)}
    {config : Dict CVal} {selection selected : List Str} {records : List (Rec fl)}
    (h : Prepared S w uses cases config selection selected records) :
    ConfigSaid S.P.u w.settings uses (configOf config) :=
  ⟨isOn_iff (h.said _ (by decide)), isOn_iff (h.said _ (by decide)), isOn_iff (h.said _ (by decide)),
   isOn_iff (h.said _ (by decide)), isOn_iff (h.said _ (by decide)), isOn_iff (h.said _ (by decide))⟩

/-! ### Looking -/

theorem dispatch_looking {fl : Durations} (S : Site) (config : Dict CVal) (dur : Str → fl.D) (cases : List Str)
    (records : List (Rec fl)) (ans : List Str) (w : World) {c : Str} (hc : c ∈ looking) :
    (dispatch S config dur cases records ans w (some c)).world = w ∧
    (dispatch S config dur cases records ans w (some c)).ran = [] ∧
    ∃ v, (dispatch S config dur cases records ans w (some c)).status = .ends v := by
  simp only [looking, List.mem_cons, List.not_mem_nil, or_false] at hc
  rcases hc with rfl | rfl | rfl | rfl | rfl | rfl <;> exact ⟨rfl, rfl, _, rfl⟩

/-! ### Running -/

theorem dispatch_run {fl : Durations} (S : Site) (config : Dict CVal) (dur : Str → fl.D) (cases : List Str)
    (records : List (Rec fl)) (ans : List Str) (w : World) :
    dispatch S config dur cases records ans w none = runCovered S config dur cases ans w := rfl

theorem runLoop_ran {fl : Durations} (cfg : Config) (outcome : List Str → Str → Outcome fl) :
    ∀ (todo ex : List Str) (rv : Result) (fails : Nat),
      ranNames (runLoop fl cfg outcome ex rv fails todo).1 <+: todo ∧
      ((∀ e n r q d, outcome e n = some (r, q, d) → q ≠ .ABORT) → cfg.failFast = false →
        (runLoop fl cfg outcome ex rv fails todo).2 ≠ none →
        ranNames (runLoop fl cfg outcome ex rv fails todo).1 = todo) := by
  intro todo
  induction todo with
  | nil => intro ex rv fails; exact ⟨List.prefix_rfl, fun _ _ _ => rfl⟩
  | cons n ns ih =>
    intro ex rv fails
    unfold runLoop
    cases ho : outcome ex n with
    | none => exact ⟨by simp [ranNames], fun _ _ h => absurd rfl h⟩
    | some o =>
      obtain ⟨res, q, d⟩ := o
      dsimp only
      split
      · rename_i hs
        refine ⟨by simp [ranNames], fun hq hf _ => ?_⟩
        rcases hs with hs | ⟨hs, _⟩
        · exact absurd hs (hq _ _ _ _ _ ho)
        · rw [hf] at hs; cases hs
      · obtain ⟨h1, h2⟩ := ih (ex ++ [n]) (nextRv rv res) (nextFails fails res)
        have e : ∀ l : List (Ev fl), ranNames ([.exec n (some (res, q, d)), .write (n, res, d)] ++ l) =
            n :: ranNames l := fun l => rfl
        rw [e]
        refine ⟨?_, fun hq hf hn => ?_⟩
        · rw [List.cons_prefix_cons]; exact ⟨rfl, h1⟩
        · rw [h2 hq hf hn]

theorem ranNames_writes {fl : Durations} (rs : List (Rec fl)) (evs : List (Ev fl)) :
    ranNames (.truncate :: rs.map .write ++ evs) = ranNames evs := by
  induction rs with
  | nil => rfl
  | cons r rs ih => exact ih

theorem runAsync_ran {fl : Durations} {u : Unicode} {cfg : Config} {outcome : List Str → Str → Outcome fl}
    {cases : List Str} {report : Option Bytes} {old : List (Rec fl)} (ho : ofFile u fl report = some old) :
    ranNames (runAsync u fl cfg outcome cases report).1 <+: listed cfg old cases ∧
    ((∀ e n r q d, outcome e n = some (r, q, d) → q ≠ .ABORT) → cfg.failFast = false →
      (runAsync u fl cfg outcome cases report).2 ≠ none →
      ranNames (runAsync u fl cfg outcome cases report).1 = listed cfg old cases) := by
  unfold runAsync
  rw [ho]
  dsimp only
  rw [ranNames_writes]
  exact runLoop_ran cfg outcome _ _ _ _

/-! ### Two commands -/

theorem execConfig_isSome (u : Unicode) (w : ConfigWorld) (a a' : Args) {config : Dict CVal}
    (h : execConfig u none w [] a = some config) : ∃ config', execConfig u none w [] a' = some config' := by
  cases h' : execConfig u none w [] a' with
  | some config' => exact ⟨config', rfl⟩
  | none =>
    rw [C58_error] at h'
    rw [(C58_error u w [] a).mpr h'] at h
    cases h

theorem selectionOf_congr {config config' : Dict CVal} (h : config.get "default_tests".toList =
    config'.get "default_tests".toList) (cases : Option (List Str)) :
    selectionOf config cases = selectionOf config' cases := by
  cases cases with
  | some _ => rfl
  | none => unfold selectionOf; rw [h]

/-- Two commands about the same tests, in worlds that differ in the report only. -/
theorem prepared_both {fl : Durations} {S : Site} {w w' : World} {args args' : List Str}
    {uses uses' : List (Str × CVal)} {cases : Option (List Str)}
    (hr : Reads S.N (testChoices S.names) args uses cases) (hr' : Reads S.N (testChoices S.names) args' uses' cases)
    (hw : w'.settings = w.settings) (hfs : w'.fs = w.fs)
    (hrep : (ofFile S.P.u fl w'.report).isSome = (ofFile S.P.u fl w.report).isSome)
    (hs : On S.P.u w.settings uses "refresh_sources".toList ↔ On S.P.u w.settings uses' "refresh_sources".toList)
    (ans ans' : List Str) (dur dur' : Str → fl.D) :
    (booktest S args ans dur w = { world := w, status := .raises } ∧
      booktest S args' ans' dur' w' = { world := w', status := .raises }) ∨
    ∃ config config' selection selected records records' cmd cmd',
      Prepared (fl := fl) S w uses cases config selection selected records ∧
      Prepared (fl := fl) S w' uses' cases config' selection selected records' ∧
      (∀ c, cmd = some c ↔ AsksFor uses c) ∧ (∀ c, cmd' = some c ↔ AsksFor uses' c) ∧
      booktest S args ans dur w = dispatch S config dur selected records ans w cmd ∧
      booktest S args' ans' dur' w' = dispatch S config' dur' selected records' ans' w' cmd' := by
  obtain ⟨values, hp, hu⟩ := C106_complete S.N S.names args uses cases hr
  obtain ⟨values', hp', hu'⟩ := C106_complete S.N S.names args' uses' cases hr'
  have hb : booktest S args ans dur w = execParsed S dur values cases ans w := by
    unfold booktest; rw [hp]
  have hb' : booktest S args' ans' dur' w' = execParsed S dur' values' cases ans' w' := by
    unfold booktest; rw [hp']
  rw [hb, hb']
  unfold execParsed
  rw [hw]
  cases hc : execConfig S.P.u none w.settings [] (argsOf values) with
  | none =>
    have : execConfig S.P.u none w.settings [] (argsOf values') = none := by
      rw [C58_error] at hc ⊢; exact hc
    rw [this]
    exact .inl ⟨rfl, rfl⟩
  | some config =>
    obtain ⟨config', hc'⟩ := execConfig_isSome S.P.u w.settings (argsOf values) (argsOf values') hc
    rw [hc']
    have said : ∀ key, key ≠ "command".toList → Setting S.P.u w.settings uses key (config.get key) :=
      fun key hk => config_said hr hp hc hk
    have said' : ∀ key, key ≠ "command".toList → Setting S.P.u w'.settings uses' key (config'.get key) :=
      fun key hk => by rw [hw]; exact config_said hr' hp' hc' hk
    have hdef : config.get "default_tests".toList = config'.get "default_tests".toList :=
      C58_unique S.P.u w.settings _ [] (by simp [Dict.keys]) {} _ _ _ (setting_default hr (said _ (by decide)))
        (by rw [← hw]; exact setting_default hr' (said' _ (by decide)))
    have hst : storedIn S.P config w.fs = storedIn S.P config' w'.fs := by
      have h1 := isOn_iff (said "refresh_sources".toList (by decide))
      have h2 := isOn_iff (said' "refresh_sources".toList (by decide))
      rw [hw, ← hs, ← h1] at h2
      have h3 : isOn config "refresh_sources".toList = isOn config' "refresh_sources".toList := by
        rw [Bool.eq_iff_iff]; exact h2.symm
      unfold storedIn
      rw [h3, hfs]
    have hsel := selectionOf_congr hdef cases
    dsimp only
    rw [← hsel, ← hst]
    cases hsl : selectionOf config cases with
    | none => exact .inl ⟨rfl, rfl⟩
    | some selection =>
      dsimp only
      cases hn : selectedNames S.suite selection (storedIn S.P config w.fs) S.fuel with
      | none => exact .inl ⟨rfl, rfl⟩
      | some selected =>
        dsimp only
        cases ho : ofFile S.P.u fl w.report with
        | none =>
          rw [ho] at hrep
          cases ho' : ofFile S.P.u fl w'.report with
          | none => exact .inl ⟨rfl, rfl⟩
          | some _ => rw [ho'] at hrep; cases hrep
        | some records =>
          rw [ho] at hrep
          cases ho' : ofFile S.P.u fl w'.report with
          | none => rw [ho'] at hrep; cases hrep
          | some records' =>
            exact .inr ⟨config, config', selection, selected, records, records', commandOf values, commandOf values',
              ⟨said, hsl, hn, ho, execConfig_nodup hc⟩, ⟨said', hsel ▸ hsl, hst ▸ hn, ho', execConfig_nodup hc'⟩, hu.command, hu'.command, rfl, rfl⟩

/-! ### Commands that accept nothing -/

theorem reviewLoop_fs {fl : Durations} {cfg : Config} (hc : NotAsking cfg) (hu : cfg.update = false)
    (ha : cfg.accept = false) (exp out : Path) (passed : List Str) (cases : Option (List Str)) :
    ∀ (rs : List (Rec fl)) (abort : Bool) (fs : FS) (ans : List Str),
      (reviewLoop fl cfg exp out passed cases rs abort fs ans).1 = fs := by
  intro rs
  induction rs with
  | nil => intro abort fs ans; rfl
  | cons r rs ih =>
    intro abort fs ans
    obtain ⟨n, res, d⟩ := r
    unfold reviewLoop
    split
    · rw [caseReview_auto hc, if_neg]
      · exact ih _ _ _
      · rintro (⟨-, h⟩ | ⟨-, h⟩)
        · rw [hu] at h; cases h
        · rw [ha] at h; cases h
    · exact ih _ _ _

theorem review_fs {fl : Durations} {cfg : Config} (hc : NotAsking cfg) (hu : cfg.update = false)
    (ha : cfg.accept = false) (exp out : Path) (passed : Option (List Str)) (cases : Option (List Str))
    (rs : List (Rec fl)) (ans : List Str) (fs : FS) :
    (review fl cfg exp out passed cases rs ans fs).1 = fs := by
  unfold review
  dsimp only
  split
  · exact reviewLoop_fs hc hu ha exp out _ cases rs false fs ans
  · exact reviewLoop_fs hc hu ha exp out _ cases rs false fs ans

/-- A run that asks nothing is not aborted by the user. -/
theorem outcome_request {fl : Durations} {P : Project} {cfg : Config} (hc : NotAsking cfg) (dur : Str → fl.D)
    (st : FS × List Str) (e : List Str) (n : Str) (r : Result) (q : Request) (d : fl.D)
    (h : projectOutcome P cfg dur st e n = some (r, q, d)) : q ≠ .ABORT := by
  unfold projectOutcome at h
  generalize runCases P cfg e st = st' at h
  have key : ∀ r q, (runCase P cfg n st').2 = .done r q → q = .NONE := by
    intro r q h
    unfold runCase at h
    dsimp only at h
    split at h
    · cases h
    · split at h
      · cases h
      · split at h
        · cases h
        · split at h
          · cases h
          · split at h
            · cases h
            · split at h
              · cases h
              · unfold endCase at h
                rw [caseReview_auto hc] at h
                split at h
                · cases h
                · cases h
                · cases h
                · rename_i hx
                  have : ∀ {v : Raw} {q' : Request}, ∀ {fs fs' : FS} {ans ans' : List Str} {v' : Result},
                      (if AutoAccepted cfg v' then
                        match freezeCase P.root P.out n fs with
                        | (fs', some x) => (fs', ReviewEnd.error x, ans)
                        | (fs', none) => (fs', .done (.res .OK) .NONE, ans)
                      else (fs, .done (.res v') .NONE, ans)) = (fs', .done v q', ans') → q' = .NONE := by
                    intro v q' fs fs' ans ans' v' h
                    split at h
                    · split at h <;> cases h
                      rfl
                    · cases h; rfl
                  have hq := this hx
                  subst hq
                  split at h
                  · split at h
                    · cases h
                    · cases h; rfl
                  · cases h; rfl
  split at h
  · rename_i r' q' hd
    cases h
    rw [key _ _ hd]
    simp
  · cases h

end Verif.Lemmas
