import Verif.Lemmas.Cli

/-! # The command line (C106) -/

namespace Verif.Props
open Verif.Py Verif.Model Verif.Spec Verif.Lemmas

/-! ### C106: the command line is understood as it is meant -/

/-- The parsed arguments are what has been said: a setting is made by the command line if and only if its last
option says so, and the command is the last one given. -/
structure Understood (values : Dict CVal) (uses : List (Str × CVal)) : Prop where
  settings : ∀ key v, key ≠ "command".toList →
    (FlagSays (argsOf values) key v ↔ Finally uses key v ∧ Given v)
  command : ∀ c, commandOf values = some c ↔ Finally uses "command".toList (.str c)

private theorem word_sets {N : Numbers} {ws : List Str} {us : List (Str × CVal)} (h : Word N ws us) :
    ∀ use ∈ us, ∃ name arg, Sets N name arg use.1 use.2 := by
  cases h with
  | alone w name key v hd hs => intro use hu; rw [List.mem_singleton.mp hu]; exact ⟨_, _, hs⟩
  | separate w name x key v hd hs hx => intro use hu; rw [List.mem_singleton.mp hu]; exact ⟨_, _, hs⟩
  | equals w name x key v hd hw hs => intro use hu; rw [List.mem_singleton.mp hu]; exact ⟨_, _, hs⟩
  | letters cs us hl h =>
    clear hl
    induction h with
    | nil => simp
    | cons c cs key v us h1 h2 ih =>
      intro use hu
      rcases List.mem_cons.mp hu with rfl | hu
      · exact ⟨_, _, h1⟩
      · exact ih use hu

private theorem words_sets {N : Numbers} {ws : List Str} {us : List (Str × CVal)} (h : Words N ws us) :
    ∀ use ∈ us, ∃ name arg, Sets N name arg use.1 use.2 := by
  induction h with
  | nil => simp
  | cons ws args us uses h1 h2 ih =>
    intro use hu
    rcases List.mem_append.mp hu with hu | hu
    · exact word_sets h1 use hu
    · exact ih use hu

theorem reads_sets {N : Numbers} {choices args : List Str} {uses : List (Str × CVal)}
    {cases : Option (List Str)} (h : Reads N choices args uses cases) :
    ∀ use ∈ uses, ∃ name arg, Sets N name arg use.1 use.2 := by
  cases h with
  | options _ _ h => exact words_sets h
  | names before names after us us' h1 _ _ h4 =>
    intro use hu
    rcases List.mem_append.mp hu with hu | hu
    · exact words_sets h1 use hu
    · exact words_sets h4 use hu
  | dashes _ _ _ _ h _ _ _ => exact words_sets h
  | dashesOnly _ _ h => exact words_sets h

/-- The settings that only can be switched on. -/
private def onKeys : List Str :=
  ["interactive".toList, "always_interactive".toList, "verbose".toList, "print_logs".toList, "fail_fast".toList,
   "continue".toList, "refresh_sources".toList, "update".toList, "accept".toList, "complete_snapshots".toList,
   "refresh_snapshots".toList, "coverage".toList]

set_option maxRecDepth 100000 in
private theorem sets_typed {N : Numbers} {name : Str} {arg : Option Str} {key : Str} {v : CVal}
    (h : Sets N name arg key v) :
    (key ∈ onKeys ∧ v = .bool true) ∨ (key = "parallel".toList) ∨
    ((key = "md_viewer".toList ∨ key = "diff_tool".toList ∨ key = "command".toList) ∧ ∃ x, v = .str x) := by
  have h1 : ∀ s ∈ switches, (s.2.1 ∈ onKeys ∧ s.2.2 = .bool true) ∨ s.2.1 = "parallel".toList := by decide
  have h2 : ∀ t ∈ tools, t.2 = "md_viewer".toList ∨ t.2 = "diff_tool".toList := by decide
  cases h with
  | switch _ _ _ h =>
    rcases h1 _ h with h | h
    · exact .inl h
    · exact .inr (.inl h)
  | command _ c h => exact .inr (.inr ⟨.inr (.inr rfl), c, rfl⟩)
  | tool _ _ x h =>
    rcases h2 _ h with h | h
    · exact .inr (.inr ⟨.inl h, x, rfl⟩)
    · exact .inr (.inr ⟨.inr (.inl h), x, rfl⟩)
  | count x n h => exact .inr (.inl rfl)

theorem finally_mem {uses : List (Str × CVal)} {key : Str} {v : CVal} (h : Finally uses key v) :
    (key, v) ∈ uses := by
  obtain ⟨pre, x, post, rfl, rfl, _⟩ := h
  simp

set_option maxRecDepth 100000 in
private theorem understood {N : Numbers} {values : Dict CVal} {uses : List (Str × CVal)}
    (hsets : ∀ use ∈ uses, ∃ name arg, Sets N name arg use.1 use.2) (h : Stored values uses) :
    Understood values uses := by
  have hget : ∀ d k, (d, k) ∈ destKeys → ∀ v, values.get d = some v ↔ Finally uses k v := by
    intro d k hd v
    rw [h _ hd]
    exact lastOf_iff uses k v
  have hon : ∀ d k, (d, k) ∈ destKeys →
      (decide (values.get d = some (.bool true)) = true ↔ Finally uses k (.bool true)) := by
    intro d k hd
    rw [decide_eq_true_iff]
    exact hget d k hd _
  have htyped : ∀ key v, Finally uses key v → (key ∈ onKeys ∧ v = .bool true) ∨ (key = "parallel".toList) ∨
      ((key = "md_viewer".toList ∨ key = "diff_tool".toList ∨ key = "command".toList) ∧ ∃ x, v = .str x) := by
    intro key v hf
    obtain ⟨name, arg, hs⟩ := hsets _ (finally_mem hf)
    exact sets_typed hs
  have gtrue : Given (.bool true) := ⟨by decide, by decide, by decide⟩
  constructor
  · intro key v hkey
    constructor
    · intro hf
      cases hf with
      | i hx => exact ⟨(hon "i".toList _ (by decide)).mp hx, gtrue⟩
      | I hx => exact ⟨(hon "I".toList _ (by decide)).mp hx, gtrue⟩
      | v hx => exact ⟨(hon "v".toList _ (by decide)).mp hx, gtrue⟩
      | L hx => exact ⟨(hon "L".toList _ (by decide)).mp hx, gtrue⟩
      | f hx => exact ⟨(hon "f".toList _ (by decide)).mp hx, gtrue⟩
      | c hx => exact ⟨(hon "c".toList _ (by decide)).mp hx, gtrue⟩
      | r hx => exact ⟨(hon "r".toList _ (by decide)).mp hx, gtrue⟩
      | u hx => exact ⟨(hon "u".toList _ (by decide)).mp hx, gtrue⟩
      | a hx => exact ⟨(hon "a".toList _ (by decide)).mp hx, gtrue⟩
      | s hx => exact ⟨(hon "s".toList _ (by decide)).mp hx, gtrue⟩
      | S hx => exact ⟨(hon "S".toList _ (by decide)).mp hx, gtrue⟩
      | cov hx => exact ⟨(hon "cov".toList _ (by decide)).mp hx, gtrue⟩
      | p _ hx h1 h2 h3 =>
        refine ⟨(hget "p".toList _ (by decide) v).mp ?_, h1, h2, h3⟩
        change (values.get "p".toList).getD (.bool false) = v at hx
        cases hg : values.get "p".toList with
        | none => rw [hg] at hx; exact absurd hx.symm h1
        | some w => rw [hg] at hx; exact congrArg some hx
      | mdViewer x hx h1 =>
        change (values.get "md_viewer".toList).map CVal.show = some x at hx
        obtain ⟨w, hw, hx⟩ := Option.map_eq_some_iff.mp hx
        have hf := (hget "md_viewer".toList "md_viewer".toList (by decide) w).mp hw
        rcases htyped _ _ hf with ⟨hm, _⟩ | hm | ⟨_, y, rfl⟩
        · exact absurd hm (by decide)
        · exact absurd hm (by decide)
        · have : y = x := hx
          subst this
          exact ⟨hf, by simp, by simp, by simpa using h1⟩
      | diffTool x hx h1 =>
        change (values.get "diff_tool".toList).map CVal.show = some x at hx
        obtain ⟨w, hw, hx⟩ := Option.map_eq_some_iff.mp hx
        have hf := (hget "diff_tool".toList "diff_tool".toList (by decide) w).mp hw
        rcases htyped _ _ hf with ⟨hm, _⟩ | hm | ⟨_, y, rfl⟩
        · exact absurd hm (by decide)
        · exact absurd hm (by decide)
        · have : y = x := hx
          subst this
          exact ⟨hf, by simp, by simp, by simpa using h1⟩
    · rintro ⟨hf, g1, g2, g3⟩
      rcases htyped _ _ hf with ⟨hm, rfl⟩ | rfl | ⟨hm, x, rfl⟩
      · simp only [onKeys, List.mem_cons, List.not_mem_nil, or_false] at hm
        rcases hm with rfl | rfl | rfl | rfl | rfl | rfl | rfl | rfl | rfl | rfl | rfl | rfl
        · exact .i ((hon "i".toList _ (by decide)).mpr hf)
        · exact .I ((hon "I".toList _ (by decide)).mpr hf)
        · exact .v ((hon "v".toList _ (by decide)).mpr hf)
        · exact .L ((hon "L".toList _ (by decide)).mpr hf)
        · exact .f ((hon "f".toList _ (by decide)).mpr hf)
        · exact .c ((hon "c".toList _ (by decide)).mpr hf)
        · exact .r ((hon "r".toList _ (by decide)).mpr hf)
        · exact .u ((hon "u".toList _ (by decide)).mpr hf)
        · exact .a ((hon "a".toList _ (by decide)).mpr hf)
        · exact .s ((hon "s".toList _ (by decide)).mpr hf)
        · exact .S ((hon "S".toList _ (by decide)).mpr hf)
        · exact .cov ((hon "cov".toList _ (by decide)).mpr hf)
      · refine .p v ?_ g1 g2 g3
        change (values.get "p".toList).getD (.bool false) = v
        rw [(hget "p".toList _ (by decide) v).mpr hf]
        rfl
      · rcases hm with rfl | rfl | rfl
        · refine .mdViewer x ?_ (by simpa using g3)
          change (values.get "md_viewer".toList).map CVal.show = some x
          rw [(hget "md_viewer".toList _ (by decide) _).mpr hf]
          rfl
        · refine .diffTool x ?_ (by simpa using g3)
          change (values.get "diff_tool".toList).map CVal.show = some x
          rw [(hget "diff_tool".toList _ (by decide) _).mpr hf]
          rfl
        · exact absurd rfl hkey
  · intro c
    have hd : ("cmd".toList, "command".toList) ∈ destKeys := by decide
    rw [← hget _ _ hd]
    unfold commandOf
    constructor
    · intro hc
      cases hg : values.get "cmd".toList with
      | none => rw [hg] at hc; cases hc
      | some w =>
        rw [hg] at hc
        cases w with
        | str s => cases hc; rfl
        | bool b => cases hc
        | int n => cases hc
    · intro hg
      rw [hg]

/-- **C106**: a command line that is accepted can be read as a sequence of options with the names of test cases
in one piece between them, the names are choices of the test suite, and the settings and the command are
those of the last option about them. -/
theorem C106_sound (N : Numbers) (names args : List Str) (values : Dict CVal) (cases : Option (List Str))
    (h : parseArgs N names args = .ok values cases) :
    ∃ uses, Reads N (testChoices names) args uses cases ∧ Understood values uses := by
  unfold parseArgs at h
  cases hc : classify N args with
  | none => rw [hc] at h; cases h
  | some strings =>
    rw [hc] at h
    obtain ⟨_, _, hr⟩ := loop_sound _ args strings none false [] values [] cases hc stored_nil h
    obtain ⟨uses, h1, h2⟩ := hr rfl
    exact ⟨uses, h1, understood (reads_sets h1) h2⟩

/-- **C106**: every command line that can be read so is accepted, with these settings, command and names. All
others end with an error or the help: no command is run and no test. -/
theorem C106_complete (N : Numbers) (names args : List Str) (uses : List (Str × CVal)) (cases : Option (List Str))
    (h : Reads N (testChoices names) args uses cases) :
    ∃ values, parseArgs N names args = .ok values cases ∧ Understood values uses := by
  obtain ⟨strings, values, h1, h2, h3⟩ := parse_complete h
  refine ⟨values, ?_, understood (reads_sets h) h2⟩
  unfold parseArgs
  rw [h1]
  exact h3

/-- **C106**: a command line has one meaning. -/
theorem C106_unique (N : Numbers) (names args : List Str) (uses uses' : List (Str × CVal))
    (cases cases' : Option (List Str)) (h : Reads N (testChoices names) args uses cases)
    (h' : Reads N (testChoices names) args uses' cases') :
    cases = cases' ∧ ∀ key v, Finally uses key v ↔ Finally uses' key v := by
  obtain ⟨strings, values, h1, h2, h3⟩ := parse_complete h
  obtain ⟨strings', values', h1', h2', h3'⟩ := parse_complete h'
  rw [h1] at h1'
  cases h1'
  rw [h3] at h3'
  cases h3'
  refine ⟨rfl, ?_⟩
  have key : ∀ (uses uses' : List (Str × CVal)), (∀ use ∈ uses, ∃ name arg, Sets N name arg use.1 use.2) →
      Stored values uses → Stored values uses' → ∀ key v, Finally uses key v → Finally uses' key v := by
    intro uses uses' hs g g' key v hf
    obtain ⟨name, arg, hset⟩ := hs _ (finally_mem hf)
    obtain ⟨o, _, hd, _⟩ := sets_stores hset
    rw [← lastOf_iff] at hf ⊢
    rw [← g' _ hd, g _ hd]
    exact hf
  intro k v
  exact ⟨key _ _ (reads_sets h) h2 h2' k v, key _ _ (reads_sets h') h2' h2 k v⟩

/-- **C106**: the settings of the run are those of the command line, and for all others what they are without
it. -/
theorem C106_settings (N : Numbers) (u : Unicode) (global : Option (Dict CVal)) (w : ConfigWorld)
    (extra : Dict CVal) (names args : List Str) (values config before : Dict CVal) (uses : List (Str × CVal))
    (cases : Option (List Str)) (hr : Reads N (testChoices names) args uses cases)
    (hp : parseArgs N names args = .ok values cases)
    (hc : execConfig u global w extra (argsOf values) = some config)
    (hb : execConfig u global w extra {} = some before) (key : Str) (hk : key ≠ "command".toList) :
    (∀ v, Finally uses key v → Given v → config.get key = some v) ∧
    ((∀ v, Finally uses key v → ¬ Given v) → config.get key = before.get key) := by
  obtain ⟨values', hp', hu⟩ := C106_complete N names args uses cases hr
  rw [hp] at hp'
  cases hp'
  unfold execConfig at hc hb
  rw [Option.map_eq_some_iff] at hc hb
  obtain ⟨d, hd, rfl⟩ := hc
  obtain ⟨d', hd', rfl⟩ := hb
  rw [hd] at hd'
  cases hd'
  have hnone : ∀ v, ¬ FlagSays {} key v := by
    intro v hf
    cases hf with
    | p _ hx h1 => exact h1 hx.symm
    | mdViewer x hx => cases hx
    | diffTool x hx => cases hx
    | _ hx => cases hx
  constructor
  · intro v hf hg
    have hs := (hu.settings key v hk).mpr ⟨hf, hg⟩
    rcases setFlags_get (argsOf values) key (setAll d extra) with ⟨v', g1, g2⟩ | ⟨g1, g2⟩
    · rw [g2, flagSays_unique g1 hs]
    · exact absurd hs (g1 v)
  · intro hn
    rcases setFlags_get {} key (setAll d extra) with ⟨v', g1, g2⟩ | ⟨g1, g2⟩
    · exact absurd g1 (hnone v')
    · rw [g2]
      rcases setFlags_get (argsOf values) key (setAll d extra) with ⟨v', g1, g2⟩ | ⟨g1, g2⟩
      · have := (hu.settings key v' hk).mp g1
        exact absurd this.2 (hn v' this.1)
      · exact g2

/-- Numbers for examples: only single digits. -/
private def digits : Numbers where
  int := fun s => match s with
    | [c] => if c.isDigit then some (c.toNat - '0'.toNat) else none
    | _ => none
  negative := fun _ => false

/-- `booktest -vi -p4 test/a --parallel-count=2 -md-viewer less --rev`: letters in one word, names between the
options, the last word about processes counts, and the command is abbreviated. -/
example : ∃ uses values,
    Reads digits (testChoices ["test/a".toList]) ["-vi".toList, "-p4".toList, "test/a".toList,
      "--parallel-count=2".toList, "-md-viewer".toList, "less".toList, "--rev".toList] uses (some ["test/a".toList]) ∧
    parseArgs digits ["test/a".toList] ["-vi".toList, "-p4".toList, "test/a".toList,
      "--parallel-count=2".toList, "-md-viewer".toList, "less".toList, "--rev".toList] =
        .ok values (some ["test/a".toList]) ∧
    commandOf values = some "--review".toList ∧ (argsOf values).v = true ∧ (argsOf values).i = true ∧
    (argsOf values).I = false ∧ (argsOf values).p = .int 2 ∧ (argsOf values).mdViewer = some "less".toList := by
  have h : parseArgs digits ["test/a".toList] ["-vi".toList, "-p4".toList, "test/a".toList,
      "--parallel-count=2".toList, "-md-viewer".toList, "less".toList, "--rev".toList] =
        .ok [("v".toList, .bool true), ("i".toList, .bool true), ("p".toList, .int 2),
          ("md_viewer".toList, .str "less".toList), ("cmd".toList, .str "--review".toList)]
          (some ["test/a".toList]) := by decide +kernel
  obtain ⟨uses, h1, _⟩ := C106_sound _ _ _ _ _ h
  exact ⟨uses, _, h1, h, by decide +kernel, by decide +kernel, by decide +kernel, by decide +kernel, by decide +kernel,
    by decide +kernel⟩

/-- **C106, refuted**: names of test cases may be anywhere between the options. They have to be in one piece:
`booktest a -v b` is an error though `booktest a b -v` is not. -/
theorem C106_pieces_refuted : ∃ (N : Numbers) (names : List Str) (a b : Str),
    (∃ values, parseArgs N names [a, b, "-v".toList] = .ok values (some [a, b])) ∧
    parseArgs N names [a, "-v".toList, b] = .error :=
  ⟨digits, ["a".toList, "b".toList], "a".toList, "b".toList, ⟨[("v".toList, .bool true)], by decide +kernel⟩,
    by decide +kernel⟩

/-- **C106, refuted**: a number of processes that is given decides. `--parallel-count 0` leaves it to the
configuration: the word is accepted, but no setting is made. -/
theorem C106_zero_refuted : ∃ (N : Numbers) (names : List Str) (values : Dict CVal),
    parseArgs N names ["--parallel-count".toList, "0".toList] = .ok values none ∧
    Finally [("parallel".toList, .int 0)] "parallel".toList (.int 0) ∧
    ∀ v, ¬ FlagSays (argsOf values) "parallel".toList v := by
  refine ⟨digits, [], [("p".toList, .int 0)], by decide +kernel, ⟨[], _, [], rfl, rfl, by simp⟩, ?_⟩
  intro v hf
  generalize hk : "parallel".toList = k at hf
  cases hf with
  | p _ hx h1 h2 => exact h2 hx.symm
  | _ => revert hk; decide

end Verif.Props
