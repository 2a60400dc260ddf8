import Verif.Lemmas.Whole
import Verif.Props.Project
import Verif.Props.Commands
import Verif.Props.Selection

/-! # Whole commands (C107) -/

namespace Verif.Props
open Verif.Py Verif.Model Verif.Spec Verif.Lemmas

variable {fl : Durations}

/-! ### C107: commands do what their words say -/

theorem root_named {root : Path} (h : root ≠ []) (hn : ∀ c ∈ root, c ≠ []) : join ['/'] root ≠ [] := by
  match root, h with
  | [a], _ => exact hn a (by simp)
  | a :: b :: rest, _ => simp [join]

/-- **C107**: a command line that cannot be read changes nothing and executes nothing; its status tells that. -/
theorem C107_rejected (S : Site) (w : World) (args ans : List Str) (dur : Str → fl.D)
    (h : ∀ uses cases, ¬ Reads S.N (testChoices S.names) args uses cases) :
    (booktest S args ans dur w).world = w ∧ (booktest S args ans dur w).ran = [] ∧
    ((booktest S args ans dur w).status = .help ∨ (booktest S args ans dur w).status = .usage) := by
  rcases booktest_rejected (w := w) h ans dur with e | e <;> rw [e] <;> simp

/-- **C107**: the commands that only look change nothing and execute nothing. -/
theorem C107_looking (S : Site) (w : World) (args ans : List Str) (dur : Str → fl.D) (uses : List (Str × CVal))
    (cases : Option (List Str)) (hr : Reads S.N (testChoices S.names) args uses cases) (c : Str)
    (hc : AsksFor uses c) (hl : c ∈ looking) :
    (booktest S args ans dur w).world = w ∧ (booktest S args ans dur w).ran = [] := by
  rcases booktest_reads (w := w) hr ans dur with ⟨e, -⟩ | ⟨config, sel, selected, records, cmd, -, -, hcmd, e⟩
  · rw [e]; exact ⟨rfl, rfl⟩
  · rw [e, (hcmd c).mpr hc]
    obtain ⟨h1, h2, -⟩ := dispatch_looking S config dur selected records ans w hl
    exact ⟨h1, h2⟩

private theorem no_command {uses : List (Str × CVal)} (hn : AsksRun uses) {cmd : Option Str}
    (hcmd : ∀ c, cmd = some c ↔ AsksFor uses c) : cmd = none := by
  cases cmd with
  | none => rfl
  | some c => exact absurd ((hcmd c).mp rfl) (hn c)

/-- **C107**: the commands that only look raise an exception exactly if they cannot start. -/
theorem C107_starts (S : Site) (w : World) (args ans : List Str) (dur : Str → fl.D) (uses : List (Str × CVal))
    (cases : Option (List Str)) (hr : Reads S.N (testChoices S.names) args uses cases) (c : Str)
    (hc : AsksFor uses c) (hl : c ∈ looking) :
    (booktest S args ans dur w).status = .raises ↔ CannotStart fl S w uses cases := by
  rcases booktest_reads (w := w) hr ans dur with ⟨e, h⟩ | ⟨config, sel, selected, records, cmd, -, h, hcmd, e⟩
  · rw [e]; exact ⟨fun _ => h, fun _ => rfl⟩
  · rw [e, (hcmd c).mpr hc]
    obtain ⟨-, -, v, h3⟩ := dispatch_looking S config dur selected records ans w hl
    rw [h3]
    exact ⟨fun hx => (nomatch hx), fun hx => absurd hx h⟩

private theorem to_do {S : Site} {w : World} {args : List Str} {uses : List (Str × CVal)} {cases : Option (List Str)}
    (hr : Reads S.N (testChoices S.names) args uses cases) {config : Dict CVal} {sel selected : List Str}
    {records : List (Rec fl)} (h : Prepared S w uses cases config sel selected records) :
    ToDo fl S w uses cases (listed (configOf config) records selected) :=
  ⟨selected, records, configOf config, ⟨sel, _, selection_said hr h.said h.chosen, stored_said h.said, h.names⟩,
    h.records, config_on h, (doneAndTodo_eq (configOf config) records selected).1⟩

/-- **C107**: `-l` lists the tests that are to be run. -/
theorem C107_names (S : Site) (w : World) (args ans : List Str) (dur : Str → fl.D) (uses : List (Str × CVal))
    (cases : Option (List Str)) (hr : Reads S.N (testChoices S.names) args uses cases)
    (hc : AsksFor uses "-l".toList) (hs : ¬ CannotStart fl S w uses cases) :
    (booktest S args ans dur w).status.code = some 0 ∧ ∃ names, ToDo fl S w uses cases names ∧
      (booktest S args ans dur w).printed = names.map (fun n => "  ".toList ++ n) := by
  rcases booktest_reads (w := w) hr ans dur with ⟨e, h⟩ | ⟨config, sel, selected, records, cmd, hprep, -, hcmd, e⟩
  · exact absurd h hs
  · rw [e, (hcmd _).mpr hc]
    exact ⟨rfl, _, to_do hr hprep, rfl⟩

/-- **C107**: `--path` prints the paths of the snapshots of the tests that are to be run. -/
theorem C107_paths (S : Site) (w : World) (args ans : List Str) (dur : Str → fl.D) (uses : List (Str × CVal))
    (cases : Option (List Str)) (hr : Reads S.N (testChoices S.names) args uses cases)
    (hc : AsksFor uses "--path".toList) (hs : ¬ CannotStart fl S w uses cases) (hroot : OnDisk S.P.root)
    (hnames : ∀ n ∈ S.names, Normal n) :
    (booktest S args ans dur w).status.code = some 0 ∧ ∃ names, ToDo fl S w uses cases names ∧
      (booktest S args ans dur w).printed = names.map (fun n => join ['/'] (slot S.P.root false n ".md".toList)) := by
  rcases booktest_reads (w := w) hr ans dur with ⟨e, h⟩ | ⟨config, sel, selected, records, cmd, hprep, -, hcmd, e⟩
  · exact absurd h hs
  · rw [e, (hcmd _).mpr hc]
    refine ⟨rfl, _, to_do hr hprep, ?_⟩
    show (listed (configOf config) records selected).map (snapshotName S.P) = _
    apply List.map_congr_left
    intro n hn
    have hn' : n ∈ selected := by
      have h1 : listed (configOf config) records selected = toRun (configOf config) records selected :=
        (doneAndTodo_eq (configOf config) records selected).1
      rw [h1] at hn
      exact (List.mem_filter.mp hn).1
    obtain ⟨m, hm⟩ := (C31_selected hprep.names).2.2.2 n hn'
    have hnorm := hnames n (List.mem_map.mpr ⟨_, hm, rfl⟩)
    have hne : rootName S.P ≠ [] := by
      unfold rootName
      match hx : S.P.root with
      | [] => exact absurd hx hroot.1
      | [a] => exact (hroot.2 a (by rw [hx]; simp)).1
      | a :: b :: rest => simp [join]
    have hlast : (rootName S.P).getLast? ≠ some '/' := by
      unfold rootName
      intro hx
      obtain ⟨q, x, hq⟩ : ∃ q x, S.P.root = q ++ [x] := ⟨_, _, (List.dropLast_concat_getLast hroot.1).symm⟩
      have hxd := hroot.2 x (by rw [hq]; simp)
      rw [hq] at hx
      have : join ['/'] [x] = x := by simp [join]
      by_cases hq0 : q = []
      · subst hq0
        rw [List.nil_append, this] at hx
        exact hxd.2 (List.mem_of_getLast? hx)
      · rw [join_append _ hq0 (by simp), this, List.getLast?_append] at hx
        cases hg : x.getLast? with
        | none => exact hxd.1 (List.getLast?_eq_none_iff.mp hg)
        | some y =>
          rw [hg] at hx
          cases hx
          exact hxd.2 (List.mem_of_getLast? hg)
    unfold snapshotName slot booksDir
    rw [pathJoin_root hne (normal_not_absolute hnorm _), if_neg hlast]
    simp only [Bool.false_eq_true, if_false]
    rw [join_append _ hroot.1 (split_ne_nil _ _), join_split]
    rfl

/-- **C107**: `--print` prints the snapshots of the tests that are to be run, of those that have one. -/
theorem C107_prints (S : Site) (w : World) (args ans : List Str) (dur : Str → fl.D) (uses : List (Str × CVal))
    (cases : Option (List Str)) (hr : Reads S.N (testChoices S.names) args uses cases)
    (hc : AsksFor uses "--print".toList) (hs : ¬ CannotStart fl S w uses cases) :
    (booktest S args ans dur w).status.code = some 0 ∧ ∃ names, ToDo fl S w uses cases names ∧
      (booktest S args ans dur w).printed = names.filterMap (snapshot S.P.root w.fs) := by
  rcases booktest_reads (w := w) hr ans dur with ⟨e, h⟩ | ⟨config, sel, selected, records, cmd, hprep, -, hcmd, e⟩
  · exact absurd h hs
  · rw [e, (hcmd _).mpr hc]
    exact ⟨rfl, _, to_do hr hprep, rfl⟩

/-- **C107**: `--config` prints every setting once. -/
theorem C107_config (S : Site) (w : World) (args ans : List Str) (dur : Str → fl.D) (uses : List (Str × CVal))
    (cases : Option (List Str)) (hr : Reads S.N (testChoices S.names) args uses cases)
    (hc : AsksFor uses "--config".toList) (hs : ¬ CannotStart fl S w uses cases) :
    (booktest S args ans dur w).status.code = some 0 ∧ ∃ settings : List (Str × CVal), (settings.map (·.1)).Nodup ∧
      (∀ key v, key ≠ "command".toList → ((key, v) ∈ settings ↔ Setting S.P.u w.settings uses key (some v))) ∧
      (booktest S args ans dur w).printed = settings.map (fun e => e.1 ++ "=".toList ++ e.2.show) := by
  rcases booktest_reads (w := w) hr ans dur with ⟨e, h⟩ | ⟨config, sel, selected, records, cmd, hprep, -, hcmd, e⟩
  · exact absurd h hs
  · rw [e, (hcmd _).mpr hc]
    refine ⟨rfl, config, hprep.nodup, fun key v hk => ?_, rfl⟩
    constructor
    · intro hm
      have := hprep.said key hk
      rw [Dict.get_of_mem hprep.nodup hm] at this
      exact this
    · intro hx
      exact Dict.mem_of_get (setting_unique (hprep.said key hk) hx)

/-- **C107**: `--clean` removes exactly the files below the books directory that belong to no test, among them the
report if no test has its name, and changes nothing else. -/
theorem C107_clean (S : Site) (hroot : S.P.root ≠ []) (hparts : ∀ c ∈ S.P.root, c ≠ [])
    (hnames : ∀ n ∈ S.names, Normal n) (w : World) (args ans : List Str) (dur : Str → fl.D) (uses : List (Str × CVal))
    (cases : Option (List Str)) (hr : Reads S.N (testChoices S.names) args uses cases)
    (hc : AsksFor uses "--clean".toList) (hs : ¬ CannotStart fl S w uses cases) :
    let e := booktest S args ans dur w
    e.status.code = some 0 ∧ e.ran = [] ∧ e.world.settings = w.settings ∧
    (∀ f, OnDisk f → OfTest S.names f → e.world.fs.get (S.P.root ++ f) = w.fs.get (S.P.root ++ f)) ∧
    (∀ f t, OnDisk f → ¬ OfTest S.names f → w.fs.get (S.P.root ++ f) = some (.file t) →
      e.world.fs.get (S.P.root ++ f) = none) ∧
    (∀ p, (∀ t, w.fs.get p ≠ some (.file t)) → e.world.fs.get p = w.fs.get p) ∧
    (∀ p, ¬ S.P.root <+: p → e.world.fs.get p = w.fs.get p) ∧
    (OfTest S.names [".out".toList, "cases.txt".toList] → e.world.report = w.report) ∧
    (¬ OfTest S.names [".out".toList, "cases.txt".toList] → e.world.report = none) ∧
    (OfTest S.names [".out".toList, "metrics.json".toList] → e.world.metrics = w.metrics) ∧
    (¬ OfTest S.names [".out".toList, "metrics.json".toList] → e.world.metrics = false) := by
  intro e
  rcases booktest_reads (w := w) hr ans dur with ⟨e', h⟩ | ⟨config, sel, selected, records, cmd, hprep, -, hcmd, e'⟩
  · exact absurd h hs
  · have hroot' := root_named hroot hparts
    have hg : ∀ f, OnDisk f → (isGarbage (liveNames (rootName S.P) S.names) (walkPath (rootName S.P) f) = false ↔
        OfTest S.names f) := fun f hf => isGarbage_iff hroot' hnames hf
    have ee : e = { world := cleanWorld S.P S.names w, status := .ends (some 0)
                    printed := (garbageIn S.P S.names w).map ("removed ".toList ++ ·) } := by
      show booktest S args ans dur w = _
      rw [e', (hcmd _).mpr hc]
      rfl
    have hget : ∀ p, (cleanWorld S.P S.names w).fs.get p =
        if isGarbageFile S.P S.names w.fs p = false then w.fs.get p else none := by
      intro p
      show FS.get (w.fs.filter (fun e => !isGarbageFile S.P S.names w.fs e.1)) _ = _
      rw [get_filter (fun q => !isGarbageFile S.P S.names w.fs q)]
      cases isGarbageFile S.P S.names w.fs p <;> rfl
    rw [ee]
    refine ⟨rfl, rfl, rfl, ?_, ?_, ?_, ?_, ?_, ?_, ?_, ?_⟩
    · intro f hf ho
      rw [hget, if_pos]
      unfold isGarbageFile
      rw [List.drop_left, (hg f hf).mpr ho, Bool.and_false]
    · intro f t hf ho ht
      rw [hget, if_neg]
      unfold isGarbageFile
      rw [List.drop_left, ht, Bool.not_eq_false]
      have hg1 : isGarbage (liveNames (rootName S.P) S.names) (walkPath (rootName S.P) f) = true := by
        rw [← Bool.not_eq_false, hg f hf]; exact ho
      rw [hg1]
      have : S.P.root.isPrefixOf (S.P.root ++ f) = true := by
        rw [List.isPrefixOf_iff_prefix]; exact List.prefix_append _ _
      rw [this]
      rfl
    · intro p hp
      rw [hget, if_pos]
      unfold isGarbageFile
      cases hn : w.fs.get p with
      | none => rw [Bool.and_false, Bool.false_and]
      | some node =>
        cases node with
        | file t => exact absurd hn (hp t)
        | dir => rw [Bool.and_false, Bool.false_and]
    · intro p hp
      rw [hget, if_pos]
      unfold isGarbageFile
      have : S.P.root.isPrefixOf p = false := by
        rw [← Bool.not_eq_true, List.isPrefixOf_iff_prefix]; exact hp
      rw [this, Bool.false_and, Bool.false_and]
    · intro ho
      show (if isGarbageOut S.P S.names "cases.txt".toList then none else w.report) = _
      unfold isGarbageOut
      rw [(hg _ (by unfold OnDisk; decide)).mpr ho]
      rfl
    · intro ho
      show (if isGarbageOut S.P S.names "cases.txt".toList then none else w.report) = _
      unfold isGarbageOut
      rw [if_pos]
      rw [← Bool.not_eq_false, hg _ (by unfold OnDisk; decide)]
      exact ho
    · intro ho
      show (if isGarbageOut S.P S.names "metrics.json".toList then false else w.metrics) = _
      unfold isGarbageOut
      rw [(hg _ (by unfold OnDisk; decide)).mpr ho]
      rfl
    · intro ho
      show (if isGarbageOut S.P S.names "metrics.json".toList then false else w.metrics) = _
      unfold isGarbageOut
      rw [if_pos]
      rw [← Bool.not_eq_false, hg _ (by unfold OnDisk; decide)]
      exact ho

private theorem join_append {a b : List Str} (ha : a ≠ []) (hb : b ≠ []) :
    join ['/'] (a ++ b) = join ['/'] a ++ ['/'] ++ join ['/'] b := by
  induction a with
  | nil => exact absurd rfl ha
  | cons x a ih =>
    cases a with
    | nil => rw [List.singleton_append, join_cons ['/'] x hb]; simp [join]
    | cons y a =>
      rw [List.cons_append, join_cons ['/'] x (by simp), ih (by simp), join_cons ['/'] x (by simp)]
      simp only [List.append_assoc]

private theorem join_last {root : Path} (h : root ≠ []) (hn : ∀ c ∈ root, c ≠ [] ∧ '/' ∉ c) :
    (join ['/'] root).getLast? ≠ some '/' := by
  obtain ⟨q, x, rfl⟩ : ∃ q x, root = q ++ [x] := ⟨_, _, (List.dropLast_concat_getLast h).symm⟩
  have hx := hn x (by simp)
  obtain ⟨r, c, rfl⟩ : ∃ r c, x = r ++ [c] := ⟨_, _, (List.dropLast_concat_getLast hx.1).symm⟩
  have hc : c ≠ '/' := fun e => hx.2 (by simp [e])
  cases q with
  | nil => simpa [join] using hc
  | cons y q =>
    rw [join_append (by simp) (by simp), show join ['/'] [r ++ [c]] = r ++ [c] from rfl, ← List.append_assoc,
      List.getLast?_concat]
    simpa using hc

private theorem mem_of_get {fs : FS} {p : Path} {n : Node} (h : fs.get p = some n) : p ∈ fs.map (·.1) := by
  unfold FS.get at h
  induction fs with
  | nil => cases h
  | cons e fs ih =>
    obtain ⟨k, m⟩ := e
    rw [List.lookup_cons] at h
    by_cases hk : p = k
    · subst hk; simp
    · rw [show (p == k) = false from by simpa using hk] at h
      exact List.mem_cons_of_mem _ (ih h)

/-- **C107**: `--garbage` lists exactly the files below the books directory that belong to no test, the report and the
metrics among them. -/
theorem C107_garbage_lists (S : Site) (hroot : S.P.root ≠ []) (hparts : ∀ c ∈ S.P.root, c ≠ [] ∧ '/' ∉ c)
    (hnames : ∀ n ∈ S.names, Normal n) (w : World)
    (hdisk : ∀ f t, w.fs.get (S.P.root ++ f) = some (.file t) → OnDisk f)
    (args ans : List Str) (dur : Str → fl.D) (uses : List (Str × CVal)) (cases : Option (List Str))
    (hr : Reads S.N (testChoices S.names) args uses cases) (hc : AsksFor uses "--garbage".toList)
    (hs : ¬ CannotStart fl S w uses cases) (x : Str) :
    x ∈ (booktest S args ans dur w).printed ↔
      ∃ f, StoredFile S.P.root w f ∧ ¬ OfTest S.names f ∧ x = join ['/'] (S.P.root ++ f) := by
  have hroot' : rootName S.P ≠ [] := root_named hroot (fun c hc => (hparts c hc).1)
  have hg : ∀ f, OnDisk f → (isGarbage (liveNames (rootName S.P) S.names) (walkPath (rootName S.P) f) = true ↔
      ¬ OfTest S.names f) := fun f hf => by
    rw [← isGarbage_iff hroot' hnames hf, Bool.not_eq_false]
  have hw : ∀ f, OnDisk f → walkPath (rootName S.P) f = join ['/'] (S.P.root ++ f) := by
    intro f hf
    rw [walkPath_eq f _ hf hroot']
    unfold rootName
    rw [if_neg (join_last hroot hparts), join_append hroot hf.1]
  have hcases : OnDisk [".out".toList, "cases.txt".toList] := by unfold OnDisk; decide
  have hmetrics : OnDisk [".out".toList, "metrics.json".toList] := by unfold OnDisk; decide
  have hp : (booktest S args ans dur w).printed = garbageIn S.P S.names w := by
    rcases booktest_reads (w := w) hr ans dur with ⟨e', h⟩ | ⟨config, sel, selected, records, cmd, hprep, -, hcmd, e'⟩
    · exact absurd h hs
    · rw [e', (hcmd _).mpr hc]
      rfl
  rw [hp]
  unfold garbageIn
  rw [List.mem_append, List.mem_append]
  constructor
  · rintro ((h | h) | h)
    · obtain ⟨p, h1, h2⟩ := List.mem_map.mp h
      have h3 := (List.mem_filter.mp h1).2
      unfold isGarbageFile at h3
      rw [Bool.and_eq_true, Bool.and_eq_true, List.isPrefixOf_iff_prefix] at h3
      obtain ⟨⟨⟨f, rfl⟩, h4⟩, h5⟩ := h3
      rw [List.drop_left] at h5 h2
      cases hn : w.fs.get (S.P.root ++ f) with
      | none => rw [hn] at h4; cases h4
      | some node =>
        cases node with
        | dir => rw [hn] at h4; cases h4
        | file t =>
          have hd := hdisk f t hn
          exact ⟨f, .inl ⟨t, hn⟩, (hg f hd).mp h5, by rw [← hw f hd]; exact h2.symm⟩
    · by_cases hx : (w.report.isSome && isGarbageOut S.P S.names "cases.txt".toList) = true
      · rw [if_pos hx] at h
        rw [Bool.and_eq_true] at hx
        exact ⟨_, .inr (.inl ⟨rfl, hx.1⟩), (hg _ hcases).mp hx.2, by rw [← hw _ hcases]; simpa using h⟩
      · rw [if_neg hx] at h; cases h
    · by_cases hx : (w.metrics && isGarbageOut S.P S.names "metrics.json".toList) = true
      · rw [if_pos hx] at h
        rw [Bool.and_eq_true] at hx
        exact ⟨_, .inr (.inr ⟨rfl, hx.1⟩), (hg _ hmetrics).mp hx.2, by rw [← hw _ hmetrics]; simpa using h⟩
      · rw [if_neg hx] at h; cases h
  · rintro ⟨f, hf | ⟨rfl, hf⟩ | ⟨rfl, hf⟩, ho, rfl⟩
    · obtain ⟨t, ht⟩ := hf
      have hd := hdisk f t ht
      refine .inl (.inl (List.mem_map.mpr ⟨S.P.root ++ f, List.mem_filter.mpr ⟨?_, ?_⟩, ?_⟩))
      · exact List.mem_eraseDups.mpr (mem_of_get ht)
      · unfold isGarbageFile
        rw [Bool.and_eq_true, Bool.and_eq_true, List.isPrefixOf_iff_prefix, List.drop_left, ht]
        exact ⟨⟨List.prefix_append _ _, rfl⟩, (hg f hd).mpr ho⟩
      · rw [List.drop_left, hw f hd]
    · refine .inl (.inr ?_)
      rw [if_pos (by rw [Bool.and_eq_true]; exact ⟨hf, (hg _ hcases).mpr ho⟩), hw _ hcases]
      exact List.mem_cons_self
    · refine .inr ?_
      rw [if_pos (by rw [Bool.and_eq_true]; exact ⟨hf, (hg _ hmetrics).mpr ho⟩), hw _ hmetrics]
      exact List.mem_cons_self

/-- **C107**: `--clean` says that it removes what `--garbage` lists. -/
theorem C107_garbage (S : Site) (w : World) (args args' ans ans' : List Str) (dur dur' : Str → fl.D)
    (uses uses' : List (Str × CVal)) (cases cases' : Option (List Str))
    (hr : Reads S.N (testChoices S.names) args uses cases) (hr' : Reads S.N (testChoices S.names) args' uses' cases')
    (hc : AsksFor uses "--garbage".toList) (hc' : AsksFor uses' "--clean".toList)
    (hs : ¬ CannotStart fl S w uses cases) (hs' : ¬ CannotStart fl S w uses' cases') :
    (booktest S args' ans' dur' w).printed =
      (booktest S args ans dur w).printed.map (fun f => "removed ".toList ++ f) := by
  rcases booktest_reads (w := w) hr ans dur with ⟨e, h⟩ | ⟨config, sel, selected, records, cmd, -, -, hcmd, e⟩
  · exact absurd h hs
  rcases booktest_reads (w := w) hr' ans' dur' with ⟨e', h⟩ | ⟨config', sel', selected', records', cmd', -, -, hcmd', e'⟩
  · exact absurd h hs'
  rw [e, e', (hcmd _).mpr hc, (hcmd' _).mpr hc']
  rfl

/-- **C107**: `--forget` removes the records of the tests that are given, and changes nothing else; without an output
directory it raises an exception. -/
theorem C107_forgets (S : Site) (w : World) (args ans : List Str) (dur : Str → fl.D) (uses : List (Str × CVal))
    (cases : Option (List Str)) (hr : Reads S.N (testChoices S.names) args uses cases)
    (hc : AsksFor uses "--forget".toList) (hs : ¬ CannotStart fl S w uses cases)
    (ho : w.fs.get (booksDir S.P.root true) = some .dir) :
    let e := booktest S args ans dur w
    e.status.code = some 0 ∧ e.ran = [] ∧ e.world.settings = w.settings ∧ e.world.fs = w.fs ∧
    e.world.metrics = w.metrics ∧ ∃ selected records, AboutTests S w uses cases (some selected) ∧
      ofFile S.P.u fl w.report = some records ∧
      ofFile S.P.u fl e.world.report = some (records.filter (fun r => decide (r.1 ∉ selected))) := by
  intro e
  rcases booktest_reads (w := w) hr ans dur with ⟨e', h⟩ | ⟨config, sel, selected, records, cmd, hprep, -, hcmd, e'⟩
  · exact absurd h hs
  · have hdir : w.fs.isDir S.P.out = true := by
      unfold FS.isDir
      have : booksDir S.P.root true = S.P.out := rfl
      rw [← this, ho]
      rfl
    have ee : e = ⟨{ w with report := applyEvs w.report (.truncate :: (forgetRecords records selected).map .write) },
        [], [], .ends none⟩ := by
      show booktest S args ans dur w = _
      rw [e', (hcmd _).mpr hc]
      show (if w.fs.isDir S.P.out then _ else _) = _
      rw [if_pos hdir]
    rw [ee]
    refine ⟨rfl, rfl, rfl, rfl, rfl, selected, records, ⟨sel, _, selection_said hr hprep.said hprep.chosen,
      stored_said hprep.said, hprep.names⟩, hprep.records, ?_⟩
    obtain ⟨evs, h1, h2⟩ := C65_forget S.P.u fl selected w.report records hprep.records
    unfold forget at h1
    rw [hprep.records, Option.map_some, Option.some.injEq] at h1
    rw [← h1] at h2
    exact h2

private theorem runCovered_settings (S : Site) (config : Dict CVal) (dur : Str → fl.D) (cases ans : List Str)
    (w : World) : (runCovered S config dur cases ans w).world.settings = w.settings := by
  have h : ∀ w : World, (runCommand S config dur cases ans w).world.settings = w.settings := by
    intro w
    unfold runCommand
    split <;> rfl
  unfold runCovered
  split
  · split
    · rfl
    · dsimp only
      split
      · exact h _
      · exact h _
  · exact h _

theorem asked_command {S : Site} {args : List Str} {uses : List (Str × CVal)} {cases : Option (List Str)}
    (hr : Reads S.N (testChoices S.names) args uses cases) {c : Str} (h : AsksFor uses c) :
    c ∈ commands.map (·.2) := by
  obtain ⟨name, arg, hs⟩ := reads_sets hr _ (finally_mem h)
  generalize hk : "command".toList = k at hs
  generalize hv : CVal.str c = v at hs
  cases hs with
  | switch name key v' hm =>
    exfalso
    subst hk
    revert hm
    simp [switches]
  | command name c' hm => cases hv; exact List.mem_map.mpr ⟨_, hm, rfl⟩
  | tool name key x hm =>
    exfalso
    subst hk
    revert hm
    simp [tools]
  | count x n hn => exact absurd hk (by decide)

private theorem review_frame (S : Site) (config : Dict CVal) (cases : List Str) (records : List (Rec fl))
    (ans : List Str) (w : World) (dur : Str → fl.D) :
    (dispatch S config dur cases records ans w (some "--review".toList)).ran = [] ∧
    (dispatch S config dur cases records ans w (some "--review".toList)).world.settings = w.settings := by
  have es : dispatch S config dur cases records ans w (some "--review".toList) =
      if w.metrics then
        match review fl (configOf config) S.P.root S.P.out none (some cases) records ans w.fs with
        | (fs, none, _) => { world := { w with fs := fs }, status := .raises }
        | (fs, some (rs, rv), _) =>
          { world := { w with fs := fs, report := applyEvs w.report (.truncate :: rs.map .write) }
            status := .ends (some rv) }
      else { world := w, status := .raises } := rfl
  rw [es]
  split
  · split <;> exact ⟨rfl, rfl⟩
  · exact ⟨rfl, rfl⟩

/-- **C107**: tests are executed only by command lines without command, and settings are changed only by `--setup`,
which changes nothing else. -/
theorem C107_frame (S : Site) (w : World) (args ans : List Str) (dur : Str → fl.D) (uses : List (Str × CVal))
    (cases : Option (List Str)) (hr : Reads S.N (testChoices S.names) args uses cases) :
    let e := booktest S args ans dur w
    (¬ AsksRun uses → e.ran = []) ∧ (¬ AsksFor uses "--setup".toList → e.world.settings = w.settings) ∧
    (AsksFor uses "--setup".toList → e.world.fs = w.fs ∧ e.world.report = w.report ∧ e.world.metrics = w.metrics ∧
      e.world.settings.environ = w.settings.environ ∧ e.world.settings.home = w.settings.home ∧
      ∀ f, f ≠ ".booktest".toList → e.world.settings.files f = w.settings.files f) := by
  intro e
  show (¬ AsksRun uses → (booktest S args ans dur w).ran = []) ∧ (¬ AsksFor uses "--setup".toList →
    (booktest S args ans dur w).world.settings = w.settings) ∧ _
  rcases booktest_reads (w := w) hr ans dur with ⟨e', h⟩ | ⟨config, sel, selected, records, cmd, hprep, -, hcmd, e'⟩
  · have ee : e = _ := e'
    rw [ee, e']
    exact ⟨fun _ => rfl, fun _ => rfl, fun _ => ⟨rfl, rfl, rfl, rfl, rfl, fun _ _ => rfl⟩⟩
  · have ee : e = _ := e'
    rw [ee, e']
    cases cmd with
    | none =>
      refine ⟨fun h => absurd (fun c hx => (nomatch (hcmd c).mpr hx)) h,
        fun _ => runCovered_settings S config dur selected ans w, fun h => (nomatch (hcmd _).mpr h)⟩
    | some c =>
      have hc := (hcmd c).mp rfl
      have hset : AsksFor uses "--setup".toList → c = "--setup".toList := by
        intro h
        have := (hcmd _).mpr h
        cases this
        rfl
      have hin := asked_command hr hc
      simp only [commands, List.map_cons, List.map_nil, List.mem_cons, List.not_mem_nil, or_false] at hin
      have other : c ≠ "--setup".toList → (dispatch S config dur selected records ans w (some c)).ran = [] ∧
          (dispatch S config dur selected records ans w (some c)).world.settings = w.settings := by
        intro hne
        rcases hin with rfl | rfl | rfl | rfl | rfl | rfl | rfl | rfl | rfl | rfl | rfl
        · exact ⟨rfl, rfl⟩
        · exact review_frame S config selected records ans w dur
        · exact review_frame S config selected records ans w dur
        · show CommandEnd.ran (if _ then _ else _) = [] ∧ World.settings (CommandEnd.world (if _ then _ else _)) = _
          split <;> exact ⟨rfl, rfl⟩
        · exact ⟨rfl, rfl⟩
        · exact ⟨rfl, rfl⟩
        · exact ⟨rfl, rfl⟩
        · exact ⟨rfl, rfl⟩
        · exact ⟨rfl, rfl⟩
        · exact ⟨rfl, rfl⟩
        · exact absurd rfl hne
      by_cases hx : c = "--setup".toList
      · subst hx
        refine ⟨fun _ => ?_, fun h => absurd hc h, fun _ => ?_⟩
        · show CommandEnd.ran (match setupBooktest config ans with | none => _ | some text => _) = []
          cases setupBooktest config ans <;> rfl
        · have es : dispatch S config dur selected records ans w (some "--setup".toList) =
              match setupBooktest config ans with
              | none => { world := w, status := .raises }
              | some text =>
                { world := { w with settings := { w.settings with
                    files := fun f => if f = ".booktest".toList then some text else w.settings.files f } }
                  status := .ends (some 0) } := rfl
          rw [es]
          cases setupBooktest config ans with
          | none => exact ⟨rfl, rfl, rfl, rfl, rfl, fun _ _ => rfl⟩
          | some text => exact ⟨rfl, rfl, rfl, rfl, rfl, fun f hf => if_neg hf⟩
      · obtain ⟨h1, h2⟩ := other hx
        exact ⟨fun _ => h1, fun _ => h2, fun h => absurd (hset h) hx⟩

/-- **C107**: a command line without command runs the selected tests with the settings that are said, unless it
cannot start: what it leaves is what the run leaves, and its status is that of the run; `metrics.json` is there if it was
there before or the run comes to its end. Missing: runs with workers (see C125) and with coverage (see
`C107_covered`). -/
theorem C107_run_partial (S : Site) (w : World) (args ans : List Str) (dur : Str → fl.D) (uses : List (Str × CVal))
    (cases : Option (List Str)) (hr : Reads S.N (testChoices S.names) args uses cases) (hn : AsksRun uses)
    (hp : ¬ On S.P.u w.settings uses "parallel".toList) (hv : ¬ On S.P.u w.settings uses "coverage".toList) :
    (booktest S args ans dur w = { world := w, status := .raises } ∧ CannotStart fl S w uses cases) ∨
    ∃ cfg selected, ConfigSaid S.P.u w.settings uses cfg ∧ AboutTests S w uses cases (some selected) ∧
      let r := runProject S.P cfg dur S.names selected w.fs ans w.report
      (booktest S args ans dur w).world.fs = r.fs ∧ (booktest S args ans dur w).world.report = r.report ∧
      (booktest S args ans dur w).world.settings = w.settings ∧
      (booktest S args ans dur w).status.code = some (match r.result with
        | some .OK => 0
        | some _ => 255
        | none => 1) ∧
      (w.metrics = true ∨ r.result ≠ none → (booktest S args ans dur w).world.metrics = true) := by
  rcases booktest_reads (w := w) hr ans dur with ⟨e, he⟩ | ⟨config, sel, selected, records, cmd, hprep, -, hcmd, e⟩
  · exact .inl ⟨e, he⟩
  · refine .inr ⟨configOf config, selected, config_on hprep, ⟨sel, _, selection_said hr hprep.said hprep.chosen,
      stored_said hprep.said, hprep.names⟩, ?_⟩
    · have hp' : isOn config "parallel".toList = false := by
        rw [← Bool.not_eq_true, isOn_iff (hprep.said "parallel".toList (by decide))]; exact hp
      have hv' : isOn config "coverage".toList = false := by
        rw [← Bool.not_eq_true, isOn_iff (hprep.said "coverage".toList (by decide))]; exact hv
      rw [e, no_command hn hcmd, dispatch_run]
      unfold runCovered runCommand
      rw [hp', hv']
      refine ⟨rfl, rfl, rfl, ?_, ?_⟩
      · show Status.code (match (runProject S.P (configOf config) dur S.names selected w.fs ans w.report).result with
          | some v => .ends (some (exitCode v))
          | none => .raises) = _
        cases (runProject S.P (configOf config) dur S.names selected w.fs ans w.report).result with
        | none => rfl
        | some r => cases r <;> rfl
      · rintro (h | h)
        · show (w.metrics || _) = true
          rw [h]
          rfl
        · show (w.metrics || (runAsync S.P.u fl (configOf config) (projectOutcome S.P (configOf config) dur
            (mkdirs w.fs S.P.out, ans)) selected w.report).2.isSome) = true
          rw [Bool.or_eq_true]
          refine .inr ?_
          unfold runProject at h
          dsimp only at h
          cases hx : (runAsync S.P.u fl (configOf config) (projectOutcome S.P (configOf config) dur
            (mkdirs w.fs S.P.out, ans)) selected w.report).2 with
          | none => rw [hx] at h; exact absurd rfl h
          | some v => rfl

/-- **C107**: `booktest ARGUMENTS -l` lists the tests that `booktest ARGUMENTS` executes, in the same order; if one of
them raises an exception before, so does the other. With `-f`, or if a test raises an exception that is not caught,
the run ends earlier. -/
theorem C107_list (S : Site) (w : World) (args args' ans ans' : List Str) (dur dur' : Str → fl.D)
    (uses uses' : List (Str × CVal)) (cases : Option (List Str))
    (hr : Reads S.N (testChoices S.names) args uses cases)
    (hr' : Reads S.N (testChoices S.names) args' uses' cases) (hn : AsksRun uses) (hl : AsksFor uses' "-l".toList)
    (hsame : ∀ key v, key ≠ "command".toList → (Finally uses key v ↔ Finally uses' key v))
    (hp : ¬ On S.P.u w.settings uses "parallel".toList) (hv : ¬ On S.P.u w.settings uses "coverage".toList) :
    let list := booktest S args' ans' dur' w
    let run := booktest S args ans dur w
    (list.status = .raises ∧ run.status = .raises ∧ run.ran = []) ∨
    (list.status = .ends (some 0) ∧ ∃ names, list.printed = names.map ("  ".toList ++ ·) ∧ run.ran <+: names ∧
      (run.status ≠ .raises → ¬ On S.P.u w.settings uses "fail_fast".toList →
        ¬ On S.P.u w.settings uses "interactive".toList → ¬ On S.P.u w.settings uses "always_interactive".toList →
        run.ran = names)) := by
  intro list run
  have hset : ∀ key o, key ≠ "command".toList →
      (Setting S.P.u w.settings uses key o ↔ Setting S.P.u w.settings uses' key o) := by
    intro key o hk
    constructor
    · intro h
      cases h with
      | said v h1 h2 => exact .said v ((hsame key v hk).mp h1) h2
      | unsaid _ h1 h2 => exact .unsaid _ (fun v hv => h1 v ((hsame key v hk).mpr hv)) h2
    · intro h
      cases h with
      | said v h1 h2 => exact .said v ((hsame key v hk).mpr h1) h2
      | unsaid _ h1 h2 => exact .unsaid _ (fun v hv => h1 v ((hsame key v hk).mp hv)) h2
  have hon : ∀ key, key ≠ "command".toList → (On S.P.u w.settings uses key ↔ On S.P.u w.settings uses' key) := by
    intro key hk
    exact ⟨fun ⟨v, h1, h2⟩ => ⟨v, (hset key _ hk).mp h1, h2⟩, fun ⟨v, h1, h2⟩ => ⟨v, (hset key _ hk).mpr h1, h2⟩⟩
  rcases prepared_both (fl := fl) (w := w) (w' := w) hr hr' rfl rfl rfl (hon _ (by decide)) ans ans' dur dur' with
    ⟨e, e'⟩ | ⟨config, config', sel, selected, records, records', cmd, cmd', h1, h2, hcmd, hcmd', e, e'⟩
  · refine .inl ?_
    show (booktest S args' ans' dur' w).status = _ ∧ (booktest S args ans dur w).status = _ ∧
      (booktest S args ans dur w).ran = []
    rw [e, e']
    exact ⟨rfl, rfl, rfl⟩
  · have hrec : records' = records := by
      have := h1.records
      rw [h2.records] at this
      cases this
      rfl
    subst hrec
    have hcfg : ∀ key, key ≠ "command".toList → isOn config key = isOn config' key := by
      intro key hk
      rw [Bool.eq_iff_iff, isOn_iff (h1.said key hk), isOn_iff (h2.said key hk)]
      exact hon key hk
    have hconf : configOf config' = configOf config := by
      unfold configOf
      rw [hcfg _ (by decide), hcfg _ (by decide), hcfg _ (by decide), hcfg _ (by decide), hcfg _ (by decide),
        hcfg _ (by decide)]
    have hp' : isOn config "parallel".toList = false := by
      rw [← Bool.not_eq_true, isOn_iff (h1.said "parallel".toList (by decide))]; exact hp
    have hv' : isOn config "coverage".toList = false := by
      rw [← Bool.not_eq_true, isOn_iff (h1.said "coverage".toList (by decide))]; exact hv
    have erun : run = runHere S config dur selected ans w := by
      show booktest S args ans dur w = _
      rw [e, no_command hn hcmd, dispatch_run]
      unfold runCovered runCommand
      rw [hp', hv']
      rfl
    have elist : list = ⟨w, (listed (configOf config') records' selected).map ("  ".toList ++ ·), [],
        .ends (some 0)⟩ := by
      show booktest S args' ans' dur' w = _
      rw [e', (hcmd' _).mpr hl]
      rfl
    refine .inr ⟨by rw [elist], listed (configOf config') records' selected, by rw [elist], ?_⟩
    rw [erun, hconf]
    obtain ⟨g1, g2⟩ := runAsync_ran (cfg := configOf config)
      (outcome := projectOutcome S.P (configOf config) dur (mkdirs w.fs S.P.out, ans)) (cases := selected) h1.records
    refine ⟨g1, fun hst hff hi hI => ?_⟩
    have hsaid := config_on h1
    have hask : NotAsking (configOf config) :=
      ⟨by rw [← Bool.not_eq_true, hsaid.alwaysInteractive]; exact hI,
       by rw [← Bool.not_eq_true, hsaid.interactive]; exact hi⟩
    refine g2 (fun e n r q d h => outcome_request hask dur _ e n r q d h)
      (by rw [← Bool.not_eq_true, hsaid.failFast]; exact hff) ?_
    intro hnone
    apply hst
    show (match (runProject S.P (configOf config) dur S.names selected w.fs ans w.report).result with
        | some v => Status.ends (some (exitCode v))
        | none => .raises) = _
    have : (runProject S.P (configOf config) dur S.names selected w.fs ans w.report).result = none := by
      unfold runProject
      dsimp only
      rw [hnone]
    rw [this]

/-- **C107**: `booktest --forget TESTS` and then `booktest -c -l TESTS` lists what `booktest -l TESTS` does: a test
that is forgotten is to be run, whatever its result was. -/
theorem C107_forget (S : Site) (w : World) (args args' args'' ans ans' ans'' : List Str)
    (dur dur' dur'' : Str → fl.D) (uses uses' uses'' : List (Str × CVal)) (cases : Option (List Str))
    (hr : Reads S.N (testChoices S.names) args uses cases)
    (hr' : Reads S.N (testChoices S.names) args' uses' cases)
    (hr'' : Reads S.N (testChoices S.names) args'' uses'' cases)
    (hf : AsksFor uses "--forget".toList) (hl : AsksFor uses' "-l".toList) (hl' : AsksFor uses'' "-l".toList)
    (hc : ¬ On S.P.u w.settings uses'' "continue".toList)
    (hs : On S.P.u w.settings uses "refresh_sources".toList ↔ On S.P.u w.settings uses' "refresh_sources".toList)
    (hs' : On S.P.u w.settings uses "refresh_sources".toList ↔ On S.P.u w.settings uses'' "refresh_sources".toList)
    (hend : (booktest S args ans dur w).status ≠ .raises) :
    let w' := (booktest S args ans dur w).world
    (booktest S args ans dur w).status.code = some 0 ∧ w'.fs = w.fs ∧
    (booktest S args' ans' dur' w').status = .ends (some 0) ∧
    (booktest S args'' ans'' dur'' w).status = .ends (some 0) ∧
    (booktest S args' ans' dur' w').printed = (booktest S args'' ans'' dur'' w).printed := by
  intro w'
  rcases prepared_both (fl := fl) (w := w) (w' := w) hr hr'' rfl rfl rfl hs' ans ans'' dur dur'' with
    ⟨e, -⟩ | ⟨config, config'', sel, selected, records, records'', cmd, cmd'', h1, h2, hcmd, hcmd'', e, e''⟩
  · rw [e] at hend; exact absurd rfl hend
  · rw [(hcmd _).mpr hf] at e
    rw [(hcmd'' _).mpr hl'] at e''
    have eforget : dispatch S config dur selected records ans w (some "--forget".toList) =
        if w.fs.isDir S.P.out then
          { world := { w with report := applyEvs w.report (.truncate :: (forgetRecords records selected).map .write) }
            status := .ends none }
        else { world := w, status := .raises } := rfl
    rw [eforget] at e
    have hdir : w.fs.isDir S.P.out = true := by
      cases hd : w.fs.isDir S.P.out with
      | true => rfl
      | false => rw [e, hd] at hend; exact absurd rfl hend
    rw [hdir, if_pos rfl] at e
    obtain ⟨evs, g1, g2⟩ := C65_forget S.P.u fl selected w.report records h1.records
    have hevs : evs = .truncate :: (forgetRecords records selected).map .write := by
      unfold forget at g1
      rw [h1.records] at g1
      cases g1
      rfl
    subst hevs
    have ew : w' = { w with report := applyEvs w.report (.truncate :: (forgetRecords records selected).map .write) } := by
      show (booktest S args ans dur w).world = _
      rw [e]
    have hrep : ofFile S.P.u fl w'.report = some (records.filter (fun r => decide (r.1 ∉ selected))) := by
      rw [ew]; exact g2
    refine ⟨by rw [e]; rfl, by rw [ew], ?_⟩
    have hfs : w'.fs = w.fs := by rw [ew]
    have hset : w'.settings = w.settings := by rw [ew]
    rcases prepared_both (fl := fl) (w := w) (w' := w') hr hr' hset hfs (by rw [hrep, h1.records]; rfl) hs
        ans ans' dur dur' with
      ⟨e1, -⟩ | ⟨config1, config', sel1, selected1, records1, records', cmd1, cmd', k1, k2, -, hcmd', -, e'⟩
    · rw [e1] at hend; exact absurd rfl hend
    · have hsel : selected1 = selected := by
        have hg : config1.get "default_tests".toList = config.get "default_tests".toList :=
          setting_unique (k1.said _ (by decide)) (h1.said _ (by decide))
        have a1 := k1.chosen
        rw [selectionOf_congr hg, h1.chosen] at a1
        cases a1
        have hst : storedIn S.P config1 w.fs = storedIn S.P config w.fs := by
          have : isOn config1 "refresh_sources".toList = isOn config "refresh_sources".toList := by
            unfold isOn
            rw [setting_unique (k1.said "refresh_sources".toList (by decide)) (h1.said _ (by decide))]
          unfold storedIn
          rw [this]
        have a2 := k1.names
        rw [hst, h1.names] at a2
        cases a2
        rfl
      subst hsel
      have hr2 : records' = records.filter (fun r => decide (r.1 ∉ selected1)) := by
        have := k2.records
        rw [hrep] at this
        cases this
        rfl
      rw [(hcmd' _).mpr hl] at e'
      have p1 : (booktest S args' ans' dur' w').printed = (listed (configOf config') records' selected1).map
          ("  ".toList ++ ·) := by rw [e']; rfl
      have p2 : (booktest S args'' ans'' dur'' w).printed = (listed (configOf config'') records'' selected1).map
          ("  ".toList ++ ·) := by rw [e'']; rfl
      refine ⟨by rw [e']; rfl, by rw [e'']; rfl, ?_⟩
      rw [p1, p2]
      congr 1
      have q2 : (configOf config'').cont = false := by
        rw [← Bool.not_eq_true, (config_on h2).cont]; exact hc
      have l2 : listed (configOf config'') records'' selected1 = selected1 := by
        unfold listed
        rw [(doneAndTodo_eq _ _ _).1]
        unfold toRun
        rw [q2]
        simp
      have l1 : listed (configOf config') records' selected1 = selected1 := by
        unfold listed
        rw [(doneAndTodo_eq _ _ _).1]
        unfold toRun
        rw [List.filter_eq_self]
        intro n hn
        have : firstRecord records' n = none := by
          rw [hr2]
          unfold firstRecord
          rw [List.find?_eq_none]
          intro r hr
          have := (List.mem_filter.mp hr).2
          intro h
          simp only [decide_eq_true_eq] at this h
          exact this (h ▸ hn)
        rw [this]
        simp
      rw [l1, l2]

/-! ### Sessions -/

/-- Nothing at the path is changed, or a directory is made where nothing was. -/
private def Keeps (p : Path) (a b : FS) : Prop := b.get p = a.get p ∨ (a.get p = none ∧ b.get p = some .dir)

private theorem keeps_refl (p : Path) (a : FS) : Keeps p a a := .inl rfl

private theorem keeps_trans {p : Path} {a b c : FS} (h1 : Keeps p a b) (h2 : Keeps p b c) : Keeps p a c := by
  rcases h1 with e1 | ⟨e1, e1'⟩
  · rcases h2 with e2 | ⟨e2, e2'⟩
    · exact .inl (e2.trans e1)
    · exact .inr ⟨e1 ▸ e2, e2'⟩
  · rcases h2 with e2 | ⟨e2, -⟩
    · exact .inr ⟨e1, e2.trans e1'⟩
    · rw [e1'] at e2; cases e2

private theorem runHere_keeps {S : Site} {config : Dict CVal} (hc : NotAsking (configOf config))
    (hu : (configOf config).update = false) (ha : (configOf config).accept = false) (dur : Str → fl.D)
    (cases ans : List Str) (w : World) {p : Path} (hp : ¬ S.P.out <+: p)
    (hi : p ≠ S.P.root ++ ["index.md".toList]) : Keeps p w.fs (runHere S config dur cases ans w).world.fs :=
  C82_plain_run S.P (configOf config) hc hu ha S.names cases w.fs ans dur w.report p hp hi

private theorem openW_get {q p : Path} {text : Str} {fs g : FS} (h : openW q text fs = .ok g) (hp : p ≠ q) :
    g.get p = fs.get p := by
  unfold openW at h
  split at h
  · cases h
  · split at h
    · cases h
      unfold FS.write
      rw [get_cons, if_neg hp]
    · cases h

theorem writeCoverage_get {p : Path} (texts : Str × Str) (fs : FS) (h1 : p ≠ [".coverage".toList])
    (h2 : p ≠ ["coverage.xml".toList]) : (writeCoverage texts fs).1.get p = fs.get p := by
  unfold writeCoverage
  split
  · rfl
  · rename_i e
    split
    · exact openW_get e h1
    · rename_i e'
      exact (openW_get e' h2).trans (openW_get e h1)

private theorem runCovered_general {S : Site} {config : Dict CVal} (hc : NotAsking (configOf config))
    (hu : (configOf config).update = false) (ha : (configOf config).accept = false) (dur : Str → fl.D)
    (cases ans : List Str) (w : World) {p : Path} (hp : ¬ S.P.out <+: p)
    (hi : p ≠ S.P.root ++ ["index.md".toList]) (hl : isCoverageFile p = false) (hx : p ≠ ["coverage.xml".toList]) :
    Keeps p w.fs (runCovered S config dur cases ans w).world.fs := by
  have hrun : ∀ w : World, Keeps p w.fs (runCommand S config dur cases ans w).world.fs := by
    intro w
    unfold runCommand
    split
    · exact keeps_refl _ _
    · exact runHere_keeps hc hu ha dur cases ans w hp hi
  unfold runCovered
  split
  · split
    · exact keeps_refl _ _
    · dsimp only
      have h0 : Keeps p w.fs (w.fs.filter (fun e => !isCoverageFile e.1)) := by
        left
        rw [get_filter (fun q => !isCoverageFile q), if_pos]
        rw [hl]
        rfl
      refine keeps_trans h0 (keeps_trans (hrun { w with fs := w.fs.filter (fun e => !isCoverageFile e.1) }) ?_)
      split
      · exact keeps_refl _ _
      · refine .inl (writeCoverage_get _ _ ?_ hx)
        rintro rfl
        exact absurd hl (by decide)
  · exact hrun _

private theorem runCovered_keeps {S : Site} {config : Dict CVal} (hc : NotAsking (configOf config))
    (hu : (configOf config).update = false) (ha : (configOf config).accept = false) (dur : Str → fl.D)
    (cases ans : List Str) (w : World) {p : Path} (hp : ¬ S.P.out <+: p)
    (hi : p ≠ S.P.root ++ ["index.md".toList]) (hl : 2 ≤ p.length) :
    Keeps p w.fs (runCovered S config dur cases ans w).world.fs := by
  refine runCovered_general hc hu ha dur cases ans w hp hi ?_ ?_
  · match p, hl with
    | a :: b :: rest, _ => rfl
  · rintro rfl
    simp at hl

/-- **C107**: a run with coverage that is not allowed to change snapshots changes, outside of the output directory and
other than the index, only the files `.coverage`, `coverage.xml` and those whose names begin with `.coverage.`; all other
files stay (directories may be made where nothing was). -/
theorem C107_coverage_files (S : Site) (config : Dict CVal) (hc : NotAsking (configOf config))
    (hu : (configOf config).update = false) (ha : (configOf config).accept = false) (dur : Str → fl.D)
    (cases ans : List Str) (w : World) (p : Path) (hp : ¬ S.P.out <+: p) (hi : p ≠ S.P.root ++ ["index.md".toList])
    (h1 : p ≠ [".coverage".toList]) (h2 : ∀ rest : Str, p ≠ [".coverage.".toList ++ rest])
    (h3 : p ≠ ["coverage.xml".toList]) :
    (runCovered S config dur cases ans w).world.fs.get p = w.fs.get p ∨
      (w.fs.get p = none ∧ (runCovered S config dur cases ans w).world.fs.get p = some .dir) := by
  refine runCovered_general hc hu ha dur cases ans w hp hi ?_ h3
  match p with
  | [] => rfl
  | [f] =>
    unfold isCoverageFile
    dsimp only
    rw [Bool.or_eq_false_iff]
    constructor
    · have : f ≠ ".coverage".toList := fun e => h1 (by rw [e])
      simpa using this
    · cases h : startsWith f ".coverage.".toList with
      | false => rfl
      | true =>
        exfalso
        rw [startsWith, List.isPrefixOf_iff_prefix] at h
        obtain ⟨rest, e⟩ := h
        exact h2 rest (by rw [e])
  | _ :: _ :: _ => rfl

private theorem old_coverage_iff (p : Path) : isCoverageFile p = true ↔ OldCoverage p := by
  unfold OldCoverage
  match p with
  | [] => simp [isCoverageFile]
  | [f] =>
    unfold isCoverageFile
    dsimp only
    rw [Bool.or_eq_true, beq_iff_eq, startsWith, List.isPrefixOf_iff_prefix]
    constructor
    · rintro (rfl | ⟨x, rfl⟩)
      · exact .inl rfl
      · exact .inr ⟨x, rfl⟩
    · rintro (h | ⟨x, h⟩)
      · cases h; exact .inl rfl
      · cases h; exact .inr ⟨x, rfl⟩
  | _ :: _ :: _ =>
    unfold isCoverageFile
    dsimp only
    constructor
    · intro h; cases h
    · rintro (h | ⟨x, h⟩) <;> cases h

private theorem writeCoverage_done {texts : Str × Str} {fs : FS} (h0 : fs.get [] = some .dir)
    (h1 : fs.get [".coverage".toList] ≠ some .dir) (h2 : fs.get ["coverage.xml".toList] ≠ some .dir) :
    (writeCoverage texts fs).2 = true ∧ (writeCoverage texts fs).1.get [".coverage".toList] = some (.file texts.1) ∧
      (writeCoverage texts fs).1.get ["coverage.xml".toList] = some (.file texts.2) := by
  have o1 : openW [".coverage".toList] texts.1 fs = .ok (fs.write [".coverage".toList] texts.1) := openW_ok h1 h0 _
  have o2 : openW ["coverage.xml".toList] texts.2 (fs.write [".coverage".toList] texts.1) =
      .ok ((fs.write [".coverage".toList] texts.1).write ["coverage.xml".toList] texts.2) := by
    apply openW_ok
    · unfold FS.write
      rw [get_cons, if_neg (by decide)]
      exact h2
    · show FS.get (fs.write [".coverage".toList] texts.1) [] = _
      unfold FS.write
      rw [get_cons, if_neg (by decide)]
      exact h0
  unfold writeCoverage
  rw [o1]
  dsimp only
  rw [o2]
  refine ⟨rfl, ?_, ?_⟩
  · show FS.get (FS.write _ _ _) _ = _
    unfold FS.write
    rw [get_cons, if_neg (by decide), get_cons, if_pos rfl]
  · show FS.get (FS.write _ _ _) _ = _
    unfold FS.write
    rw [get_cons, if_pos rfl]

private theorem writeCoverage_fails {texts : Str × Str} {fs : FS}
    (h : fs.get [".coverage".toList] = some .dir ∨ fs.get ["coverage.xml".toList] = some .dir) :
    (writeCoverage texts fs).2 = false := by
  unfold writeCoverage
  by_cases h1 : fs.get [".coverage".toList] = some .dir
  · have o1 : openW [".coverage".toList] texts.1 fs = .error .isADirectory := by
      unfold openW
      rw [h1]
    rw [o1]
  · have h2 := h.resolve_left h1
    cases o1 : openW [".coverage".toList] texts.1 fs with
    | error _ => rfl
    | ok fs1 =>
      have o2 : openW ["coverage.xml".toList] texts.2 fs1 = .error .isADirectory := by
        unfold openW
        rw [openW_get o1 (by decide), h2]
      dsimp only
      rw [o2]

/-- **C107**: a run with coverage, but without workers, is a run after the old coverage files have been removed; it leaves
`.coverage` and `coverage.xml` besides, whatever the tests do, and ends as the run does. If these cannot be written, the
command ends with an exception. -/
theorem C107_covered (S : Site) (w : World) (args ans : List Str) (dur : Str → fl.D) (uses : List (Str × CVal))
    (cases : Option (List Str)) (hr : Reads S.N (testChoices S.names) args uses cases) (hn : AsksRun uses)
    (hp : ¬ On S.P.u w.settings uses "parallel".toList) (hv : On S.P.u w.settings uses "coverage".toList)
    (hs : ¬ CannotStart fl S w uses cases) (hfiles : ∀ p, OldCoverage p → w.fs.get p ≠ some .dir) :
    ∃ cfg selected fs, ConfigSaid S.P.u w.settings uses cfg ∧ AboutTests S w uses cases (some selected) ∧
      (∀ p, OldCoverage p → fs.get p = none) ∧ (∀ p, ¬ OldCoverage p → fs.get p = w.fs.get p) ∧
      let e := booktest S args ans dur w
      let r := runProject S.P cfg dur S.names selected fs ans w.report
      e.world.report = r.report ∧ e.world.settings = w.settings ∧
      e.ran = ranNames (runEvents S.P cfg dur selected fs ans w.report) ∧
      (∀ p, p ≠ [".coverage".toList] → p ≠ ["coverage.xml".toList] → e.world.fs.get p = r.fs.get p) ∧
      (r.fs.get [] = some .dir → r.fs.get [".coverage".toList] ≠ some .dir →
        r.fs.get ["coverage.xml".toList] ≠ some .dir →
        e.world.fs.get [".coverage".toList] = some (.file S.coverage.1) ∧
        e.world.fs.get ["coverage.xml".toList] = some (.file S.coverage.2) ∧
        e.status.code = some (match r.result with
          | some .OK => 0
          | some _ => 255
          | none => 1)) ∧
      (r.fs.get [".coverage".toList] = some .dir ∨ r.fs.get ["coverage.xml".toList] = some .dir →
        e.status = .raises) := by
  rcases booktest_reads (w := w) hr ans dur with ⟨e, he⟩ | ⟨config, sel, selected, records, cmd, hprep, -, hcmd, e⟩
  · exact absurd he hs
  · have hp' : isOn config "parallel".toList = false := by
      rw [← Bool.not_eq_true, isOn_iff (hprep.said "parallel".toList (by decide))]; exact hp
    have hv' : isOn config "coverage".toList = true := by
      rw [isOn_iff (hprep.said "coverage".toList (by decide))]; exact hv
    have hget : ∀ p, FS.get (w.fs.filter (fun e => !isCoverageFile e.1)) p =
        if isCoverageFile p = false then w.fs.get p else none := by
      intro p
      rw [get_filter (fun q => !isCoverageFile q)]
      cases isCoverageFile p <;> rfl
    refine ⟨configOf config, selected, w.fs.filter (fun e => !isCoverageFile e.1), config_on hprep,
      ⟨sel, _, selection_said hr hprep.said hprep.chosen, stored_said hprep.said, hprep.names⟩, ?_, ?_, ?_⟩
    · intro p h
      rw [hget, (old_coverage_iff p).mpr h, if_neg (by simp)]
    · intro p h
      rw [hget, if_pos]
      rw [← Bool.not_eq_true, old_coverage_iff]
      exact h
    · dsimp only
      rw [e, no_command hn hcmd, dispatch_run]
      have hany : w.fs.any (fun e => isCoverageFile e.1 && w.fs.isDir e.1) = false := by
        rw [← Bool.not_eq_true, List.any_eq_true]
        rintro ⟨x, -, hx⟩
        rw [Bool.and_eq_true] at hx
        refine hfiles x.1 ((old_coverage_iff _).mp hx.1) ?_
        have := hx.2
        unfold FS.isDir at this
        simpa using this
      unfold runCovered runCommand
      rw [hp', hv', hany]
      simp only [if_true, Bool.false_eq_true, if_false]
      have hst : ∀ n, (runHere S config dur selected ans
          { w with fs := w.fs.filter (fun e => !isCoverageFile e.1) }).status ≠ .workers n := by
        intro n
        unfold runHere
        dsimp only
        split <;> simp
      split
      · rename_i n hx
        exact absurd hx (hst n)
      · refine ⟨rfl, rfl, rfl, fun p h1 h2 => writeCoverage_get _ _ h1 h2, fun h0 h1 h2 => ?_, fun h => ?_⟩
        rotate_left
        · have e1 : (writeCoverage S.coverage (runHere S config dur selected ans
              { w with fs := w.fs.filter (fun e => !isCoverageFile e.1) }).world.fs).2 = false := writeCoverage_fails h
          dsimp only
          rw [e1]
          rfl
        obtain ⟨k1, k2, k3⟩ := writeCoverage_done (texts := S.coverage) h0 h1 h2
        refine ⟨k2, k3, ?_⟩
        have e1 : (writeCoverage S.coverage (runHere S config dur selected ans
            { w with fs := w.fs.filter (fun e => !isCoverageFile e.1) }).world.fs).2 = true := k1
        dsimp only
        rw [e1, if_pos rfl]
        show Status.code (match (runProject S.P (configOf config) dur S.names selected
            (w.fs.filter (fun e => !isCoverageFile e.1)) ans w.report).result with
          | some v => .ends (some (exitCode v))
          | none => .raises) = _
        cases (runProject S.P (configOf config) dur S.names selected (w.fs.filter (fun e => !isCoverageFile e.1)) ans
          w.report).result with
        | none => rfl
        | some r => cases r <;> rfl

/-- **C107**: `--view` gives the viewer the snapshots of the selected tests that are there, in this order, with blanks in
between; without any the viewer is not started. -/
theorem C107_view (S : Site) (config : Dict CVal) (dur : Str → fl.D) (cases : List Str) (records : List (Rec fl))
    (ans : List Str) (w : World) (tool : Str) (ht : config.get "md_viewer".toList = some (.str tool)) (shown : List Str)
    (hs : shown = cases.filter (fun n => w.fs.exists_ (filePath S.P.root n ".md".toList))) :
    (dispatch S config dur cases records ans w (some "--view".toList)).status =
      .ends (if shown = [] then some 0 else
        some (runTool (some (S.viewer (tool ++ shown.flatMap (fun n => ' ' :: snapshotName S.P n)))))) := by
  have blanks : ∀ l : List Str, l ≠ [] → " ".toList ++ join " ".toList l = l.flatMap (fun f => ' ' :: f) := by
    intro l
    induction l with
    | nil => intro h; exact absurd rfl h
    | cons a l ih =>
      intro _
      cases l with
      | nil => simp [join]
      | cons b l =>
        have := ih (by simp)
        rw [List.flatMap_cons, ← this]
        simp [join]
  have es : (dispatch S config dur cases records ans w (some "--view".toList)).status =
      .ends (viewValue (!((cases.filter (fun n => w.fs.exists_ (filePath S.P.root n ".md".toList))).map
        (snapshotName S.P)).isEmpty) ((config.get "md_viewer".toList).map (fun tool =>
        S.viewer (tool.show ++ " ".toList ++ join " ".toList ((cases.filter (fun n =>
          w.fs.exists_ (filePath S.P.root n ".md".toList))).map (snapshotName S.P)))))) := rfl
  rw [es, ← hs, ht]
  unfold viewValue
  by_cases h : shown = []
  · rw [if_pos h, h]
    rfl
  · rw [if_neg h, if_pos (by cases shown with | nil => exact absurd rfl h | cons a l => rfl)]
    simp only [Option.map_some]
    rw [List.append_assoc, blanks _ (by simpa using h), List.flatMap_map]
    rfl

private theorem not_garbage {root : Str} (hr : root ≠ []) {names : List Str} (hn : ∀ n ∈ names, Normal n)
    {f : List Str} (hf : OnDisk f) (ho : OfTest names f) : isGarbage (liveNames root names) (walkPath root f) = false := by
  have := (C60_clean_partial root hr names hn [f] (by simpa using hf) f).mpr ⟨by simp, ho⟩
  rw [← Bool.not_eq_true]
  intro hg
  unfold cleanFiles garbage at this
  simp [hg] at this

private theorem command_keeps (S : Site) (hroot : S.P.root ≠ []) (hparts : ∀ c ∈ S.P.root, c ≠ [])
    (hnames : ∀ n ∈ S.names, Normal n) (w : World) (args ans : List Str) (dur : Str → fl.D)
    (h : ∀ uses cases, Reads S.N (testChoices S.names) args uses cases → Unasked S.P.u w.settings uses)
    {f : List Str} (hf : OnDisk f) (ht : OfTest S.names f) (hi : f ≠ ["index.md".toList])
    (ho : f.head? ≠ some ".out".toList) :
    Keeps (S.P.root ++ f) w.fs (booktest S args ans dur w).world.fs := by
  have hrefl := keeps_refl (S.P.root ++ f) w.fs
  by_cases hr : ∃ uses cases, Reads S.N (testChoices S.names) args uses cases
  · obtain ⟨uses, cases, hr⟩ := hr
    obtain ⟨hu, ha, hn1, hn2, hn3⟩ := h uses cases hr
    rcases booktest_reads (w := w) hr ans dur with ⟨e, he⟩ | ⟨config, sel, selected, records, cmd, hprep, -, hcmd, e⟩
    · rw [e]; exact hrefl
    · have hsaid := config_on hprep
      have hask : NotAsking (configOf config) :=
        ⟨by rw [← Bool.not_eq_true, hsaid.alwaysInteractive]; exact hn2,
         by rw [← Bool.not_eq_true, hsaid.interactive]; exact hn1⟩
      have hu' : (configOf config).update = false := by
        rw [← Bool.not_eq_true, hsaid.update]; exact hu
      have ha' : (configOf config).accept = false := by
        rw [← Bool.not_eq_true, hsaid.accept]; exact ha
      rw [e]
      unfold dispatch
      dsimp only
      by_cases hcm : cmd = some "--setup".toList
      · rw [if_pos hcm]
        cases setupBooktest config ans <;> exact hrefl
      rw [if_neg hcm]
      clear hcm
      by_cases hcm : cmd = some "--config".toList
      · rw [if_pos hcm]
        exact hrefl
      rw [if_neg hcm]
      clear hcm
      by_cases hcm : cmd = some "--garbage".toList
      · rw [if_pos hcm]
        exact hrefl
      rw [if_neg hcm]
      clear hcm
      by_cases hcm : cmd = some "--print".toList
      · rw [if_pos hcm]
        exact hrefl
      rw [if_neg hcm]
      clear hcm
      by_cases hcm : cmd = some "--path".toList
      · rw [if_pos hcm]
        exact hrefl
      rw [if_neg hcm]
      clear hcm
      by_cases hcm : cmd = some "--view".toList
      · rw [if_pos hcm]
        exact hrefl
      rw [if_neg hcm]
      clear hcm
      by_cases hcm : cmd = some "--clean".toList
      · rw [if_pos hcm]
        left
        show FS.get (w.fs.filter (fun e => !isGarbageFile S.P S.names w.fs e.1)) _ = _
        rw [get_filter (fun q => !isGarbageFile S.P S.names w.fs q), if_pos]
        unfold isGarbageFile
        rw [List.drop_left, not_garbage (root := rootName S.P) (root_named hroot hparts) hnames hf ht, Bool.and_false]
        rfl
      rw [if_neg hcm]
      clear hcm
      by_cases hcm : cmd = some "-l".toList
      · rw [if_pos hcm]
        exact hrefl
      rw [if_neg hcm]
      clear hcm
      by_cases hcm : cmd = some "--review".toList
      · rw [if_pos hcm]
        by_cases hm : w.metrics = true
        · rw [if_pos hm]
          have hfs := review_fs hask hu' ha' S.P.root S.P.out none (some selected) records ans w.fs
          generalize review fl (configOf config) S.P.root S.P.out none (some selected) records ans w.fs = x at hfs ⊢
          obtain ⟨fs, _ | ⟨rs, rv⟩, log⟩ := x
          · have hfs : fs = w.fs := hfs
            subst hfs; exact hrefl
          · have hfs : fs = w.fs := hfs
            subst hfs; exact hrefl
        · rw [if_neg hm]; exact hrefl
      rw [if_neg hcm]
      clear hcm
      by_cases hcm : cmd = some "--forget".toList
      · rw [if_pos hcm]
        by_cases hm : w.fs.isDir S.P.out = true
        · rw [if_pos hm]; exact hrefl
        · rw [if_neg hm]; exact hrefl
      rw [if_neg hcm]
      clear hcm
      refine runCovered_keeps hask hu' ha' dur selected ans w ?_ ?_ ?_
      · unfold Project.out
        rw [List.prefix_append_right_inj]
        rintro ⟨t, rfl⟩
        exact ho rfl
      · intro hx
        exact hi (List.append_cancel_left hx)
      · have h1 := List.length_pos_iff.mpr hroot
        have h2 := List.length_pos_iff.mpr hf.1
        rw [List.length_append]
        omega
  · rcases booktest_rejected (w := w) (fun uses cases hx => hr ⟨uses, cases, hx⟩) ans dur with e | e
    · rw [e]; exact hrefl
    · rw [e]; exact hrefl

/-- **C107**: whatever commands are given one after the other – runs, listings, `--clean`, `--forget`, `--review`,
`--setup`, command lines with errors – the snapshots of the tests stay as they are, with their files, if none of the
commands has one of `-u`, `-a`, `-i` and `-I` switched on. Missing: commands that run tests with workers (C103, C104). -/
theorem C107_unasked_partial (S : Site) (hroot : S.P.root ≠ []) (hparts : ∀ c ∈ S.P.root, c ≠ [])
    (hnames : ∀ n ∈ S.names, Normal n) (w : World) (cs : List (Command fl))
    (h : ∀ before c after, cs = before ++ c :: after → ∀ uses cases,
      Reads S.N (testChoices S.names) c.args uses cases → Unasked S.P.u (session S w before).settings uses)
    (f : List Str) (hf : OnDisk f) (ht : OfTest S.names f) (hi : f ≠ ["index.md".toList])
    (ho : f.head? ≠ some ".out".toList) (text : Str) (hfile : w.fs.get (S.P.root ++ f) = some (.file text)) :
    (session S w cs).fs.get (S.P.root ++ f) = some (.file text) := by
  have key : ∀ (cs before : List (Command fl)), (∀ b c after, before ++ cs = b ++ c :: after → ∀ uses cases,
      Reads S.N (testChoices S.names) c.args uses cases → Unasked S.P.u (session S w b).settings uses) →
      Keeps (S.P.root ++ f) (session S w before).fs (session S w (before ++ cs)).fs := by
    intro cs
    induction cs with
    | nil => intro before _; rw [List.append_nil]; exact keeps_refl _ _
    | cons c cs ih =>
      intro before hb
      have h1 : Keeps (S.P.root ++ f) (session S w before).fs (session S w (before ++ [c])).fs := by
        have : session S w (before ++ [c]) = (booktest S c.args c.answers c.dur (session S w before)).world := by
          unfold session
          rw [List.foldl_append]
          rfl
        rw [this]
        exact command_keeps S hroot hparts hnames _ _ _ _ (hb before c cs rfl) hf ht hi ho
      have h2 := ih (before ++ [c]) (by rw [List.append_assoc]; exact hb)
      rw [List.append_assoc] at h2
      exact keeps_trans h1 h2
  rcases key cs [] h with hk | ⟨hk, -⟩
  · exact hk.trans hfile
  · have : w.fs.get (S.P.root ++ f) = none := hk
    rw [hfile] at this
    cases this

private theorem sound_sub {root : Path} {ns ms : List Str} {fs : FS} (h : SoundTree root ns fs)
    (hs : ∀ m ∈ ms, m ∈ ns) : SoundTree root ms fs :=
  ⟨h.wf, h.cwd, fun n hn => h.ways n (hs n hn), fun n hn => h.files n (hs n hn), fun n hn => h.dirs n (hs n hn),
    h.index, h.base⟩

theorem select_free {s : Suite} (hd : ∀ c ∈ s.cases, (s.info c.2.fn).deps = none) (sel : List Str)
    (stored stored' : Option (Str → Bool)) {fuel : Nat} (hf : 0 < fuel) :
    ∃ run, selectedNames s sel stored fuel = some run ∧ selectedNames s sel stored' fuel = some run ∧ run.Nodup ∧
      ∀ n ∈ run, n ∈ s.cases.map (·.1) := by
  have hall : ∀ st, ∀ c ∈ s.cases, allDependencies s sel st fuel c.2 = some [] := by
    intro st c hc
    cases fuel with
    | zero => omega
    | succ k =>
      unfold allDependencies methodDependencies
      rw [hd c hc]
      rfl
  have hloop : ∀ st (cs : List (Str × Meth)) (acc : List Str), (∀ c ∈ cs, c ∈ s.cases) → acc.Nodup →
      (∀ n ∈ acc, n ∈ s.cases.map (·.1)) → ∃ run, selectLoop s sel st fuel cs acc = some run ∧ run.Nodup ∧
        (∀ n ∈ run, n ∈ s.cases.map (·.1)) ∧
        run = cs.foldl (fun acc c => if isSelected c.1 sel then addNew acc c.1 else acc) acc := by
    intro st cs
    induction cs with
    | nil => intro acc _ h1 h2; exact ⟨acc, rfl, h1, h2, rfl⟩
    | cons c cs ih =>
      intro acc hsub h1 h2
      unfold selectLoop
      by_cases hs : isSelected c.1 sel = true
      · rw [if_pos hs, hall st c (hsub c (by simp))]
        dsimp only
        obtain ⟨run, e1, e2, e3, e4⟩ := ih (addNew acc c.1) (fun c' h => hsub c' (by simp [h]))
          (by
            unfold addNew
            split
            · exact h1
            · rename_i hn
              rw [List.nodup_append]
              refine ⟨h1, by simp, ?_⟩
              intro a ha b hb
              rw [List.mem_singleton.mp hb]
              rintro rfl
              exact hn ha)
          (by
            intro n hn
            unfold addNew at hn
            split at hn
            · exact h2 n hn
            · rcases List.mem_append.mp hn with hn | hn
              · exact h2 n hn
              · rw [List.mem_singleton.mp hn]
                exact List.mem_map_of_mem (hsub c (by simp)))
        refine ⟨run, e1, e2, e3, ?_⟩
        rw [List.foldl_cons, if_pos hs]
        exact e4
      · rw [if_neg hs]
        obtain ⟨run, e1, e2, e3, e4⟩ := ih acc (fun c' h => hsub c' (by simp [h])) h1 h2
        refine ⟨run, e1, e2, e3, ?_⟩
        rw [List.foldl_cons, if_neg hs]
        exact e4
  obtain ⟨run, e1, e2, e3, e4⟩ := hloop stored s.cases [] (fun _ h => h) List.nodup_nil (by simp)
  obtain ⟨run', e1', -, -, e4'⟩ := hloop stored' s.cases [] (fun _ h => h) List.nodup_nil (by simp)
  refine ⟨run, e1, ?_, e2, e3⟩
  rw [e4, ← e4']
  exact e1'

/-- A run of tests that do not depend on each other. -/
private theorem run_free (S : Site) (w : World) (args ans : List Str) (dur : Str → fl.D) (uses : List (Str × CVal))
    (cases : Option (List Str)) (hr : Reads S.N (testChoices S.names) args uses cases) (hn : AsksRun uses)
    (hq : ∀ key ∈ ["interactive".toList, "always_interactive".toList, "continue".toList, "parallel".toList,
      "coverage".toList], ¬ On S.P.u w.settings uses key)
    (hset : ReadableSettings S.P.u w.settings) (hdef : cases = none → ReadableDefaults S.P.u w.settings)
    {old : List (Rec fl)} (hrep : ofFile S.P.u fl w.report = some old)
    (hd : ∀ c ∈ S.suite.cases, (S.suite.info c.2.fn).deps = none) (hf : 0 < S.fuel) :
    ∃ config selection selected, ConfigSaid S.P.u w.settings uses (configOf config) ∧
      Selection S.P.u w.settings cases selection ∧
      (∀ st, selectedNames S.suite selection st S.fuel = some selected) ∧ selected.Nodup ∧
      (∀ n ∈ selected, n ∈ S.names) ∧
      booktest S args ans dur w = runHere S config dur selected ans w := by
  obtain ⟨values, hp, hu⟩ := C106_complete S.N S.names args uses cases hr
  cases hc : execConfig S.P.u none w.settings [] (argsOf values) with
  | none =>
    obtain ⟨line, hl, h1, h2⟩ := (C58_error S.P.u w.settings [] (argsOf values)).mp hc
    exact absurd (hset line hl h1) h2
  | some config =>
    have said : ∀ key, key ≠ "command".toList → Setting S.P.u w.settings uses key (config.get key) :=
      fun key hk => config_said hr hp hc hk
    have hsel : ∃ selection, selectionOf config cases = some selection := by
      cases cases with
      | some names => exact ⟨_, rfl⟩
      | none =>
        have hch := setting_default hr (said "default_tests".toList (by decide))
        unfold selectionOf
        cases hg : config.get "default_tests".toList with
        | none => exact ⟨_, rfl⟩
        | some v =>
          rw [hg] at hch
          obtain ⟨s, rfl⟩ := hdef rfl v hch
          exact ⟨_, rfl⟩
    obtain ⟨selection, hsel⟩ := hsel
    obtain ⟨selected, e1, -, e3, e4⟩ := select_free hd selection (storedIn S.P config w.fs) none hf
    have hprep : Prepared S w uses cases config selection selected old := ⟨said, hsel, e1, hrep, execConfig_nodup hc⟩
    have off : ∀ key ∈ ["interactive".toList, "always_interactive".toList, "continue".toList, "parallel".toList,
        "coverage".toList], key ≠ "command".toList → isOn config key = false := by
      intro key hk hne
      rw [← Bool.not_eq_true, isOn_iff (said key hne)]
      exact hq key hk
    refine ⟨config, selection, selected, config_on hprep, selection_said hr said hsel, ?_, e3, e4, ?_⟩
    · intro st
      obtain ⟨run, f1, f2, -⟩ := select_free hd selection (storedIn S.P config w.fs) st hf
      rw [e1] at f1
      cases f1
      exact f2
    · unfold booktest
      rw [hp]
      dsimp only
      unfold execParsed
      rw [hc]
      dsimp only
      rw [hsel]
      dsimp only
      rw [e1]
      dsimp only
      rw [hrep]
      dsimp only
      rw [no_command hn hu.command, dispatch_run]
      unfold runCovered runCommand
      rw [off "coverage".toList (by simp) (by decide), off "parallel".toList (by simp) (by decide)]
      rfl

/-- **C107**: `booktest -a TESTS` and then `booktest TESTS`, both with any other options that are allowed below: both
commands exit with status 0, and the second one changes no snapshot (without `-u`). Missing: what is missing in C81,
`-c`, workers and coverage. -/
theorem C107_accept_rerun_partial (S : Site) (w : World) (c c' : Command fl) (uses uses' : List (Str × CVal))
    (cases : Option (List Str)) (hr : Reads S.N (testChoices S.names) c.args uses cases)
    (hr' : Reads S.N (testChoices S.names) c'.args uses' cases) (hn : AsksRun uses) (hn' : AsksRun uses')
    (ha : On S.P.u w.settings uses "accept".toList)
    (hq : ∀ key ∈ ["interactive".toList, "always_interactive".toList, "continue".toList, "parallel".toList,
      "coverage".toList], ¬ On S.P.u w.settings uses key ∧ ¬ On S.P.u w.settings uses' key)
    (hset : ReadableSettings S.P.u w.settings) (hdef : cases = none → ReadableDefaults S.P.u w.settings)
    (hrep : (ofFile S.P.u fl w.report).isSome)
    (hd : ∀ c ∈ S.suite.cases, (S.suite.info c.2.fn).deps = none) (hf : 0 < S.fuel)
    (hp : PlainNames S.names) (hcl : ∀ n ∈ S.names, CleanName n) (ht : SoundTree S.P.root S.names w.fs)
    (hrt : ∀ n ∈ S.names, RepeatableTest S.P.u (S.P.tests n).body) :
    let e := booktest S c.args c.answers c.dur w
    let e' := booktest S c'.args c'.answers c'.dur e.world
    e.status.code = some 0 ∧ e'.status.code = some 0 ∧
    ∃ selection selected, Selection S.P.u w.settings cases selection ∧
      selectedNames S.suite selection none S.fuel = some selected ∧
      (¬ On S.P.u w.settings uses' "update".toList → ∀ n ∈ selected,
        snapshot S.P.root e'.world.fs n = snapshot S.P.root e.world.fs n) := by
  intro e e'
  obtain ⟨old, hold⟩ := Option.isSome_iff_exists.mp hrep
  obtain ⟨config, selection, selected, s1, s2, s3, s4, s5, s6⟩ := run_free S w c.args c.answers c.dur uses cases hr hn
    (fun key hk => (hq key hk).1) hset hdef hold hd hf
  have ee : e = runHere S config c.dur selected c.answers w := s6
  have hpl : PlainNames selected :=
    ⟨fun n hn => hp.1 n (s5 n hn), fun a ha b hb => hp.2 a (s5 a ha) b (s5 b hb)⟩
  have off : ∀ {u : Unicode} {w : ConfigWorld} {us : List (Str × CVal)} {key : Str} {b : Bool},
      (b = true ↔ On u w us key) → ¬ On u w us key → b = false := by
    intro u w us key b h1 h2
    rw [← Bool.not_eq_true, h1]
    exact h2
  have hcl' : ∀ n ∈ selected, CleanName n := fun n hn => hcl n (s5 n hn)
  have hsound := sound_sub ht s5
  have hrt' : ∀ n ∈ selected, RepeatableTest S.P.u (S.P.tests n).body := fun n hn => hrt n (s5 n hn)
  have acfg := s1.accept.mpr ha
  have kcfg := off s1.cont (hq _ (by simp)).1
  have ncfg : NotAsking (configOf config) := ⟨off s1.alwaysInteractive (hq _ (by simp)).1,
    off s1.interactive (hq _ (by simp)).1⟩
  have hset' : e.world.settings = w.settings := by rw [ee]; rfl
  have hrep' : ∃ old', ofFile S.P.u fl e.world.report = some old' := by
    rw [ee]
    exact (project_report ncfg kcfg hpl s4 hsound c.answers c.dur S.names hold hcl' acfg hrt')
  obtain ⟨old', hold'⟩ := hrep'
  obtain ⟨config', selection', selected', t1, t2, t3, t4, t5, t6⟩ := run_free S e.world c'.args c'.answers c'.dur uses'
    cases hr' hn' (fun key hk => by rw [hset']; exact (hq key hk).2) (by rw [hset']; exact hset)
    (fun h => by rw [hset']; exact hdef h) hold' hd hf
  rw [hset'] at t1 t2
  have esel : selection' = selection := selection_unique t2 s2
  subst esel
  have esd : selected' = selected := by
    have := t3 none
    rw [s3 none] at this
    cases this
    rfl
  subst esd
  have ncfg' : NotAsking (configOf config') := ⟨off t1.alwaysInteractive (hq _ (by simp)).2,
    off t1.interactive (hq _ (by simp)).2⟩
  obtain ⟨k1, k2, k3⟩ := C81_accept_rerun_partial S.P (configOf config) (configOf config') ncfg ncfg' acfg kcfg
    (off t1.cont (hq _ (by simp)).2) selected' S.names hpl s4 hcl' w.fs hsound c.dur c'.dur w.report old hold hrt'
    c.answers c'.answers
  have ee' : e' = runHere S config' c'.dur selected' c'.answers (runHere S config c.dur selected' c.answers w).world := by
    rw [← ee]; exact t6
  refine ⟨?_, ?_, selection', selected', s2, s3 none, ?_⟩
  · rw [ee]
    unfold runHere
    dsimp only
    rw [k1]
    rfl
  · rw [ee']
    unfold runHere
    dsimp only
    rw [k2]
    rfl
  · intro hup n hn
    rw [ee', ee]
    exact k3 (off t1.update hup) n hn

/-! ### Cases that meet the hypotheses -/

private def hello (x : String) : TestFn := ⟨⟨[.header "# t".toList, .tln x.toList], none⟩, [], [], none⟩

/-- A new project with two tests. -/
private def site : Site where
  N := ⟨fun _ => none, fun _ => false⟩
  P := ⟨ascii, false, some, ["books".toList], fun n => if n = "test/a".toList then hello "a" else hello "b"⟩
  suite := { cases := [("test/a".toList, ⟨none, 0⟩), ("test/b".toList, ⟨none, 1⟩)]
             info := fun _ => {}
             isInstance := fun _ _ => false }
  fuel := 10
  cpuCount := 4
  viewer := fun _ => 0
  coverage := ([], [])

private def fresh : World := ⟨⟨fun _ => none, [], []⟩, [([], .dir)], none, false⟩

private theorem silent (key : Str) (v : CVal) :
    ¬ Chosen ascii fresh.settings "~/.booktest".toList [] {} key (some v) := by
  intro h
  have h' := C58_priority_partial ascii fresh.settings [] (by simp [Dict.keys]) {} [] rfl key
  have := C58_unique ascii fresh.settings _ [] (by simp [Dict.keys]) {} key _ _ h h'
  cases this

private theorem reads_accept : Reads site.N (testChoices site.names) ["-a".toList]
    [("accept".toList, .bool true)] none :=
  .options _ _ (.cons ["-a".toList] [] [("accept".toList, .bool true)] []
    (.alone "-a".toList "-a".toList _ _ ⟨by decide, List.prefix_rfl, .inl rfl⟩ (.switch _ _ _ (by decide))) .nil)

private theorem reads_nothing : Reads site.N (testChoices site.names) [] [] none := .options _ _ .nil

private theorem final_accept {key : Str} {v : CVal} (h : Finally [("accept".toList, .bool true)] key v) :
    key = "accept".toList ∧ v = .bool true := by
  obtain ⟨pre, x, post, h1, h2, -⟩ := h
  subst h2
  have : (key, v) ∈ [("accept".toList, CVal.bool true)] := by rw [h1]; simp
  rw [List.mem_singleton] at this
  cases this
  exact ⟨rfl, rfl⟩

private theorem final_nothing {key : Str} {v : CVal} : ¬ Finally [] key v := by
  rintro ⟨pre, x, post, h1, -⟩
  simp at h1

private theorem off_accept {key : Str} (hk : key ≠ "accept".toList) :
    ¬ On ascii fresh.settings [("accept".toList, .bool true)] key := by
  rintro ⟨v, h, -⟩
  cases h with
  | said _ h1 => exact hk (final_accept h1).1
  | unsaid _ _ h2 => exact silent key v h2

private theorem off_nothing (key : Str) : ¬ On ascii fresh.settings [] key := by
  rintro ⟨v, h, -⟩
  cases h with
  | said _ h1 => exact final_nothing h1
  | unsaid _ _ h2 => exact silent key v h2

/-- `booktest -a` and `booktest` in a new project meet the hypotheses of the theorem above. -/
example : (booktest (fl := strokes) site ["-a".toList] [] (fun _ => (0 : Nat)) fresh).status.code = some 0 ∧
    (booktest (fl := strokes) site [] [] (fun _ => (1 : Nat))
      (booktest (fl := strokes) site ["-a".toList] [] (fun _ => (0 : Nat)) fresh).world).status.code = some 0 := by
  have h := C107_accept_rerun_partial (fl := strokes) site fresh ⟨["-a".toList], [], fun _ => (0 : Nat)⟩
    ⟨[], [], fun _ => (1 : Nat)⟩ _ _ none reads_accept reads_nothing (fun c hc => by
      have := (final_accept hc).1
      revert this
      decide) (fun c hc => final_nothing hc)
    ⟨.bool true, .said _ ⟨[], _, [], rfl, rfl, by simp⟩ ⟨by decide, by decide, by decide⟩, ⟨by decide, by decide, by decide⟩⟩
    (fun key hk => ⟨off_accept (by
      rintro rfl
      revert hk
      decide), off_nothing key⟩)
    (fun line hl hcount => by
      have : line ∈ ([] : List Str) := hl
      cases this)
    (fun _ v hv => absurd hv (silent _ v)) rfl
    (fun _ _ => rfl) (by decide)
    (by
      refine ⟨?_, by unfold NotNested; decide⟩
      intro n hn
      change n ∈ ["test/a".toList, "test/b".toList] at hn
      simp only [List.mem_cons, List.not_mem_nil, or_false] at hn
      rcases hn with rfl | rfl
      · exact ⟨by decide, by decide, by decide⟩
      · exact ⟨by decide, by decide, by decide⟩)
    (by unfold CleanName; decide)
    (by
      have g : ∀ p, FS.get [([], .dir)] p = if p = [] then some .dir else none := by
        intro p; rw [get_cons]; rfl
      refine ⟨?_, rfl, ?_, ?_, ?_, ?_, ?_⟩
      · intro p c h; change (FS.get [([], .dir)] _).isSome = true at h; rw [g, if_neg (by simp)] at h; cases h
      · intro n _ o q _ t; change FS.get [([], .dir)] _ ≠ _; rw [g]; split <;> simp
      · intro n _ o x hx _; change FS.get [([], .dir)] _ ≠ _
        rw [g, if_neg (slot_ne_nil _ o n (Or.inr hx))]; simp
      · intro n _ o x hx t; change FS.get [([], .dir)] _ ≠ _; rw [g]; split <;> simp
      · decide
      · intro q _ t; change FS.get [([], .dir)] _ ≠ _; rw [g]; split <;> simp)
    (by
      intro n hn
      change n ∈ ["test/a".toList, "test/b".toList] at hn
      simp only [List.mem_cons, List.not_mem_nil, or_false] at hn
      rcases hn with rfl | rfl
      · exact ⟨rfl, ⟨Or.inr rfl, trivial, trivial⟩, ⟨_, rfl, by decide⟩, by decide⟩
      · exact ⟨rfl, ⟨Or.inr rfl, trivial, trivial⟩, ⟨_, rfl, by decide⟩, by decide⟩)
  exact ⟨h.1, h.2.1⟩

/-- The commands of such a project at work: a run finds differences, `-l` lists both tests, a name that is no
choice is an error, and `--forget` makes `-c` list a test again that was accepted. -/
example :
    let run := fun (w : World) (args : List String) =>
      booktest (fl := strokes) site (args.map (·.toList)) [] (fun _ => (0 : Nat)) w
    (run fresh []).status.code = some 255 ∧ (run fresh []).ran = ["test/a".toList, "test/b".toList] ∧
    (run fresh ["-l"]).printed = ["  test/a".toList, "  test/b".toList] ∧
    (run fresh ["-l", "skip:test/a"]).printed = ["  test/b".toList] ∧
    (run fresh ["nonsense"]).status = .usage ∧ (run fresh ["--review"]).status = .raises ∧
    (run fresh ["-p4"]).status = .workers (some 4) ∧
    (run (run fresh ["-a"]).world ["-c", "-l"]).printed = [] ∧
    (run (run (run fresh ["-a"]).world ["--forget", "test/b"]).world ["-c", "-l"]).printed = ["  test/b".toList] ∧
    snapshot site.P.root (run (run fresh ["-a"]).world ["--clean"]).world.fs "test/a".toList =
      some "# t\n\na\n".toList ∧
    (run (run fresh ["-a"]).world ["--clean"]).world.report = none ∧
    (run (run fresh ["-a"]).world ["--garbage"]).printed.contains "books/.out/cases.txt".toList = true ∧
    (run (run fresh ["-a"]).world ["--print", "test/a"]).printed = ["# t\n\na\n".toList] ∧
    (run fresh ["--path"]).printed = ["books/test/a.md".toList, "books/test/b.md".toList] ∧
    (run fresh ["-v", "--config"]).printed = ["verbose=True".toList] ∧
    (run { fresh with report := some [0xff] } ["-l"]).status = .raises := by
  decide +kernel

/-- A project with files that belong to no test. -/
private def littered : World := { fresh with
  fs := [([], .dir), (["books".toList], .dir), (["books".toList, "old.md".toList], .file []),
    (["books".toList, "test".toList], .dir), (["books".toList, "test".toList, "a.md".toList], .file "x".toList)]
  metrics := true }

example : (booktest (fl := strokes) site ["--garbage".toList] [] (fun _ => (0 : Nat)) littered).printed =
    ["books/old.md".toList, "books/.out/metrics.json".toList] := by decide +kernel

/-- A project in which the coverage has been measured before, by a process that was killed. -/
private def measured : World := { fresh with
  fs := [([], .dir), ([".coverage".toList], .file "1".toList), ([".coverage.host.7".toList], .file "2".toList)] }

private theorem reads_cov : Reads site.N (testChoices site.names) ["--cov".toList]
    [("coverage".toList, .bool true)] none :=
  .options _ _ (.cons ["--cov".toList] [] [("coverage".toList, .bool true)] []
    (.alone "--cov".toList "--cov".toList _ _ ⟨by decide, List.prefix_rfl, .inl rfl⟩ (.switch _ _ _ (by decide))) .nil)

private theorem final_cov {key : Str} {v : CVal} (h : Finally [("coverage".toList, .bool true)] key v) :
    key = "coverage".toList := by
  obtain ⟨pre, x, post, h1, h2, -⟩ := h
  subst h2
  have : (key, v) ∈ [("coverage".toList, CVal.bool true)] := by rw [h1]; simp
  rw [List.mem_singleton] at this
  cases this
  rfl

/-- `booktest --cov` in it meets the hypotheses of `C107_covered`. -/
example : ∃ cfg selected fs, ConfigSaid ascii measured.settings [("coverage".toList, .bool true)] cfg ∧
    AboutTests site measured [("coverage".toList, .bool true)] none (some selected) ∧
    fs.get [".coverage.host.7".toList] = none ∧
    (booktest (fl := strokes) site ["--cov".toList] [] (fun _ => (0 : Nat)) measured).world.report =
      (runProject (fl := strokes) site.P cfg (fun _ => (0 : Nat)) site.names selected fs [] none).report := by
  obtain ⟨cfg, selected, fs, h1, h2, h3, -, h4, -⟩ := C107_covered (fl := strokes) site measured ["--cov".toList] []
    (fun _ => (0 : Nat)) _ none reads_cov
    (fun c hc => by
      have := final_cov hc
      revert this
      decide)
    (by
      rintro ⟨v, h, -⟩
      cases h with
      | said _ h1 => exact absurd (final_cov h1) (by decide)
      | unsaid _ _ h2 => exact silent _ v h2)
    ⟨.bool true, .said _ ⟨[], _, [], rfl, rfl, by simp⟩ ⟨by decide, by decide, by decide⟩,
      ⟨by decide, by decide, by decide⟩⟩
    (by
      rcases booktest_reads (w := measured) (fl := strokes) reads_cov [] (fun _ => (0 : Nat)) with
        ⟨e, -⟩ | ⟨_, _, _, _, _, -, h, -, -⟩
      · have h1 : (booktest (fl := strokes) site ["--cov".toList] [] (fun _ => (0 : Nat)) measured).status.code =
          some 255 := by decide +kernel
        rw [e] at h1
        exact absurd h1 (by decide)
      · exact h)
    (by
      intro p hp
      rcases hp with rfl | ⟨x, rfl⟩
      · decide
      · change FS.get [([], .dir), ([".coverage".toList], .file "1".toList), ([".coverage.host.7".toList], .file "2".toList)] _ ≠ _
        rw [get_cons, if_neg (by simp), get_cons]
        split
        · simp
        · rw [get_cons]
          split <;> simp [FS.get])
  exact ⟨cfg, selected, fs, h1, h2, h3 _ (.inr ⟨"host.7".toList, rfl⟩), h4⟩

/-- What it leaves: the old files are gone. -/
example :
    let e := booktest (fl := strokes) site ["--cov".toList] [] (fun _ => (0 : Nat)) measured
    e.status.code = some 255 ∧ e.world.fs.get [".coverage".toList] = some (.file []) ∧
    e.world.fs.get [".coverage.host.7".toList] = none ∧ e.world.fs.get ["coverage.xml".toList] = some (.file []) ∧
    e.ran = ["test/a".toList, "test/b".toList] := by
  decide +kernel

end Verif.Props
