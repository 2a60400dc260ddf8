import Verif.Lemmas.ProjectRun
import Verif.Props.Repeat
import Verif.Props.Run
import Verif.Props.Terminates

/-! # Properties of whole runs (C81–C83) -/

namespace Verif.Props
open Verif.Py Verif.Model Verif.Spec Verif.Lemmas

/-! ### C83: tests do not influence each other -/

/-- A single test, as the run loop sees it, given its snapshot. -/
private def seen {fl : Durations} (P : Project) (cfg : Config) (dur : Str → fl.D) (n : Str)
    (snap : Option Str) : Outcome fl :=
  match (caseSpec P cfg n snap).1 with
  | .done r q => some (r, q, dur n)
  | _ => none

private theorem outcome_eq {fl : Durations} {P : Project} {cfg : Config} (hc : NotAsking cfg)
    {ns : List Str} (hp : PlainNames ns) {fs : FS} (h : SoundTree P.root ns fs) (ans : List Str)
    (dur : Str → fl.D) {before : List Str} (hb : ∀ m ∈ before, m ∈ ns) (hd : before.Nodup) {n : Str}
    (hn : n ∈ ns) (hnb : n ∉ before) :
    projectOutcome P cfg dur (fs, ans) before n = seen P cfg dur n (snapshot P.root fs n) := by
  obtain ⟨f1, e1, h1, r1, s1⟩ := runCases_ok hc hp before hb hd h ans
  obtain ⟨f2, e2, -⟩ := runCase_ok hc hp hn h1 ans
  have hs := s1 n hn
  rw [if_neg hnb] at hs
  unfold projectOutcome seen
  rw [e1, e2, hs]
  cases (caseSpec P cfg n (snapshot P.root fs n)).1 <;> rfl

/-- How a test ends (its result after review) and which snapshot it leaves do not depend on the tests
executed before it, for plain names that are not nested: the result is the one of the test alone.
The same holds for the snapshots that the other tests leave. Missing: interactive runs (there the
answers are consumed in turn), dependencies between tests and tests that touch files in other ways
than `t.file`. -/
theorem C83_isolation_partial {fl : Durations} (P : Project) (cfg : Config) (hc : NotAsking cfg)
    (ns : List Str) (hp : PlainNames ns) (fs : FS) (h : SoundTree P.root ns fs) (ans : List Str)
    (dur : Str → fl.D) (before : List Str) (hb : ∀ m ∈ before, m ∈ ns) (hd : before.Nodup) (n : Str)
    (hn : n ∈ ns) (hnb : n ∉ before) :
    projectOutcome P cfg dur (fs, ans) before n = projectOutcome P cfg dur (fs, ans) [] n ∧
    snapshot P.root (runCases P cfg (before ++ [n]) (fs, ans)).1 n =
      snapshot P.root (runCases P cfg [n] (fs, ans)).1 n ∧
    (∀ m ∈ before, snapshot P.root (runCases P cfg (before ++ [n]) (fs, ans)).1 m =
      snapshot P.root (runCases P cfg [m] (fs, ans)).1 m) := by
  have hd' : (before ++ [n]).Nodup := by
    rw [List.nodup_append]
    refine ⟨hd, by simp, ?_⟩
    intro a ha b hb'
    rw [List.mem_singleton.mp hb']
    rintro rfl
    exact hnb ha
  have hsub : ∀ m ∈ before ++ [n], m ∈ ns := by
    intro m hm
    rcases List.mem_append.mp hm with hm | hm
    · exact hb m hm
    · rw [List.mem_singleton.mp hm]; exact hn
  obtain ⟨f1, e1, -, -, s1⟩ := runCases_ok hc hp (before ++ [n]) hsub hd' h ans
  have alone : ∀ m ∈ ns, snapshot P.root (runCases P cfg [m] (fs, ans)).1 m =
      (caseSpec P cfg m (snapshot P.root fs m)).2 := by
    intro m hm
    obtain ⟨f2, e2, -, -, s2⟩ := runCases_ok hc hp [m] (by simpa using hm) (by simp) h ans
    rw [e2, s2 m hm, if_pos (by simp)]
  refine ⟨?_, ?_, ?_⟩
  · rw [outcome_eq hc hp h ans dur hb hd hn hnb,
      outcome_eq hc hp h ans dur (before := []) (by simp) (by simp) hn (by simp)]
  · rw [alone n hn, e1, s1 n hn, if_pos (by simp)]
  · intro m hm
    rw [alone m (hb m hm), e1, s1 m (hb m hm), if_pos (by simp [hm])]

/-! ### C81: accept everything, run again -/

private theorem runLoop_all_ok (fl : Durations) (cfg : Config)
    (outcome : List Str → Str → Outcome fl) (dur : Str → fl.D) (todo ex : List Str)
    (h : ∀ a n b, todo = a ++ n :: b → outcome (ex ++ a) n = some (.OK, .NONE, dur n)) :
    runLoop fl cfg outcome ex .OK 0 todo =
      (todo.flatMap (fun n => [.exec n (some (.OK, .NONE, dur n)), .write (n, .OK, dur n)]),
        some .OK) := by
  induction todo generalizing ex with
  | nil => rfl
  | cons k ks ih =>
    have h0 := h [] k ks rfl
    rw [List.append_nil] at h0
    unfold runLoop
    rw [h0]
    dsimp only
    have e1 : nextRv .OK .OK = .OK := by decide
    have e2 : nextFails 0 .OK = 0 := by decide
    rw [e1, e2]
    have := ih (ex ++ [k]) (by
      intro a n b hab
      have := h (k :: a) n b (by rw [hab]; rfl)
      simpa using this)
    rw [this]
    have hcond : ¬ (Request.NONE = .ABORT ∨ (cfg.failFast = true ∧ 0 > 0)) := by
      rintro (h | ⟨-, h⟩)
      · cases h
      · exact absurd h (by decide)
    rw [if_neg hcond]
    simp

private theorem ran_all (fl : Durations) (dur : Str → fl.D) (kept : List (Rec fl)) (todo : List Str) :
    ranNames (Ev.truncate :: kept.map .write ++
      todo.flatMap (fun n => [Ev.exec n (some (.OK, .NONE, dur n)), .write (n, .OK, dur n)])) =
      todo := by
  have h1 : ∀ t : List (Ev fl), ranNames (Ev.truncate :: kept.map .write ++ t) = ranNames t := by
    intro t
    change executed _ = executed t
    rw [executed_append]
    have : executed (Ev.truncate :: kept.map (Ev.write (fl := fl))) =
      executed (kept.map (Ev.write (fl := fl))) := rfl
    rw [this, executed_map, List.nil_append]
  rw [h1]
  induction todo with
  | nil => rfl
  | cons k ks ih => 
    rw [List.flatMap_cons]
    exact congrArg (k :: ·) ih

/-- What a run executes in which every test is OK. -/
private theorem passes_run {fl : Durations} {P : Project} {cfg : Config} (hc : NotAsking cfg)
    {ns : List Str} (hp : PlainNames ns) {selected : List Str} (hsub : ∀ n ∈ selected, n ∈ ns) (hd : selected.Nodup)
    {fs : FS} (h : SoundTree P.root ns fs) (ans : List Str) (dur : Str → fl.D)
    {report : Option Bytes} {old : List (Rec fl)} (hrep : ofFile P.u fl report = some old)
    (hok : ∀ n ∈ toRun cfg old selected, (caseSpec P cfg n (snapshot P.root fs n)).1 = .done .OK .NONE) :
    runAsync P.u fl cfg (projectOutcome P cfg dur (mkdirs fs P.out, ans)) selected report =
      (.truncate :: (keptRecords old (toRun cfg old selected)).map .write ++
        (toRun cfg old selected).flatMap (fun n => [.exec n (some (.OK, .NONE, dur n)), .write (n, .OK, dur n)]),
        some .OK) := by
  obtain ⟨h0, s0, -⟩ := mkOut_ok hp h
  have hd' : (toRun cfg old selected).Nodup := hd.filter _
  have hsub' : ∀ n ∈ toRun cfg old selected, n ∈ ns := fun n hn => hsub n (List.mem_filter.mp hn).1
  have hloop := runLoop_all_ok fl cfg (projectOutcome P cfg dur (mkdirs fs P.out, ans)) dur (toRun cfg old selected) [] (by
    intro a n b hab
    have hdn := hd'
    rw [hab, List.nodup_append] at hdn
    have hna : n ∉ a := fun hm => hdn.2.2 n hm n (by simp) rfl
    have hn : n ∈ toRun cfg old selected := by rw [hab]; simp
    rw [List.nil_append, outcome_eq hc hp h0 ans dur (fun m hm => hsub' m (by rw [hab]; simp [hm])) hdn.1 (hsub' n hn) hna,
      s0 n (hsub' n hn)]
    unfold seen
    rw [hok n hn])
  unfold runAsync
  rw [hrep]
  dsimp only
  rw [(doneAndTodo_eq cfg old selected).1, hloop]

/-- The tests that are executed then. -/
theorem passes_ran {fl : Durations} {P : Project} {cfg : Config} (hc : NotAsking cfg)
    {ns : List Str} (hp : PlainNames ns) {selected : List Str} (hsub : ∀ n ∈ selected, n ∈ ns) (hd : selected.Nodup)
    {fs : FS} (h : SoundTree P.root ns fs) (ans : List Str) (dur : Str → fl.D)
    {report : Option Bytes} {old : List (Rec fl)} (hrep : ofFile P.u fl report = some old)
    (hok : ∀ n ∈ toRun cfg old selected, (caseSpec P cfg n (snapshot P.root fs n)).1 = .done .OK .NONE) :
    ranNames (runAsync P.u fl cfg (projectOutcome P cfg dur (mkdirs fs P.out, ans)) selected report).1 =
      toRun cfg old selected := by
  rw [passes_run hc hp hsub hd h ans dur hrep hok]
  exact ran_all fl dur _ _

/-- A run in which every test is OK. -/
theorem project_passes {fl : Durations} {P : Project} {cfg : Config} (hc : NotAsking cfg)
    {ns : List Str} (hp : PlainNames ns) {selected : List Str} (hsub : ∀ n ∈ selected, n ∈ ns) (hd : selected.Nodup)
    {fs : FS} (h : SoundTree P.root ns fs) (ans : List Str) (dur : Str → fl.D) (all : List Str)
    {report : Option Bytes} {old : List (Rec fl)} (hrep : ofFile P.u fl report = some old)
    (hcl : ∀ n ∈ selected, CleanName n)
    (hok : ∀ n ∈ toRun cfg old selected, (caseSpec P cfg n (snapshot P.root fs n)).1 = .done .OK .NONE) :
    (runProject P cfg dur all selected fs ans report).result = some .OK ∧
    SoundTree P.root ns (runProject P cfg dur all selected fs ans report).fs ∧
    (∃ old', ofFile P.u fl (runProject P cfg dur all selected fs ans report).report = some old') ∧
    ∀ n ∈ ns, snapshot P.root (runProject P cfg dur all selected fs ans report).fs n =
      if n ∈ toRun cfg old selected then (caseSpec P cfg n (snapshot P.root fs n)).2 else snapshot P.root fs n := by
  obtain ⟨h0, s0, d0⟩ := mkOut_ok hp h
  have hd' : (toRun cfg old selected).Nodup := hd.filter _
  have hsub' : ∀ n ∈ toRun cfg old selected, n ∈ ns := fun n hn => hsub n (List.mem_filter.mp hn).1
  have hrun := passes_run hc hp hsub hd h ans dur hrep hok
  obtain ⟨f1, e1, h1, r1, s1⟩ := runCases_ok hc hp (toRun cfg old selected) hsub' hd' h0 ans
  obtain ⟨f2, e2, h2, s2⟩ := index_ok hp h1 (r1 (d0 _ (List.prefix_append _ _))) (indexText all)
  have hfinal : runProject P cfg dur all selected fs ans report = ⟨f2, ans, applyEvs report
      (runAsync P.u fl cfg (projectOutcome P cfg dur (mkdirs fs P.out, ans)) selected report).1,
      some .OK⟩ := by
    unfold runProject
    dsimp only
    have hnames : ranNames (runAsync P.u fl cfg (projectOutcome P cfg dur (mkdirs fs P.out, ans))
        selected report).1 = toRun cfg old selected := by rw [hrun]; exact ran_all fl dur _ _
    rw [hnames, e1, hrun]
    dsimp only
    rw [e2]
  rw [hfinal]
  refine ⟨rfl, h2, ?_, ?_⟩
  · obtain ⟨-, c2, -⟩ := C29_each_once P.u fl cfg (projectOutcome P cfg dur (mkdirs fs P.out, ans)) selected
      report old hrep hcl
    obtain ⟨new, -, -, h3⟩ := c2 .OK (by rw [hrun])
    exact ⟨_, h3⟩
  · intro n hn
    dsimp only
    rw [s2 n hn, s1 n hn, s0 n hn]

private theorem project_all_ok {fl : Durations} {P : Project} {cfg : Config} (hc : NotAsking cfg)
    (hcont : cfg.cont = false) {ns : List Str} (hp : PlainNames ns) (hd : ns.Nodup) {fs : FS}
    (h : SoundTree P.root ns fs) (ans : List Str) (dur : Str → fl.D) (all : List Str)
    {report : Option Bytes} {old : List (Rec fl)} (hrep : ofFile P.u fl report = some old)
    (hcl : ∀ n ∈ ns, CleanName n)
    (hok : ∀ n ∈ ns, (caseSpec P cfg n (snapshot P.root fs n)).1 = .done .OK .NONE) :
    (runProject P cfg dur all ns fs ans report).result = some .OK ∧
    SoundTree P.root ns (runProject P cfg dur all ns fs ans report).fs ∧
    (∃ old', ofFile P.u fl (runProject P cfg dur all ns fs ans report).report = some old') ∧
    ∀ n ∈ ns, snapshot P.root (runProject P cfg dur all ns fs ans report).fs n =
      (caseSpec P cfg n (snapshot P.root fs n)).2 := by
  have htodo : toRun cfg old ns = ns := by
    unfold toRun
    simp [hcont]
  obtain ⟨k1, k2, k3, k4⟩ := project_passes hc hp (fun _ h => h) hd h ans dur all hrep hcl (by rw [htodo]; exact hok)
  refine ⟨k1, k2, k3, fun n hn => ?_⟩
  rw [k4 n hn, htodo, if_pos hn]

private theorem repeat_marks (u : Unicode) (os : List Op) (before : Str)
    (h : AllRepeat u os before) : ∀ o ∈ os, marksError o = false := by
  induction os generalizing before with
  | nil => simp
  | cons o os ih =>
    intro o' ho'
    rcases List.mem_cons.mp ho' with rfl | ho'
    · have := h.1
      cases o' <;> first | rfl | (simp_all [Repeats, marksError])
    · exact ih _ h.2 o' ho'

/-- What a repeatable test does when it is run once with `-a` and then once more. -/
theorem case_twice {P : Project} {n : Str} {cfg cfg' : Config} (ha : cfg.accept = true)
    (hr : RepeatableTest P.u (P.tests n).body) {snap : Option Str} {s : St}
    (hs : runTest (P.env snap) (P.tests n).body = some s) :
    (caseSpec P cfg n snap).1 = .done .OK .NONE ∧
    (caseSpec P cfg' n (caseSpec P cfg n snap).2).1 = .done .OK .NONE ∧
    (cfg'.update = false →
      (caseSpec P cfg' n (caseSpec P cfg n snap).2).2 = (caseSpec P cfg n snap).2) := by
  have hex : execAll (P.env snap) (P.tests n).body.ops (start (P.env snap)) = some s := by
    unfold runTest at hs
    rw [hr.raises] at hs
    cases he : execAll (P.env snap) (P.tests n).body.ops (start (P.env snap)) with
    | none => rw [he] at hs; cases hs
    | some s' => rw [he] at hs; simpa using hs
  have hnofail : verdict (P.env snap) s ≠ .FAIL := by
    have h1 := execAll_errMarks (P.env snap) (repeat_marks P.u _ [] hr.calls) hex
    rw [(start_marks (P.env snap)).2] at h1
    have h2 : s.errors = 0 := by
      simp only [errMarks] at h1
      omega
    unfold verdict
    simp only [h2, ne_eq, not_true_eq_false, if_false]
    split <;> simp
  -- after an acceptance
  have again : ∀ cfg' : Config, (caseSpec P cfg' n (some s.out)).1 = .done .OK .NONE ∧
      (caseSpec P cfg' n (some s.out)).2 = some s.out := by
    intro cfg'
    obtain ⟨s', a1, a2, a3⟩ := C08_rerun_partial (P.env snap) (P.env (some s.out))
      (P.tests n).body.ops rfl hr.calls hr.aligned hr.noReturn hex rfl
    have : runTest (P.env (some s.out)) (P.tests n).body = some s' := by
      unfold runTest
      rw [hr.raises, a1]; rfl
    unfold caseSpec
    rw [this]
    dsimp only
    rw [a2]
    split
    · exact ⟨rfl, by rw [a3]⟩
    · exact ⟨rfl, rfl⟩
  by_cases hacc : AutoAccepted cfg (verdict (P.env snap) s)
  · have h1 : caseSpec P cfg n snap = (.done .OK .NONE, some s.out) := by
      unfold caseSpec; rw [hs]; simp only [hacc, if_true]
    rw [h1]
    exact ⟨rfl, (again cfg').1, fun _ => (again cfg').2⟩
  · have hv : verdict (P.env snap) s = .OK := by
      cases hv : verdict (P.env snap) s with
      | OK => rfl
      | FAIL => exact absurd hv hnofail
      | DIFF => exact absurd (Or.inr ⟨hv, ha⟩) hacc
    have h1 : caseSpec P cfg n snap = (.done .OK .NONE, snap) := by
      unfold caseSpec; rw [hs]; dsimp only; rw [if_neg hacc, hv]
    rw [h1]
    refine ⟨rfl, ?_, ?_⟩
    · unfold caseSpec; rw [hs]; dsimp only; rw [hv]; split <;> rfl
    · intro hu
      unfold caseSpec; rw [hs]; dsimp only
      rw [hv, if_neg]
      rintro (⟨-, h⟩ | ⟨h, -⟩)
      · rw [hu] at h; cases h
      · cases h

/-- Run with `-a`, run again: both runs exit with 0, and the second one leaves the snapshots as they
are (unless `-u` is given), for plain names that are not nested and tests that can be repeated. The
project may be in any state: new, with old snapshots, with an old case report. Missing: tests that
cannot be repeated (see the refutations of C08), interactive runs, tests that depend on each other or
that write files in other ways than `t.file`. -/
theorem C81_accept_rerun_partial {fl : Durations} (P : Project) (cfg cfg' : Config)
    (hc : NotAsking cfg) (hc' : NotAsking cfg') (ha : cfg.accept = true) (hk : cfg.cont = false)
    (hk' : cfg'.cont = false) (ns all : List Str) (hp : PlainNames ns) (hd : ns.Nodup)
    (hcl : ∀ n ∈ ns, CleanName n) (fs : FS) (h : SoundTree P.root ns fs) (dur dur' : Str → fl.D)
    (report : Option Bytes) (old : List (Rec fl)) (hrep : ofFile P.u fl report = some old)
    (hr : ∀ n ∈ ns, RepeatableTest P.u (P.tests n).body) (ans ans' : List Str) :
    let r1 := runProject P cfg dur all ns fs ans report
    let r2 := runProject P cfg' dur' all ns r1.fs ans' r1.report
    r1.result = some .OK ∧ r2.result = some .OK ∧
      (cfg'.update = false → ∀ n ∈ ns, snapshot P.root r2.fs n = snapshot P.root r1.fs n) := by
  intro r1 r2
  have hends : ∀ n ∈ ns, ∃ s, runTest (P.env (snapshot P.root fs n)) (P.tests n).body = some s :=
    fun n hn => C100_repeatable (P.env (snapshot P.root fs n)) (hr n hn)
  obtain ⟨a1, a2, ⟨old', a3⟩, a4⟩ := project_all_ok hc hk hp hd h ans dur all hrep hcl (by
    intro n hn
    obtain ⟨s, hs⟩ := hends n hn
    exact (case_twice (cfg' := cfg') ha (hr n hn) hs).1)
  obtain ⟨b1, b2, -, b4⟩ := project_all_ok hc' hk' hp hd a2 ans' dur' all a3 hcl (by
    intro n hn
    obtain ⟨s, hs⟩ := hends n hn
    rw [a4 n hn]
    exact (case_twice (cfg' := cfg') ha (hr n hn) hs).2.1)
  refine ⟨a1, b1, ?_⟩
  intro hu n hn
  obtain ⟨s, hs⟩ := hends n hn
  change snapshot P.root (runProject P cfg' dur' all ns
    (runProject P cfg dur all ns fs ans report).fs ans'
    (runProject P cfg dur all ns fs ans report).report).fs n =
    snapshot P.root (runProject P cfg dur all ns fs ans report).fs n
  rw [b4 n hn, a4 n hn]
  exact (case_twice (cfg' := cfg') ha (hr n hn) hs).2.2 hu

/-- The report of such a run can be read. -/
theorem project_report {fl : Durations} {P : Project} {cfg : Config} (hc : NotAsking cfg) (hk : cfg.cont = false)
    {ns : List Str} (hp : PlainNames ns) (hd : ns.Nodup) {fs : FS} (h : SoundTree P.root ns fs) (ans : List Str)
    (dur : Str → fl.D) (all : List Str) {report : Option Bytes} {old : List (Rec fl)}
    (hrep : ofFile P.u fl report = some old) (hcl : ∀ n ∈ ns, CleanName n) (ha : cfg.accept = true)
    (hr : ∀ n ∈ ns, RepeatableTest P.u (P.tests n).body) :
    ∃ old', ofFile P.u fl (runProject P cfg dur all ns fs ans report).report = some old' := by
  refine (project_all_ok hc hk hp hd h ans dur all hrep hcl ?_).2.2.1
  intro n hn
  obtain ⟨s, hs⟩ := C100_repeatable (P.env (snapshot P.root fs n)) (hr n hn)
  exact (case_twice (cfg' := cfg) ha (hr n hn) hs).1

/-- What an accepted test leaves: its snapshot directory contains exactly the files that it wrote
through `t.file` in this run, each with the text written last, whatever tests are executed before and
after it. -/
theorem C81_resources_partial (P : Project) (cfg : Config) (hc : NotAsking cfg) (ns : List Str)
    (hp : PlainNames ns) (fs : FS) (h : SoundTree P.root ns fs) (ans before after : List Str) (n : Str)
    (hb : ∀ m ∈ before ++ n :: after, m ∈ ns) (hd : (before ++ n :: after).Nodup) (s : St)
    (hs : runTest (P.env (snapshot P.root fs n)) (P.tests n).body = some s)
    (ha : AutoAccepted cfg (verdict (P.env (snapshot P.root fs n)) s)) (f : Str) :
    (runCases P cfg (before ++ n :: after) (fs, ans)).1.get (slot P.root false n [] ++ [f]) =
      ((P.tests n).files.reverse.lookup f).map .file := by
  have hn : n ∈ ns := hb n (by simp)
  rw [List.nodup_append, List.nodup_cons] at hd
  obtain ⟨hd1, ⟨hna, hd2⟩, hdx⟩ := hd
  have hnb : n ∉ before := fun hm => hdx n hm n (by simp) rfl
  obtain ⟨f1, e1, h1, -, s1⟩ := runCases_ok hc hp before (fun m hm => hb m (by simp [hm])) hd1 h ans
  have hs1 := s1 n hn
  rw [if_neg hnb] at hs1
  obtain ⟨f2, e2, h2, -, -, q2⟩ := runCase_ok hc hp hn h1 ans
  rw [hs1] at q2
  have key := q2 s hs ha f
  have later : ∀ (l : List Str) (g : FS), (∀ m ∈ l, m ∈ ns) → n ∉ l → SoundTree P.root ns g →
      (runCases P cfg l (g, ans)).1.get (slot P.root false n [] ++ [f]) =
        g.get (slot P.root false n [] ++ [f]) := by
    intro l
    induction l with
    | nil => intro g _ _ _; rfl
    | cons k ks ih =>
      intro g hl hnl hg
      have hk : k ∈ ns := hl k (by simp)
      obtain ⟨g1, e, hg1, -, fr, -⟩ := runCase_ok hc hp hk hg ans
      have : runCases P cfg (k :: ks) (g, ans) = runCases P cfg ks (g1, ans) := by
        simp only [runCases, List.foldl_cons, e]
      rw [this, ih g1 (fun m hm => hl m (by simp [hm])) (fun hm => hnl (by simp [hm])) hg1, fr]
      · rw [(makeDirs_ok hp hk hg).2, if_neg]
        rintro (hx | hx)
        · exact slot_not_above hp hn hk (Or.inl rfl) hx (List.prefix_append _ _)
        · exact slot_not_above hp hn hk (Or.inl rfl) hx (List.prefix_append _ _)
      · intro o x hx hx'
        apply hnl
        rw [← (slot_sep hp hk hn hx (Or.inl rfl) hx' (List.prefix_append _ _)).1]
        simp
  have hsplit : runCases P cfg (before ++ n :: after) (fs, ans) = runCases P cfg after (f2, ans) := by
    have : runCases P cfg (before ++ n :: after) (fs, ans) =
        runCases P cfg (n :: after) (runCases P cfg before (fs, ans)) := by
      simp [runCases, List.foldl_append]
    rw [this, e1]
    simp only [runCases, List.foldl_cons, e2]
  rw [hsplit, later after f2 (fun m hm => hb m (by simp [hm])) hna h2, key]

/-! ### C82: a plain run changes nothing outside of the output directory -/

private theorem only_refl (d : Path) (fs : FS) : OnlyNewDirs d fs fs := fun _ _ => Or.inl rfl

private theorem only_trans {d : Path} {a b c : FS} (h1 : OnlyNewDirs d a b)
    (h2 : OnlyNewDirs d b c) : OnlyNewDirs d a c := by
  intro p hp
  rcases h1 p hp with e1 | ⟨e1, e1'⟩
  · rcases h2 p hp with e2 | ⟨e2, e2'⟩
    · exact Or.inl (e2.trans e1)
    · exact Or.inr ⟨e1 ▸ e2, e2'⟩
  · rcases h2 p hp with e2 | ⟨e2, -⟩
    · exact Or.inr ⟨e1, e2.trans e1'⟩
    · rw [e1'] at e2; cases e2

private theorem only_of_frame {d : Path} {a b : FS} (h : ∀ p, ¬ d <+: p → b.get p = a.get p) :
    OnlyNewDirs d a b := fun p hp => Or.inl (h p hp)

private theorem only_mkdirs (d : Path) (cs : List Str) (fs : FS) (base : Path) :
    OnlyNewDirs d fs (mkdirsFrom fs base cs) := by
  induction cs generalizing fs base with
  | nil => exact only_refl d fs
  | cons c cs ih =>
    simp only [mkdirsFrom]
    cases hg : fs.get (base ++ [c]) with
    | none =>
      refine only_trans ?_ (ih _ _)
      intro p _
      rw [get_cons]
      by_cases hp : p = base ++ [c]
      · subst hp; right; exact ⟨hg, by simp⟩
      · left; rw [if_neg hp]
    | some m =>
      cases m with
      | file t => exact only_refl d fs
      | dir => exact ih _ _

private theorem only_openW {d p : Path} (hp : d <+: p) {t : Str} {fs fs' : FS}
    (h : openW p t fs = .ok fs') : OnlyNewDirs d fs fs' := by
  unfold openW at h
  have key : ∀ g, fs.write p t = g → OnlyNewDirs d fs g := by
    rintro g rfl
    apply only_of_frame
    intro q hq
    unfold FS.write
    rw [get_cons, if_neg]
    rintro rfl
    exact hq hp
  split at h
  · cases h
  · split at h
    · cases h; exact key _ rfl
    · cases h

private theorem only_mkdir (d p : Path) {fs fs' : FS} (h : mkdir p fs = .ok fs') :
    OnlyNewDirs d fs fs' := by
  unfold mkdir at h
  split at h
  · cases h
  · rename_i he
    split at h
    · cases h
      intro q _
      rw [get_cons]
      by_cases hq : q = p
      · subst hq
        right
        refine ⟨?_, by simp⟩
        cases hg : fs.get q with
        | none => rfl
        | some m => simp [FS.exists_, hg] at he
      · left; rw [if_neg hq]
    · cases h

private theorem only_removeIfThere {d p : Path} (hp : d <+: p) {fs fs' : FS}
    (h : removeIfThere p fs = .ok fs') : OnlyNewDirs d fs fs' := by
  unfold removeIfThere at h
  split at h
  · apply only_of_frame
    intro q hq
    exact rmtree_frame h (fun hc => hq (hp.trans hc))
  · cases h; exact only_refl _ _

private theorem only_remove {d p : Path} (hp : d <+: p) {fs fs' : FS}
    (h : fs.remove p = .ok fs') : OnlyNewDirs d fs fs' := by
  unfold FS.remove at h
  split at h
  · cases h
  · cases h
  · cases h
    apply only_of_frame
    intro q hq
    rw [get_filter (fun k => decide (k ≠ p))]
    have : q ≠ p := by rintro rfl; exact hq hp
    simp [this]

private theorem only_writeOutputs {out : Path} {n md txt log : Str} {fs fs' : FS}
    (h : writeOutputs out n md txt log fs = .ok fs') : OnlyNewDirs out fs fs' := by
  unfold writeOutputs at h
  simp only [bind, Except.bind] at h
  split at h
  · cases h
  · rename_i g1 h1
    split at h
    · cases h
    · rename_i g2 h2
      exact only_trans (only_openW (List.prefix_append _ _) h1)
        (only_trans (only_openW (List.prefix_append _ _) h2)
          (only_openW (List.prefix_append _ _) h))

private theorem only_writeFiles {out : Path} {n : Str} (files : List (Str × Str)) {fs fs' : FS}
    (h : writeFiles out n files fs = .ok fs') : OnlyNewDirs out fs fs' := by
  induction files generalizing fs with
  | nil => cases h; exact only_refl _ _
  | cons f rest ih =>
    simp only [writeFiles] at h
    split at h
    · cases h
    · rename_i g hg
      refine only_trans ?_ (ih h)
      have hpre : out <+: dirPath out n ++ [f.1] := by
        unfold dirPath; rw [List.append_assoc]; exact List.prefix_append _ _
      unfold writeFile at hg
      split at hg
      · exact only_openW hpre hg
      · split at hg
        · cases hg
        · rename_i g' hg'
          exact only_trans (only_mkdir _ _ hg') (only_openW hpre hg)

private theorem only_saveValue {out : Path} {n : Str} {v : Option Str} {fs fs' : FS}
    (h : saveValue out n v fs = .ok fs') : OnlyNewDirs out fs fs' := by
  unfold saveValue at h
  cases v with
  | none =>
    dsimp only at h
    split at h
    · exact only_remove (List.prefix_append _ _) h
    · cases h; exact only_refl _ _
  | some v => exact only_openW (List.prefix_append _ _) h

private theorem only_endCase {P : Project} {cfg : Config} (hc : NotAsking cfg)
    (hu : cfg.update = false) (ha : cfg.accept = false) (n : Str) (v : Result) (ans : List Str)
    (fs : FS) : OnlyNewDirs P.out fs (endCase P cfg n v ans fs).1.1 := by
  unfold endCase
  rw [caseReview_auto hc, if_neg]
  · dsimp only
    split
    · split
      · exact only_refl _ _
      · rename_i g hg; exact only_saveValue hg
    · exact only_refl _ _
  · rintro (⟨-, h⟩ | ⟨-, h⟩)
    · rw [hu] at h; cases h
    · rw [ha] at h; cases h

private theorem only_runCase {P : Project} {cfg : Config} (hc : NotAsking cfg)
    (hu : cfg.update = false) (ha : cfg.accept = false) (n : Str) (st : FS × List Str) :
    OnlyNewDirs P.out st.1 (runCase P cfg n st).1.1 := by
  have h0 : OnlyNewDirs P.out st.1 (makeDirs P n st.1) :=
    only_trans (only_mkdirs _ _ _ _) (only_mkdirs _ _ _ _)
  unfold runCase
  dsimp only
  split
  · exact h0
  · rename_i f1 e1
    have h1 : OnlyNewDirs P.out st.1 f1 := by
      refine only_trans h0 ?_
      unfold purge at e1
      split at e1
      · cases e1
      · rename_i g hg
        exact only_trans (only_removeIfThere (List.prefix_append _ _) hg)
          (only_removeIfThere (List.prefix_append _ _) e1)
    split
    · exact h1
    · rename_i f2 e2
      have h2 := only_trans h1 (only_writeOutputs e2)
      split
      · exact h2
      · split
        · exact h2
        · split
          · exact h2
          · rename_i f3 e3
            have h3 := only_trans h2 (only_writeFiles _ e3)
            split
            · exact h3
            · rename_i f4 e4
              exact only_trans (only_trans h3 (only_writeOutputs e4)) (only_endCase hc hu ha _ _ _ _)

private theorem only_runCases {P : Project} {cfg : Config} (hc : NotAsking cfg)
    (hu : cfg.update = false) (ha : cfg.accept = false) (l : List Str) (st : FS × List Str) :
    OnlyNewDirs P.out st.1 (runCases P cfg l st).1 := by
  induction l generalizing st with
  | nil => exact only_refl _ _
  | cons k ks ih =>
    have : runCases P cfg (k :: ks) st = runCases P cfg ks (runCase P cfg k st).1 := rfl
    rw [this]
    exact only_trans (only_runCase hc hu ha k st) (ih _)

/-- A run without `-a`, `-u`, `-i` and `-I` changes nothing outside of the output directory but the
index, apart from making directories: in particular no snapshot and no resource file of a snapshot.
This holds for any names and any state of the files, and also if the run ends with an exception. -/
theorem C82_plain_run {fl : Durations} (P : Project) (cfg : Config) (hc : NotAsking cfg)
    (hu : cfg.update = false) (ha : cfg.accept = false) (all selected : List Str) (fs : FS)
    (ans : List Str) (dur : Str → fl.D) (report : Option Bytes) (p : Path) (hp : ¬ P.out <+: p)
    (hi : p ≠ P.root ++ ["index.md".toList]) :
    (runProject P cfg dur all selected fs ans report).fs.get p = fs.get p ∨
    (fs.get p = none ∧
      (runProject P cfg dur all selected fs ans report).fs.get p = some .dir) := by
  have h1 : OnlyNewDirs P.out fs (runCases P cfg (ranNames (runAsync P.u fl cfg
      (projectOutcome P cfg dur (mkdirs fs P.out, ans)) selected report).1)
      (mkdirs fs P.out, ans)).1 :=
    only_trans (only_mkdirs _ _ _ _) (only_runCases hc hu ha _ _)
  have h2 := h1 p hp
  unfold runProject
  dsimp only
  split
  · exact h2
  · split
    · exact h2
    · rename_i g hg
      have : g.get p = (runCases P cfg (ranNames (runAsync P.u fl cfg
          (projectOutcome P cfg dur (mkdirs fs P.out, ans)) selected report).1)
          (mkdirs fs P.out, ans)).1.get p := by
        unfold openW at hg
        split at hg
        · cases hg
        · split at hg
          · cases hg
            unfold FS.write
            rw [get_cons, if_neg hi]
          · cases hg
      dsimp only
      rw [this]
      exact h2

/-! ### Cases that meet the hypotheses, and cases in which the claims fail -/

private def greet (x : String) : TestFn :=
  ⟨⟨[.header "# t".toList, .tln x.toList], none⟩, [("f.csv".toList, "1".toList)], [], none⟩

private def demo : Project where
  u := ascii
  pointErrorPos := false
  refmt := some
  root := ["books".toList]
  tests := fun n => if n = "t/a".toList then greet "a" else greet "b"

private theorem empty_sound (ns : List Str) : SoundTree ["books".toList] ns [([], .dir)] := by
  have g : ∀ p, FS.get [([], .dir)] p = if p = [] then some .dir else none := by
    intro p; rw [get_cons]; rfl
  refine ⟨?_, rfl, ?_, ?_, ?_, ?_, ?_⟩
  · intro p c h; rw [g, if_neg (by simp)] at h; cases h
  · intro n _ o q _ t; rw [g]; split <;> simp
  · intro n _ o x hx _; rw [g, if_neg (slot_ne_nil _ o n (Or.inr hx))]; simp
  · intro n _ o x hx t; rw [g]; split <;> simp
  · decide
  · intro q _ t; rw [g]; split <;> simp

private theorem demo_plain : PlainNames ["t/a".toList, "t/b".toList] := by
  refine ⟨?_, ?_⟩
  · intro n hn
    simp only [List.mem_cons, List.not_mem_nil, or_false] at hn
    rcases hn with rfl | rfl
    · exact ⟨by decide, by decide, by decide⟩
    · exact ⟨by decide, by decide, by decide⟩
  · unfold NotNested; decide

/-- A new project with two tests meets the hypotheses of the theorems above. -/
example : PlainNames ["t/a".toList, "t/b".toList] ∧
    SoundTree demo.root ["t/a".toList, "t/b".toList] [([], .dir)] ∧
    (∀ n ∈ ["t/a".toList, "t/b".toList], CleanName n) ∧
    (∀ n ∈ ["t/a".toList, "t/b".toList], RepeatableTest demo.u (demo.tests n).body) := by
  refine ⟨demo_plain, empty_sound _, by unfold CleanName; decide, ?_⟩
  · intro n hn
    simp only [List.mem_cons, List.not_mem_nil, or_false] at hn
    rcases hn with rfl | rfl
    · exact ⟨rfl, ⟨Or.inr rfl, trivial, trivial⟩, ⟨_, rfl, by decide⟩, by decide⟩
    · exact ⟨rfl, ⟨Or.inr rfl, trivial, trivial⟩, ⟨_, rfl, by decide⟩, by decide⟩

/-- A plain run of the new project: differences, and no snapshots. -/
example : (runProject (fl := strokes) demo {} (fun _ => (0 : Nat)) [] ["t/a".toList, "t/b".toList]
    [([], .dir)] [] none).result = some .DIFF := by rfl

/-- C81 fails for a test called `index`: the index of the books is written over its accepted
snapshot, and the second run shows a difference. -/
theorem C81_index_refuted : ∃ (P : Project) (fs : FS),
    let r1 := runProject (fl := strokes) P { accept := true } (fun _ => (0 : Nat))
      ["index".toList] ["index".toList] fs [] none
    let r2 := runProject (fl := strokes) P {} (fun _ => (0 : Nat))
      ["index".toList] ["index".toList] r1.fs [] r1.report
    r1.result = some .OK ∧ r2.result = some .DIFF :=
  ⟨demo, [([], .dir)], by set_option maxRecDepth 100000 in decide⟩

/-- C81 and C83 fail for nested names: accepting the test `a` removes the snapshot of the test `a/b`,
which was accepted before; the second run shows a difference. -/
theorem C83_nested_refuted : ∃ (P : Project) (fs : FS),
    let ns := ["a/b".toList, "a".toList]
    let r1 := runProject (fl := strokes) P { accept := true } (fun _ => (0 : Nat)) ns ns fs [] none
    let r2 := runProject (fl := strokes) P {} (fun _ => (0 : Nat)) ns ns r1.fs [] r1.report
    r1.result = some .OK ∧ r2.result = some .DIFF ∧
    snapshot P.root (runCases P { accept := true } ["a/b".toList] (fs, [])).1 "a/b".toList ≠ none ∧
    snapshot P.root (runCases P { accept := true } ns (fs, [])).1 "a/b".toList = none :=
  ⟨demo, [([], .dir)], by set_option maxRecDepth 100000 in decide⟩

end Verif.Props
