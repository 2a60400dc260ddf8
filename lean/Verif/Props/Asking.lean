import Verif.Lemmas.Asking
import Verif.Props.Project

/-! # C133: runs in which the user is asked -/

namespace Verif.Props
open Verif.Py Verif.Model Verif.Spec Verif.Lemmas

variable {fl : Durations} {P : Project} {cfg : Config} {ns selected : List Str} {fs : FS}

theorem async_open (u : Unicode) (cfg : Config) (outcome : List Str → Str → Outcome fl) (selected : List Str)
    (file : Option Bytes) {old : List (Rec fl)} (ho : ofFile u fl file = some old) :
    runAsync u fl cfg outcome selected file = (.truncate :: (keptRecords old (toRun cfg old selected)).map .write ++
      (runLoop fl cfg outcome [] .OK 0 (toRun cfg old selected)).1, (runLoop fl cfg outcome [] .OK 0 (toRun cfg old selected)).2) := by
  unfold runAsync
  rw [ho]
  dsimp only
  rw [(doneAndTodo_eq cfg old selected).1]

/-- **C133**: a run with `-i` or `-I` is the dialogue with the user: its result is the worst result that the dialogue
gives, the snapshots are those that the dialogue leaves, the lines that the user has not been asked for are left, and the
tests that the dialogue names are recorded with their results. -/
theorem C133_dialogue (hp : PlainNames ns) (hS : SoundTree P.root ns fs) (hsub : ∀ n ∈ selected, n ∈ ns)
    (hcl : ∀ n ∈ selected, CleanName n) {report : Option Bytes} {old : List (Rec fl)} (hrep : ofFile P.u fl report = some old)
    (dur : Str → fl.D) (all lines : List Str) {d : Dialogue}
    (hd : dialogue P cfg (toRun cfg old selected) (snapshot P.root fs) lines = some d) :
    let r := runProject P cfg dur all selected fs lines report
    r.result = some (worst (d.ends.map (·.2))) ∧ r.answers = d.rest ∧ SoundTree P.root ns r.fs ∧
    (∀ m ∈ ns, snapshot P.root r.fs m = d.snaps m) ∧
    ∃ new : List (Rec fl), new.map key = d.ends ∧
      ofFile P.u fl r.report = some (old.filter (fun x => !(toRun cfg old selected).contains x.1) ++ new) := by
  obtain ⟨h0, s0, d0⟩ := mkOut_ok hp hS
  have hsub' : ∀ n ∈ toRun cfg old selected, n ∈ ns := fun n hn => hsub n (List.mem_filter.mp hn).1
  obtain ⟨g, evs, k1, k2, k3, k4, k5, k6, k7⟩ := loop_dialogue (cfg := cfg) dur hp (toRun cfg old selected) [] (mkdirs fs P.out) lines
    (snapshot P.root fs) .OK 0 d hsub' rfl h0 s0 (fun _ => rfl) hd
  have hrun : runAsync P.u fl cfg (projectOutcome P cfg dur (mkdirs fs P.out, lines)) selected report =
      (.truncate :: (keptRecords old (toRun cfg old selected)).map .write ++ evs, some (worst (d.ends.map (·.2)))) := by
    rw [async_open P.u cfg _ selected report hrep, k1, fold_worst]
    cases hw : d.ends.map (·.2) with
    | nil => rfl
    | cons x xs => rw [worst_ok]
  have hpre1 : ∀ t : List (Ev fl), executed (Ev.truncate :: (keptRecords old (toRun cfg old selected)).map .write ++ t) = executed t := by
    intro t
    rw [executed_append]
    have : executed (Ev.truncate :: (keptRecords old (toRun cfg old selected)).map (Ev.write (fl := fl))) =
      executed ((keptRecords old (toRun cfg old selected)).map (Ev.write (fl := fl))) := rfl
    rw [this, executed_map, List.nil_append]
  have hpre2 : ∀ t : List (Ev fl), execs (Ev.truncate :: (keptRecords old (toRun cfg old selected)).map .write ++ t) = execs t := by
    intro t
    rw [execs_append]
    have : execs (Ev.truncate :: (keptRecords old (toRun cfg old selected)).map (Ev.write (fl := fl))) =
      execs ((keptRecords old (toRun cfg old selected)).map (Ev.write (fl := fl))) := rfl
    rw [this, execs_map, List.nil_append]
  obtain ⟨f2, e2, h2, s2⟩ := index_ok hp k5 (k7 (d0 _ (List.prefix_append _ _))) (indexText all)
  have hfinal : runProject P cfg dur all selected fs lines report = ⟨f2, d.rest, applyEvs report
      (runAsync P.u fl cfg (projectOutcome P cfg dur (mkdirs fs P.out, lines)) selected report).1,
      some (worst (d.ends.map (·.2)))⟩ := by
    unfold runProject
    dsimp only
    have hnames : ranNames (runAsync P.u fl cfg (projectOutcome P cfg dur (mkdirs fs P.out, lines)) selected report).1 =
        d.ends.map (·.1) := by
      rw [hrun]
      exact (hpre1 evs).trans k2
    rw [hnames, show runCases P cfg (d.ends.map (·.1)) (mkdirs fs P.out, lines) = (g, d.rest) from k4, hrun]
    dsimp only
    rw [e2]
  intro r
  have hr : r = _ := hfinal
  rw [hr]
  refine ⟨rfl, rfl, h2, fun m hm => (s2 m hm).trans (k6 m hm), ?_⟩
  obtain ⟨-, c2, -⟩ := C29_each_once P.u fl cfg (projectOutcome P cfg dur (mkdirs fs P.out, lines)) selected report old hrep hcl
  obtain ⟨new, h3, -, h4⟩ := c2 (worst (d.ends.map (·.2))) (by rw [hrun])
  refine ⟨new, ?_, h4⟩
  rw [h3, hrun]
  exact (hpre2 evs).trans k3

/-- **C133**, no answer: if a test does not end or the lines of the user do not suffice, the run gives no result. -/
theorem C133_no_answer (hp : PlainNames ns) (hS : SoundTree P.root ns fs) (hsub : ∀ n ∈ selected, n ∈ ns)
    {report : Option Bytes} {old : List (Rec fl)} (hrep : ofFile P.u fl report = some old)
    (dur : Str → fl.D) (all lines : List Str)
    (hd : dialogue P cfg (toRun cfg old selected) (snapshot P.root fs) lines = none) :
    (runProject P cfg dur all selected fs lines report).result = none := by
  obtain ⟨h0, s0, -⟩ := mkOut_ok hp hS
  have hsub' : ∀ n ∈ toRun cfg old selected, n ∈ ns := fun n hn => hsub n (List.mem_filter.mp hn).1
  have k := loop_left (cfg := cfg) dur hp (toRun cfg old selected) [] (mkdirs fs P.out) lines
    (snapshot P.root fs) .OK 0 hsub' rfl h0 s0 (fun _ => rfl) hd
  unfold runProject
  dsimp only
  rw [async_open P.u cfg _ selected report hrep]
  dsimp only
  rw [k]

/-- From a state in which the tests pass, they pass in all further runs. -/
theorem passes_on {ns all : List Str} (hp : PlainNames ns) (hcl : ∀ n ∈ ns, CleanName n) (runs : List (Rerun fl)) :
    ∀ (fs : FS) (report : Option Bytes) (old : List (Rec fl)), SoundTree P.root ns fs → ofFile P.u fl report = some old →
    (∀ x ∈ runs, NotAsking x.cfg ∧ x.selected.Nodup ∧ (∀ n ∈ x.selected, n ∈ ns) ∧
      ∀ n ∈ ns, caseSpec P x.cfg n (snapshot P.root fs n) = (.done .OK .NONE, snapshot P.root fs n)) →
    PassOn P ns all runs fs report := by
  induction runs with
  | nil => intros; trivial
  | cons x xs ih =>
    intro fs report old hS hrep hx
    obtain ⟨hq, hnd, hsub, hok⟩ := hx x (by simp)
    obtain ⟨a1, a2, ⟨old', a3⟩, a4⟩ := project_passes hq hp hsub hnd hS x.answers x.dur all hrep
      (fun n hn => hcl n (hsub n hn)) (fun n hn => by rw [hok n (hsub n (List.mem_filter.mp hn).1)])
    have same : ∀ n ∈ ns, snapshot P.root (runProject P x.cfg x.dur all x.selected fs x.answers report).fs n =
        snapshot P.root fs n := by
      intro n hn
      rw [a4 n hn]
      split
      · rw [hok n hn]
      · rfl
    refine ⟨a1, same, ih _ _ old' a2 a3 ?_⟩
    intro y hy
    obtain ⟨k1, k2, k3, k4⟩ := hx y (by simp [hy])
    refine ⟨k1, k2, k3, fun n hn => ?_⟩
    rw [same n hn]
    exact k4 n hn

/-- The test passes with this snapshot. -/
def Fine (P : Project) (n : Str) (t : Option Str) : Prop :=
  ∀ cfg : Config, cfg.update = false → caseSpec P cfg n t = (.done .OK .NONE, t)

theorem fine_case {n : Str} (hr : RepeatableTest P.u (P.tests n).body) {snap t : Option Str} {lines rest : List Str}
    {q : Request} (hc : caseAsked P cfg n snap lines = some ((.OK, q), t, rest)) : Fine P n t := by
  unfold caseAsked at hc
  intro cfg' hu
  cases ht : runTest (P.env snap) (P.tests n).body with
  | none => rw [ht] at hc; cases hc
  | some s =>
    rw [ht] at hc
    dsimp only at hc
    cases hz : (if IsAsked cfg (verdict (P.env snap) s) then reply (verdict (P.env snap) s) lines else some (.NONE, lines)) with
    | none => rw [hz] at hc; cases hc
    | some z =>
      rw [hz] at hc
      dsimp only at hc
      split at hc
      · injection hc with hc
        injection hc with h1 h2
        injection h2 with h2 h3
        obtain ⟨c1, c2, c3⟩ := case_twice (cfg := { accept := true, update := true }) (cfg' := cfg') rfl hr ht
        have e : (caseSpec P { accept := true, update := true } n snap).2 = t := by
          rw [← h2]
          unfold caseSpec at c1 ⊢
          rw [ht] at c1 ⊢
          dsimp only at c1 ⊢
          split
          · rfl
          · rename_i hna
            rw [if_neg hna] at c1
            injection c1 with c1
            exact absurd (Or.inl ⟨c1, rfl⟩) hna
        rw [e] at c2 c3
        exact Prod.ext c2 (c3 hu)
      · injection hc with hc
        injection hc with h1 h2
        injection h1 with h1 h1'
        injection h2 with h2 h3
        subst h2
        unfold caseSpec
        rw [ht]
        dsimp only
        rw [h1, if_neg]
        rintro (h | h)
        · rw [hu] at h; cases h.2
        · cases h.1

private theorem fine_all : ∀ (todo : List Str) (snaps : Str → Option Str) (lines : List Str) (d : Dialogue), todo.Nodup →
    (∀ n ∈ todo, RepeatableTest P.u (P.tests n).body) → dialogue P cfg todo snaps lines = some d → d.whole = true →
    worst (d.ends.map (·.2)) = .OK → (∀ n ∈ todo, Fine P n (d.snaps n)) ∧ ∀ n, n ∉ todo → d.snaps n = snaps n := by
  intro todo
  induction todo with
  | nil =>
    intro snaps lines d _ _ hd _ _
    cases hd
    exact ⟨fun n hn => absurd hn (by simp), fun n _ => rfl⟩
  | cons n todo ih =>
    intro snaps lines d hnd hr hd hw hok
    obtain ⟨hn1, hn2⟩ := List.nodup_cons.mp hnd
    unfold dialogue at hd
    cases hc : caseAsked P cfg n (snaps n) lines with
    | none => rw [hc] at hd; cases hd
    | some z =>
      obtain ⟨⟨r, q⟩, t, rest⟩ := z
      rw [hc] at hd
      dsimp only at hd
      split at hd
      · cases hd; cases hw
      · cases hd' : dialogue P cfg todo (putSnap snaps n t) rest with
        | none => rw [hd'] at hd; cases hd
        | some d' =>
          rw [hd'] at hd
          cases hd
          have hr1 : r = .OK := by
            cases r with
            | OK => rfl
            | DIFF => exfalso; revert hok; simp [worst]; split <;> simp
            | FAIL => exfalso; revert hok; simp [worst]
          have hok' : worst (d'.ends.map (·.2)) = .OK := by
            subst hr1
            have e := worst_ok (d'.ends.map (·.2))
            rw [← e]
            exact hok
          subst hr1
          obtain ⟨k1, k2⟩ := ih _ _ d' hn2 (fun m hm => hr m (by simp [hm])) hd' hw hok'
          refine ⟨?_, ?_⟩
          · intro m hm
            rcases List.mem_cons.mp hm with rfl | hm
            · show Fine P m (d'.snaps m)
              rw [k2 m hn1, putSnap, if_pos rfl]
              exact fine_case (hr m (by simp)) hc
            · exact k1 m hm
          · intro m hm
            rw [List.mem_cons, not_or] at hm
            show d'.snaps m = _
            rw [k2 m hm.2, putSnap, if_neg hm.1]

/-- **C133**, what the user has accepted: if a run with questions about tests that can be repeated has not been stopped
and its result is `OK`, which is to say that every test has been `OK` or has been accepted, then all further runs of these
tests or some of them end with success and change no snapshot. -/
theorem C133_accepted_partial (hp : PlainNames ns) (hnd : ns.Nodup) (hcl : ∀ n ∈ ns, CleanName n) (hS : SoundTree P.root ns fs)
    (hk : cfg.cont = false) (hr : ∀ n ∈ ns, RepeatableTest P.u (P.tests n).body)
    {report : Option Bytes} {old : List (Rec fl)} (hrep : ofFile P.u fl report = some old)
    (dur : Str → fl.D) (all lines : List Str) {d : Dialogue} (hd : dialogue P cfg ns (snapshot P.root fs) lines = some d)
    (hw : d.whole = true) (runs : List (Rerun fl)) (hx : ∀ x ∈ runs, NotAsking x.cfg ∧ x.cfg.update = false ∧
      x.selected.Nodup ∧ ∀ n ∈ x.selected, n ∈ ns) :
    let r := runProject P cfg dur all ns fs lines report
    r.result = some .OK → PassOn P ns all runs r.fs r.report := by
  intro r hres
  have htodo : toRun cfg old ns = ns := by unfold toRun; simp [hk]
  obtain ⟨a1, -, a3, a4, new, -, a5⟩ := C133_dialogue (cfg := cfg) hp hS (fun _ h => h) hcl hrep dur all lines (by rw [htodo]; exact hd)
  have hok : worst (d.ends.map (·.2)) = .OK := by
    have := a1.symm.trans hres
    injection this
  obtain ⟨k1, -⟩ := fine_all ns _ lines d hnd hr hd hw hok
  refine passes_on hp hcl runs _ _ _ a3 a5 ?_
  intro x hm
  obtain ⟨h1, h2, h3, h4⟩ := hx x hm
  refine ⟨h1, h3, h4, fun n hn => ?_⟩
  rw [a4 n hn]
  exact k1 n hn x.cfg h2

private theorem reply_lines {v : Result} {lines rest : List Str} {q : Request} (h : reply v lines = some (q, rest)) :
    (q = .FREEZE → "a".toList ∈ lines) ∧ ∀ a ∈ rest, a ∈ lines := by
  rw [← interact_reply] at h
  induction lines with
  | nil => cases h
  | cons x xs ih =>
    unfold interact at h
    by_cases h1 : x = "a".toList ∧ Raw.res v ≠ .res .FAIL
    · rw [if_pos h1] at h
      cases h
      exact ⟨fun _ => by rw [h1.1]; exact List.mem_cons_self .., fun a ha => List.mem_cons_of_mem _ ha⟩
    · rw [if_neg h1] at h
      by_cases h2 : x = "c".toList
      · rw [if_pos h2] at h
        cases h
        exact ⟨fun h => (by cases h), fun a ha => List.mem_cons_of_mem _ ha⟩
      · rw [if_neg h2] at h
        by_cases h3 : x = "q".toList
        · rw [if_pos h3] at h
          cases h
          exact ⟨fun h => (by cases h), fun a ha => List.mem_cons_of_mem _ ha⟩
        · rw [if_neg h3] at h
          obtain ⟨k1, k2⟩ := ih h
          exact ⟨fun h => List.mem_cons_of_mem _ (k1 h), fun a ha => List.mem_cons_of_mem _ (k2 a ha)⟩

/-- **C133**, consent: in a run without `-a` and `-u` no snapshot changes unless the user enters `a`; if one changes, the
test has been recorded as `OK`. -/
theorem C133_consent (hp : PlainNames ns) (hS : SoundTree P.root ns fs) (hsub : ∀ n ∈ selected, n ∈ ns)
    (hcl : ∀ n ∈ selected, CleanName n) {report : Option Bytes} {old : List (Rec fl)} (hrep : ofFile P.u fl report = some old)
    (hu : cfg.update = false) (ha : cfg.accept = false) (dur : Str → fl.D) (all lines : List Str) {d : Dialogue}
    (hd : dialogue P cfg (toRun cfg old selected) (snapshot P.root fs) lines = some d) (m : Str) (hm : m ∈ ns)
    (hch : snapshot P.root (runProject P cfg dur all selected fs lines report).fs m ≠ snapshot P.root fs m) :
    "a".toList ∈ lines ∧ (m, Result.OK) ∈ d.ends := by
  obtain ⟨-, -, -, h4, -⟩ := C133_dialogue hp hS hsub hcl hrep dur all lines hd
  rw [h4 m hm] at hch
  clear h4
  revert hd hch
  generalize toRun cfg old selected = todo
  generalize snapshot P.root fs = snaps
  induction todo generalizing snaps lines d with
  | nil => intro hd hch; cases hd; exact absurd rfl hch
  | cons n todo ih =>
    intro hd hch
    unfold dialogue at hd
    cases hc : caseAsked P cfg n (snaps n) lines with
    | none => rw [hc] at hd; cases hd
    | some z =>
      obtain ⟨⟨r, q⟩, t, rest⟩ := z
      rw [hc] at hd
      dsimp only at hd
      have key : (∀ a ∈ rest, a ∈ lines) ∧ (t ≠ snaps n → "a".toList ∈ lines ∧ r = .OK) := by
        unfold caseAsked at hc
        cases ht : runTest (P.env (snaps n)) (P.tests n).body with
        | none => rw [ht] at hc; cases hc
        | some s =>
          rw [ht] at hc
          dsimp only at hc
          cases hz : (if IsAsked cfg (verdict (P.env (snaps n)) s) then reply (verdict (P.env (snaps n)) s) lines else some (.NONE, lines)) with
          | none => rw [hz] at hc; cases hc
          | some z =>
            obtain ⟨q', rest'⟩ := z
            rw [hz] at hc
            dsimp only at hc
            have hl : (q' = .FREEZE → "a".toList ∈ lines) ∧ ∀ a ∈ rest', a ∈ lines := by
              split at hz
              · exact reply_lines hz
              · cases hz
                exact ⟨fun h => (by cases h), fun a ha => ha⟩
            split at hc
            · rename_i hacc
              cases hc
              refine ⟨hl.2, fun _ => ⟨?_, rfl⟩⟩
              rcases hacc with h | h
              · exact hl.1 h
              · exfalso
                rcases h with h | h
                · rw [hu] at h; cases h.2
                · rw [ha] at h; cases h.2
            · cases hc
              exact ⟨hl.2, fun h => absurd rfl h⟩
      have one : putSnap snaps n t m ≠ snaps m → "a".toList ∈ lines ∧ (m, Result.OK) = (n, r) := by
        intro h
        unfold putSnap at h
        by_cases e : m = n
        · rw [if_pos e, e] at h
          obtain ⟨k1, k2⟩ := key.2 h
          exact ⟨k1, by rw [e, k2]⟩
        · rw [if_neg e] at h; exact absurd rfl h
      split at hd
      · cases hd
        obtain ⟨k1, k2⟩ := one hch
        exact ⟨k1, by rw [k2]; exact List.mem_singleton.mpr rfl⟩
      · cases hd' : dialogue P cfg todo (putSnap snaps n t) rest with
        | none => rw [hd'] at hd; cases hd
        | some d' =>
          rw [hd'] at hd
          cases hd
          by_cases h : putSnap snaps n t m = snaps m
          · obtain ⟨k1, k2⟩ := ih rest _ hd' (by rw [h]; exact hch)
            exact ⟨key.1 _ k1, List.mem_cons_of_mem _ k2⟩
          · obtain ⟨k1, k2⟩ := one h
            exact ⟨k1, by rw [k2]; exact List.mem_cons_self ..⟩

/-! ### Examples -/

private def prints (x : String) : Project where
  u := ascii
  pointErrorPos := false
  refmt := some
  root := ["books".toList]
  tests := fun n => ⟨⟨[.header "# t".toList, .tln (x.toList ++ n)], none⟩, [], [], none⟩

private theorem empty_sound (ns : List Str) : SoundTree ["books".toList] ns [([], .dir)] := by
  have g : ∀ p, FS.get [([], .dir)] p = if p = [] then some .dir else none := by
    intro p; rw [get_cons]; rfl
  refine ⟨?_, rfl, ?_, ?_, ?_, ?_, ?_⟩
  · intro p c h; rw [g, if_neg (by simp)] at h; cases h
  · intro n _ o q _ t; rw [g]; split <;> simp
  · intro n _ o x hx _; rw [g, if_neg (slot_ne_nil _ o n (Or.inr hx))]; simp
  · intro n _ o x hx t; rw [g]; split <;> simp
  · decide
  · intro q _ t; rw [g]; split <;> simp

private def both : List Str := ["t/a".toList, "t/b".toList]

private theorem both_plain : PlainNames both := by
  refine ⟨?_, ?_⟩
  · intro n hn
    simp only [both, List.mem_cons, List.not_mem_nil, or_false] at hn
    rcases hn with rfl | rfl
    · exact ⟨by decide, by decide, by decide⟩
    · exact ⟨by decide, by decide, by decide⟩
  · unfold NotNested; decide

/-- The user looks at the differences of the first test, accepts it, enters something that means nothing, and accepts the
second test: the run is as C133 says, and the line that nobody has asked for is left. -/
example : PlainNames both ∧ SoundTree (prints "x").root both [([], .dir)] ∧ (∀ n ∈ both, CleanName n) ∧
    (∀ n ∈ both, RepeatableTest (prints "x").u ((prints "x").tests n).body) ∧
    (∃ d, dialogue (prints "x") { interactive := true } both (snapshot (prints "x").root [([], .dir)])
      ["d".toList, "a".toList, "x".toList, "a".toList, "c".toList] = some d ∧ d.whole = true ∧ d.rest = ["c".toList] ∧
      d.ends = [("t/a".toList, .OK), ("t/b".toList, .OK)]) ∧
    (runProject (fl := strokes) (prints "x") { interactive := true } (fun _ => (1 : Nat)) both both [([], .dir)]
      ["d".toList, "a".toList, "x".toList, "a".toList, "c".toList] none).result = some .OK := by
  refine ⟨both_plain, empty_sound _, by unfold CleanName; decide, ?_, ⟨_, rfl, by decide +kernel, by decide +kernel,
    by decide +kernel⟩, by decide +kernel⟩
  intro n hn
  simp only [both, List.mem_cons, List.not_mem_nil, or_false] at hn
  rcases hn with rfl | rfl
  · exact ⟨rfl, ⟨Or.inr rfl, trivial, trivial⟩, ⟨_, rfl, by decide⟩, by decide⟩
  · exact ⟨rfl, ⟨Or.inr rfl, trivial, trivial⟩, ⟨_, rfl, by decide⟩, by decide⟩

/-- The lines of the user do not suffice: the run is left by an exception. -/
example : dialogue (prints "x") { interactive := true } both (snapshot (prints "x").root [([], .dir)]) ["a".toList] = none := by
  decide +kernel

/-- **C133** needs that the run has not been stopped: with `-I` the user quits at a test that is `OK`; the run ends with
success though the other test has not been executed, and the next run does not. -/
theorem C133_quit_refuted : ∃ (P : Project) (fs : FS) (report : Option Bytes),
    let r := runProject (fl := strokes) P { alwaysInteractive := true } (fun _ => (1 : Nat)) both both fs ["q".toList] report
    let r' := runProject (fl := strokes) P {} (fun _ => (1 : Nat)) both both r.fs [] r.report
    SoundTree P.root both fs ∧ r.result = some .OK ∧ r'.result = some .DIFF := by
  have h : SoundTree (prints "x").root both (runProject (fl := strokes) (prints "x") { accept := true } (fun _ => (1 : Nat))
      ["t/a".toList] ["t/a".toList] [([], .dir)] [] none).fs := by
    have hd : ∃ d, dialogue (prints "x") { accept := true } (toRun { accept := true } ([] : List (Rec strokes)) ["t/a".toList])
        (snapshot (prints "x").root [([], .dir)]) [] = some d := ⟨_, rfl⟩
    obtain ⟨d, hd⟩ := hd
    exact (C133_dialogue (fl := strokes) both_plain (empty_sound both) (by decide) (by unfold CleanName; decide) rfl
      (fun _ => (1 : Nat)) ["t/a".toList] [] hd).2.2.1
  refine ⟨prints "x", _, none, h, ?_⟩
  decide +kernel

end Verif.Props
