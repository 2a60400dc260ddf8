import Verif.Spec.Agree
import Verif.Props.Parallel

/-! # C90: parallel runs and sequential runs agree -/

namespace Verif.Props
open Verif.Py Verif.Model Verif.Spec Verif.Lemmas

variable {fl : Durations}

theorem works_reach {c : PConf fl} {cfg : Config} {v : List Str → Str → Option Result} {s : PSt fl}
    {g : Str → List Str} (h : Works c cfg v s g) : PReach c s := by
  induction h with
  | init => exact .init
  | step _ hs _ ih => exact ih.step hs

/-- A step that starts a test finishes none. -/
private theorem start_ready {c : PConf fl} {s t : PSt fl} (hs : PStep c s t) {n : Str}
    (h1 : n ∉ s.started) (h2 : n ∈ t.started) : t.ready = s.ready := by
  cases hs <;> first | rfl | exact absurd h2 h1

/-- The tests that a test depends on had ended when it was started. -/
private theorem works_deps {c : PConf fl} (ht : c.todo.Nodup) {cfg : Config}
    {v : List Str → Str → Option Result} {s : PSt fl} {g : Str → List Str} (h : Works c cfg v s g) :
    ∀ n ∈ s.started, ∀ d ∈ c.deps n, d ∈ c.todo → d ∈ g n := by
  induction h with
  | init => intro n hn; cases hn
  | @step s t g hw hs hf ih =>
    intro n hn d hd hdt
    dsimp only
    by_cases hns : n ∈ s.started
    · rw [if_pos hns]; exact ih n hns d hd hdt
    · rw [if_neg hns]
      have := C36_dependencies ht (works_reach (.step hw hs hf)) hn hd hdt
      rwa [start_ready hs hns hn] at this

theorem plan_congr (c : PConf fl) (P : Str → Option Bytes → Prop) (done order : List Str)
    (r : List Nat) : plan { c with leaves := P } done order r = plan c done order r := by
  induction order generalizing r with
  | nil => rfl
  | cons n ns ih =>
    unfold plan
    rw [ih, ih]
    rfl

theorem finish_only {c : PConf fl} {s t : PSt fl} (hs : PStep c s t)
    (P : Str → Option Bytes → Prop)
    (h : ∀ n, n ∈ t.ready → n ∉ s.ready → n ∈ s.started → P n (t.files (batchName n))) :
    PStep { c with leaves := fun n b => c.leaves n b ∧ P n b } s t := by
  cases hs with
  | planned order l h1 hd ha ho hl => exact .planned s order l h1 hd ha ho (by rw [plan_congr]; exact hl)
  | stop h1 hd => exact .stop s h1 hd
  | start n ns h1 hn => exact .start s n ns h1 hn
  | skip n ns h1 hn => exact .skip s n ns h1 hn
  | startedAll h1 => exact .startedAll s h1
  | again h1 ha => exact .again s h1 ha
  | leave d h1 hd => exact .leave s d h1 hd
  | seeReady n rest d h1 hr => exact .seeReady s n rest d h1 hr
  | seeBusy n rest d h1 hr => exact .seeBusy s n rest d h1 hr
  | swept d h1 => exact .swept s d h1
  | collected d d' rs h1 hp hr => exact .collected s d d' rs h1 hp hr
  | crash d d' h1 hp hr => exact .crash s d d' h1 hp hr
  | publish rs h1 => exact .publish s rs h1
  | finish n b h1 hr hb =>
    refine .finish s n b h1 hr ⟨hb, ?_⟩
    have := h n (by simp) hr h1
    dsimp only at this
    rwa [if_pos rfl] at this
  | more h1 hn => exact .more s h1 hn
  | noMore h1 hn => exact .noMore s h1 hn
  | take r q h1 hq => exact .take s r q h1 hq
  | reviewed r res ab h1 hv => exact .reviewed s r res ab h1 hv
  | reviewedText r t ab h1 hv => exact .reviewedText s r t ab h1 hv
  | reviewRaises r h1 hv => exact .reviewRaises s r h1 hv
  | interrupt h1 => exact .interrupt s h1
  | recordLeft k x n res d h1 hq => exact .recordLeft s k x n res d h1 hq
  | recordLeftText k x n t d h1 hq => exact .recordLeftText s k x n t d h1 hq
  | finished k x h1 hq => exact .finished s k x h1 hq

/-- Every worker's report is the one of a test that finds the results of all tests of the run it
depends on. -/
private theorem works_full {c : PConf fl} (ht : c.todo.Nodup) {cfg : Config}
    {v : List Str → Str → Option Result} (hl : Local c.deps v) {s : PSt fl} {g : Str → List Str}
    (h : Works c cfg v s g) :
    PReach { c with leaves := fun n b => c.leaves n b ∧ WorkerReport (fl := fl) c.u cfg v c.todo n b }
      s := by
  induction h with
  | init => exact .init
  | @step s t g hw hs hf ih =>
    refine ih.step (finish_only hs _ ?_)
    intro n h1 h2 h3
    obtain ⟨ex, e1, e2, o, e3, e4⟩ := hf n h1 h2
    refine ⟨o, ?_, e4⟩
    rw [e3]
    refine hl n ex c.todo fun d hd => ⟨fun hx => ?_, fun hx => ?_⟩
    · exact (inv_reach ht (works_reach hw)).sub d (e2 d hx)
    · exact e1 d (works_deps ht hw n h3 d hd hx)

private theorem worker_file (u : Unicode) (cfg : Config) (n : Str) (o : Outcome fl) :
    applyEvs none (runAsync u fl { cfg with cont := false } (fun _ _ => o) [n] none).1 =
      match o with
      | none => some []
      | some (res, _, d) => some (encode (toText fl [(n, res, d)])) := by
  have e1 : runAsync u fl { cfg with cont := false } (fun _ _ => o) [n] none =
      (.truncate :: (runLoop fl { cfg with cont := false } (fun _ _ => o) [] .OK 0 [n]).1,
        (runLoop fl { cfg with cont := false } (fun _ _ => o) [] .OK 0 [n]).2) := rfl
  rw [e1]
  cases o with
  | none => simp [runLoop, applyEvs, applyEv]
  | some x =>
    obtain ⟨res, q, d⟩ := x
    have e2 : (runLoop fl { cfg with cont := false } (fun _ _ => some (res, q, d)) [] .OK 0 [n]).1 =
        [.exec n (some (res, q, d)), .write (n, res, d)] := by
      simp only [runLoop]
      split <;> simp
    rw [e2]
    simp [applyEvs, applyEv, toText]

private theorem collect_worker (c : PConf fl) (cfg : Config) {v : List Str → Str → Option Result}
    {ex : List Str} {n : Str} (hn : CleanName n) {b : Option Bytes} {r : PRec fl}
    (hw : WorkerReport (fl := fl) c.u cfg v ex n b) (hc : collectOne c n b = some r) :
    ∃ res, v ex n = some res ∧ r.2.1 = .res res := by
  obtain ⟨o, h1, rfl⟩ := hw
  rw [worker_file] at hc
  cases o with
  | none =>
    have e2 : ofFile c.u fl (some []) = some [] := by
      have := C23_round_trip c.u fl [] (by simp)
      simpa [toText, encode] using this
    dsimp only at hc
    unfold collectOne at hc
    dsimp only at hc
    rw [e2] at hc
    cases hc
  | some x =>
    obtain ⟨res, q, d⟩ := x
    dsimp only at hc
    unfold collectOne at hc
    dsimp only at hc
    rw [C23_round_trip c.u fl [(n, res, d)] (by simpa using hn)] at hc
    cases hc
    exact ⟨res, h1.symm, rfl⟩

/-- Without a user, a review changes the result only by accepting a difference. -/
private theorem review_keeps {cfg : Config} (hi : cfg.interactive = false)
    (hI : cfg.alwaysInteractive = false) {exp out : Path} {n : Str} {res : Result} {fs fs' : FS}
    {rv : Raw} {q : Request} (h : caseReview cfg exp out n (.res res) [] fs = (fs', .done rv q, []))
    (ha : cfg.accept = true → res ≠ .DIFF) : rv = .res res := by
  unfold caseReview at h
  simp only [hi, hI, Bool.and_false, Bool.or_false, Bool.false_eq_true, if_false] at h
  split at h
  · rename_i hc
    have hok : res = .OK := by
      rcases hc with hc | ⟨hc, -⟩ | ⟨hc, hd⟩
      · cases hc
      · cases hc; rfl
      · cases hc; exact absurd rfl (ha hd)
    split at h
    · cases h
    · cases h; rw [hok]
  · cases h; rfl

/-- The loop of a sequential run that is not stopped. -/
private theorem loop_all (cfg : Config) (hff : cfg.failFast = false) (outcome : List Str → Str → Outcome fl)
    (v : Str → Result) (ex : List Str) (rv : Result) (fails : Nat) (todo : List Str)
    (ho : ∀ l1 n l2, todo = l1 ++ n :: l2 → ∃ q d, outcome (ex ++ l1) n = some (v n, q, d) ∧ q ≠ .ABORT) :
    ∃ (ds : List (Rec fl × Request)) (r : Result), runLoop fl cfg outcome ex rv fails todo = (ds.flatMap pair, some r) ∧
      ds.map (fun x => key x.1) = todo.map (fun n => (n, v n)) := by
  induction todo generalizing ex rv fails with
  | nil => exact ⟨[], rv, rfl, rfl⟩
  | cons n ns ih =>
    obtain ⟨q, d, h1, h2⟩ := ho [] n ns rfl
    rw [List.append_nil] at h1
    unfold runLoop
    rw [h1]
    dsimp only
    rw [if_neg (by rintro (h | ⟨h, -⟩); exact h2 h; rw [hff] at h; cases h)]
    obtain ⟨ds, r, e1, e2⟩ := ih (ex ++ [n]) (nextRv rv (v n)) (nextFails fails (v n)) (by
      intro l1 m l2 he
      obtain ⟨q, d, h3⟩ := ho (n :: l1) m l2 (by rw [he]; rfl)
      exact ⟨q, d, by rw [List.append_assoc]; exact h3⟩)
    rw [e1]
    exact ⟨((n, v n, d), q) :: ds, r, rfl, by rw [List.map_cons, List.map_cons, e2]; rfl⟩

/-- The hypotheses of C90: a parallel run and a sequential run of the same tests, whose results depend
on no other tests than those they depend on; no user, no fail-fast. -/
structure Comparable (c : PConf fl) (cfg : Config) (exp out : Path)
    (verdict : List Str → Str → Option Result) (outcome : List Str → Str → Outcome fl)
    (selected : List Str) (file : Option Bytes) (old : List (Rec fl)) : Prop where
  behaved : Behaved c
  clean : ∀ n ∈ c.todo, CleanName n
  interactive : cfg.interactive = false
  always : cfg.alwaysInteractive = false
  failFast : cfg.failFast = false
  reviewed : ReviewedBy cfg exp out c
  local_ : Local c.deps verdict
  /-- With `-a`, the run of a test accepts differences (C18). -/
  accepted : cfg.accept = true → ∀ ex n, verdict ex n ≠ some .DIFF
  old_ : ofFile c.u fl file = some old
  todo : c.todo = toRun cfg old selected
  first : ∀ n ∈ c.todo, ∀ d ∈ c.deps n, d ∈ c.todo → Before c.todo d n
  outcomes : ∀ ex n, (outcome ex n).map (·.1) = verdict ex n
  noAbort : ∀ ex n res q d, outcome ex n = some (res, q, d) → q ≠ .ABORT

variable {c : PConf fl} {cfg : Config} {exp out : Path} {verdict : List Str → Str → Option Result}
  {outcome : List Str → Str → Outcome fl} {selected : List Str} {file : Option Bytes}
  {old : List (Rec fl)} {s : PSt fl} {g : Str → List Str}

/-- What is recorded in a parallel run is the result of the test as it is after all tests it depends
on. -/
private theorem recorded_verdict (hc : Comparable c cfg exp out verdict outcome selected file old)
    (h : Works c cfg verdict s g) :
    ∀ x ∈ s.recorded, verdict c.todo x.1 = some x.2.1 := by
  intro x hx
  have hr := works_full hc.behaved.todo hc.local_ h
  have hb : Behaved
      { c with leaves := fun n b => c.leaves n b ∧ WorkerReport (fl := fl) c.u cfg verdict c.todo n b } :=
    ⟨hc.behaved.todo, hc.behaved.batches, fun n hn b hl => hc.behaved.leaves n hn b hl.1⟩
  obtain ⟨-, h2, h3⟩ := C39_genuine hb.named hr
  obtain ⟨b, r, ⟨h4, h5⟩, h6, -, h7⟩ := h3 x hx
  have hnt : x.1 ∈ c.todo := (h2 x hx).1
  obtain ⟨res, e1, e2⟩ := collect_worker c cfg (hc.clean _ hnt) h5 h6
  rw [e1]
  congr 1
  rcases h7 with ⟨ab, h7⟩ | h7
  · obtain ⟨fs, fs', q, e3⟩ := hc.reviewed r _ ab h7
    rw [e2] at e3
    have := review_keeps hc.interactive hc.always e3 (fun ha he => hc.accepted ha _ _ (he ▸ e1))
    cases this; rfl
  · rw [e2] at h7; cases h7; rfl

private theorem sequential_all (hc : Comparable c cfg exp out verdict outcome selected file old)
    (v : Str → Result) (hv : ∀ n ∈ c.todo, verdict c.todo n = some (v n)) :
    ∃ (ds : List (Rec fl × Request)) (r : Result), runAsync c.u fl cfg outcome selected file =
        (.truncate :: (keptRecords old c.todo).map .write ++ ds.flatMap pair, some r) ∧
      ds.map (fun x => key x.1) = c.todo.map (fun n => (n, v n)) := by
  have key1 : ∀ l1 n l2, c.todo = l1 ++ n :: l2 →
      ∃ q d, outcome ([] ++ l1) n = some (v n, q, d) ∧ q ≠ .ABORT := by
    intro l1 n l2 he
    have hn : n ∈ c.todo := by rw [he]; simp
    have hv1 : verdict l1 n = some (v n) := by
      rw [← hv n hn]
      refine hc.local_ n l1 c.todo fun d hd => ⟨fun hx => by rw [he]; simp [hx], fun hx => ?_⟩
      obtain ⟨m1, m2, e1, e2, e3⟩ := hc.first n hn d hd hx
      have hnd := hc.behaved.todo
      rw [he] at hnd e1
      have hnl : n ∉ l1 := fun hh => (List.nodup_append.mp hnd).2.2 n hh n (by simp) rfl
      have : l1 = m1 := by
        clear hnd he hx e3 hn hd
        induction l1 generalizing m1 with
        | nil =>
          cases m1 with
          | nil => rfl
          | cons a m1 => simp only [List.nil_append, List.cons_append, List.cons.injEq] at e1; exact absurd (by simp [e1.1]) e2
        | cons a l1 ih =>
          cases m1 with
          | nil => simp only [List.nil_append, List.cons_append, List.cons.injEq] at e1; exact absurd (by simp [e1.1]) hnl
          | cons a' m1 =>
            simp only [List.cons_append, List.cons.injEq] at e1
            rw [e1.1, ih (m1 := m1) e1.2 (fun hh => e2 (by simp [hh])) (fun hh => hnl (by simp [hh]))]
      rw [this]; exact e3
    rw [List.nil_append]
    have := hc.outcomes l1 n
    rw [hv1] at this
    obtain ⟨⟨res, q, d⟩, e1, e2⟩ := Option.map_eq_some_iff.mp this
    simp only at e2
    subst e2
    exact ⟨q, d, e1, hc.noAbort _ _ _ _ _ e1⟩
  obtain ⟨ds, r, e1, e2⟩ := loop_all cfg hc.failFast outcome v [] .OK 0 c.todo key1
  refine ⟨ds, r, ?_, e2⟩
  unfold runAsync
  rw [hc.old_]
  dsimp only
  rw [(doneAndTodo_eq cfg old selected).1, ← hc.todo, e1]

/-- **C90.** Whatever the schedule, a parallel run that is completed records exactly the tests, with
exactly the results, that a sequential run executes, and it has the same exit code. -/
theorem C90_same_results (hc : Comparable c cfg exp out verdict outcome selected file old)
    (h : Works c cfg verdict s g) (hr : s.rpc = .check) (hab : s.abort = false)
    (hn : hasNext s = false) :
    (s.recorded.map key).Perm (execs (runAsync c.u fl cfg outcome selected file).1) ∧
    ∃ r, (runAsync c.u fl cfg outcome selected file).2 = some r ∧ exitCode r = s.exitCode := by
  obtain ⟨hp, -⟩ := C39_all_recorded hc.behaved (works_reach h) hr hab hn
  have hrec := recorded_verdict hc h
  let v : Str → Result := fun n => (verdict c.todo n).getD .OK
  have hv : ∀ n ∈ c.todo, verdict c.todo n = some (v n) := by
    intro n hnt
    obtain ⟨x, hx, rfl⟩ := List.mem_map.mp (hp.mem_iff.mpr hnt)
    have := hrec x hx
    simp only [v, this, Option.getD_some]
  obtain ⟨ds, r, e1, e2⟩ := sequential_all hc v hv
  have hex : execs (runAsync c.u fl cfg outcome selected file).1 = c.todo.map (fun n => (n, v n)) := by
    rw [e1, execs_append, execs_pairs, e2]
    have : execs (Ev.truncate :: (keptRecords old c.todo).map (Ev.write (fl := fl))) =
        execs ((keptRecords old c.todo).map (Ev.write (fl := fl))) := rfl
    rw [this, execs_map, List.nil_append]
  have hkey : s.recorded.map key = (s.recorded.map (·.1)).map (fun n => (n, v n)) := by
    rw [List.map_map]
    refine List.map_congr_left fun x hx => ?_
    simp only [key, v, Function.comp, hrec x hx, Option.getD_some]
  have hperm : (s.recorded.map key).Perm (execs (runAsync c.u fl cfg outcome selected file).1) := by
    rw [hkey, hex]; exact hp.map _
  refine ⟨hperm, r, by rw [e1], ?_⟩
  obtain ⟨h1, h2⟩ := exit_inv (works_reach h)
  have h3 := h2 (Or.inl hr)
  have h4 := (C27_result c.u fl cfg outcome selected file r (by rw [e1])).1
  have h5 : exitCode r = 0 ↔ s.exitCode = 0 := by
    rw [h4, h3]
    constructor
    · intro hk x hx
      exact hk (key x) (hperm.mem_iff.mp (List.mem_map.mpr ⟨x, hx, rfl⟩))
    · intro hk e he
      obtain ⟨x, hx, rfl⟩ := List.mem_map.mp (hperm.mem_iff.mpr he)
      exact hk x hx
  have h6 : exitCode r = 0 ∨ exitCode r = -1 := by cases r <;> simp [exitCode]
  omega

/-- The same for the reports: both can be read, and name the same results in some order. -/
theorem C90_same_reports (hc : Comparable c cfg exp out verdict outcome selected file old)
    (h : Works c cfg verdict s g) (hr : s.rpc = .check) (hab : s.abort = false)
    (hn : hasNext s = false) :
    ∃ ps ss, ofFile c.u fl (some (parallelReport c old s)) = some ps ∧
      ofFile c.u fl (applyEvs file (runAsync c.u fl cfg outcome selected file).1) = some ss ∧
      (ps.map key).Perm (ss.map key) := by
  have hperm := (C90_same_results hc h hr hab hn).1
  obtain ⟨hp, -⟩ := C39_all_recorded hc.behaved (works_reach h) hr hab hn
  have hrec := recorded_verdict hc h
  let v : Str → Result := fun n => (verdict c.todo n).getD .OK
  have hv : ∀ n ∈ c.todo, verdict c.todo n = some (v n) := by
    intro n hnt
    obtain ⟨x, hx, rfl⟩ := List.mem_map.mp (hp.mem_iff.mpr hnt)
    have := hrec x hx
    simp only [v, this, Option.getD_some]
  obtain ⟨ds, r, e1, e2⟩ := sequential_all hc v hv
  have hkept : ∀ w ∈ keptRecords old c.todo, CleanName w.1 := fun w hw =>
    ofFile_clean c.u fl hc.old_ w (List.mem_filter.mp hw).1
  have hne : Ev.truncate ∉ (keptRecords old c.todo).map (Ev.write (fl := fl)) ++ ds.flatMap pair := by
    intro hx
    rcases List.mem_append.mp hx with hx | hx
    · obtain ⟨q, -, hq⟩ := List.mem_map.mp hx; cases hq
    · obtain ⟨q, -, hq⟩ := List.mem_flatMap.mp hx
      simp [pair] at hq
  have hseq : applyEvs file (runAsync c.u fl cfg outcome selected file).1 =
      some (encode (toText fl (keptRecords old c.todo ++ ds.map (·.1)))) := by
    rw [e1]
    have : applyEvs file (Ev.truncate :: (keptRecords old c.todo).map Ev.write ++ ds.flatMap pair) =
        applyEvs (some []) ((keptRecords old c.todo).map Ev.write ++ ds.flatMap pair) := rfl
    rw [this, applyEvs_some _ _ hne, List.nil_append, writes_append, writes_map, writes_pairs]
  refine ⟨keptRecords old c.todo ++ s.recorded, keptRecords old c.todo ++ ds.map (·.1), ?_, ?_, ?_⟩
  · refine C23_round_trip c.u fl _ ?_
    intro w hw
    rcases List.mem_append.mp hw with hw | hw
    · exact hkept w hw
    · exact hc.clean _ (hp.mem_iff.mp (List.mem_map.mpr ⟨w, hw, rfl⟩))
  · rw [hseq]
    refine C23_round_trip c.u fl _ ?_
    intro w hw
    rcases List.mem_append.mp hw with hw | hw
    · exact hkept w hw
    · have : key w ∈ c.todo.map (fun n => (n, v n)) := by
        rw [← e2]
        obtain ⟨x, hx, rfl⟩ := List.mem_map.mp hw
        exact List.mem_map.mpr ⟨x, hx, rfl⟩
      obtain ⟨n, hnt, he⟩ := List.mem_map.mp this
      have : w.1 = n := (congrArg Prod.fst he).symm
      rw [this]; exact hc.clean n hnt
  · rw [List.map_append, List.map_append]
    refine List.Perm.append_left _ (hperm.trans ?_)
    rw [e1, execs_append, execs_pairs]
    have : execs (Ev.truncate :: (keptRecords old c.todo).map (Ev.write (fl := fl))) =
        execs ((keptRecords old c.todo).map (Ev.write (fl := fl))) := rfl
    rw [this, execs_map, List.nil_append, List.map_map]
    exact List.Perm.refl _

/-! A completed run of four tests, one of which is OK only after the test it depends on. -/

/-- The four tests, where every worker leaves an OK. -/
def fourOk : PConf strokes :=
  { fourTests with
    leaves := fun n b => ∃ d, b = some (encode (toText strokes [(n, Result.OK, d)])) }

/-- Test `t/b` fails unless `t/a` was run before. -/
def needsA (ex : List Str) (n : Str) : Option Result :=
  if n = "t/b".toList ∧ "t/a".toList ∉ ex then some .FAIL else some .OK

private theorem fourOk_clean : ∀ n ∈ fourOk.todo, CleanName n := by
  unfold CleanName
  decide

theorem fourOk_behaved : Behaved fourOk where
  todo := by decide
  batches := by decide
  leaves := by
    rintro n hn b ⟨d, rfl⟩
    refine ⟨(n, .res .OK, d), ?_, rfl⟩
    unfold collectOne
    dsimp only
    rw [C23_round_trip fourOk.u strokes [(n, .OK, d)] (by simpa using fourOk_clean n hn)]

theorem fourOk_able : Able fourOk where
  leaves := fun _ _ => ⟨_, (0 : Nat), rfl⟩
  review := by
    rintro r ⟨b, ⟨d, rfl⟩, h⟩
    unfold collectOne at h
    dsimp only at h
    split at h
    · cases h; exact ⟨_, rfl, rfl⟩
    · cases h

private theorem fourOk_works {s : PSt strokes} (h : PReach fourOk s) :
    ∃ g, Works fourOk {} needsA s g ∧ (∀ n, ∀ x ∈ g n, x ∈ s.ready) := by
  induction h with
  | init => exact ⟨_, .init, fun _ x hx => by cases hx⟩
  | @step s t hr hs ih =>
    obtain ⟨g, h1, h2⟩ := ih
    have hmono : ∀ x ∈ s.ready, x ∈ t.ready := by
      intro x hx
      cases hs <;> first | exact hx | exact List.mem_append.mpr (Or.inl hx)
    refine ⟨_, .step h1 hs ?_, ?_⟩
    · intro n h3 h4
      have hi := inv_reach fourOk_behaved.todo hr
      refine ⟨g n, fun _ hx => hx, fun x hx => hi.readySub x (h2 n x hx), ?_⟩
      have hst : n ∈ s.started ∧ ∃ d, t.files (batchName n) =
          some (encode (toText strokes [(n, Result.OK, d)])) := by
        cases hs with
        | finish m b hm hr hb =>
          rcases List.mem_append.mp h3 with h3 | h3
          · exact absurd h3 h4
          · have : n = m := by simpa using h3
            subst this
            obtain ⟨d, rfl⟩ := hb
            exact ⟨hm, d, if_pos rfl⟩
        | _ => exact absurd h3 h4
      obtain ⟨hns, d, hd⟩ := hst
      refine ⟨some (.OK, .NONE, d), ?_, ?_⟩
      · show some Result.OK = needsA (g n) n
        unfold needsA
        rw [if_neg]
        rintro ⟨rfl, h5⟩
        exact h5 (works_deps fourOk_behaved.todo h1 _ hns "t/a".toList (by decide) (by decide))
      · rw [worker_file]; exact hd
    · intro n x hx
      split at hx
      · exact hmono x (h2 n x hx)
      · exact hmono x hx

example : Comparable fourOk {} [] [] needsA
    (fun ex n => (needsA ex n).map (fun r => (r, .NONE, (1 : Nat)))) fourOk.todo none [] where
  behaved := fourOk_behaved
  clean := fourOk_clean
  interactive := rfl
  always := rfl
  failFast := rfl
  reviewed := by
    rintro r rv ab ⟨rfl, -⟩
    exact ⟨[], [], .NONE, by simp [caseReview]⟩
  local_ := by
    intro n ex ex' h
    unfold needsA
    by_cases hn : n = "t/b".toList
    · subst hn
      have := h "t/a".toList (by decide)
      simp only [this]
    · rw [if_neg (fun h => hn h.1), if_neg (fun h => hn h.1)]
  accepted := by intro h; cases h
  old_ := rfl
  todo := by decide
  first := by
    have hb : Before fourOk.todo "t/a".toList "t/b".toList :=
      ⟨["t/a".toList], ["t/c".toList, "t/d".toList], rfl, by decide, by decide⟩
    intro n hn d hd hdt
    by_cases he : n = "t/b".toList
    · subst he
      have : d = "t/a".toList := by simpa using (show d ∈ ["t/a".toList] from hd)
      subst this
      exact hb
    · have : d ∈ ([] : List Str) := by
        have h2 : fourOk.deps n = [] := if_neg he
        rwa [h2] at hd
      cases this
  outcomes := by
    intro ex n
    cases needsA ex n <;> rfl
  noAbort := by
    intro ex n res q d h
    cases h1 : needsA ex n with
    | none => rw [h1] at h; cases h
    | some r => rw [h1] at h; cases h; intro h; cases h

example : ∃ s g, Works fourOk {} needsA s g ∧ s.rpc = .check ∧ s.abort = false ∧ hasNext s = false := by
  have hacy : Acyclic fourOk (fun n => if n = "t/b".toList then 1 else 0) := fourTests_acyclic
  obtain ⟨t, -, h2, h3, h4, h5⟩ := can_complete hacy fourOk_behaved fourOk_able .init rfl (Or.inl rfl)
  obtain ⟨g, h6, -⟩ := fourOk_works h2
  exact ⟨t, g, h6, h4, h3, h5⟩

end Verif.Props
