import Verif.Lemmas.ParallelFair
import Verif.Lemmas.Selection
import Verif.Props.Reports
import Verif.Props.Run

/-! # C35–C41, C73: parallel runs -/

namespace Verif.Props
open Verif.Py Verif.Model Verif.Spec Verif.Lemmas

variable {fl : Durations}

/-- A test is running: handed to the pool, and its worker has not finished. -/
def Running (s : PSt fl) (n : Str) : Prop := n ∈ s.started ∧ n ∉ s.ready

/-- What a worker that ends normally leaves for a test. -/
theorem collect_complete (c : PConf fl) {n : Str} (hn : CleanName n) (res : Result) (d : fl.D) :
    collectOne c n (some (encode (toText fl [(n, res, d)]))) = some (n, .res res, d) := by
  unfold collectOne
  dsimp only
  rw [C23_round_trip c.u fl [(n, res, d)] (by simpa using hn)]

/-! ### Concrete runs -/

/-- Four tests: `t/b` depends on `t/a`, and `t/a` and `t/c` use the same resource.  Workers leave a
report with some result and duration, and reviews keep the result. -/
def fourTests : PConf strokes where
  u := ascii
  todo := ["t/a".toList, "t/b".toList, "t/c".toList, "t/d".toList]
  deps := fun n => if n = "t/b".toList then ["t/a".toList] else []
  res := fun n => if n = "t/a".toList ∨ n = "t/c".toList then [7] else []
  zero := (0 : Nat)
  leaves := fun n b => ∃ res d, b = some (encode (toText strokes [(n, res, d)]))
  review := fun r rv ab => rv = r.2.1 ∧ ab = false
  reviewRaises := fun _ => False

/-- One test, which fails. -/
def failing : PConf strokes :=
  { fourTests with
    todo := ["t/a".toList]
    leaves := fun n b => b = some (encode (toText strokes [(n, Result.FAIL, (0 : Nat))])) }

theorem fourTests_behaved : Behaved fourTests where
  todo := by decide
  batches := by decide
  leaves := by
    rintro n hn b ⟨res, d, rfl⟩
    have : CleanName n := by
      revert n
      unfold CleanName
      decide
    exact ⟨_, collect_complete fourTests this res d, rfl⟩

theorem fourTests_acyclic : Acyclic fourTests (fun n => if n = "t/b".toList then 1 else 0) := by
  unfold Acyclic
  decide

theorem fourTests_able : Able fourTests where
  leaves := fun _ _ => ⟨_, .OK, (0 : Nat), rfl⟩
  review := by
    rintro r ⟨b, ⟨res, d, rfl⟩, h⟩
    unfold collectOne at h
    dsimp only at h
    split at h
    · cases h; exact ⟨_, rfl, rfl⟩
    · cases h

/-- A state in which the tests `t/d` and `t/a` are running. -/
theorem fourTests_running : ∃ s, PReach fourTests s ∧ Running s "t/a".toList ∧ Running s "t/d".toList ∧
    s.abort = false ∧ InLoop s := by
  have h0 : PReach fourTests _ := .init
  have h1 := h0.step (.planned _ fourTests.todo ["t/d".toList, "t/a".toList] rfl (by decide) rfl
    (by decide) (by decide))
  have h2 := h1.step (.start _ _ _ rfl (by decide))
  have h3 := h2.step (.start _ _ _ rfl (by decide))
  exact ⟨_, h3, ⟨by decide, by decide⟩, ⟨by decide, by decide⟩, rfl, Or.inl rfl⟩

/-! ### C35 -/

/-- Two different tests that are running at the same time have no resource in common. -/
theorem C35_exclusive {c : PConf fl} (ht : c.todo.Nodup) {s : PSt fl} (h : PReach c s) {a b : Str}
    (ha : Running s a) (hb : Running s b) (hne : a ≠ b) : ∀ r ∈ c.res a, r ∉ c.res b := by
  have hi := inv_reach ht h
  have key : ∀ n, Running s n → n ∈ s.scheduled := by
    intro n hn
    rcases (hi.mem_started n).mp hn.1 with h | h
    · exact absurd (hi.doneReady n h) hn.2
    · exact h
  exact pairwise_apart hi.apart (key a ha) (key b hb) hne

/-! ### C36 -/

/-- Whenever a test has been started, every test to be run that it depends on has finished. -/
theorem C36_dependencies {c : PConf fl} (ht : c.todo.Nodup) {s : PSt fl} (h : PReach c s) {n d : Str}
    (hn : n ∈ s.started) (hd : d ∈ c.deps n) (hdt : d ∈ c.todo) : d ∈ s.ready :=
  (inv_reach ht h).doneReady d ((inv_reach ht h).deps n hn d hd hdt)

/-- In terms of the test suite: the tests to which the declared dependencies resolve. -/
theorem C36_declared {base : PConf fl} {suite : Suite} {cases : List Str} (ht : cases.Nodup)
    {s : PSt fl} (h : PReach (base.ofSuite suite cases) s) {n d : Str} {m : Meth} (hn : n ∈ s.started)
    (hm : getCase suite n = some m) (hd : Declares suite m d) (hdt : d ∈ cases) : d ∈ s.ready := by
  refine C36_dependencies (c := base.ofSuite suite cases) ht h hn ?_ hdt
  show d ∈ (match getCase suite n with
    | none => []
    | some m => methodDependencies suite m cases none)
  rw [hm]
  exact mem_methodDependencies.mpr ⟨hd, Or.inr (by simp [Stored])⟩

/-! ### C37 -/

/-- No test is started twice, and only tests to be run are started. -/
theorem C37_once {c : PConf fl} (ht : c.todo.Nodup) {s : PSt fl} (h : PReach c s) :
    s.started.Nodup ∧ ∀ n ∈ s.started, n ∈ c.todo :=
  ⟨(inv_reach ht h).nodup, (inv_reach ht h).sub⟩

/-! ### C38 -/

/-- Whenever tests remain and none is scheduled, the scheduler's next plan starts at least one. -/
theorem C38_starts {c : PConf fl} {rank : Str → Nat} (hr : Acyclic c rank) (ht : c.todo.Nodup)
    {s : PSt fl} (h : PReach c s) (hd : s.done.length < c.todo.length) (hs : s.scheduled = [])
    {order l : List Str} (ho : order.Perm (remaining c s))
    (hl : l.Perm (plan c s.done order s.reserved)) : l ≠ [] :=
  plan_progress hr ht (inv_reach ht h) hd hs ho hl

/-- From every state that a run without abort can be in, the run can be completed with every test
recorded: if workers end with a report and reviews end, nothing gets stuck. -/
theorem C38_completes {c : PConf fl} {rank : Str → Nat} (hr : Acyclic c rank) (hb : Behaved c)
    (ha : Able c) {s : PSt fl} (h : PReach c s) (hab : s.abort = false) (hl : InLoop s) :
    ∃ t, PSteps c s t ∧ t.rpc = .ended false ∧ (t.recorded.map (·.1)).Perm c.todo := by
  obtain ⟨t, h1, h2, h3, h4, h5⟩ := can_complete hr hb ha h hab hl
  have hv := rinv_reach hb h2
  have hi := inv_reach hb.todo h2
  have hrec := hv.rec_
  rw [h4] at hrec
  have hq : s.abort = false → t.queue = [] ∧ t.left ≤ 0 := by
    intro _
    simp only [hasNext, h3, Bool.not_false, Bool.and_true, Bool.or_eq_false_iff, decide_eq_false_iff_not,
      Bool.not_eq_false', List.isEmpty_iff] at h5
    exact ⟨h5.2, by omega⟩
  obtain ⟨hq, hleft⟩ := hq hab
  have hl2 := hv.left
  rw [hq] at hl2
  simp only [List.length_nil] at hl2
  have hcl := hv.count.length_eq
  rw [hq] at hcl
  simp only [List.map_nil, List.append_nil, List.length_append, List.length_map] at hcl
  have htn : t.taken.Nodup := by
    have := (hv.count.nodup_iff).mpr hi.parts.1
    rw [List.append_assoc] at this
    exact (List.nodup_append.mp this).1
  have hts : ∀ n ∈ t.taken, n ∈ c.todo := by
    intro n hn
    have hd : n ∈ t.done := hv.count.mem_iff.mp (by simp [hn])
    exact hi.sub n ((hi.mem_started n).mpr (Or.inl hd))
  refine ⟨_, PSteps.trans h1 (.step (.noMore t h4 h5) (.step (.finished _ 0 false rfl (by simp [hq]))
    (.refl _))), rfl, ?_⟩
  dsimp only
  rw [hrec]
  exact nodup_perm_of_length htn hts (by omega)

/-- Every fair execution completes, with every test recorded: started tests finish, no thread is kept
waiting forever, and nobody aborts the run. -/
theorem C38_fair {c : PConf fl} {rank : Str → Nat} (hr : Acyclic c rank) (hb : Behaved c) (hc : Calm c)
    {σ : Nat → PSt fl} (hf : Fair c σ) :
    ∃ i, (σ i).rpc = .ended false ∧ ((σ i).recorded.map (·.1)).Perm c.todo :=
  fair_completes hr hb hc hf

/-- Fair executions exist. -/
theorem C38_fair_exists {c : PConf fl} {rank : Str → Nat} (hr : Acyclic c rank) (hb : Behaved c)
    (ha : Able c) : ∃ σ, Fair c σ :=
  fair_exists hr hb ha

example : ∃ σ, Fair fourTests σ := C38_fair_exists fourTests_acyclic fourTests_behaved fourTests_able

example : Calm fourTests where
  review := by
    rintro n b r ⟨res, d, rfl⟩ h rv ab ⟨rfl, _⟩
    unfold collectOne at h
    dsimp only at h
    split at h
    · cases h; exact ⟨_, rfl⟩
    · cases h
  raises := fun _ _ _ _ _ h => h

/-! ### C39 -/

/-- When `has_next` is false and the run was not aborted, every test to be run has been recorded
exactly once. -/
theorem C39_all_recorded {c : PConf fl} (hb : Behaved c) {s : PSt fl} (h : PReach c s)
    (hr : s.rpc = .check) (hab : s.abort = false) (hn : hasNext s = false) :
    (s.recorded.map (·.1)).Perm c.todo ∧ s.queue = [] := by
  have hv := rinv_reach hb h
  have hi := inv_reach hb.todo h
  have hrec := hv.rec_
  rw [hr] at hrec
  simp only [hasNext, hab, Bool.not_false, Bool.and_true, Bool.or_eq_false_iff, decide_eq_false_iff_not,
    Bool.not_eq_false', List.isEmpty_iff] at hn
  have hl2 := hv.left
  rw [hn.2] at hl2
  simp only [List.length_nil] at hl2
  have htn : s.taken.Nodup := by
    have := (hv.count.nodup_iff).mpr hi.parts.1
    rw [List.append_assoc] at this
    exact (List.nodup_append.mp this).1
  have hts : ∀ n ∈ s.taken, n ∈ c.todo := by
    intro n hn
    have hd : n ∈ s.done := hv.count.mem_iff.mp (by simp [hn])
    exact hi.sub n ((hi.mem_started n).mpr (Or.inl hd))
  refine ⟨?_, hn.2⟩
  show (s.recorded.map (·.1)).Perm c.todo
  rw [hrec]
  exact nodup_perm_of_length htn hts (by omega)

/-- Without abort, `has_next` is true exactly as long as some test has not been recorded. -/
theorem C39_has_next {c : PConf fl} (hb : Behaved c) {s : PSt fl} (h : PReach c s)
    (hr : s.rpc = .check) (hab : s.abort = false) :
    hasNext s = true ↔ ∃ n ∈ c.todo, n ∉ s.recorded.map (·.1) := by
  constructor
  · intro hn
    have hv := rinv_reach hb h
    have hi := inv_reach hb.todo h
    have hrec := hv.rec_
    rw [hr] at hrec
    refine Classical.byContradiction fun hne => ?_
    have hall : ∀ n ∈ c.todo, n ∈ s.taken := by
      intro n hn
      refine Classical.byContradiction fun h1 => hne ⟨n, hn, ?_⟩
      show n ∉ s.recorded.map (·.1)
      rw [hrec]; exact h1
    have h1 := nodup_length_le hb.todo hall
    have h2 := hv.count.length_eq
    simp only [List.length_append, List.length_map] at h2
    obtain ⟨k1, k2, k3⟩ := lengths hi
    have h3 := hv.left
    simp only [hasNext, hab, Bool.not_false, Bool.and_true, Bool.or_eq_true, decide_eq_true_eq,
      Bool.not_eq_true', List.isEmpty_eq_false_iff] at hn
    have hq0 : s.queue.length = 0 := by omega
    rcases hn with hn | hn
    · omega
    · exact hn (List.length_eq_zero_iff.mp hq0)
  · rintro ⟨n, h1, h2⟩
    cases hx : hasNext s with
    | true => rfl
    | false => exact absurd ((C39_all_recorded hb h hr hab hx).1.mem_iff.mpr h1) h2

/-- Whatever happens (abort, interrupt, exceptions, workers that leave no report or a broken one), no test
is recorded twice, and every record is one that a worker, which has finished, left for this test, with the
result the review gave it. -/
theorem C39_genuine {c : PConf fl} (hb : Named c) {s : PSt fl} (h : PReach c s) :
    (s.recorded.map (·.1)).Nodup ∧ (∀ x ∈ s.recorded, x.1 ∈ c.todo ∧ x.1 ∈ s.ready) ∧
    ∀ x ∈ s.recorded, ∃ b r, c.leaves x.1 b ∧ collectOne c x.1 b = some r ∧ r.2.2 = x.2.2 ∧
      ((∃ ab, c.review r (.res x.2.1) ab) ∨ r.2.1 = .res x.2.1) := by
  have hv := winv_reach hb h
  obtain ⟨lost, hcount, -⟩ := hv.count
  have hi := inv_reach hb.todo h
  have hsub : (s.recorded.map (·.1)).Sublist (s.taken ++ s.queue.map (·.1)) := by
    have hrec := hv.rec_
    have key : ∀ k, k ≤ s.queue.length → ∀ pre : List Str, pre.Sublist s.taken →
        s.recorded.map (·.1) = pre ++ (s.queue.take k).map (·.1) →
        (s.recorded.map (·.1)).Sublist (s.taken ++ s.queue.map (·.1)) := by
      intro k _ pre h2 h3
      rw [h3]
      exact h2.append ((List.take_sublist k s.queue).map _)
    cases hrp : s.rpc with
    | check => rw [hrp] at hrec; rw [show s.recorded.map (·.1) = s.taken from hrec]; exact List.sublist_append_left _ _
    | waiting => rw [hrp] at hrec; rw [hrec.1]; exact List.sublist_append_left _ _
    | reviewing r =>
      rw [hrp] at hrec
      rw [← show s.recorded.map (·.1) ++ [r.1] = s.taken from hrec, List.append_assoc]
      exact List.sublist_append_left _ _
    | leftover k x =>
      rw [hrp] at hrec
      obtain ⟨k1, pre, k2, k3⟩ := hrec
      exact key k k1 pre k2 k3
    | ended x =>
      rw [hrp] at hrec
      obtain ⟨k, k1, pre, k2, k3⟩ := hrec
      exact key k k1 pre k2 k3
  have hnd : (s.taken ++ s.queue.map (·.1)).Nodup := by
    have := (hcount.nodup_iff).mpr hi.parts.1
    exact (List.nodup_append.mp (List.nodup_append.mp this).1).1
  refine ⟨hnd.sublist hsub, ?_, ?_⟩
  · intro x hx
    have h1 := hsub.subset (List.mem_map.mpr ⟨x, hx, rfl⟩)
    have hd : x.1 ∈ s.done := hcount.mem_iff.mp
      (List.mem_append.mpr (Or.inl (List.mem_append.mpr (Or.inl h1))))
    exact ⟨hi.sub _ ((hi.mem_started _).mpr (Or.inl hd)), hi.doneReady _ hd⟩
  · intro x hx
    obtain ⟨r, ⟨b, g1, g2⟩, h2, h3, h4⟩ := hv.recorded x hx
    rw [h2] at g1 g2
    exact ⟨b, r, g1, g2, h3, h4⟩

/-- A completed run of the four tests: all of them were started, and are recorded. -/
example : ∃ s, PReach fourTests s ∧ s.rpc = .ended false ∧ (s.recorded.map (·.1)).Perm fourTests.todo ∧
    "t/b".toList ∈ s.started ∧ "t/a".toList ∈ fourTests.deps "t/b".toList := by
  obtain ⟨s0, h0, hra, hrb, h1, h2⟩ := fourTests_running
  obtain ⟨s, h3, h4, h5⟩ := C38_completes fourTests_acyclic fourTests_behaved fourTests_able h0 h1 h2
  have hr : PReach fourTests s := by
    clear h1 h2 h4 h5 hra hrb
    induction h3 with
    | refl => exact h0
    | step hs _ ih => exact ih (h0.step hs)
  refine ⟨s, hr, h4, h5, ?_, by decide⟩
  obtain ⟨x, hx, he⟩ := List.mem_map.mp (h5.mem_iff.mpr
    (show "t/b".toList ∈ fourTests.todo by decide))
  exact (inv_reach fourTests_behaved.todo hr).readySub _
    (he ▸ ((C39_genuine fourTests_behaved.named hr).2.1 x hx).2)

/-! ### C40 -/

/-- A worker that runs its test to the end leaves a report of it, from which the record is read
back. -/
theorem C40_complete_partial (c : PConf fl) (cfg : Config) (outcome : List Str → Str → Outcome fl)
    (n : Str) (hn : CleanName n) {res : Result} {q : Request} {d : fl.D}
    (ho : outcome [] n = some (res, q, d)) :
    collectOne c n (applyEvs none (runAsync c.u fl { cfg with cont := false } outcome [n] none).1)
      = some (n, .res res, d) := by
  have hfile : applyEvs none (runAsync c.u fl { cfg with cont := false } outcome [n] none).1
      = some (encode (toText fl [(n, res, d)])) := by
    have e1 : runAsync c.u fl { cfg with cont := false } outcome [n] none =
        (.truncate :: (runLoop fl { cfg with cont := false } outcome [] .OK 0 [n]).1,
          (runLoop fl { cfg with cont := false } outcome [] .OK 0 [n]).2) := rfl
    rw [e1]
    have e2 : (runLoop fl { cfg with cont := false } outcome [] .OK 0 [n]).1 =
        [.exec n (some (res, q, d)), .write (n, res, d)] := by
      simp only [runLoop, ho]
      split <;> simp
    rw [e2]
    simp [applyEvs, applyEv, toText]
  rw [hfile]
  unfold collectOne
  dsimp only
  rw [C23_round_trip c.u fl [(n, res, d)] (by simpa using hn)]

/-- A worker whose test raises something that escapes (an error while accepting, for example) leaves
an empty report, on which the scheduler thread dies. -/
theorem C40_empty_refuted (c : PConf fl) (cfg : Config) (outcome : List Str → Str → Outcome fl)
    (n : Str) (ho : outcome [] n = none) :
    collectOne c n (applyEvs none (runAsync c.u fl { cfg with cont := false } outcome [n] none).1)
      = none := by
  have e1 : (runAsync c.u fl { cfg with cont := false } outcome [n] none).1 =
      [.truncate, .exec n none] := by
    have e1 : runAsync c.u fl { cfg with cont := false } outcome [n] none =
        (.truncate :: (runLoop fl { cfg with cont := false } outcome [] .OK 0 [n]).1,
          (runLoop fl { cfg with cont := false } outcome [] .OK 0 [n]).2) := rfl
    rw [e1]
    simp [runLoop, ho]
  rw [e1]
  have e2 : ofFile c.u fl (some []) = some [] := by
    have := C23_round_trip c.u fl [] (by simp)
    simpa [toText, encode] using this
  simp [applyEvs, applyEv, collectOne, e2]

/-- Once the scheduler thread has died while the main thread waits for a report, only an interrupt
ends the run: the main thread waits forever. -/
theorem C40_hang_refuted {c : PConf fl} {s t : PSt fl} (hs : PSteps c s t) (h1 : s.spc = .crashed)
    (h2 : s.rpc = .waiting) (h3 : s.queue = []) :
    t.abort = true ∨ (t.spc = .crashed ∧ t.rpc = .waiting ∧ t.queue = [] ∧ t.recorded = s.recorded) := by
  have gen : ∀ {s t : PSt fl}, PSteps c s t → ∀ rec_, (s.abort = true ∨ (s.spc = .crashed ∧
      s.rpc = .waiting ∧ s.queue = [] ∧ s.recorded = rec_)) → (t.abort = true ∨ (t.spc = .crashed ∧
      t.rpc = .waiting ∧ t.queue = [] ∧ t.recorded = rec_)) := by
    intro s t hs
    induction hs with
    | refl => exact fun _ h => h
    | step hstep _ ih =>
      intro rec_ h
      refine ih rec_ ?_
      rcases h with h | ⟨a1, a2, a3, a4⟩
      · left
        cases hstep <;> first | exact h | rfl | (show (_ || _) = true; rw [h]; rfl)
      · cases hstep with
        | planned order l h0 => rw [a1] at h0; cases h0
        | stop h0 => rw [a1] at h0; cases h0
        | start n ns h0 => rw [a1] at h0; cases h0
        | skip n ns h0 => rw [a1] at h0; cases h0
        | startedAll h0 => rw [a1] at h0; cases h0
        | again h0 => rw [a1] at h0; cases h0
        | leave d h0 => rw [a1] at h0; cases h0
        | seeReady n rest d h0 => rw [a1] at h0; cases h0
        | seeBusy n rest d h0 => rw [a1] at h0; cases h0
        | swept d h0 => rw [a1] at h0; cases h0
        | collected d d' rs h0 => rw [a1] at h0; cases h0
        | crash d d' h0 => rw [a1] at h0; cases h0
        | publish rs h0 => rw [a1] at h0; cases h0
        | finish n b => exact Or.inr ⟨a1, a2, a3, a4⟩
        | more h0 => rw [a2] at h0; cases h0
        | noMore h0 => rw [a2] at h0; cases h0
        | take r q h0 hq => rw [a3] at hq; cases hq
        | reviewed r res ab h0 => rw [a2] at h0; cases h0
        | reviewedText r t ab h0 => rw [a2] at h0; cases h0
        | reviewRaises r h0 => rw [a2] at h0; cases h0
        | interrupt h0 => exact Or.inl rfl
        | recordLeft k x n res d h0 => rw [a2] at h0; cases h0
        | recordLeftText k x n t d h0 => rw [a2] at h0; cases h0
        | finished k x h0 => rw [a2] at h0; cases h0
  exact gen hs s.recorded (Or.inr ⟨h1, h2, h3, rfl⟩)

/-- A worker that leaves no report (its setup raised, for example) is not recorded as FAIL: the
made-up record carries a string, on which recording raises `AttributeError`… -/
theorem C40_no_report_refuted (c : PConf fl) (cfg : Config) (hi : cfg.interactive = false)
    (hI : cfg.alwaysInteractive = false) (n : Str) (exp out : Path) (answers : List Str) (fs : FS) :
    ∃ r, collectOne c n none = some r ∧
      caseReview cfg exp out n r.2.1 answers fs = (fs, .done r.2.1 .NONE, answers) ∧
      rawRec (fl := fl) (n, r.2.1, r.2.2) = none := by
  refine ⟨_, rfl, ?_, rfl⟩
  simp [caseReview, hi, hI]

/-- The output of a test whose worker died before it was finished. -/
def partialOutput : FS := [
  (["books".toList], .dir),
  (["books".toList, "t".toList], .dir),
  (["books".toList, ".out".toList], .dir),
  (["books".toList, ".out".toList, "t".toList], .dir),
  (["books".toList, ".out".toList, "t".toList, "a.md".toList], .file "half".toList)]

/-- …and in interactive mode the user is offered to accept it, and it is then recorded as OK. -/
theorem C40_accept_refuted : ∃ r : PRec strokes, collectOne fourTests "t/a".toList none = some r ∧
    (caseReview { interactive := true } ["books".toList] ["books".toList, ".out".toList] "t/a".toList
      r.2.1 ["a".toList] partialOutput).2.1 = .done (.res .OK) .FREEZE :=
  ⟨("t/a".toList, .text "FAIL".toList, (0 : Nat)), rfl, by decide⟩

/-! ### C41 -/

/-- Different tests whose names have no dots have different batch directories. -/
theorem C41_batches_partial {a b : Str} (ha : '.' ∉ a) (hb : '.' ∉ b)
    (h : batchName a = batchName b) : a = b := by
  have key : ∀ n : Str, '.' ∉ n → split '.' (batchName n) = split '/' n := by
    intro n hn
    exact split_join_sep '.' (split_ne_nil _ _) (fun p hp hc => hn ((split_mem '/' n p hp).2 _ hc))
  exact split_inj '/' (by rw [← key a ha, ← key b hb, h])

example : '.' ∉ "book/a".toList ∧ '.' ∉ "book/b".toList := by decide

/-- A dot in a name makes two tests share a batch directory. -/
theorem C41_dots_refuted : ∃ a b : Str, a ≠ b ∧ batchName a = batchName b :=
  ⟨"book/a.b".toList, "book/a/b".toList, by decide, by decide⟩

/-! ### C73 -/

private theorem eq_of_names {l : List (Rec fl)} (h : (l.map (·.1)).Nodup) {x y : Rec fl} (hx : x ∈ l)
    (hy : y ∈ l) (he : x.1 = y.1) : x = y := by
  induction l with
  | nil => cases hx
  | cons z zs ih =>
    rw [List.map_cons, List.nodup_cons] at h
    rcases List.mem_cons.mp hx with h1 | h1 <;> rcases List.mem_cons.mp hy with h2 | h2
    · rw [h1, h2]
    · exact absurd (List.mem_map.mpr ⟨y, h2, by rw [← he, h1]⟩) h.1
    · exact absurd (List.mem_map.mpr ⟨x, h1, by rw [he, h2]⟩) h.1
    · exact ih h.2 h1 h2

/-- The exit code reflects the recorded results while the main loop runs. -/
theorem exit_inv {c : PConf fl} {s : PSt fl} (h : PReach c s) :
    (s.exitCode = 0 ∨ s.exitCode = -1) ∧
    (InLoop s → (s.exitCode = 0 ↔ ∀ x ∈ s.recorded, x.2.1 = .OK)) := by
  induction h with
  | init => exact ⟨Or.inl rfl, fun _ => by simp [PSt.init]⟩
  | @step s t hp hs ih =>
    obtain ⟨i1, i2⟩ := ih
    have same : ∀ r : RPc fl, InLoop s → (InLoop { s with rpc := r } →
        (s.exitCode = 0 ↔ ∀ x ∈ s.recorded, x.2.1 = .OK)) := fun _ hl _ => i2 hl
    cases hs with
    | more h0 hn => exact ⟨i1, fun _ => i2 (Or.inl h0)⟩
    | take r q h0 hq => exact ⟨i1, fun _ => i2 (Or.inr (Or.inl h0))⟩
    | reviewed r res ab h0 hv =>
      have hx := i2 (Or.inr (Or.inr ⟨r, h0⟩))
      refine ⟨?_, fun _ => ?_⟩
      · dsimp only
        split
        · exact Or.inr rfl
        · exact i1
      · dsimp only
        split
        · rename_i hres
          constructor
          · intro h; cases h
          · intro h
            exact absurd (h (r.1, res, r.2.2) (by simp)) hres
        · rename_i hres
          rw [hx]
          have hres' : res = .OK := Decidable.byContradiction hres
          constructor
          · intro h x hxx
            rcases List.mem_append.mp hxx with hxx | hxx
            · exact h x hxx
            · have : x = (r.1, res, r.2.2) := by simpa using hxx
              rw [this]; exact hres'
          · intro h x hxx
            exact h x (by simp [hxx])
    | noMore h0 hn =>
      refine ⟨i1, fun hl => ?_⟩
      rcases hl with hl | hl | ⟨r, hl⟩ <;> cases hl
    | reviewedText r t ab h0 hv =>
      refine ⟨Or.inr rfl, fun hl => ?_⟩
      rcases hl with hl | hl | ⟨r, hl⟩ <;> cases hl
    | reviewRaises r h0 hv =>
      refine ⟨i1, fun hl => ?_⟩
      rcases hl with hl | hl | ⟨r, hl⟩ <;> cases hl
    | interrupt h0 =>
      refine ⟨i1, fun hl => ?_⟩
      rcases hl with hl | hl | ⟨r, hl⟩ <;> cases hl
    | recordLeft k x n res d h0 hq =>
      refine ⟨i1, fun hl => ?_⟩
      rcases hl with hl | hl | ⟨r, hl⟩ <;> cases hl
    | recordLeftText k x n t d h0 hq =>
      refine ⟨i1, fun hl => ?_⟩
      rcases hl with hl | hl | ⟨r, hl⟩ <;> cases hl
    | finished k x h0 hq =>
      refine ⟨i1, fun hl => ?_⟩
      rcases hl with hl | hl | ⟨r, hl⟩ <;> cases hl
    | _ => exact ⟨i1, i2⟩

/-- If a parallel run is not aborted, its exit code is 0 exactly if every test to be run was recorded
as OK. -/
theorem C73_exit_code_partial {c : PConf fl} (hb : Behaved c) {s : PSt fl} (h : PReach c s)
    (hr : s.rpc = .check) (hab : s.abort = false) (hn : hasNext s = false) :
    s.exitCode = 0 ↔ ∀ n ∈ c.todo, ∃ d, (n, Result.OK, d) ∈ s.recorded := by
  have hall := (C39_all_recorded hb h hr hab hn).1
  rw [(exit_inv h).2 (Or.inl hr)]
  constructor
  · intro hk n hnt
    obtain ⟨x, hx, rfl⟩ := List.mem_map.mp (hall.mem_iff.mpr hnt)
    have := hk x hx
    obtain ⟨a, b, d⟩ := x
    simp only at this
    subst this
    exact ⟨d, hx⟩
  · intro hk x hx
    have hnt : x.1 ∈ c.todo := hall.mem_iff.mp (List.mem_map.mpr ⟨x, hx, rfl⟩)
    obtain ⟨d, hd⟩ := hk x.1 hnt
    have hnd := (C39_genuine hb.named h).1
    rw [eq_of_names hnd hx hd rfl]

/-- An aborted run may end with exit code 0 although a failed test was recorded: the results recorded
after an interrupt do not count. -/
theorem C73_interrupt_refuted : ∃ s : PSt strokes, PReach failing s ∧ s.rpc = .ended false ∧
    s.exitCode = 0 ∧ s.recorded = [("t/a".toList, .FAIL, (0 : Nat))] := by
  let n := "t/a".toList
  let b : Option Bytes := some (encode (toText strokes [(n, Result.FAIL, (0 : Nat))]))
  have hc : collectOne failing n b = some (n, .res .FAIL, (0 : Nat)) :=
    collect_complete failing (n := n) (by unfold CleanName; decide) .FAIL (0 : Nat)
  have h0 : PReach failing _ := .init
  have h1 := h0.step (.planned _ [n] [n] rfl (by decide) rfl (List.Perm.refl _) (List.Perm.refl _))
  have h2 := h1.step (.start _ n [] rfl (by decide))
  have h3 := h2.step (.startedAll _ rfl)
  have h4 := h3.step (.finish _ n b (by simp [PSt.init]) (by simp [PSt.init]) rfl)
  have h5 := h4.step (.again _ rfl rfl)
  have h6 := h5.step (.seeReady _ n [] [] rfl (by simp [PSt.init]))
  have h7 := h6.step (.swept _ [n] rfl)
  have h8 := h7.step (.leave _ [n] rfl (Or.inl (by simp)))
  have h9 := h8.step (.collected _ [n] [n] [(n, .res .FAIL, (0 : Nat))] rfl (List.Perm.refl _)
    (by
      have e : (if batchName n = batchName n then b else none) = b := if_pos rfl
      show [n].mapM (fun m => collectOne failing m (if batchName m = batchName n then b else none)) = _
      rw [List.mapM_cons, List.mapM_nil, e, hc]
      rfl))
  have h10 := h9.step (.publish _ _ rfl)
  have h11 := h10.step (.interrupt _ (Or.inl rfl))
  have h12 := h11.step (.recordLeft _ 0 false n .FAIL (0 : Nat) rfl rfl)
  have h13 := h12.step (.finished _ 1 false rfl rfl)
  exact ⟨_, h13, rfl, rfl, rfl⟩

end Verif.Props
