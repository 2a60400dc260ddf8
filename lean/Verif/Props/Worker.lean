import Verif.Model.Worker
import Verif.Spec.Setup
import Verif.Props.Parallel

/-! # C102: the workers of a parallel run -/

namespace Verif.Props
open Verif.Py Verif.Model Verif.Spec Verif.Lemmas

/-! ### The process setup -/

section Setup

variable {S E : Type}

/-- The setup reaches its `yield`, then the tests end with `r` in the world `s2`. -/
def TestsEnd (setup : Gen S E) (run : Body S E Result) (s : S) (g : setup.G) (s2 : S) (r : Except E Result) :
    Prop :=
  ∃ s1, setup.next setup.start s = (s1, .yielded g) ∧ run s1 = (s2, r)

/-- **C102**: a sequential run returns an exit code iff the setup, the tests and the teardown end without
an exception, and then it is that of the tests. -/
theorem C102_sequential (noYield : E) (setup : Gen S E) (run : Body S E Result) (s : S) (code : Int) :
    (runTests noYield (some setup) run s).2 = .ok code ↔
      ∃ g s2 r, TestsEnd setup run s g s2 (.ok r) ∧ (∀ e, (setup.next g s2).2 ≠ .raised e) ∧
        exitCode r = code := by
  unfold runTests withProcessSetup withSetup TestsEnd
  dsimp only [Option.getD_some]
  rcases h1 : setup.next setup.start s with ⟨s1, g | _ | e⟩
  · dsimp only
    rcases h2 : run s1 with ⟨s2, e | r⟩
    · dsimp only
      have key : ¬ ∃ g' s2' r', (∃ s1', (s1, (Next.yielded g : Next setup.G E)) = (s1', .yielded g') ∧
          run s1' = (s2', .ok r')) ∧ (∀ e, (setup.next g' s2').2 ≠ .raised e) ∧ exitCode r' = code := by
        rintro ⟨g', s2', r', ⟨s1', h4, h5⟩, -⟩
        cases h4; rw [h2] at h5; cases h5
      rcases h3 : setup.next g s2 with ⟨s3, g' | _ | e'⟩ <;> dsimp only <;>
        exact iff_of_false (by intro h; cases h) key
    · dsimp only
      rcases h3 : setup.next g s2 with ⟨s3, g' | _ | e⟩ <;> dsimp only
      · constructor
        · intro h
          cases h
          exact ⟨g, s2, r, ⟨s1, rfl, h2⟩, (fun e => by rw [h3]; intro h; cases h), rfl⟩
        · rintro ⟨g', s2', r', ⟨s1', h4, h5⟩, -, h6⟩
          cases h4; rw [h2] at h5; cases h5; rw [h6]
      · constructor
        · intro h
          cases h
          exact ⟨g, s2, r, ⟨s1, rfl, h2⟩, (fun e => by rw [h3]; intro h; cases h), rfl⟩
        · rintro ⟨g', s2', r', ⟨s1', h4, h5⟩, -, h6⟩
          cases h4; rw [h2] at h5; cases h5; rw [h6]
      · constructor
        · intro h; cases h
        · rintro ⟨g', s2', r', ⟨s1', h4, h5⟩, h6, -⟩
          cases h4; rw [h2] at h5; cases h5
          exact absurd (by rw [h3]) (h6 e)
  · constructor
    · intro h; cases h
    · rintro ⟨g', s2', r', ⟨s1', h4, -⟩, -⟩; cases h4
  · constructor
    · intro h; cases h
    · rintro ⟨g', s2', r', ⟨s1', h4, -⟩, -⟩; cases h4

/-- **C102**: a worker returns an exit code iff the setup and the test end without an exception: what the
teardown raises (of class `Exception`) is only printed. -/
theorem C102_batch (noYield unbound : E) (isException : E → Bool) (setup : Gen S E) (run : Body S E Result)
    (s : S) (code : Int)
    (hx : ∀ g s2 r, TestsEnd setup run s g s2 r → ∀ e, (setup.next g s2).2 = .raised e → isException e = true) :
    (runBatch noYield unbound isException (some setup) run s).2 = .ok code ↔
      ∃ g s2 r, TestsEnd setup run s g s2 (.ok r) ∧ exitCode r = code := by
  unfold TestsEnd at hx ⊢
  obtain ⟨G, start, next⟩ := setup
  dsimp only at hx ⊢
  simp only [runBatch, withProcessSetup, withSetup, besides, Option.map_some, Option.getD_some]
  rcases h1 : next start s with ⟨s1, g | _ | e⟩
  · simp only []
    rcases h2 : run s1 with ⟨s2, e | r⟩
    · dsimp only
      have key : ¬ ∃ g' s2' r', (∃ s1', (s1, (Next.yielded g : Next G E)) = (s1', .yielded g') ∧
          run s1' = (s2', .ok r')) ∧ exitCode r' = code := by
        rintro ⟨g', s2', r', ⟨s1', h4, h5⟩, -⟩
        cases h4; rw [h2] at h5; cases h5
      rcases h3 : next g s2 with ⟨s3, g' | _ | e'⟩ <;> dsimp only <;>
        (refine iff_of_false ?_ key; split <;> intro h <;> cases h)
    · dsimp only
      have key : (∃ g' s2' r', (∃ s1', (s1, (Next.yielded g : Next G E)) = (s1', .yielded g') ∧
          run s1' = (s2', .ok r')) ∧ exitCode r' = code) ↔ exitCode r = code := by
        constructor
        · rintro ⟨g', s2', r', ⟨s1', h4, h5⟩, h6⟩
          cases h4; rw [h2] at h5; cases h5; exact h6
        · intro h; exact ⟨g, s2, r, ⟨s1, rfl, h2⟩, h⟩
      rw [key]
      rcases h3 : next g s2 with ⟨s3, g' | _ | e'⟩ <;> dsimp only
      · exact ⟨fun h => by cases h; rfl, fun h => by rw [h]⟩
      · exact ⟨fun h => by cases h; rfl, fun h => by rw [h]⟩
      · rw [if_pos (hx g s2 (.ok r) ⟨s1, h1, h2⟩ e' (by rw [h3]))]
        exact ⟨fun h => by cases h; rfl, fun h => by rw [h]⟩
  · refine iff_of_false ?_ ?_
    · dsimp only; split <;> intro h <;> cases h
    · rintro ⟨g', s2', r', ⟨s1', h4, -⟩, -⟩; cases h4
  · refine iff_of_false ?_ ?_
    · dsimp only; split <;> intro h <;> cases h
    · rintro ⟨g', s2', r', ⟨s1', h4, -⟩, -⟩; cases h4

/-- A teardown that raises makes a sequential run raise, and is ignored in parallel runs. -/
theorem C102_teardown_refuted : ∃ (setup : Gen Unit Unit) (run : Body Unit Unit Result),
    (∃ g, setup.next setup.start () = ((), .yielded g) ∧ (setup.next g ()).2 = .raised ()) ∧
    (runTests () (some setup) run ()).2 = .error () ∧
    (runBatch () () (fun _ => true) (some setup) run ()).2 = .ok 0 :=
  ⟨{ G := Bool, start := true, next := fun g s => (s, if g then .yielded false else .raised ()) },
    fun s => (s, .ok .OK), ⟨false, rfl, rfl⟩, rfl, rfl⟩

/-- The setup that is used if there is none does nothing: both return the exit code of the tests. -/
theorem C102_no_setup (noYield unbound : E) (isException : E → Bool) (run : Body S E Result) (s s' : S)
    (r : Result) (h : run s = (s', .ok r)) :
    runTests noYield none run s = (s', .ok (exitCode r)) ∧
    runBatch noYield unbound isException none run s = (s', .ok (exitCode r)) := by
  constructor
  · simp only [runTests, withProcessSetup, withSetup, Option.getD_none, emptySetup, if_true, h]
    rfl
  · simp only [runBatch, withProcessSetup, withSetup, Option.map_none, Option.getD_none, emptySetup, if_true, h]
    rfl

end Setup

/-! ### Never asking -/

/-- **C102**: a worker asks the user nothing: its reviews are the same whatever answers there are, and
consume none. -/
theorem C102_never_asks (cfg : Config) (exp out : Path) (name : Str) (result : Raw) (answers : List Str)
    (fs : FS) :
    caseReview (jobConfig cfg) exp out name result answers fs =
      ((caseReview (jobConfig cfg) exp out name result [] fs).1,
        (caseReview (jobConfig cfg) exp out name result [] fs).2.1, answers) ∧
    (caseReview (jobConfig cfg) exp out name result answers fs).2.1 ≠ .eof ∧
    ∀ rv q, (caseReview (jobConfig cfg) exp out name result answers fs).2.1 = .done rv q → q = .NONE := by
  unfold caseReview jobConfig
  simp only [Bool.false_or, Bool.and_false, Bool.false_eq_true, if_false, reduceCtorEq, false_or]
  by_cases h : (result = .res .OK ∧ cfg.update = true) ∨ (result = .res .DIFF ∧ cfg.accept = true)
  · simp only [h, if_true]
    rcases freezeCase exp out name fs with ⟨fs', _ | x⟩ <;> dsimp only
    · exact ⟨rfl, by simp, fun rv q h => by cases h; rfl⟩
    · exact ⟨rfl, by simp, fun rv q h => by cases h⟩
  · simp only [h, if_false]
    exact ⟨trivial, by simp, fun rv q h => by cases h; rfl⟩

example : caseReview (jobConfig { interactive := true, cont := true }) [] [] "a".toList (.res .DIFF) [] [] =
    ([], .done (.res .DIFF) .NONE, []) ∧
    (caseReview { interactive := true, cont := true } [] [] "a".toList (.res .DIFF) [] []).2.1 = .eof := by decide

/-! ### What workers leave -/

variable {fl : Durations}

/-- **C102**: the record that is collected for a test is made up (there is no report), or it is the result
with which the test ended in its worker, which has executed it. -/
theorem C102_collected (c : PConf fl) (cfg : Config) (outcome : Str → List Str → Str → Outcome fl) (n : Str)
    (hn : CleanName n) (b : Option Bytes) (hb : WorkerLeaves c.u fl cfg outcome n b) (r : PRec fl)
    (hr : collectOne c n b = some r) :
    r.1 = n ∧ ((b = none ∧ r.2.1 = .text "FAIL".toList) ∨
      ∃ res q d, outcome n [] n = some (res, q, d) ∧ r.2.1 = .res res) := by
  obtain ⟨evs, hst⟩ := hb
  have htr : (workerTrace c.u fl cfg (outcome n) n).1 =
      .truncate :: (runLoop fl (jobConfig cfg) (outcome n) [] .OK 0 [n]).1 := rfl
  rw [htr] at hst
  cases ho : outcome n [] n with
  | none =>
    have e2 : (runLoop fl (jobConfig cfg) (outcome n) [] .OK 0 [n]).1 = [.exec n none] := by
      simp [runLoop, ho]
    rw [e2] at hst
    rcases stops_file (by simp) hst with ⟨-, rfl⟩ | ⟨evs', p, b, -, hp, rfl, hb, -⟩
    · cases hr; exact ⟨rfl, .inl ⟨rfl, rfl⟩⟩
    · exfalso
      have hw : writes p = [] := by
        obtain ⟨q, hq⟩ := hp
        have := congrArg writes hq
        rw [writes_append] at this
        exact (List.append_eq_nil_iff.mp this).1
      unfold collectOne at hr
      dsimp only at hr
      cases hf : ofFile c.u fl (some b) with
      | none => rw [hf] at hr; cases hr
      | some rs =>
        rw [hf] at hr
        have := (C24_torn c.u fl (writes p) (by rw [hw]; simp) b hb rs hf).1
        rw [hw] at this
        cases rs with
        | nil => cases hr
        | cons x xs => simp at this
  | some o =>
    obtain ⟨res, q, d⟩ := o
    have e2 : (runLoop fl (jobConfig cfg) (outcome n) [] .OK 0 [n]).1 =
        [.exec n (some (res, q, d)), .write (n, res, d)] := by
      simp only [runLoop, ho]
      split <;> simp
    rw [e2] at hst
    rcases stops_file (by simp) hst with ⟨-, rfl⟩ | ⟨evs', p, b, -, hp, rfl, hb, -⟩
    · cases hr; exact ⟨rfl, .inl ⟨rfl, rfl⟩⟩
    · have hw : ∀ w ∈ writes p, w = (n, res, d) := by
        intro w hw
        obtain ⟨t, ht⟩ := hp
        have := congrArg writes ht
        rw [writes_append] at this
        have hm : w ∈ writes p ++ writes t := List.mem_append_left _ hw
        rw [this] at hm
        simpa [writes] using hm
      unfold collectOne at hr
      dsimp only at hr
      cases hf : ofFile c.u fl (some b) with
      | none => rw [hf] at hr; cases hr
      | some rs =>
        rw [hf] at hr
        have := (C24_torn c.u fl (writes p) (fun w h => by rw [hw w h]; exact hn) b hb rs hf).1
        cases rs with
        | nil => cases hr
        | cons x xs =>
          cases hr
          have hk : key x ∈ (writes p).map key := this.subset (by simp)
          obtain ⟨w, hw1, hw2⟩ := List.mem_map.mp hk
          rw [hw w hw1] at hw2
          have e3 : n = x.1 := congrArg (fun y : Str × Result => y.1) hw2
          have e4 : res = x.2.1 := congrArg (fun y : Str × Result => y.2) hw2
          exact ⟨e3.symm, .inr ⟨res, q, d, rfl, by rw [e4]⟩⟩

/-- A worker that ends, one that dies while it writes the record, and one whose test raised. -/
private def workers (n : Str) (_ : List Str) (_ : Str) : Outcome strokes :=
  if n = "t/c".toList then none else some (.DIFF, .NONE, (2 : Nat))

private def recordA : Rec strokes := ("t/a".toList, .DIFF, (2 : Nat))

private theorem workersA : (workerTrace ascii strokes {} (workers "t/a".toList) "t/a".toList).1 =
    [.truncate, .exec "t/a".toList (some (.DIFF, .NONE, (2 : Nat)))] ++ .write recordA :: [] := rfl

example : WorkerLeaves ascii strokes {} workers "t/a".toList (some (encode (caseLine strokes recordA))) ∧
    (∀ b, b <+: encode (caseLine strokes recordA) →
      WorkerLeaves ascii strokes {} workers "t/a".toList (some b)) ∧
    WorkerLeaves ascii strokes {} workers "t/c".toList (some []) ∧
    WorkerLeaves ascii strokes {} workers "t/c".toList none := by
  have h2 : ∀ b, b <+: encode (caseLine strokes recordA) →
      WorkerLeaves ascii strokes {} workers "t/a".toList (some b) := by
    intro b hb
    exact ⟨_, Stops.torn _ [] recordA b workersA hb⟩
  exact ⟨h2 _ List.prefix_rfl, h2, ⟨[.truncate, .exec "t/c".toList none], Stops.clean _ [] rfl⟩,
    ⟨[], Stops.clean [] _ rfl⟩⟩

/-- **C102**: whatever workers do (end, fail in the setup, raise, die at any point), their reports are
about their own test, if the names of the tests have no dots, tabs or line breaks. -/
theorem C102_named (c : PConf fl) (cfg : Config) (outcome : Str → List Str → Str → Outcome fl)
    (hl : c.leaves = WorkerLeaves c.u fl cfg outcome) (ht : c.todo.Nodup)
    (hn : ∀ n ∈ c.todo, CleanName n ∧ '.' ∉ n) : Named c :=
  ⟨ht, fun a ha b hb h => C41_batches_partial (hn a ha).2 (hn b hb).2 h, fun n hm b hb r hr =>
    (C102_collected c cfg outcome n (hn n hm).1 b (hl ▸ hb) r hr).1⟩

/-- Four tests with such workers. -/
private def fourWorkers : PConf strokes := { fourTests with leaves := WorkerLeaves ascii strokes {} workers }

example : fourWorkers.leaves = WorkerLeaves fourWorkers.u strokes {} workers ∧ fourWorkers.todo.Nodup ∧
    ∀ n ∈ fourWorkers.todo, CleanName n ∧ '.' ∉ n := by
  refine ⟨rfl, by decide, ?_⟩
  unfold CleanName
  decide

/-- **C102**: in every state of a parallel run with such workers, every record is of a test that a worker
has executed, with the result that it had there or that the review of that result gave; or it is the
review of a made-up failure. -/
theorem C102_records (c : PConf fl) (cfg : Config) (outcome : Str → List Str → Str → Outcome fl)
    (hl : c.leaves = WorkerLeaves c.u fl cfg outcome) (ht : c.todo.Nodup)
    (hn : ∀ n ∈ c.todo, CleanName n ∧ '.' ∉ n) {s : PSt fl} (h : PReach c s) :
    ∀ x ∈ s.recorded,
      (∃ res q d, outcome x.1 [] x.1 = some (res, q, d) ∧
        (x.2.1 = res ∨ ∃ d' ab, c.review (x.1, .res res, d') (.res x.2.1) ab)) ∨
      ∃ d' ab, c.review (x.1, .text "FAIL".toList, d') (.res x.2.1) ab := by
  intro x hx
  have hnm := C102_named c cfg outcome hl ht hn
  obtain ⟨-, h1, h2⟩ := C39_genuine hnm h
  obtain ⟨b, r, h3, h4, h5, h6⟩ := h2 x hx
  obtain ⟨h7, h8⟩ := C102_collected c cfg outcome x.1 (hn x.1 (h1 x hx).1).1 b (hl ▸ h3) r h4
  obtain ⟨r1, r2, r3⟩ := r
  dsimp only at h5 h6 h7 h8
  subst h7
  rcases h8 with ⟨-, rfl⟩ | ⟨res, q, d, ho, rfl⟩
  · rcases h6 with ⟨ab, h6⟩ | h6
    · exact .inr ⟨_, ab, h6⟩
    · cases h6
  · refine .inl ⟨res, q, d, ho, ?_⟩
    rcases h6 with ⟨ab, h6⟩ | h6
    · exact .inr ⟨_, ab, h6⟩
    · cases h6; exact .inl rfl

end Verif.Props
