import Verif.Spec.Asking
import Verif.Lemmas.ParallelRun
import Verif.Props.Parallel
import Verif.Props.Provenance

/-! # C118: parallel runs and their files -/

namespace Verif.Props
open Verif.Py Verif.Model Verif.Spec Verif.Lemmas

variable {fl : Durations} {c : RConf fl} {fs : FS} {ans : List Str} {s : RSt fl} {ns : List Str}

/-! ### Scheduling -/

private theorem run_scheduled (H : RReach c fs ans s) : PReach c.pconf s.run ∧ (∀ n ∈ s.ran, n ∈ s.run.started) ∧
    ∀ n, s.reports n = none ∨ s.reports n = some [] ∨ ∃ v, s.reports n = some [(n, v, c.dur n)] := by
  induction H with
  | init => exact ⟨.init, fun _ h => (by cases h), fun _ => Or.inl rfl⟩
  | @step s s' H hs ih =>
    obtain ⟨i1, i2, i3⟩ := ih
    have started : ∀ {p : PSt fl}, PStep c.pconf s.run p → ∀ n ∈ s.ran, n ∈ p.started := by
      intro p hp n hn
      have := i2 n hn
      cases hp <;> first | exact this | exact List.mem_append_left _ this
    cases hs with
    | scheduler p h _ _ => exact ⟨i1.step h, started h, i3⟩
    | main p h _ _ _ => exact ⟨i1.step h, started h, i3⟩
    | opens n hn h =>
      refine ⟨i1, i2, fun m => ?_⟩
      dsimp only
      split
      · exact Or.inr (Or.inl rfl)
      · exact i3 m
    | works n g t hn h ht =>
      refine ⟨i1, fun m hm => ?_, i3⟩
      rcases List.mem_append.mp hm with hm | hm
      · exact i2 m hm
      · rw [List.mem_singleton.mp hm]; exact hn.1
    | writes n r q hn h hd =>
      refine ⟨i1, i2, fun m => ?_⟩
      dsimp only
      split
      · rename_i e
        subst e
        exact Or.inr (Or.inr ⟨r, rfl⟩)
      · exact i3 m
    | indexes n rec g a hn h hi hx => exact ⟨i1, i2, i3⟩
    | ends n hn ho =>
      refine ⟨i1.step (PStep.finish s.run n _ hn.1 hn.2 ?_), i2, i3⟩
      rcases i3 n with e | e | ⟨v, e⟩
      · exact Or.inl (by rw [e]; rfl)
      · exact Or.inr (Or.inl (by rw [e]; rfl))
      · exact Or.inr (Or.inr ⟨v, by rw [e]; rfl⟩)
    | takes r q v rest h hq hv => exact ⟨i1.step (PStep.take s.run r q h hq), i2, i3⟩
    | takesEof r q h hq hv => exact ⟨i1.step (PStep.take s.run r q h hq), i2, i3⟩
    | reviews r v g t h hv ht => exact ⟨i1, i2, i3⟩
    | reviewed r v res x q h hv ht hf =>
      exact ⟨i1.step (PStep.reviewed (c := c.pconf) s.run r res _ h trivial), i2, i3⟩
    | reviewedText r v t x q h hv ht hf =>
      exact ⟨i1.step (PStep.reviewedText (c := c.pconf) s.run r t _ h trivial), i2, i3⟩
    | reviewRaises r h hv => exact ⟨i1.step (PStep.reviewRaises (c := c.pconf) s.run r h trivial), i2, i3⟩
    | interrupt r h => exact ⟨i1.step (PStep.interrupt (c := c.pconf) s.run (Or.inr (Or.inr ⟨r, h⟩))), i2, i3⟩

theorem report_shape' (H : RReach c fs ans s) (n : Str) :
    s.reports n = none ∨ s.reports n = some [] ∨ ∃ v, s.reports n = some [(n, v, c.dur n)] := (run_scheduled H).2.2 n

theorem run_reach (H : RReach c fs ans s) : PReach c.pconf s.run := (run_scheduled H).1

theorem ran_started (H : RReach c fs ans s) : ∀ n ∈ s.ran, n ∈ s.run.started := (run_scheduled H).2.1

/-- **C118**: a parallel run with its files is scheduled as in C35–C41: two tests whose workers are at work have no
resource in common. -/
theorem C118_exclusive (ht : c.todo.Nodup) (H : RReach c fs ans s) {a b : Str} (ha : s.Works a) (hb : s.Works b)
    (hne : a ≠ b) : ∀ r ∈ c.res a, r ∉ c.res b :=
  C35_exclusive (c := c.pconf) ht (run_scheduled H).1 ha hb hne

/-- **C118**: an operation of a test is executed only after the workers of its dependencies have ended. -/
theorem C118_dependencies (ht : c.todo.Nodup) (H : RReach c fs ans s) {n d : Str} (hn : n ∈ s.ran) (hd : d ∈ c.deps n)
    (hdt : d ∈ c.todo) : d ∈ s.run.ready :=
  C36_dependencies (c := c.pconf) ht (run_scheduled H).1 ((run_scheduled H).2.1 n hn) hd hdt

/-! ### Files -/

/-- **C118**: at any moment of a parallel run, the files are those after the tasks of the tests have been executed in
some order, interleaved operation by operation, though no worker waits for the main thread: each task executes its
test, writes the index or not, and is reviewed, if at all, with the lines the user has left to enter. A test is
recorded at most once, with the result with which its task has ended. -/
theorem C118_refines (ht : Tidy c) (hu : AsksReported c) (H : RReach c fs ans s) :
    ∃ (index : Str → Bool) (rv : Str → Option (List Str)) (trace : List Str) (t : Str → Task),
      Interleaved (fun n => parallelTask c.P c.cfg c.all (index n) (rv n) n) c.todo fs trace s.fs t ∧
      (∀ n l, rv n = some l → l <:+ ans) ∧ (∀ n, n ∈ trace ↔ n ∈ s.ran) ∧ (s.run.recorded.map (·.1)).Nodup ∧
      ∀ x ∈ s.run.recorded, x.1 ∈ c.todo ∧ ∃ q, t x.1 = .done (.done x.2.1 q) := by
  obtain ⟨hw, index, rv, trace, t, hf⟩ := run_inv ht hu H
  obtain ⟨g1, g2, -⟩ := C39_genuine (named_pconf ht) hw.reach
  exact ⟨index, rv, trace, t, hf.inter, fun n l h => (hf.taken n l h).2, hf.trace, g1,
    fun x hx => ⟨(g2 x hx).1, hf.recorded x hx⟩⟩

/-- **C118**: at any moment of a parallel run, tests that no worker has touched have the snapshots and outputs that
they had before. -/
theorem C118_others (ht : Tidy c) (hu : AsksReported c) (hp : PlainNames ns) (hS : SoundTree c.P.root ns fs)
    (hsub : ∀ n ∈ c.todo, n ∈ ns) (H : RReach c fs ans s) {n : Str} (hn : n ∈ ns) (hr : n ∉ s.ran) :
    snapshot c.P.root s.fs n = snapshot c.P.root fs n ∧ outputFile c.P.root s.fs n = outputFile c.P.root fs n := by
  obtain ⟨index, rv, trace, t, h1, -, h3, -⟩ := C118_refines ht hu H
  obtain ⟨-, -, -, d⟩ := during_parallel hp c.cfg hS c.all hsub h1
  have hs := ((d n hn).1 (fun e => hr ((h3 n).mp e))).2
  exact ⟨by rw [snapshot_text, snapshot_text, hs false], hs true⟩

/-- **C118**: at any moment of a parallel run, the snapshot of a test is the one it had before, or the test has been
executed, and all that it printed has been accepted: by an option, or by the user, who entered the last lines of
`ans`. -/
theorem C118_snapshots (ht : Tidy c) (hu : AsksReported c) (hp : PlainNames ns) (hS : SoundTree c.P.root ns fs)
    (hsub : ∀ n ∈ c.todo, n ∈ ns) (H : RReach c fs ans s) {n : Str} (hn : n ∈ ns) :
    SoundTree c.P.root ns s.fs ∧ (snapshot c.P.root s.fs n = snapshot c.P.root fs n ∨
      ∃ text, n ∈ c.todo ∧ n ∈ s.ran ∧ Accepted c.P c.cfg n (snapshot c.P.root fs n) ans text ∧
        snapshot c.P.root s.fs n = some text) := by
  obtain ⟨index, rv, trace, t, h1, h2, h3, -⟩ := C118_refines ht hu H
  obtain ⟨g1, g2⟩ := C104_parallel hp hS hsub h1 hn
  refine ⟨g1, ?_⟩
  by_cases hr : n ∈ s.ran
  · rcases g2 with g2 | ⟨text, k1, ⟨s', l, k2, k3⟩, k4⟩
    · exact Or.inl g2
    · refine Or.inr ⟨text, k1, hr, ⟨s', l, ?_, k3⟩, k4⟩
      cases e : rv n with
      | none =>
        rw [e] at k2
        exact k2.trans (List.nil_suffix ..)
      | some l' =>
        rw [e] at k2
        exact k2.trans (h2 n l' e)
  · exact Or.inl (C118_others ht hu hp hS hsub H hn hr).1

/-- **C118**: at any moment of a parallel run, a recorded test has been executed to the end. All that it printed is in
its output file, the record has its verdict, and the snapshot is as before; or the output has been accepted and is the
snapshot, and the record says `OK`. -/
theorem C118_records (ht : Tidy c) (hu : AsksReported c) (hp : PlainNames ns) (hS : SoundTree c.P.root ns fs)
    (hsub : ∀ n ∈ c.todo, n ∈ ns) (H : RReach c fs ans s) {n : Str} {r : Result} {d : fl.D}
    (hx : (n, r, d) ∈ s.run.recorded) : n ∈ c.todo ∧ n ∈ s.ran ∧
    ∃ text v, Execution.Says ⟨n, c.P, snapshot c.P.root fs n, true⟩ text v ∧
      ((outputFile c.P.root s.fs n = some (.file text) ∧ r = v ∧
          snapshot c.P.root s.fs n = snapshot c.P.root fs n) ∨
        (outputFile c.P.root s.fs n = none ∧ r = .OK ∧ v ≠ .FAIL ∧ snapshot c.P.root s.fs n = some text)) := by
  obtain ⟨index, rv, trace, t, h1, h2, h3, h4, h5⟩ := C118_refines ht hu H
  obtain ⟨k1, q, k2⟩ := h5 _ hx
  have hn := hsub n k1
  obtain ⟨-, -, -, dp⟩ := during_parallel hp c.cfg hS c.all hsub h1
  obtain ⟨j1, j2⟩ := dp n hn
  have k2 : t n = .done (.done r q) := k2
  refine ⟨k1, ?_, ?_⟩
  · apply Decidable.byContradiction
    intro hr
    have := (j1 (fun e => hr ((h3 n).mp e))).1
    rw [k2] at this
    unfold parallelTask at this
    exact caseTask_not_done _ _ _ _ _ _ this.symm
  · rw [k2] at j2
    rcases j2.ended rfl with ⟨text, g1, g2, g3⟩ | ⟨text, v, g1, g2, g3, g4, g5⟩
    · rw [← snapshot_text] at g1
      exact ⟨text, r, g1, Or.inl ⟨g3, rfl, by rw [snapshot_text, snapshot_text, g2]⟩⟩
    · rw [← snapshot_text] at g1
      exact ⟨text, v, g1, Or.inr ⟨g5, g3, g2, by rw [snapshot_text, g4]; rfl⟩⟩

/-! ### A parallel run -/

theorem works_many (H : RReach c fs ans s) (n : Str) (hw : s.Works n) (hr : s.reports n = some []) :
    ∀ (k : Nat) {g : FS} {t : Task}, stepsOf k (s.fs, s.work n) = some (g, t) →
      RReach c fs ans { s with
        fs := g
        work := fun m => if m = n then t else s.work m
        ran := s.ran ++ List.replicate k n } := by
  intro k
  induction k generalizing s with
  | zero =>
    intro g t h
    cases h
    have e : (fun m => if m = n then s.work n else s.work m) = s.work := by
      funext m
      split
      · rename_i e; rw [e]
      · rfl
    rw [e, List.replicate_zero, List.append_nil]
    exact H
  | succ k ih =>
    intro g t h
    rw [stepsOf] at h
    cases hst : (s.work n).step s.fs with
    | none => rw [hst] at h; cases h
    | some x =>
      obtain ⟨g1, t1⟩ := x
      rw [hst] at h
      have := ih (H.step (.works s n g1 t1 hw hr hst)) hw hr (g := g) (t := t) (by simpa using h)
      have e : (fun m => if m = n then t else if m = n then t1 else s.work m) =
          fun m => if m = n then t else s.work m := by
        funext m
        split <;> rfl
      rw [List.append_assoc, e] at this
      exact this

theorem reviews_many (H : RReach c fs ans s) (r : PRec fl) (v : PReview) (h : s.run.rpc = .reviewing r)
    (hv : s.review = some v) : ∀ (k : Nat) {g : FS} {t : Task}, stepsOf k (s.fs, v.task) = some (g, t) →
      RReach c fs ans { s with fs := g, review := some { v with task := t } } := by
  intro k
  induction k generalizing s v with
  | zero => intro g t e; cases e; rw [← hv]; exact H
  | succ k ih =>
    intro g t e
    rw [stepsOf] at e
    cases hst : v.task.step s.fs with
    | none => rw [hst] at e; cases e
    | some x =>
      obtain ⟨g1, t1⟩ := x
      rw [hst] at e
      exact ih (H.step (.reviews s r v g1 t1 h hv hst)) { v with task := t1 } h rfl e

theorem in_check {p : RPc fl} (h : p = .check) : ∀ r, p ≠ .reviewing r := by rw [h]; intro r e; cases e

theorem in_waiting {p : RPc fl} (h : p = .waiting) : ∀ r, p ≠ .reviewing r := by rw [h]; intro r e; cases e

theorem in_leftover {p : RPc fl} {k : Nat} {x : Bool} (h : p = .leftover k x) : ∀ r, p ≠ .reviewing r := by
  rw [h]; intro r e; cases e

theorem in_ended {p : RPc fl} {x : Bool} (h : p = .ended x) : ∀ r, p ≠ .reviewing r := by
  rw [h]; intro r e; cases e

private def prints (x : String) : Project where
  u := ascii
  pointErrorPos := false
  refmt := some
  root := ["books".toList]
  tests := fun n => ⟨⟨[.header "# t".toList, .tln (x.toList ++ n)], none⟩, [], [], none⟩

private theorem empty_sound (ns : List Str) : SoundTree ["books".toList] ns [([], .dir)] := by
  have g : ∀ p, FS.get [([], .dir)] p = if p = [] then some .dir else none := by
    intro p; rw [get_cons]; rfl
  refine ⟨?_, rfl, ?_, ?_, ?_, ?_, ?_⟩
  · intro p c h; rw [g, if_neg (by simp)] at h; cases h
  · intro n _ o q _ t; rw [g]; split <;> simp
  · intro n _ o x hx _; rw [g, if_neg (slot_ne_nil _ o n (Or.inr hx))]; simp
  · intro n _ o x hx t; rw [g]; split <;> simp
  · decide
  · intro q _ t; rw [g]; split <;> simp

private def both : List Str := ["t/a".toList, "t/b".toList]

private theorem both_plain : PlainNames both := by
  refine ⟨?_, ?_⟩
  · intro n hn
    simp only [both, List.mem_cons, List.not_mem_nil, or_false] at hn
    rcases hn with rfl | rfl
    · exact ⟨by decide, by decide, by decide⟩
    · exact ⟨by decide, by decide, by decide⟩
  · unfold NotNested; decide

/-- Two tests with a user who is asked. -/
private def two (early : Prop) : RConf strokes where
  u := ascii
  P := prints "x"
  cfg := { interactive := true }
  all := both
  todo := both
  deps := fun _ => []
  res := fun _ => []
  zero := (0 : Nat)
  dur := fun _ => (1 : Nat)
  breaks := fun _ opened => early ∧ opened = false

private theorem two_tidy (early : Prop) : Tidy (two early) :=
  ⟨(by decide : both.Nodup), (by decide : ∀ a ∈ both, ∀ b ∈ both, batchName a = batchName b → a = b),
    (by unfold CleanName; decide : ∀ n ∈ both, CleanName n)⟩

private theorem two_unasked : AsksReported (two False) := fun _ h => h.1.elim

/-- The workers of two tests are at work at the same time; both of them end, and the user accepts the output of
`t/b`, enters something else for `t/a`, and both are recorded. -/
private theorem two_run : ∃ s, RReach (two False) [([], .dir)] ["v".toList, "a".toList, "c".toList] s ∧
    s.run.recorded = [("t/b".toList, .OK, (1 : Nat)), ("t/a".toList, .DIFF, (1 : Nat))] ∧
    snapshot ["books".toList] s.fs "t/b".toList = some "# t\n\nxt/b\n".toList ∧
    snapshot ["books".toList] s.fs "t/a".toList = none ∧ s.run.rpc = .ended false := by
  have h0 : RReach (two False) [([], .dir)] ["v".toList, "a".toList, "c".toList] _ := .init
  have h1 := h0.step (.scheduler _ _ (.planned _ both both rfl (by decide) rfl (by decide) (by decide)) rfl rfl)
  have h2 := h1.step (.scheduler _ _ (.start _ _ _ rfl (by decide)) rfl rfl)
  have h3 := h2.step (.scheduler _ _ (.start _ _ _ rfl (by decide)) rfl rfl)
  have h4 := h3.step (.opens _ "t/a".toList ⟨by decide, by decide⟩ rfl)
  have h5 := works_many h4 "t/a".toList ⟨by decide, by decide⟩ rfl 7 rfl
  have h6 := h5.step (.opens _ "t/b".toList ⟨by decide, by decide⟩ rfl)
  have h7 := works_many h6 "t/b".toList ⟨by decide, by decide⟩ rfl 5 rfl
  have h8 := works_many h7 "t/a".toList ⟨by decide, by decide⟩ rfl 8 rfl
  have h9 := h8.step (.writes _ "t/a".toList .DIFF .NONE ⟨by decide, by decide⟩ rfl rfl)
  have h10 := h9.step (.indexes _ "t/a".toList _ _ _ ⟨by decide, by decide⟩ rfl rfl rfl)
  have h11 := h10.step (.scheduler _ _ (.startedAll _ rfl) rfl rfl)
  have h12 := works_many h11 "t/b".toList ⟨by decide, by decide⟩ rfl 10 rfl
  have h13 := h12.step (.writes _ "t/b".toList .DIFF .NONE ⟨by decide, by decide⟩ rfl rfl)
  have h14 := h13.step (.indexes _ "t/b".toList _ _ _ ⟨by decide, by decide⟩ rfl rfl rfl)
  have h15 := h14.step (.ends _ "t/b".toList ⟨by decide, by decide⟩ (.whole rfl))
  have h16 := h15.step (.scheduler _ _ (.again _ rfl rfl) rfl rfl)
  have h17 := h16.step (.scheduler _ _ (.seeBusy _ _ _ _ rfl (by decide)) rfl rfl)
  have h18 := h17.step (.scheduler _ _ (.seeReady _ _ _ _ rfl (by decide)) rfl rfl)
  have h19 := h18.step (.scheduler _ _ (.swept _ _ rfl) rfl rfl)
  have h20 := h19.step (.scheduler _ _ (.leave _ _ rfl (Or.inl (by decide))) rfl rfl)
  have h21 := h20.step (.scheduler _ _ (.collected _ _ ["t/b".toList]
    [("t/b".toList, .res .DIFF, (1 : Nat))] rfl (by decide) (by decide +kernel)) rfl rfl)
  have h22 := h21.step (.scheduler _ _ (.publish _ _ rfl) rfl rfl)
  have h23 := h22.step (.main _ _ (.more _ rfl (by decide)) (in_check rfl) (in_waiting rfl) rfl)
  have h24 := h23.step (.takes _ ("t/b".toList, .res .DIFF, (1 : Nat)) [] _ _ rfl (by decide) rfl)
  have h25 := reviews_many h24 _ _ rfl rfl 3 rfl
  have h26 := h25.step (.ends _ "t/a".toList ⟨by decide, by decide⟩ (.whole rfl))
  have h27 := h26.step (.reviewed _ _ _ .OK _ _ rfl rfl rfl rfl)
  have h28 := h27.step (.scheduler _ _ (.planned _ [] [] rfl (by decide) rfl (by decide) (by decide)) rfl rfl)
  have h29 := h28.step (.scheduler _ _ (.startedAll _ rfl) rfl rfl)
  have h30 := h29.step (.scheduler _ _ (.again _ rfl rfl) rfl rfl)
  have h31 := h30.step (.scheduler _ _ (.seeReady _ "t/a".toList [] _ rfl (by decide)) rfl rfl)
  have h32 := h31.step (.scheduler _ _ (.swept _ _ rfl) rfl rfl)
  have h33 := h32.step (.scheduler _ _ (.leave _ _ rfl (Or.inl (by decide))) rfl rfl)
  have h34 := h33.step (.scheduler _ _ (.collected _ _ ["t/a".toList]
    [("t/a".toList, .res .DIFF, (1 : Nat))] rfl (by decide) (by decide +kernel)) rfl rfl)
  have h35 := h34.step (.main _ _ (.more _ rfl (by decide)) (in_check rfl) (in_waiting rfl) rfl)
  have h36 := h35.step (.scheduler _ _ (.publish _ _ rfl) rfl rfl)
  have h37 := h36.step (.takes _ ("t/a".toList, .res .DIFF, (1 : Nat)) [] _ _ rfl (by decide) rfl)
  have h38 := h37.step (.reviewed _ _ _ .DIFF _ _ rfl rfl rfl rfl)
  have h39 := h38.step (.main _ _ (.noMore _ rfl (by decide)) (in_check rfl) (in_leftover rfl) rfl)
  have h40 := h39.step (.main _ _ (.finished _ 0 false rfl rfl) (in_leftover rfl) (in_ended rfl) rfl)
  exact ⟨_, h40, rfl, by decide +kernel, by decide +kernel, rfl⟩

/-- Two tests that may be executed at the same time, and that are recorded as C118 says. -/
example : Tidy (two False) ∧ AsksReported (two False) ∧ PlainNames both ∧
    SoundTree (two False).P.root both [([], .dir)] ∧ (∀ n ∈ (two False).todo, n ∈ both) ∧
    ∃ s, RReach (two False) [([], .dir)] ["v".toList, "a".toList, "c".toList] s ∧
      ("t/b".toList, .OK, (1 : Nat)) ∈ s.run.recorded ∧ ("t/a".toList, .DIFF, (1 : Nat)) ∈ s.run.recorded ∧
      snapshot ["books".toList] s.fs "t/b".toList = some "# t\n\nxt/b\n".toList := by
  obtain ⟨s, h1, h2, h3, -⟩ := two_run
  exact ⟨two_tidy _, two_unasked, both_plain, empty_sound _, fun _ h => h, s, h1, by rw [h2]; exact List.mem_cons_self ..,
    by rw [h2]; exact List.mem_cons_of_mem _ (List.mem_cons_self ..), h3⟩

/-- Two tests that are recorded in their order. -/
theorem in_turn : ∃ (c : RConf strokes) (s : RSt strokes),
    Tidy c ∧ AsksReported c ∧ c.cfg.update = false ∧ c.cfg.accept = false ∧ c.cfg.cont = false ∧ PlainNames c.todo ∧
    SoundTree c.P.root c.todo [([], .dir)] ∧ RReach c [([], .dir)] ["v".toList, "a".toList, "c".toList] s ∧
    s.run.rpc = .check ∧ s.run.recorded.map (·.1) = c.todo ∧ s.run.recorded.map (·.2.1) = [.OK, .DIFF] ∧
    snapshot c.P.root s.fs "t/a".toList = some "# t\n\nxt/a\n".toList := by
  have h0 : RReach (two False) [([], .dir)] ["v".toList, "a".toList, "c".toList] _ := .init
  have h1 := h0.step (.scheduler _ _ (.planned _ both both rfl (by decide) rfl (by decide) (by decide)) rfl rfl)
  have h2 := h1.step (.scheduler _ _ (.start _ _ _ rfl (by decide)) rfl rfl)
  have h3 := h2.step (.scheduler _ _ (.start _ _ _ rfl (by decide)) rfl rfl)
  have h4 := h3.step (.opens _ "t/a".toList ⟨by decide, by decide⟩ rfl)
  have h5 := works_many h4 "t/a".toList ⟨by decide, by decide⟩ rfl 15 rfl
  have h6 := h5.step (.opens _ "t/b".toList ⟨by decide, by decide⟩ rfl)
  have h7 := works_many h6 "t/b".toList ⟨by decide, by decide⟩ rfl 15 rfl
  have h8 := h7.step (.writes _ "t/a".toList .DIFF .NONE ⟨by decide, by decide⟩ rfl rfl)
  have h9 := h8.step (.indexes _ "t/a".toList _ _ _ ⟨by decide, by decide⟩ rfl rfl rfl)
  have h10 := h9.step (.writes _ "t/b".toList .DIFF .NONE ⟨by decide, by decide⟩ rfl rfl)
  have h11 := h10.step (.indexes _ "t/b".toList _ _ _ ⟨by decide, by decide⟩ rfl rfl rfl)
  have h12 := h11.step (.ends _ "t/a".toList ⟨by decide, by decide⟩ (.whole rfl))
  have h13 := h12.step (.ends _ "t/b".toList ⟨by decide, by decide⟩ (.whole rfl))
  have h14 := h13.step (.scheduler _ _ (.startedAll _ rfl) rfl rfl)
  have h15 := h14.step (.scheduler _ _ (.again _ rfl rfl) rfl rfl)
  have h16 := h15.step (.scheduler _ _ (.seeReady _ _ _ _ rfl (by decide)) rfl rfl)
  have h17 := h16.step (.scheduler _ _ (.seeReady _ _ _ _ rfl (by decide)) rfl rfl)
  have h18 := h17.step (.scheduler _ _ (.swept _ _ rfl) rfl rfl)
  have h19 := h18.step (.scheduler _ _ (.leave _ _ rfl (Or.inl (by decide))) rfl rfl)
  have h20 := h19.step (.scheduler _ _ (.collected _ _ both
    [("t/a".toList, .res .DIFF, (1 : Nat)), ("t/b".toList, .res .DIFF, (1 : Nat))] rfl (by decide) (by decide +kernel)) rfl rfl)
  have h21 := h20.step (.scheduler _ _ (.publish _ _ rfl) rfl rfl)
  have h22 := h21.step (.main _ _ (.more _ rfl (by decide)) (in_check rfl) (in_waiting rfl) rfl)
  have h23 := h22.step (.takes _ ("t/a".toList, .res .DIFF, (1 : Nat)) [("t/b".toList, .res .DIFF, (1 : Nat))] _ _ rfl
    (by decide) rfl)
  have h24 := reviews_many h23 _ _ rfl rfl 3 rfl
  have h25 := h24.step (.reviewed _ _ _ .OK _ _ rfl rfl rfl rfl)
  have h26 := h25.step (.main _ _ (.more _ rfl (by decide)) (in_check rfl) (in_waiting rfl) rfl)
  have h27 := h26.step (.takes _ ("t/b".toList, .res .DIFF, (1 : Nat)) [] _ _ rfl (by decide) rfl)
  have h28 := h27.step (.reviewed _ _ _ .DIFF _ _ rfl rfl rfl rfl)
  exact ⟨two False, _, two_tidy _, two_unasked, rfl, rfl, rfl, both_plain, empty_sound _, h28, rfl, rfl, rfl,
    by decide +kernel⟩

/-- Two tests of which the second is recorded first, and what happens when they are executed one after the other. -/
theorem overtaken : ∃ (c : RConf strokes) (s : RSt strokes) (d : Dialogue),
    Tidy c ∧ AsksReported c ∧ c.cfg.update = false ∧ c.cfg.accept = false ∧ PlainNames c.todo ∧
    SoundTree c.P.root c.todo [([], .dir)] ∧ RReach c [([], .dir)] ["v".toList, "a".toList, "c".toList] s ∧
    s.run.rpc = .ended false ∧ c.todo = ["t/a".toList, "t/b".toList] ∧
    s.run.recorded.map (fun x => (x.1, x.2.1)) = [("t/b".toList, .OK), ("t/a".toList, .DIFF)] ∧
    snapshot c.P.root s.fs "t/b".toList = some "# t\n\nxt/b\n".toList ∧ snapshot c.P.root s.fs "t/a".toList = none ∧
    dialogue c.P c.cfg c.todo (snapshot c.P.root [([], .dir)]) ["v".toList, "a".toList, "c".toList] = some d ∧
    d.ends = [("t/a".toList, .OK), ("t/b".toList, .DIFF)] ∧ d.snaps "t/a".toList = some "# t\n\nxt/a\n".toList ∧
    d.snaps "t/b".toList = none := by
  obtain ⟨s, h1, h2, h3, h4, h5⟩ := two_run
  have hd : ((dialogue (prints "x") (two False).cfg both (snapshot ["books".toList] [([], .dir)])
      ["v".toList, "a".toList, "c".toList]).map
      (fun d => (d.ends, d.snaps "t/a".toList, d.snaps "t/b".toList))) =
      some ([("t/a".toList, .OK), ("t/b".toList, .DIFF)], some "# t\n\nxt/a\n".toList, none) := by decide +kernel
  rw [Option.map_eq_some_iff] at hd
  obtain ⟨d, d1, d2⟩ := hd
  injection d2 with d2 d3
  injection d3 with d3 d4
  exact ⟨two False, s, d, two_tidy _, two_unasked, rfl, rfl, both_plain, empty_sound _, h1, h5, rfl, by rw [h2]; rfl, h3, h4,
    d1, d2, d3, d4⟩

/-- The files that a killed run of older versions of the tests has left. -/
private def stale : FS :=
  match stepsOf 20 ([([], .dir)], sequentialTask (prints "old") {} both both []) with
  | some d => d.1
  | none => []

/-- **C118** needs `AsksReported`: if a worker ends with an exception before it opens its report, for instance because the
setup of the project fails, then the user is asked about a test that has not been executed; if the user accepts, the
output that an older version of the test has left becomes the snapshot, and the test is recorded as `OK`. -/
theorem C118_early_refuted : ∃ (c : RConf strokes) (fs : FS) (ans : List Str) (s : RSt strokes) (ns : List Str) (n : Str),
    Tidy c ∧ PlainNames ns ∧ SoundTree c.P.root ns fs ∧ (∀ m ∈ c.todo, m ∈ ns) ∧ n ∈ ns ∧ RReach c fs ans s ∧
    s.ran = [] ∧ s.run.recorded = [(n, .OK, (0 : Nat))] ∧ snapshot c.P.root fs n = none ∧
    ∃ text, snapshot c.P.root s.fs n = some text ∧
      ¬ ∃ v, Execution.Says ⟨n, c.P, snapshot c.P.root fs n, true⟩ text v := by
  have k1 : ∃ t, stepsOf 20 ([([], .dir)], sequentialTask (prints "old") {} both both []) = some (stale, t) := ⟨_, rfl⟩
  obtain ⟨t, k1⟩ := k1
  have hS : SoundTree ["books".toList] both stale :=
    (C104_sequential (P := prints "old") both_plain (empty_sound both) (fun _ h => h) (by decide) k1
      (n := "t/a".toList) (by decide)).1
  have h0 : RReach (two True) stale ["a".toList] _ := .init
  have h1 := h0.step (.scheduler _ _ (.planned _ both both rfl (by decide) rfl (by decide) (by decide)) rfl rfl)
  have h2 := h1.step (.scheduler _ _ (.start _ _ _ rfl (by decide)) rfl rfl)
  have h3 := h2.step (.scheduler _ _ (.start _ _ _ rfl (by decide)) rfl rfl)
  have h4 := h3.step (.scheduler _ _ (.startedAll _ rfl) rfl rfl)
  have h5 := h4.step (.ends _ "t/a".toList ⟨by decide, by decide⟩ (.broken ⟨trivial, rfl⟩))
  have h6 := h5.step (.scheduler _ _ (.again _ rfl rfl) rfl rfl)
  have h7 := h6.step (.scheduler _ _ (.seeReady _ _ _ _ rfl (by decide)) rfl rfl)
  have h8 := h7.step (.scheduler _ _ (.seeBusy _ _ _ _ rfl (by decide)) rfl rfl)
  have h9 := h8.step (.scheduler _ _ (.swept _ _ rfl) rfl rfl)
  have h10 := h9.step (.scheduler _ _ (.leave _ _ rfl (Or.inl (by decide))) rfl rfl)
  have h11 := h10.step (.scheduler _ _ (.collected _ _ ["t/a".toList]
    [("t/a".toList, .text "FAIL".toList, (0 : Nat))] rfl (by decide) rfl) rfl rfl)
  have h12 := h11.step (.scheduler _ _ (.publish _ _ rfl) rfl rfl)
  have h13 := h12.step (.main _ _ (.more _ rfl (by decide)) (in_check rfl) (in_waiting rfl) rfl)
  have h14 := h13.step (.takes _ ("t/a".toList, .text "FAIL".toList, (0 : Nat)) []
    ⟨.FREEZE, true, freezeTask ["books".toList] ["books".toList, ".out".toList] "t/a".toList (.done (.done .OK .FREEZE))⟩ []
    rfl rfl rfl)
  have h15 := reviews_many h14 _ _ rfl rfl 3 rfl
  have h16 := h15.step (.reviewed _ _ _ .OK _ _ rfl rfl rfl rfl)
  refine ⟨two True, stale, _, _, both, "t/a".toList, two_tidy _, both_plain, hS, fun _ h => h, by decide, h16, rfl, rfl,
    rfl, "# t\n\noldt/a\n".toList, by decide +kernel, ?_⟩
  rintro ⟨v, s, hs, e, -⟩
  have : (runTest ((prints "x").env none) ((prints "x").tests "t/a".toList).body).map (·.out) =
      some "# t\n\nxt/a\n".toList := by decide +kernel
  have hs : runTest ((prints "x").env none) ((prints "x").tests "t/a".toList).body = some s := hs
  rw [hs] at this
  rw [Option.map_some, ← e] at this
  exact absurd this (by decide)

end Verif.Props
