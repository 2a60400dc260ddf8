import Verif.Lemmas.Dependents
import Verif.Props.FairRun
import Verif.Props.Parallel

/-! # Parallel runs of tests with dependencies (C129) -/

namespace Verif.Lemmas
open Verif.Py Verif.Model Verif.Spec Verif.Props

section Files
variable {fl : Durations} {c : RConf fl} {fs : FS} {ans : List Str} {s : RSt fl} {ns : List Str}

/-- Nobody does anything to the files of a test but its worker. -/
structure Alone (c : RConf fl) (fs : FS) (s : RSt fl) : Prop where
  inter : ∃ (index : Str → Bool) (trace : List Str), Interleaved (fun n => parallelTask c.P c.cfg c.all (index n) none n) c.todo fs trace s.fs s.work ∧
    ∀ n, index n = s.indexed n
  review : ∀ v, s.review = some v → ∃ e, v.task = .done e
  ready : ∀ n ∈ s.run.ready, ∃ r q, s.work n = .done (.done r q)

theorem alone_reach (ht : Tidy c) (hq : NotAsking c.cfg) (hu : c.cfg.update = false)
    (hp : PlainNames ns) (hS : SoundTree c.P.root ns fs) (hsub : ∀ n ∈ c.todo, n ∈ ns)
    (hb : ∀ n b, ¬ c.breaks n b) (H : RReach c (mkdirs fs c.P.out) ans s) : Alone c (mkdirs fs c.P.out) s := by
  induction H with
  | init => exact ⟨⟨fun _ => false, [], .init, fun _ => rfl⟩, fun v h => (by cases h), fun n h => (by cases h)⟩
  | @step s s' H hs ih =>
    obtain ⟨hw, -⟩ := run_inv ht (fun _ _ => ⟨hq.2, hq.1⟩) H
    have hi := inv_reach ht.todo hw.reach
    have hk := (mkOut_ok hp hS).1
    cases hs with
    | scheduler p h hr hy =>
      exact ⟨ih.inter, ih.review, fun n hn => ih.ready n (by rw [← hy]; exact hn)⟩
    | main p h hr hpr hy =>
      exact ⟨ih.inter, ih.review, fun n hn => ih.ready n (by rw [← hy]; exact hn)⟩
    | opens n hn h => exact ⟨ih.inter, ih.review, ih.ready⟩
    | works n g t hn h hst =>
      obtain ⟨index, trace, h1, h2⟩ := ih.inter
      refine ⟨⟨index, trace ++ [n], h1.step n (hi.sub n hn.1) hst, h2⟩, ih.review, ?_⟩
      intro m hm
      have hne : m ≠ n := fun e => hn.2 (e ▸ hm)
      obtain ⟨r, q, e⟩ := ih.ready m hm
      exact ⟨r, q, by dsimp only; rw [if_neg hne]; exact e⟩
    | writes n r q hn h hd => exact ⟨ih.inter, ih.review, ih.ready⟩
    | indexes n rec g a hn h hx hg =>
      obtain ⟨index, trace, h1, h2⟩ := ih.inter
      have hidx : index n = false := by rw [h2 n, hx]
      obtain ⟨r, q, hd⟩ : ∃ r q, s.work n = .done (.done r q) := by
        rcases hw.reports n with e | e | ⟨r, q, -, e⟩
        · rw [e] at h; cases h
        · rw [e] at h; cases h
        · exact ⟨r, q, e⟩
      have hb := inter_bind (f := fun e => match e with
        | .done r q => indexTask c.P c.all (.done (.done r q)) | e => .done e) h1 n (fun _ => rfl)
      have e1 : (fun m => if m = n then bindTask (parallelTask c.P c.cfg c.all (index m) none m) (fun e => match e with
          | .done r q => indexTask c.P c.all (.done (.done r q)) | e => .done e)
          else parallelTask c.P c.cfg c.all (index m) none m) =
          fun m => parallelTask c.P c.cfg c.all (if m = n then true else index m) none m := by
        funext m
        by_cases e : m = n
        · subst e
          rw [if_pos rfl, if_pos rfl, hidx]
          exact bind_index c.P c.cfg c.all m
        · rw [if_neg e, if_neg e]
      rw [e1] at hb
      have hst := hb.step (task := .done (.done r q)) (g' := g) n (hi.sub n hn.1) (by
        rw [if_pos rfl, hd]
        simp only [bindTask, indexTask, Task.step, hg])
      have ew : (fun m => if m = n then Task.done (.done r q) else
          (if m = n then bindTask (s.work m) (fun e => match e with
            | .done r q => indexTask c.P c.all (.done (.done r q)) | e => .done e) else s.work m)) = s.work := by
        funext m
        by_cases e : m = n
        · rw [if_pos e, e, hd]
        · rw [if_neg e, if_neg e]
      rw [ew] at hst
      refine ⟨⟨_, _, hst, ?_⟩, ih.review, ih.ready⟩
      intro m
      dsimp only
      split
      · rfl
      · exact h2 m
    | ends n hn ho =>
      refine ⟨ih.inter, ih.review, ?_⟩
      intro m hm
      rcases List.mem_append.mp hm with hm | hm
      · exact ih.ready m hm
      · rw [List.mem_singleton.mp hm]
        obtain ⟨r, er⟩ := leaves_end ht hq hu hp hS hsub hb H hn ho
        rcases hw.reports n with e | e | ⟨r', q, -, e⟩
        · rw [e] at er; cases er
        · rw [e] at er; cases er
        · exact ⟨r', q, e⟩
    | takes r q v rest h hqu hv =>
      refine ⟨ih.inter, ?_, ih.ready⟩
      intro w hw'
      cases hw'
      unfold startReview at hv
      rw [hq.1, hq.2, Bool.and_false, Bool.or_false, if_neg (by decide)] at hv
      dsimp only at hv
      rw [if_neg] at hv
      · injection hv with hv
        injection hv with hv _
        rw [← hv]
        exact ⟨_, rfl⟩
      · rintro (e | ⟨-, e⟩ | ⟨e1, e2⟩)
        · cases e
        · rw [hu] at e; cases e
        · obtain ⟨qq, e⟩ := (hw.recs r (Or.inl (by rw [hqu]; simp))).1 .DIFF e1
          obtain ⟨index, trace, h1, -⟩ := ih.inter
          have hin : r.1 ∈ c.todo := by
            obtain ⟨lost, hcount, -⟩ := (winv_reach (named_pconf ht) hw.reach).count
            refine hi.sub _ ((hi.mem_started _).mpr (Or.inl (hcount.mem_iff.mp ?_)))
            simp [hqu]
          have e3 := (together_files (ans := ans) hq hu hp hsub ht.todo hk h1).1 r.1 hin _ e
          rcases spec_end c.P c.cfg r.1 (snapshot c.P.root (mkdirs fs c.P.out) r.1) with e4 | ⟨r', e4, e5⟩
          · rw [e4] at e3; cases e3
          · rw [e4] at e3
            cases e3
            exact e5 e2 rfl
    | takesEof r q h hqu hv => exact ⟨ih.inter, fun v h => (by cases h), ih.ready⟩
    | reviews r v g t h hv hst =>
      obtain ⟨e, he⟩ := ih.review v hv
      rw [he] at hst
      cases hst
    | reviewed r v res x q h hv ht' hf => exact ⟨ih.inter, fun v h => (by cases h), ih.ready⟩
    | reviewedText r v t x q h hv ht' hf => exact ⟨ih.inter, fun v h => (by cases h), ih.ready⟩
    | reviewRaises r h hv => exact ⟨ih.inter, fun v h => (by cases h), ih.ready⟩
    | interrupt r h => exact ⟨ih.inter, fun v h => (by cases h), ih.ready⟩

/-- The value of a test that has ended, or is not executed, is the one that a sequential run leaves. -/
theorem alone_value (ht : Tidy c) (hq : NotAsking c.cfg) (hu : c.cfg.update = false)
    (hp : PlainNames ns) (hS : SoundTree c.P.root ns fs) (hsub : ∀ n ∈ c.todo, n ∈ ns)
    (h : Alone c (mkdirs fs c.P.out) s) {k : Str} (hk : k ∈ ns) (hd : k ∉ c.todo ∨ ∃ e, s.work k = .done e) (ans' : List Str) :
    storeOf c.P.out s.fs k = storeOf c.P.out (runCases c.P c.cfg c.todo (mkdirs fs c.P.out, ans')).1 k := by
  have hS' := (mkOut_ok hp hS).1
  obtain ⟨index, trace, h0, -⟩ := h.inter
  obtain ⟨h1, h2⟩ := alone_inv hp hsub hS' (fun n hn => parallel_local (hp.1 n (hsub n hn)) (index n) none)
    (fun n hn => by
      obtain ⟨B, e, -⟩ := parallel_alone (all := c.all) hq hu hp (hsub n hn) hS' (index n) none
      exact ⟨_, e⟩) h0
  obtain ⟨c1, c2⟩ := cases_files (cfg := c.cfg) hq hp c.todo hsub ht.todo hS' ans'
  have hown : Own c.P.root k (slot c.P.root true k ".bin".toList) := own_slot true (Or.inr mem_bin)
  have hpi : slot c.P.root true k ".bin".toList ≠ indexFile c.P.root := by
    intro e
    rw [e] at hown
    exact own_index (root := c.P.root) (hp.1 k hk) hown
  have key : s.fs.get (slot c.P.root true k ".bin".toList) =
      (runCases c.P c.cfg c.todo (mkdirs fs c.P.out, ans')).1.get (slot c.P.root true k ".bin".toList) := by
    by_cases hin : k ∈ c.todo
    · rcases hd with hd | ⟨e, he⟩
      · exact absurd hin hd
      · obtain ⟨A, a1, -, a3⟩ := h1 k hin
        obtain ⟨B, b1, b2⟩ := parallel_alone (all := c.all) hq hu hp hk hS' (index k) none
        rw [b1, he] at a3
        have : A = B := by
          cases e with
          | error x => cases a3
          | done r q => simp only [runTask, Except.ok.injEq, Prod.mk.injEq] at a3; exact a3.1
          | eof => simp only [runTask, Except.ok.injEq, Prod.mk.injEq] at a3; exact a3.1
          | hangs => simp only [runTask, Except.ok.injEq, Prod.mk.injEq] at a3; exact a3.1
        rw [c1 k hin _ hown, a1.own _ hown, this, b2 _ hpi]
    · have ho : ∀ n ∈ c.todo, ¬ Own c.P.root n (slot c.P.root true k ".bin".toList) :=
        fun n hn ho => hin (own_apart hp hk (hsub n hn) hown ho ▸ hn)
      have ha : ∀ n ∈ c.todo, ¬ Above c.P.root n (slot c.P.root true k ".bin".toList) :=
        fun n hn => own_above hp hk (hsub n hn) hown
      rw [(c2 _ ho).2 ha]
      rcases h2 _ ho with e | ⟨n, hn, e⟩ | e
      · exact e
      · exact absurd e (ha n hn)
      · exact absurd e hpi
  show (match s.fs.get (slot c.P.root true k ".bin".toList) with | some (.file v) => some v | _ => none) = _
  rw [key]
  rfl

/-- A test that has ended with another result than `FAIL` has stored what it has returned. -/
theorem ended_value (ht : Tidy c) (hq : NotAsking c.cfg) (hu : c.cfg.update = false)
    (hp : PlainNames ns) (hS : SoundTree c.P.root ns fs) (hsub : ∀ n ∈ c.todo, n ∈ ns)
    (h : Alone c (mkdirs fs c.P.out) s) {n : Str} (hn : n ∈ c.todo) {r : Result} {q : Request}
    (hd : s.work n = .done (.done r q)) (hr : r ≠ .FAIL) (ans' : List Str) :
    storeOf c.P.out (runCases c.P c.cfg c.todo (mkdirs fs c.P.out, ans')).1 n = (c.P.tests n).returns ∧
    (caseSpec c.P c.cfg n (snapshot c.P.root (mkdirs fs c.P.out) n)).1 = .done r q := by
  have hS' := (mkOut_ok hp hS).1
  obtain ⟨index, trace, h0, -⟩ := h.inter
  have e := (together_files (ans := ans') hq hu hp hsub ht.todo hS' h0).1 n hn _ hd
  refine ⟨?_, e.symm⟩
  have e1 := (solo_task hq hp (hsub n hn) hS' ans').2
  rw [← e] at e1
  have e2 := value_after e1 hr
  rw [← e2]
  have hown : Own c.P.root n (slot c.P.root true n ".bin".toList) := own_slot true (Or.inr mem_bin)
  show (match (runCases c.P c.cfg c.todo (mkdirs fs c.P.out, ans')).1.get (slot c.P.root true n ".bin".toList) with
    | some (.file v) => some v | _ => none) = _
  rw [(cases_files (cfg := c.cfg) hq hp c.todo hsub ht.todo hS' ans').1 n hn _ hown]
  rfl

end Files

/-! ### The tasks -/

section Tasks
variable {D : DProject} {cfg : Config} {n : Str} {val : Str → Option Str} {keys : List Str} {ret : Option Str}

/-- A task with loads does what a task without loads does, if the values are loaded that are given. -/
inductive Follows (val : Str → Option Str) (keys : List Str) (ret : Option Str) : DTask → Task → Prop
  | task (t : Task) : Follows val keys ret (.task ret t) t
  | bad (r : Option Str) (e : CaseEnd) (he : ∀ x q, e ≠ .done x q) : Follows val keys ret (.task r (.done e)) (.done e)
  | act (o : FsOp) (k : Option Node → DTask) (k' : Option Node → Task) (h : ∀ a, Follows val keys ret (k a) (k' a)) :
      Follows val keys ret (.act o k) (.act o k')
  | load (d : Str) (k : Loaded Str → DTask) (t : Task) (hd : d ∈ keys) (h : Follows val keys ret (k (answer (val d))) t) :
      Follows val keys ret (.load d k) t

theorem follows_mkdirs {d : DTask} {t t' : Task} (h : Follows val keys ret (followedBy d t) t') :
    ∀ (cs : List Str) (base : Path),
      Follows val keys ret (followedBy d (mkdirsTask base cs t)) (mkdirsTask base cs t') := by
  intro cs
  induction cs with
  | nil => intro base; exact h
  | cons c cs ih =>
    intro base
    refine .act _ _ _ fun a => ?_
    match a with
    | none => exact ih _
    | some .dir => exact ih _
    | some (.file _) => exact h

theorem follows_remove {d : DTask} {t t' : Task} (h : Follows val keys ret (followedBy d t) t') (p : Path) :
    Follows val keys ret (followedBy d (removeTask p t)) (removeTask p t') := by
  refine .act _ _ _ fun a => ?_
  cases a with
  | none => exact h
  | some x => exact .act _ _ _ fun _ => h

theorem follows_outputs {d : DTask} {t t' : Task} (h : Follows val keys ret (followedBy d t) t') (out : Path) (n md txt log : Str) :
    Follows val keys ret (followedBy d (outputsTask out n md txt log t)) (outputsTask out n md txt log t') :=
  .act _ _ _ fun _ => .act _ _ _ fun _ => .act _ _ _ fun _ => h

theorem follows_loads {t : Task} : ∀ (ds : List Str) (k : Option Values → DTask), (∀ d ∈ ds, d ∈ keys) →
    Follows val keys ret (k (some (valuesOf val ds))) t → Follows val keys ret (loadsTask ds k) t := by
  intro ds
  induction ds with
  | nil => intro k _ h; exact h
  | cons d ds ih =>
    intro k hd h
    refine .load _ _ _ (hd d (by simp)) ?_
    unfold valuesOf at h
    cases hv : val d with
    | none => rw [hv] at h; exact h
    | some v =>
      rw [hv] at h
      refine ih _ (fun x hx => hd x (by simp [hx])) ?_
      cases hw : valuesOf val ds with
      | ok vs => rw [hw] at h; exact h
      | error e => rw [hw] at h; exact h

/-- The tasks of the workers at the beginning. -/
theorem follows_case (val : Str → Option Str) :
    Follows val (D.deps n) ((D.filled fun n => valuesOf val (D.deps n)).tests n).returns (caseTaskD D cfg n)
      (caseTask (D.filled fun n => valuesOf val (D.deps n)) cfg n [] fun r q _ => .done (.done r q)) := by
  unfold caseTaskD caseTask
  refine follows_mkdirs (follows_mkdirs (.act _ _ _ fun a => ?_) _ _) _ _
  refine follows_remove (follows_remove (follows_outputs ?_ _ _ _ _ _) _) _
  unfold stop followedBy
  split
  · exact .bad _ _ (fun x q e => by cases e)
  · exact follows_loads _ _ (fun _ h => h) (.task _)

theorem follows_rest {d : DTask} {t : Task} (h : Follows val keys ret d t) {e : CaseEnd} (hd : d.rest = .done e) :
    t = .done e := by
  cases h with
  | task t => exact hd
  | bad r x hx => exact hd
  | act o k k' h => cases hd
  | load x k t hx h => cases hd

theorem rest_done {d : DTask} {t : Task} (h : Follows val keys ret d t) (hl : ∀ x k, d ≠ .load x k) {e : CaseEnd}
    (ht : t = .done e) : d.rest = .done e := by
  cases h with
  | task t => exact ht
  | bad r x hx => exact ht
  | act o k k' h => cases ht
  | load x k t hx h => exact absurd rfl (hl x k)

end Tasks

/-! ### The run -/

section Runs
variable {fl : Durations} {c : DConf fl} {ns : List Str} {fs : FS} {ans : List Str} {val : Str → Option Str} {size : Nat}

/-- The project in which the tests are called with given values. -/
abbrev filledP (D : DProject) (val : Str → Option Str) : Project := D.filled fun n => valuesOf val (D.deps n)

/-- What is needed. -/
structure DSetting (c : DConf fl) (ns : List Str) (fs : FS) (val : Str → Option Str) : Prop where
  tidy : Tidy (c.conf c.D.dirs)
  quiet : NotAsking c.cfg
  update : c.cfg.update = false
  plain : PlainNames ns
  sound : SoundTree c.D.root ns fs
  sub : ∀ n ∈ c.todo, n ∈ ns
  breaks : ∀ n b, ¬ c.breaks n b
  first : DepsFirst c.D ns c.todo
  waits : ∀ n ∈ c.todo, ∀ d ∈ c.D.deps n, d ∈ c.todo → d ∈ c.waits n
  val : ∃ ans', ∀ k ∈ ns, val k = storeOf c.D.dirs.out (runCases (filledP c.D val) c.cfg c.todo (mkdirs fs c.D.dirs.out, ans')).1 k

theorem DSetting.tidyP (h : DSetting c ns fs val) : Tidy (c.conf (filledP c.D val)) := ⟨h.tidy.todo, h.tidy.batches, h.tidy.names⟩

/-- The values in the result files that do not change any more. -/
def Settled (c : DConf fl) (ns : List Str) (W : Str → Task) (k : Str) : Prop :=
  k ∈ ns ∧ (k ∉ c.todo ∨ ∃ e, W k = .done e)

/-- A run of tests with dependencies and one of tests that are called with the values. -/
structure Sim (c : DConf fl) (ns : List Str) (fs : FS) (ans : List Str) (val : Str → Option Str) (s : DSt fl) (W : Str → Task) : Prop where
  reach : RReach (c.conf (filledP c.D val)) (mkdirs fs c.D.dirs.out) ans { s.r with work := W }
  call : ∀ n, Follows val (c.D.deps n) ((filledP c.D val).tests n).returns (s.call n) (W n)
  rest : ∀ n, s.r.work n = (s.call n).rest
  cache : ∀ p, Sure val (Settled c ns W) (fun d => ∃ n ∈ c.todo, d ∈ c.D.deps n) (s.cache p)

theorem Sim.alone {s : DSt fl} {W : Str → Task} (h : DSetting c ns fs val) (hs : Sim c ns fs ans val s W) :
    Alone (c.conf (filledP c.D val)) (mkdirs fs c.D.dirs.out) { s.r with work := W } :=
  alone_reach h.tidyP h.quiet h.update h.plain h.sound h.sub h.breaks hs.reach

theorem Sim.store {s : DSt fl} {W : Str → Task} (h : DSetting c ns fs val) (hs : Sim c ns fs ans val s W) {k : Str}
    (hk : Settled c ns W k) : storeOf c.D.dirs.out s.r.fs k = val k := by
  obtain ⟨ans', hv⟩ := h.val
  rw [hv k hk.1]
  exact alone_value (c := c.conf (filledP c.D val)) h.tidyP h.quiet h.update h.plain h.sound h.sub (hs.alone h) hk.1 hk.2 ans'

/-- A test that does not fail and that others depend on returns something. -/
theorem returns_value (h : DSetting c ns fs val) {n : Str} (hn : n ∈ c.todo) {snap : Option Str} {r : Result} {q : Request}
    (he : (caseSpec (filledP c.D val) c.cfg n snap).1 = .done r q) (hr : r ≠ .FAIL)
    (hu : ∃ m ∈ c.todo, n ∈ c.D.deps m) : ((filledP c.D val).tests n).returns ≠ none := by
  show (c.D.given n (valuesOf val (c.D.deps n))).returns ≠ none
  cases hv : valuesOf val (c.D.deps n) with
  | ok vs =>
    obtain ⟨m, hm, hd⟩ := hu
    exact h.first.returns m hm n hd hn vs
  | error d =>
    exfalso
    unfold caseSpec at he
    have hb : ((filledP c.D val).tests n).body = ⟨[], some (c.D.missing n d)⟩ := by
      show (c.D.given n (valuesOf val (c.D.deps n))).body = _
      rw [hv]; rfl
    rw [hb] at he
    split at he
    · cases he
    · rename_i s hs'
      have hf := missing_fails _ _ hs'
      dsimp only at he
      rw [hf, if_neg (by rintro (⟨hx, -⟩ | ⟨hx, -⟩) <;> cases hx)] at he
      injection he with he
      exact hr he.symm

/-- A step of a worker in the run without loads. -/
theorem Sim.worked {s : DSt fl} {W : Str → Task} (hs : Sim c ns fs ans val s W) {n : Str} {g : FS} {t : Task}
    (hw : s.r.Works n) (h : s.r.reports n = some []) (ht : (W n).step s.r.fs = some (g, t)) :
    RReach (c.conf (filledP c.D val)) (mkdirs fs c.D.dirs.out) ans
      { s.r with fs := g, ran := s.r.ran ++ [n], work := fun m => if m = n then t else W m } :=
  hs.reach.step (.works { s.r with work := W } n g t hw h ht)

theorem settled_mono {W : Str → Task} {n : Str} {t : Task} (hn : ∀ e, W n ≠ .done e) (k : Str) (h : Settled c ns W k) :
    Settled c ns (fun m => if m = n then t else W m) k := by
  refine ⟨h.1, h.2.imp_right ?_⟩
  rintro ⟨e, he⟩
  have : k ≠ n := fun hk => hn e (hk ▸ he)
  exact ⟨e, by dsimp only; rw [if_neg this]; exact he⟩

theorem step_not_done {t t' : Task} {f g : FS} (h : t.step f = some (g, t')) (e : CaseEnd) : t ≠ .done e := by
  rintro rfl; cases h

/-- An operation of a worker. -/
theorem Sim.acted {s : DSt fl} {W : Str → Task} (hs : Sim c ns fs ans val s W) {n : Str} {g : FS} {t : Task} {d : DTask}
    (hw : s.r.Works n) (h : s.r.reports n = some []) (ht : (W n).step s.r.fs = some (g, t))
    (hd : Follows val (c.D.deps n) ((filledP c.D val).tests n).returns d t) :
    Sim c ns fs ans val ((s.go n d).acted n g) (fun m => if m = n then t else W m) := by
  refine ⟨hs.worked hw h ht, ?_, ?_, ?_⟩
  · intro m
    show Follows _ _ _ (if m = n then d else s.call m) (if m = n then t else W m)
    split
    · rename_i e; rw [e]; exact hd
    · exact hs.call m
  · intro m
    show (if m = n then d.rest else s.r.work m) = (if m = n then d else s.call m).rest
    split
    · rfl
    · exact hs.rest m
  · intro p'
    exact (hs.cache p').mono (settled_mono (step_not_done ht))

/-- A result is loaded. -/
theorem Sim.loaded (h : DSetting c ns fs val) {s : DSt fl} {W : Str → Task} (hs : Sim c ns fs ans val s W) {n d : Str}
    {k : Loaded Str → DTask} (p : Nat) (hw : s.r.Works n) (hc : s.call n = .load d k) :
    (loadResult (s.cache p) (storeOf c.D.dirs.out s.r.fs) d).1 = answer (val d) ∧
    Sim c ns fs ans val ((s.go n (k (loadResult (s.cache p) (storeOf c.D.dirs.out s.r.fs) d).1)).cached p
        (loadResult (s.cache p) (storeOf c.D.dirs.out s.r.fs) d).2) W := by
  have hf := hs.call n
  rw [hc] at hf
  generalize hWn : W n = w at hf
  cases hf with
  | load _ _ t hd hk =>
    obtain ⟨hinv, -⟩ := run_inv h.tidyP (fun _ _ => ⟨h.quiet.2, h.quiet.1⟩) hs.reach
    have hi := inv_reach h.tidyP.todo hinv.reach
    have hn : n ∈ c.todo := hi.sub n hw.1
    have hset : Settled c ns W d := by
      refine ⟨h.first.names n hn d hd, ?_⟩
      by_cases hdt : d ∈ c.todo
      · have hready := C36_dependencies (c := (c.conf (filledP c.D val)).pconf) h.tidyP.todo hinv.reach hw.1
          (h.waits n hn d hd hdt) hdt
        obtain ⟨r, q, e⟩ := (hs.alone h).ready d hready
        exact Or.inr ⟨_, e⟩
      · exact Or.inl hdt
    obtain ⟨e1, e2⟩ := (hs.cache p).load (st := storeOf c.D.dirs.out s.r.fs) (fun k hk => hs.store h hk) hset ⟨n, hn, hd⟩
    refine ⟨e1, hs.reach, ?_, ?_, ?_⟩
    · intro m
      show Follows _ _ _ (if m = n then k (loadResult (s.cache p) (storeOf c.D.dirs.out s.r.fs) d).1 else s.call m) (W m)
      split
      · rename_i e; rw [e, e1, hWn]; exact hk
      · exact hs.call m
    · intro m
      show (if m = n then (k _).rest else s.r.work m) = (if m = n then k _ else s.call m).rest
      split
      · rfl
      · exact hs.rest m
    · intro p'
      show Sure _ _ _ (if p' = p then _ else s.cache p')
      split
      · exact e2
      · exact hs.cache p'

/-- An operation of a worker that has loaded everything. -/
theorem Sim.ended (h : DSetting c ns fs val) {s : DSt fl} {W : Str → Task} (hs : Sim c ns fs ans val s W) {n : Str} {g : FS}
    {t t' : Task} {ret : Option Str} (p : Nat) (hw : s.r.Works n) (hrep : s.r.reports n = some [])
    (hc : s.call n = .task ret t) (hst : t.step s.r.fs = some (g, t')) :
    W n = t ∧ Sim c ns fs ans val (((s.go n (.task ret t')).acted n g).cached p (keptTask (s.cache p) n ret t'))
      (fun m => if m = n then t' else W m) := by
  have hf := hs.call n
  rw [hc] at hf
  generalize hWn : W n = w at hf
  cases hf with
  | bad _ e he => cases hst
  | task _ =>
    have hst' : (W n).step s.r.fs = some (g, t') := by rw [hWn]; exact hst
    have hreach := hs.worked hw hrep hst'
    have hmono := settled_mono (c := c) (ns := ns) (t := t') (step_not_done hst')
    have hnew := hs.acted hw hrep hst' (.task t')
    refine ⟨rfl, hnew.reach, hnew.call, hnew.rest, ?_⟩
    intro p'
    show Sure _ _ _ (if p' = p then keptTask (s.cache p) n _ t' else s.cache p')
    split
    · have hold := (hs.cache p).mono hmono
      cases ht' : t' with
      | act o k => rw [ht'] at hold; exact hold
      | done e =>
        rw [ht'] at hold hreach
        cases e with
        | eof => exact hold
        | hangs => exact hold
        | error x => exact hold
        | done r q =>
          by_cases hr : r = .FAIL
          · rw [hr] at hold ⊢; exact hold
          · obtain ⟨hinv, -⟩ := run_inv h.tidyP (fun _ _ => ⟨h.quiet.2, h.quiet.1⟩) hs.reach
            have hi := inv_reach h.tidyP.todo hinv.reach
            have hn : n ∈ c.todo := hi.sub n hw.1
            have halone := alone_reach h.tidyP h.quiet h.update h.plain h.sound h.sub h.breaks hreach
            obtain ⟨ans', hv⟩ := h.val
            obtain ⟨e1, e2⟩ := ended_value (c := c.conf (filledP c.D val)) h.tidyP h.quiet h.update h.plain h.sound
              h.sub halone hn (r := r) (q := q) (by dsimp only; rw [if_pos rfl]) hr ans'
            have e3 : val n = ((filledP c.D val).tests n).returns := by rw [hv n (h.sub n hn)]; exact e1
            have hk : ∀ v, keptTask (s.cache p) n v (.done (.done r q)) = (s.cache p).set n v := by
              intro v
              cases r with
              | FAIL => exact absurd rfl hr
              | OK => rfl
              | DIFF => rfl
            rw [hk, ← e3]
            refine hold.set ⟨h.sub n hn, Or.inr ⟨_, by dsimp only; rw [if_pos rfl]⟩⟩ ?_
            intro hu
            rw [e3]
            exact returns_value h hn e2 hr hu
    · exact (hs.cache p').mono hmono

/-- A step of the runner. -/
theorem runner_same {s : DSt fl} {r : RSt fl} (hr : RStep (c.conf c.D.dirs) s.r r) (hran : r.ran = s.r.ran) : r.work = s.r.work := by
  cases hr with
  | works n g t hw h ht => exact absurd (congrArg List.length hran) (by simp)
  | _ => rfl

theorem Sim.runner {s : DSt fl} {W : Str → Task} (hs : Sim c ns fs ans val s W) {r : RSt fl}
    (hr : RStep (c.conf c.D.dirs) s.r r) (hran : r.ran = s.r.ran) :
    RStep (c.conf (filledP c.D val)) { s.r with work := W } { r with work := W } := by
  have hdone : ∀ {n e}, s.r.work n = .done e → W n = .done e := by
    intro n e he
    rw [hs.rest n] at he
    exact follows_rest (hs.call n) he
  cases hr with
  | scheduler p h hr hy => exact .scheduler { s.r with work := W } p h hr hy
  | main p h hr hp hy => exact .main { s.r with work := W } p h hr hp hy
  | opens n hw h => exact .opens { s.r with work := W } n hw h
  | works n g t hw h ht => exact absurd (congrArg List.length hran) (by simp)
  | writes n r q hw h hd => exact .writes { s.r with work := W } n r q hw h (hdone hd)
  | indexes n rec g a hw h hi hx => exact .indexes { s.r with work := W } n rec g a hw h hi hx
  | ends n hw ho =>
    refine .ends { s.r with work := W } n hw ?_
    cases ho with
    | whole h => exact .whole h
    | noIndex rec x h hx => exact .noIndex rec x h hx
    | raised x h => exact .raised x (hdone h)
    | broken h => exact .broken h
  | takes r q v rest h hq hv => exact .takes { s.r with work := W } r q v rest h hq hv
  | takesEof r q h hq hv => exact .takesEof { s.r with work := W } r q h hq hv
  | reviews r v g t h hv ht => exact .reviews { s.r with work := W } r v g t h hv ht
  | reviewed r v res x q h hv ht hf => exact .reviewed { s.r with work := W } r v res x q h hv ht hf
  | reviewedText r v t x q h hv ht hf => exact .reviewedText { s.r with work := W } r v t x q h hv ht hf
  | reviewRaises r h hv => exact .reviewRaises { s.r with work := W } r h hv
  | interrupt r h => exact .interrupt { s.r with work := W } r h

/-- Every step can be followed, by a step or by none. -/
theorem sim_step (h : DSetting c ns fs val) {s s' : DSt fl} {W : Str → Task} (hs : Sim c ns fs ans val s W)
    (hstep : DStep c s s') : ∃ W', Sim c ns fs ans val s' W' ∧
      (RStep (c.conf (filledP c.D val)) { s.r with work := W } { s'.r with work := W' } ∨
        { s.r with work := W } = { s'.r with work := W' }) := by
  cases hstep with
  | runner r hr hran =>
    have hst := hs.runner hr hran
    exact ⟨W, ⟨hs.reach.step hst, hs.call, fun n => by rw [← hs.rest n]; exact congrFun (runner_same hr hran) n, hs.cache⟩,
      Or.inl hst⟩
  | take n p hw hn hp => exact ⟨W, ⟨hs.reach, hs.call, hs.rest, hs.cache⟩, Or.inr rfl⟩
  | acts n p o k g a hw hp hrep hc hx =>
    have hf := hs.call n
    rw [hc] at hf
    generalize hWn : W n = w at hf
    cases hf with
    | act _ _ k' hk =>
      have hst : (W n).step s.r.fs = some (g, k' a) := by rw [hWn]; simp only [Task.step, hx]
      exact ⟨_, hs.acted hw hrep hst (hk a), Or.inl (.works { s.r with work := W } n g _ hw hrep hst)⟩
  | fails n p o k x hw hp hrep hc hx =>
    have hf := hs.call n
    rw [hc] at hf
    generalize hWn : W n = w at hf
    cases hf with
    | act _ _ k' hk =>
      have hst : (W n).step s.r.fs = some (s.r.fs, .done (.error x)) := by rw [hWn]; simp only [Task.step, hx]
      exact ⟨_, hs.acted hw hrep hst (.bad _ _ (fun x q e => by cases e)),
        Or.inl (.works { s.r with work := W } n _ _ hw hrep hst)⟩
  | loads n p d k hw hp hrep hc => exact ⟨W, (hs.loaded h p hw hc).2, Or.inr rfl⟩
  | works n p ret t t' g hw hp hrep hc hst =>
    obtain ⟨e, hs'⟩ := hs.ended h p hw hrep hc hst
    exact ⟨_, hs', Or.inl (.works { s.r with work := W } n g t' hw hrep (by show (W n).step _ = _; rw [e]; exact hst))⟩

/-- Every run of tests with dependencies is a run of the tests that are called with the values. -/
theorem sim_reach (h : DSetting c ns fs val) (hsize : 0 < size) {s : DSt fl}
    (H : DReach c size (mkdirs fs c.D.dirs.out) ans s) : ∃ W, Sim c ns fs ans val s W := by
  induction H with
  | init =>
    exact ⟨_, .init, fun n => follows_case val, fun n => rfl,
      fun p => empty_sure (c := .lru size []) ⟨hsize, rfl⟩ _ _ _⟩
  | step _ hstep ih =>
    obtain ⟨W, hs⟩ := ih
    obtain ⟨W', hs', -⟩ := sim_step h hs hstep
    exact ⟨W', hs'⟩

/-! ### The other way round -/

/-- The processes that have been used so far. -/
def Bounded (s : DSt fl) : Prop := ∃ b, ∀ n p, s.proc n = some p → p < b

/-- Executions that nobody interrupts. -/
inductive UndisturbedD (c : DConf fl) (size : Nat) (fs : FS) (ans : List Str) : DSt fl → Prop
  | init : UndisturbedD c size fs ans (DSt.init c size fs ans)
  | step {s t : DSt fl} : UndisturbedD c size fs ans s → DStep c s t →
      (t.r.run.abort = true → ∃ x, t.r.run.rpc = .ended x) → UndisturbedD c size fs ans t

theorem UndisturbedD.reach {s : DSt fl} (H : UndisturbedD c size fs ans s) : DReach c size fs ans s := by
  induction H with
  | init => exact .init
  | step _ h _ ih => exact ih.step h

theorem UndisturbedD.abort {s : DSt fl} (H : UndisturbedD c size fs ans s) : s.r.run.abort = true → ∃ x, s.r.run.rpc = .ended x := by
  cases H with
  | init => intro h; cases h
  | step _ _ h => exact h

/-- A worker that has been taken, and has loaded what it can load. -/
theorem prepare (h : DSetting c ns fs val) {s : DSt fl} {W : Str → Task} (H : UndisturbedD c size (mkdirs fs c.D.dirs.out) ans s)
    (hs : Sim c ns fs ans val s W) (hb : Bounded s) {n : Str} (hw : s.r.Works n) (hrep : s.r.reports n = some []) :
    ∃ (s' : DSt fl) (p : Nat), UndisturbedD c size (mkdirs fs c.D.dirs.out) ans s' ∧ Sim c ns fs ans val s' W ∧ Bounded s' ∧
      ({ s'.r with work := W } : RSt fl) = { s.r with work := W } ∧ s'.proc n = some p ∧ ∀ d k, s'.call n ≠ .load d k := by
  -- a process
  have htake : ∃ (s' : DSt fl) (p : Nat), UndisturbedD c size (mkdirs fs c.D.dirs.out) ans s' ∧ Sim c ns fs ans val s' W ∧ Bounded s' ∧
      ({ s'.r with work := W } : RSt fl) = { s.r with work := W } ∧ s'.proc n = some p := by
    cases hp : s.proc n with
    | some p => exact ⟨s, p, H, hs, hb, rfl, hp⟩
    | none =>
      obtain ⟨b, hb⟩ := hb
      refine ⟨_, b, H.step (.take s n b hw hp ?_) H.abort, ⟨hs.reach, hs.call, hs.rest, hs.cache⟩, ⟨b + 1, ?_⟩, rfl, ?_⟩
      · intro a ha; exact absurd (hb a b ha) (Nat.lt_irrefl _)
      · intro m q hq
        dsimp only at hq
        split at hq
        · cases hq; exact Nat.lt_succ_self _
        · exact Nat.lt_succ_of_lt (hb m q hq)
      · dsimp only; rw [if_pos rfl]
  obtain ⟨s1, p, H1, hs1, hb1, e1, hp1⟩ := htake
  have hw1 : s1.r.Works n := by
    have : ({ s1.r with work := W } : RSt fl).Works n := by rw [e1]; exact hw
    exact this
  have hrep1 : s1.r.reports n = some [] := by
    have : ({ s1.r with work := W } : RSt fl).reports n = some [] := by rw [e1]; exact hrep
    exact this
  have hf := hs1.call n
  suffices key : ∀ {d : DTask} {t : Task}, Follows val (c.D.deps n) ((filledP c.D val).tests n).returns d t → ∀ s1 : DSt fl,
      UndisturbedD c size (mkdirs fs c.D.dirs.out) ans s1 → Sim c ns fs ans val s1 W → Bounded s1 → s1.r.Works n →
      s1.r.reports n = some [] → s1.proc n = some p → s1.call n = d →
      ∃ s' : DSt fl, UndisturbedD c size (mkdirs fs c.D.dirs.out) ans s' ∧ Sim c ns fs ans val s' W ∧ Bounded s' ∧
        ({ s'.r with work := W } : RSt fl) = { s1.r with work := W } ∧ s'.proc n = some p ∧ ∀ d k, s'.call n ≠ .load d k by
    obtain ⟨s', a1, a2, a3, a4, a5, a6⟩ := key hf s1 H1 hs1 hb1 hw1 hrep1 hp1 rfl
    exact ⟨s', p, a1, a2, a3, a4.trans e1, a5, a6⟩
  intro d t hf
  induction hf with
  | task t => intro s1 H1 hs1 hb1 _ _ hp1 hc; exact ⟨s1, H1, hs1, hb1, rfl, hp1, fun d k e => by rw [hc] at e; cases e⟩
  | bad r e he => intro s1 H1 hs1 hb1 _ _ hp1 hc; exact ⟨s1, H1, hs1, hb1, rfl, hp1, fun d k e => by rw [hc] at e; cases e⟩
  | act o k k' hk _ => intro s1 H1 hs1 hb1 _ _ hp1 hc; exact ⟨s1, H1, hs1, hb1, rfl, hp1, fun d k e => by rw [hc] at e; cases e⟩
  | load d k t hd _ ih =>
    intro s1 H1 hs1 hb1 hw1 hrep1 hp1 hc
    obtain ⟨e1, hs2⟩ := hs1.loaded h p hw1 hc
    obtain ⟨s', a1, a2, a3, a4, a5, a6⟩ := ih _ (H1.step (.loads s1 n p d k hw1 hp1 hrep1 hc) H1.abort) hs2 hb1 hw1 hrep1 hp1 (by
      show (if n = n then k _ else _) = _
      rw [if_pos rfl, e1])
    exact ⟨s', a1, a2, a3, a4, a5, a6⟩

/-- Every run of the tests that are called with the values is one of tests with dependencies. -/
theorem sim_back (h : DSetting c ns fs val) (hsize : 0 < size) {r : RSt fl}
    (H : Undisturbed (c.conf (filledP c.D val)) (mkdirs fs c.D.dirs.out) ans r) :
    ∃ s : DSt fl, UndisturbedD c size (mkdirs fs c.D.dirs.out) ans s ∧ Sim c ns fs ans val s r.work ∧ Bounded s ∧
      ({ s.r with work := r.work } : RSt fl) = r := by
  induction H with
  | init =>
    exact ⟨_, .init, ⟨.init, fun n => follows_case val, fun n => rfl,
      fun p => empty_sure (c := .lru size []) ⟨hsize, rfl⟩ _ _ _⟩, ⟨0, fun n p e => by cases e⟩, rfl⟩
  | @step r r' Hr hstep hab ih =>
    obtain ⟨s, H, hs, hb, e⟩ := ih
    obtain ⟨hinv, -⟩ := run_inv h.tidyP (fun _ _ => ⟨h.quiet.2, h.quiet.1⟩) (undisturbed_reach Hr)
    -- a step of the runner
    have hrun : ∀ {s : DSt fl} {r2 : RSt fl}, UndisturbedD c size (mkdirs fs c.D.dirs.out) ans s → Sim c ns fs ans val s r.work → Bounded s →
        RStep (c.conf c.D.dirs) s.r r2 → r2.ran = s.r.ran → r'.work = r.work → ({ r2 with work := r.work } : RSt fl) = r' →
        ∃ s : DSt fl, UndisturbedD c size (mkdirs fs c.D.dirs.out) ans s ∧ Sim c ns fs ans val s r'.work ∧ Bounded s ∧
          ({ s.r with work := r'.work } : RSt fl) = r' := by
      intro s r2 H hs hb h2 hran hwork he
      rw [hwork]
      have hst := hs.runner h2 hran
      exact ⟨_, H.step (.runner s r2 h2 hran) (by rw [← he] at hab; exact hab), ⟨hs.reach.step hst, hs.call,
        fun n => by rw [← hs.rest n]; exact congrFun (runner_same h2 hran) n, hs.cache⟩, hb, he⟩
    obtain ⟨run, f, work, reports, indexed, review, answers, ran⟩ := r
    have e2 := e
    obtain ⟨⟨run', f', work', reports', indexed', review', answers', ran'⟩, call, cache, proc⟩ := s
    simp only [RSt.mk.injEq, true_and] at e2
    obtain ⟨rfl, rfl, rfl, rfl, rfl, rfl, rfl⟩ := e2
    cases hstep with
    | scheduler p h hr hy => exact hrun H hs hb (.scheduler _ p h hr hy) rfl rfl rfl
    | main p h hr hp hy => exact hrun H hs hb (.main _ p h hr hp hy) rfl rfl rfl
    | opens n hw h => exact hrun H hs hb (.opens _ n hw h) rfl rfl rfl
    | indexes n rec g a hw h hi hx => exact hrun H hs hb (.indexes _ n rec g a hw h hi hx) rfl rfl rfl
    | takes r q v rest h hq hv => exact hrun H hs hb (.takes _ r q v rest h hq hv) rfl rfl rfl
    | takesEof r q h hq hv => exact hrun H hs hb (.takesEof _ r q h hq hv) rfl rfl rfl
    | reviews r v g t h hv ht => exact hrun H hs hb (.reviews _ r v g t h hv ht) rfl rfl rfl
    | reviewed r v res x q h hv ht hf => exact hrun H hs hb (.reviewed _ r v res x q h hv ht hf) rfl rfl rfl
    | reviewedText r v t x q h hv ht hf => exact hrun H hs hb (.reviewedText _ r v t x q h hv ht hf) rfl rfl rfl
    | reviewRaises r h hv => exact hrun H hs hb (.reviewRaises _ r h hv) rfl rfl rfl
    | interrupt r h => exact hrun H hs hb (.interrupt _ r h) rfl rfl rfl
    | writes n r q hw hrep hd =>
      obtain ⟨s1, p, H1, hs1, hb1, e1, hp1, hl⟩ := prepare h H hs hb hw hrep
      obtain ⟨⟨run1, f1, work1, reports1, indexed1, review1, answers1, ran1⟩, call1, cache1, proc1⟩ := s1
      simp only [RSt.mk.injEq, true_and] at e1
      obtain ⟨rfl, rfl, rfl, rfl, rfl, rfl, rfl⟩ := e1
      refine hrun H1 hs1 hb1 (.writes _ n r q hw hrep ?_) rfl rfl rfl
      rw [hs1.rest n]
      exact rest_done (hs1.call n) hl hd
    | ends n hw ho =>
      cases ho with
      | whole hx => exact hrun H hs hb (.ends _ n hw (.whole hx)) rfl rfl rfl
      | noIndex rec x hx hx' => exact hrun H hs hb (.ends _ n hw (.noIndex rec x hx hx')) rfl rfl rfl
      | broken hx => exact absurd hx (h.breaks _ _)
      | raised x hd =>
        have hrep : reports' n = some [] := by
          rcases hinv.reports n with e' | e' | ⟨r, q, -, e'⟩
          · have := hinv.unopened n e'
            exact absurd (this.symm.trans hd) (fresh_not_done n _)
          · exact e'
          · have := e'.symm.trans hd; cases this
        obtain ⟨s1, p, H1, hs1, hb1, e1, hp1, hl⟩ := prepare h H hs hb hw hrep
        obtain ⟨⟨run1, f1, work1, reports1, indexed1, review1, answers1, ran1⟩, call1, cache1, proc1⟩ := s1
        simp only [RSt.mk.injEq, true_and] at e1
        obtain ⟨rfl, rfl, rfl, rfl, rfl, rfl, rfl⟩ := e1
        refine hrun H1 hs1 hb1 (.ends _ n hw (.raised x ?_)) rfl rfl rfl
        rw [hs1.rest n]
        exact rest_done (hs1.call n) hl hd
    | works n g t hw hrep hst =>
      obtain ⟨s1, p, H1, hs1, hb1, e1, hp1, hl⟩ := prepare h H hs hb hw hrep
      obtain ⟨⟨run1, f1, work1, reports1, indexed1, review1, answers1, ran1⟩, call1, cache1, proc1⟩ := s1
      simp only [RSt.mk.injEq, true_and] at e1
      obtain ⟨rfl, rfl, rfl, rfl, rfl, rfl, rfl⟩ := e1
      have hf : Follows val (c.D.deps n) ((filledP c.D val).tests n).returns (call1 n) (work n) := hs1.call n
      cases hcall : call1 n with
      | load d k => exact absurd hcall (hl d k)
      | task ret t0 =>
        have e0 : work n = t0 := by
          rw [hcall] at hf
          generalize hwn : work n = w at hf
          cases hf with
          | task _ => rfl
          | bad _ x hx =>
            have hst' : (work n).step f1 = some (g, t) := hst
            rw [hwn] at hst'
        have hst0 : t0.step f1 = some (g, t) := by rw [← e0]; exact hst
        exact ⟨_, H1.step (.works _ n p ret t0 t g hw hp1 hrep hcall hst0) hab, (hs1.ended h p hw hrep hcall hst0).2, hb1, rfl⟩
      | act o k =>
        rw [hcall] at hf
        have hst' : (work n).step f1 = some (g, t) := hst
        generalize hwn : work n = w at hf
        cases hf with
        | act _ _ k' hk =>
          have hst2 := hst'
          rw [hwn] at hst2
          simp only [Task.step] at hst2
          cases hx : o.run f1 with
          | ok y =>
            obtain ⟨y1, y2⟩ := y
            rw [hx] at hst2
            simp only [Option.some.injEq, Prod.mk.injEq] at hst2
            obtain ⟨rfl, rfl⟩ := hst2
            exact ⟨_, H1.step (.acts _ n p o k y1 y2 hw hp1 hrep hcall hx) hab, hs1.acted hw hrep hst' (hk y2), hb1, rfl⟩
          | error y =>
            rw [hx] at hst2
            simp only [Option.some.injEq, Prod.mk.injEq] at hst2
            obtain ⟨rfl, rfl⟩ := hst2
            exact ⟨_, H1.step (.fails _ n p o k y hw hp1 hrep hcall hx) hab,
              hs1.acted hw hrep hst' (.bad _ _ (fun x q e => by cases e)), hb1, rfl⟩

end Runs

end Verif.Lemmas
