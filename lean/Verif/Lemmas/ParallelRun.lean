import Verif.Lemmas.TaskBind
import Verif.Lemmas.ParallelRecords
import Verif.Lemmas.Story
import Verif.Spec.ParallelRun
import Verif.Props.Reports

/-! # Parallel runs and their files -/

namespace Verif.Lemmas
open Verif.Py Verif.Model Verif.Spec

variable {fl : Durations} {c : RConf fl}

/-! ### The scheduler -/

theorem quiet_step {c : PConf fl} {s p : PSt fl} (h : PStep c s p) (hy : p.ready = s.ready)
    (hq : p.rpc = s.rpc ∨ ((∀ r, s.rpc ≠ .reviewing r) ∧ ∀ r, p.rpc ≠ .reviewing r)) :
    p.files = s.files ∧ p.taken = s.taken ∧ (∀ n ∈ s.started, n ∈ p.started) ∧
    (∀ r, r ∈ p.queue ∨ r ∈ pend p.spc ∨ r ∈ underReview p.rpc →
      (r ∈ s.queue ∨ r ∈ pend s.spc ∨ r ∈ underReview s.rpc) ∨
      ∃ d n, s.spc = .collect d ∧ n ∈ d ∧ collectOne c n (s.files (batchName n)) = some r) ∧
    (p.recorded = s.recorded ∨ ∃ n v d, (n, Raw.res v, d) ∈ s.queue ∧ p.recorded = s.recorded ++ [(n, v, d)]) := by
  have hu : ∀ r, r ∈ underReview p.rpc → r ∈ underReview s.rpc := by
    intro r hr
    rcases hq with hq | hq
    · rw [hq] at hr; exact hr
    · cases hp : p.rpc with
      | reviewing r' => exact absurd hp (hq.2 r')
      | check => rw [hp] at hr; cases hr
      | waiting => rw [hp] at hr; cases hr
      | leftover k x => rw [hp] at hr; cases hr
      | ended x => rw [hp] at hr; cases hr
  have keep : ∀ {a : List (PRec fl)} {b : SPc fl}, p.queue = a → p.spc = b → (∀ r, r ∈ a → r ∈ s.queue) →
      (∀ r, r ∈ pend b → r ∈ s.queue ∨ r ∈ pend s.spc) →
      ∀ r, r ∈ p.queue ∨ r ∈ pend p.spc ∨ r ∈ underReview p.rpc →
      (r ∈ s.queue ∨ r ∈ pend s.spc ∨ r ∈ underReview s.rpc) ∨
      ∃ d n, s.spc = .collect d ∧ n ∈ d ∧ collectOne c n (s.files (batchName n)) = some r := by
    intro a b ha hb h1 h2 r hr
    rw [ha, hb] at hr
    rcases hr with hr | hr | hr
    · exact Or.inl (Or.inl (h1 r hr))
    · rcases h2 r hr with h | h
      · exact Or.inl (Or.inl h)
      · exact Or.inl (Or.inr (Or.inl h))
    · exact Or.inl (Or.inr (Or.inr (hu r hr)))
  have nop : ∀ r, r ∈ ([] : List (PRec fl)) → r ∈ s.queue ∨ r ∈ pend s.spc := fun r hr => by cases hr
  cases h with
  | planned order l h hd ha ho hl => exact ⟨rfl, rfl, fun n h => h, keep rfl rfl (fun r h => h) nop, Or.inl rfl⟩
  | stop h hd => exact ⟨rfl, rfl, fun n h => h, keep rfl rfl (fun r h => h) nop, Or.inl rfl⟩
  | start n ns h hn =>
    exact ⟨rfl, rfl, fun n h => List.mem_append_left _ h, keep rfl rfl (fun r h => h) nop, Or.inl rfl⟩
  | skip n ns h hn => exact ⟨rfl, rfl, fun n h => h, keep rfl rfl (fun r h => h) nop, Or.inl rfl⟩
  | startedAll h => exact ⟨rfl, rfl, fun n h => h, keep rfl rfl (fun r h => h) nop, Or.inl rfl⟩
  | again h ha => exact ⟨rfl, rfl, fun n h => h, keep rfl rfl (fun r h => h) nop, Or.inl rfl⟩
  | leave d h hd => exact ⟨rfl, rfl, fun n h => h, keep rfl rfl (fun r h => h) nop, Or.inl rfl⟩
  | seeReady n rest d h hr => exact ⟨rfl, rfl, fun n h => h, keep rfl rfl (fun r h => h) nop, Or.inl rfl⟩
  | seeBusy n rest d h hr => exact ⟨rfl, rfl, fun n h => h, keep rfl rfl (fun r h => h) nop, Or.inl rfl⟩
  | swept d h => exact ⟨rfl, rfl, fun n h => h, keep rfl rfl (fun r h => h) nop, Or.inl rfl⟩
  | collected d d' rs h hp hr =>
    refine ⟨rfl, rfl, fun n h => h, ?_, Or.inl rfl⟩
    intro r hr'
    rcases hr' with hr' | hr' | hr'
    · exact Or.inl (Or.inl hr')
    · right
      have : ∀ (l : List Str) (rs : List (PRec fl)),
          l.mapM (fun n => collectOne c n (s.files (batchName n))) = some rs → ∀ r ∈ rs,
          ∃ n ∈ l, collectOne c n (s.files (batchName n)) = some r := by
        intro l
        induction l with
        | nil => intro rs h r hr; rw [List.mapM_nil] at h; cases h; cases hr
        | cons x xs ih =>
          intro rs h r hr
          rw [List.mapM_cons] at h
          cases hx : collectOne c x (s.files (batchName x)) with
          | none => rw [hx] at h; cases h
          | some y =>
            rw [hx] at h
            cases hxs : xs.mapM (fun n => collectOne c n (s.files (batchName n))) with
            | none => rw [hxs] at h; cases h
            | some ys =>
              rw [hxs] at h
              cases h
              rcases List.mem_cons.mp hr with rfl | hr
              · exact ⟨x, List.mem_cons_self .., hx⟩
              · obtain ⟨n, h1, h2⟩ := ih ys hxs r hr
                exact ⟨n, List.mem_cons_of_mem _ h1, h2⟩
      obtain ⟨n, h1, h2⟩ := this d' rs hr r hr'
      exact ⟨d, n, h, hp.mem_iff.mp h1, h2⟩
    · exact Or.inl (Or.inr (Or.inr (hu r hr')))
  | crash d d' h hp hr => exact ⟨rfl, rfl, fun n h => h, keep rfl rfl (fun r h => h) nop, Or.inl rfl⟩
  | publish rs h =>
    refine ⟨rfl, rfl, fun n h => h, ?_, Or.inl rfl⟩
    intro r hr'
    rcases hr' with hr' | hr' | hr'
    · rcases List.mem_append.mp hr' with hr' | hr'
      · exact Or.inl (Or.inl hr')
      · refine Or.inl (Or.inr (Or.inl ?_))
        rw [h]; exact hr'
    · cases hr'
    · exact Or.inl (Or.inr (Or.inr (hu r hr')))
  | finish n b hs hr hb =>
    have := congrArg List.length hy
    rw [List.length_append] at this
    simp at this
  | more h hn => exact ⟨rfl, rfl, fun n h => h, keep rfl rfl (fun r h => h) (fun r h => Or.inr h), Or.inl rfl⟩
  | noMore h hn => exact ⟨rfl, rfl, fun n h => h, keep rfl rfl (fun r h => h) (fun r h => Or.inr h), Or.inl rfl⟩
  | take r q h hq' =>
    rcases hq with hq | hq
    · rw [h] at hq; cases hq
    · exact absurd rfl (hq.2 r)
  | reviewed r res ab h hv =>
    rcases hq with hq | hq
    · rw [h] at hq; cases hq
    · exact absurd h (hq.1 r)
  | reviewedText r t ab h hv =>
    rcases hq with hq | hq
    · rw [h] at hq; cases hq
    · exact absurd h (hq.1 r)
  | reviewRaises r h hv =>
    rcases hq with hq | hq
    · rw [h] at hq; cases hq
    · exact absurd h (hq.1 r)
  | interrupt h => exact ⟨rfl, rfl, fun n h => h, keep rfl rfl (fun r h => h) (fun r h => Or.inr h), Or.inl rfl⟩
  | recordLeft k x n res d h hq' =>
    refine ⟨rfl, rfl, fun n h => h, keep rfl rfl (fun r h => h) (fun r h => Or.inr h),
      Or.inr ⟨n, res, d, ?_, rfl⟩⟩
    exact List.mem_of_getElem? hq'
  | recordLeftText k x n t d h hq' =>
    exact ⟨rfl, rfl, fun n h => h, keep rfl rfl (fun r h => h) (fun r h => Or.inr h), Or.inl rfl⟩
  | finished k x h hq' =>
    exact ⟨rfl, rfl, fun n h => h, keep rfl rfl (fun r h => h) (fun r h => Or.inr h), Or.inl rfl⟩

/-- The reports in `leaves` are about their test. -/
theorem named_pconf (ht : Tidy c) : Named c.pconf := by
  refine ⟨ht.todo, ht.batches, ?_⟩
  intro n hn b hb r hr
  rcases hb with rfl | rfl | ⟨v, rfl⟩
  · cases hr; rfl
  · cases hr
  · unfold collectOne at hr
    dsimp only at hr
    rw [Verif.Props.C23_round_trip _ fl [(n, v, c.dur n)] (by simpa using ht.names n hn)] at hr
    cases hr; rfl

/-- What is found in the report of a worker. -/
theorem collect_report {n : Str} (hn : CleanName n) (l : Option (List (Rec fl))) {r : PRec fl}
    (hl : l = none ∨ l = some [] ∨ ∃ v, l = some [(n, v, c.dur n)])
    (hr : collectOne c.pconf n (l.map (fun l => encode (toText fl l))) = some r) :
    r.1 = n ∧ ((l = none ∧ ∃ t, r.2.1 = .text t) ∨ ∃ v, l = some [(n, v, c.dur n)] ∧ r.2.1 = .res v) := by
  rcases hl with rfl | rfl | ⟨v, rfl⟩
  · cases hr; exact ⟨rfl, Or.inl ⟨rfl, _, rfl⟩⟩
  · cases hr
  · rw [Option.map_some] at hr
    unfold collectOne at hr
    dsimp only at hr
    rw [Verif.Props.C23_round_trip _ fl [(n, v, c.dur n)] (by simpa using hn)] at hr
    cases hr
    exact ⟨rfl, Or.inr ⟨v, rfl, rfl⟩⟩

/-! ### The states of workers -/

/-- What a worker has to do for its test. -/
def freshTask (c : RConf fl) (n : Str) : Task :=
  caseTask c.P (jobConfig c.cfg) n [] (fun r q _ => .done (.done r q))

/-- All results with which the task can end are `OK`. -/
def EndsOk : Task → Prop
  | .done e => ∀ r q, e = .done r q → r = .OK
  | .act _ k => ∀ a, EndsOk (k a)

theorem endsOk_step {t t' : Task} {A A' : FS} (h : EndsOk t) (hs : t.step A = some (A', t')) : EndsOk t' := by
  cases t with
  | done e => cases hs
  | act o k =>
    simp only [Task.step] at hs
    cases hr : o.run A with
    | error x => rw [hr] at hs; cases hs; intro r q e; cases e
    | ok y => rw [hr] at hs; cases hs; exact h _

theorem endsOk_freeze (exp out : Path) (n : Str) (q : Request) : EndsOk (freezeTask exp out n (.done (.done .OK q))) := by
  have hd : EndsOk (.done (.done .OK q)) := by intro r q' e; cases e; rfl
  have hr : EndsOk (.act (.rename (mdPath out n) (mdPath exp n)) fun _ =>
      .act (.look (dirPath out n)) fun a =>
        if a.isSome then .act (.rename (dirPath out n) (dirPath exp n)) (fun _ => .done (.done .OK q))
        else .done (.done .OK q)) := by
    intro _ a
    dsimp only
    split
    · exact fun _ => hd
    · exact hd
  intro a
  show EndsOk (if a.isSome then _ else _)
  split
  · exact fun _ => hr
  · exact hr

/-- The invariant of the workers and their reports. -/
structure WorkInv (c : RConf fl) (s : RSt fl) : Prop where
  reach : PReach c.pconf s.run
  /-- A worker that has not opened its report has done nothing. -/
  unopened : ∀ n, s.reports n = none → s.work n = freshTask c n
  /-- A record is written when the test has ended. -/
  reports : ∀ n, s.reports n = none ∨ s.reports n = some [] ∨
    ∃ r q, s.reports n = some [(n, r, c.dur n)] ∧ s.work n = .done (.done r q)
  indexed : ∀ n, s.indexed n = true → ∃ rec, s.reports n = some [rec]
  fresh : ∀ n, s.work n = freshTask c n ∨ n ∈ s.ran
  ran : ∀ n ∈ s.ran, n ∈ s.run.started
  files : ∀ n ∈ s.run.ready, s.run.files (batchName n) = (s.reports n).map (fun l => encode (toText fl l))
  early : ∀ n ∈ s.run.ready, s.reports n = none → c.breaks n false
  recs : ∀ r, r ∈ s.run.queue ∨ r ∈ pend s.run.spc ∨ r ∈ underReview s.run.rpc →
    (∀ v, r.2.1 = .res v → ∃ q, s.work r.1 = .done (.done v q)) ∧ (∀ t, r.2.1 = .text t → c.breaks r.1 false)

theorem fresh_not_done (n : Str) (e : CaseEnd) : freshTask c n ≠ .done e := by
  have h2 : ∀ (cs : List Str) (base : Path) (t : Task), (∀ e, t ≠ .done e) → ∀ e, mkdirsTask base cs t ≠ .done e := by
    intro cs
    cases cs with
    | nil => intro base t ht; exact ht
    | cons c cs => intro base t _ e h; cases h
  unfold freshTask caseTask
  refine h2 _ _ _ (h2 _ _ _ ?_) e
  intro e h; cases h

theorem report_shape {s : RSt fl} (h : WorkInv c s) (n : Str) :
    s.reports n = none ∨ s.reports n = some [] ∨ ∃ v, s.reports n = some [(n, v, c.dur n)] := by
  rcases h.reports n with e | e | ⟨v, _, e, -⟩
  · exact Or.inl e
  · exact Or.inr (Or.inl e)
  · exact Or.inr (Or.inr ⟨v, e⟩)

/-- The scheduler and the main thread keep the invariant of the workers. -/
theorem work_quiet (ht : Tidy c) {s : RSt fl} (h : WorkInv c s) {p : PSt fl} (hp : PStep c.pconf s.run p)
    (hy : p.ready = s.run.ready)
    (hq : p.rpc = s.run.rpc ∨ ((∀ r, s.run.rpc ≠ .reviewing r) ∧ ∀ r, p.rpc ≠ .reviewing r)) :
    WorkInv c { s with run := p } := by
  obtain ⟨q1, q2, q3, q4, q5⟩ := quiet_step hp hy hq
  have hi := inv_reach ht.todo h.reach
  refine ⟨h.reach.step hp, h.unopened, h.reports, h.indexed, h.fresh, fun n hn => q3 n (h.ran n hn), ?_, ?_, ?_⟩
  · intro n hn
    show p.files _ = _
    rw [q1]
    exact h.files n (by rw [← hy]; exact hn)
  · intro n hn hr
    exact h.early n (by rw [← hy]; exact hn) hr
  · intro r hr
    rcases q4 r hr with hr | ⟨d, n, h1, h2, h3⟩
    · exact h.recs r hr
    · have hpc := hi.pc
      rw [h1] at hpc
      have hready := (hpc.2 n h2).2
      have hstarted := hi.readySub n hready
      rw [h.files n hready] at h3
      obtain ⟨e1, e2⟩ := collect_report (ht.names n (hi.sub n hstarted)) _ (report_shape h n) h3
      rw [e1]
      rcases e2 with ⟨e2, t, e3⟩ | ⟨v, e2, e3⟩
      · refine ⟨fun v hv => (by rw [e3] at hv; cases hv), fun t _ => h.early n hready e2⟩
      · refine ⟨fun v' hv => ?_, fun t hv => (by rw [e3] at hv; cases hv)⟩
        rw [e3] at hv
        cases hv
        rcases h.reports n with e | e | ⟨v', q, e, e4⟩
        · rw [e] at e2; cases e2
        · rw [e] at e2; cases e2
        · rw [e] at e2
          cases e2
          exact ⟨q, e4⟩

/-! ### The reviews -/

/-- The main thread's review is the one of `Model/Together`. -/
theorem start_review {P : Project} {cfg : Config} {n : Str} {v : Result} {ans rest : List Str} {w : PReview}
    (q : Request) (h : startReview P cfg n (.res v) ans = some (w, rest)) :
    laterTask P cfg n (some ans) v q = w.task ∧ rest <:+ ans ∧
      (w.frozen = true → EndsOk w.task) ∧ (w.frozen = false → ∃ q, w.task = .done (.done v q)) := by
  have e : (cfg.alwaysInteractive || (decide (Raw.res v ≠ .res .OK) && cfg.interactive)) =
      (cfg.alwaysInteractive || (decide (v ≠ .OK) && cfg.interactive)) := by
    cases v <;> rfl
  have e1 : ∀ q' : Request, (q' = .FREEZE ∨ (Raw.res v = .res .OK ∧ cfg.update = true) ∨
      (Raw.res v = .res .DIFF ∧ cfg.accept = true)) ↔
      (q' = .FREEZE ∨ (v = .OK ∧ cfg.update = true) ∨ (v = .DIFF ∧ cfg.accept = true)) := by simp
  unfold startReview at h
  rw [e] at h
  unfold laterTask reviewTask
  dsimp only
  have hs : ∀ c, (if (cfg.alwaysInteractive || (decide (v ≠ .OK) && cfg.interactive)) = true then interact (.res v) ans
    else some (.NONE, ans)) = some c → c.2 <:+ ans := by
    intro c hc
    split at hc
    · exact interact_suffix _ _ hc
    · cases hc; exact List.suffix_rfl
  generalize (if (cfg.alwaysInteractive || (decide (v ≠ .OK) && cfg.interactive)) = true then interact (.res v) ans
    else some (.NONE, ans)) = x at h hs ⊢
  cases x with
  | none => cases h
  | some c =>
    obtain ⟨q', l⟩ := c
    dsimp only at h ⊢
    by_cases hf : q' = .FREEZE ∨ (v = .OK ∧ cfg.update = true) ∨ (v = .DIFF ∧ cfg.accept = true)
    · rw [if_pos ((e1 q').mpr hf)] at h
      rw [if_pos hf]
      cases h
      exact ⟨rfl, hs _ rfl, fun _ => endsOk_freeze _ _ _ _, fun hx => by cases hx⟩
    · rw [if_neg (fun hc => hf ((e1 q').mp hc))] at h
      rw [if_neg hf]
      cases h
      exact ⟨rfl, hs _ rfl, fun hx => (by cases hx), fun _ => ⟨_, rfl⟩⟩

/-- Nobody accepts a made-up result unless asked. -/
theorem start_text {P : Project} {cfg : Config} {n t : Str} {ans rest : List Str} {w : PReview}
    (h : startReview P cfg n (.text t) ans = some (w, rest)) (hi : cfg.interactive = false)
    (ha : cfg.alwaysInteractive = false) :
    w.frozen = false ∧ rest <:+ ans ∧ ∃ x q, w.task = .done (.done x q) := by
  unfold startReview at h
  rw [hi, ha] at h
  rw [if_neg (by simp)] at h
  dsimp only at h
  rw [if_neg (by simp)] at h
  cases h
  exact ⟨rfl, List.suffix_rfl, _, _, rfl⟩

/-! ### The order of the reviews -/

/-- The first question about a result, if there is one. -/
def askedOf (cfg : Config) (v : Result) (lines : List Str) : Option (Request × List Str) :=
  if (cfg.alwaysInteractive || (decide (v ≠ .OK) && cfg.interactive)) = true then interact (.res v) lines
  else some (.NONE, lines)

/-- A review accepts the output. -/
def Freezes (cfg : Config) (v : Result) (q : Request) : Prop :=
  q = .FREEZE ∨ (v = .OK ∧ cfg.update = true) ∨ (v = .DIFF ∧ cfg.accept = true)

instance (cfg : Config) (v : Result) (q : Request) : Decidable (Freezes cfg v q) := by unfold Freezes; infer_instance

/-- The worker of the test has ended with this result. -/
def Reported (c : RConf fl) (fs : FS) (n : Str) (v : Result) : Prop :=
  ∃ (index : Str → Bool) (rv : Str → Option (List Str)) (trace : List Str) (g : FS) (t : Str → Task) (q : Request),
    Interleaved (fun n => parallelTask c.P c.cfg c.all (index n) (rv n) n) c.todo fs trace g t ∧ rv n = none ∧
    t n = .done (.done v q)

/-- Reviews one after the other, each of which gets the lines that the ones before have left; the last argument tells
whether none of them has made the run stop. -/
inductive Threads (cfg : Config) (E : Str → Result → Prop) (rv : Str → Option (List Str)) (ans : List Str) :
    List (Str × Result) → List Str → Bool → Prop
  | nil : Threads cfg E rv ans [] ans true
  | snoc {l : List (Str × Result)} {mid rest : List Str} {n : Str} {v res : Result} {q : Request} :
      Threads cfg E rv ans l mid true → rv n = some mid → E n v →
      askedOf cfg v mid = some (q, rest) → res = (if Freezes cfg v q then .OK else v) →
      Threads cfg E rv ans (l ++ [(n, res)]) rest (!(decide (q = .ABORT) || (cfg.failFast && decide (res ≠ .OK))))

theorem Threads.congr {cfg : Config} {E : Str → Result → Prop} {rv rv' : Str → Option (List Str)} {ans mid : List Str}
    {l : List (Str × Result)} {b : Bool} (h : Threads cfg E rv ans l mid b)
    (e : ∀ x ∈ l, rv' x.1 = rv x.1) : Threads cfg E rv' ans l mid b := by
  induction h with
  | nil => exact .nil
  | snoc _ h1 h2 h3 h4 ih =>
    have e2 := e _ (List.mem_append_right _ (List.mem_singleton.mpr rfl))
    exact .snoc (ih (fun x hx => e x (List.mem_append_left _ hx))) (e2.trans h1) h2 h3 h4

/-- The records are those of the reviews, and of reports that were left when the reviews had ended. -/
def Order (cfg : Config) (E : Str → Result → Prop) (rv : Str → Option (List Str)) (ans : List Str) (recorded : List (Rec fl))
    (rpc : RPc fl) (abort : Bool) (review : Option PReview) (now : List Str) : Prop :=
  ∃ (l left : List (Rec fl)) (mid : List Str) (b : Bool), recorded = l ++ left ∧
    Threads cfg E rv ans (l.map (fun x => (x.1, x.2.1))) mid b ∧ (∀ x ∈ left, rv x.1 = none) ∧
    (rpc = .check ∨ rpc = .waiting → left = [] ∧ now = mid) ∧ (b = false → abort = true) ∧
    (rpc = .waiting → b = true) ∧
    ∀ r, rpc = .reviewing r → left = [] ∧ b = true ∧ ∀ v x, review = some v → r.2.1 = .res x →
      rv r.1 = some mid ∧ E r.1 x ∧ askedOf cfg x mid = some (v.request, now) ∧ (v.frozen = true ↔ Freezes cfg x v.request)

/-- The main thread has left the reviews. -/
theorem Order.over {cfg : Config} {E : Str → Result → Prop} {rv : Str → Option (List Str)} {ans : List Str}
    {recorded : List (Rec fl)} {rpc rpc' : RPc fl} {abort abort' : Bool} {review review' : Option PReview}
    {now now' : List Str} (h : Order cfg E rv ans recorded rpc abort review now)
    (e : ∃ k x, rpc' = .leftover k x ∨ rpc' = .ended x) (ha : abort = true → abort' = true) :
    Order cfg E rv ans recorded rpc' abort' review' now' := by
  obtain ⟨l, left, mid, b, h1, h2, h3, -, h5, -⟩ := h
  obtain ⟨k, x, e⟩ := e
  refine ⟨l, left, mid, b, h1, h2, h3, ?_, fun hb => ha (h5 hb), ?_, ?_⟩ <;> rcases e with rfl | rfl
  · intro h; rcases h with h | h <;> cases h
  · intro h; rcases h with h | h <;> cases h
  · intro h; cases h
  · intro h; cases h
  · intro r h; cases h
  · intro r h; cases h

/-- What the steps outside of reviews do to the records. -/
theorem quiet_order {c : PConf fl} {s p : PSt fl} (h : PStep c s p) (hy : p.ready = s.ready)
    (hq : p.rpc = s.rpc ∨ ((∀ r, s.rpc ≠ .reviewing r) ∧ ∀ r, p.rpc ≠ .reviewing r)) :
    (p.rpc = s.rpc ∧ p.abort = s.abort ∧ p.recorded = s.recorded) ∨
    (s.rpc = .check ∧ p.rpc = .waiting ∧ s.abort = false ∧ p.recorded = s.recorded) ∨
    ((∃ k x, p.rpc = .leftover k x ∨ p.rpc = .ended x) ∧ (s.abort = true → p.abort = true) ∧
      (p.recorded = s.recorded ∨ ∃ n v d, (n, Raw.res v, d) ∈ s.queue ∧ p.recorded = s.recorded ++ [(n, v, d)])) := by
  cases h with
  | planned order l h hd ha ho hl => exact Or.inl ⟨rfl, rfl, rfl⟩
  | stop h hd => exact Or.inl ⟨rfl, rfl, rfl⟩
  | start n ns h hn => exact Or.inl ⟨rfl, rfl, rfl⟩
  | skip n ns h hn => exact Or.inl ⟨rfl, rfl, rfl⟩
  | startedAll h => exact Or.inl ⟨rfl, rfl, rfl⟩
  | again h ha => exact Or.inl ⟨rfl, rfl, rfl⟩
  | leave d h hd => exact Or.inl ⟨rfl, rfl, rfl⟩
  | seeReady n rest d h hr => exact Or.inl ⟨rfl, rfl, rfl⟩
  | seeBusy n rest d h hr => exact Or.inl ⟨rfl, rfl, rfl⟩
  | swept d h => exact Or.inl ⟨rfl, rfl, rfl⟩
  | collected d d' rs h hp hr => exact Or.inl ⟨rfl, rfl, rfl⟩
  | crash d d' h hp hr => exact Or.inl ⟨rfl, rfl, rfl⟩
  | publish rs h => exact Or.inl ⟨rfl, rfl, rfl⟩
  | finish n b hs hr hb =>
    have := congrArg List.length hy
    rw [List.length_append] at this
    simp at this
  | more h hn =>
    refine Or.inr (Or.inl ⟨h, rfl, ?_, rfl⟩)
    unfold hasNext at hn
    rw [Bool.and_eq_true] at hn
    simpa using hn.2
  | noMore h hn => exact Or.inr (Or.inr ⟨⟨_, _, Or.inl rfl⟩, fun h => h, Or.inl rfl⟩)
  | take r q h hq' =>
    rcases hq with hq | hq
    · rw [h] at hq; cases hq
    · exact absurd rfl (hq.2 r)
  | reviewed r res ab h hv =>
    rcases hq with hq | hq
    · rw [h] at hq; cases hq
    · exact absurd h (hq.1 r)
  | reviewedText r t ab h hv =>
    rcases hq with hq | hq
    · rw [h] at hq; cases hq
    · exact absurd h (hq.1 r)
  | reviewRaises r h hv =>
    rcases hq with hq | hq
    · rw [h] at hq; cases hq
    · exact absurd h (hq.1 r)
  | interrupt h => exact Or.inr (Or.inr ⟨⟨_, _, Or.inl rfl⟩, fun _ => rfl, Or.inl rfl⟩)
  | recordLeft k x n res d h hq' =>
    exact Or.inr (Or.inr ⟨⟨_, _, Or.inl rfl⟩, fun h => h, Or.inr ⟨n, res, d, List.mem_of_getElem? hq', rfl⟩⟩)
  | recordLeftText k x n t d h hq' => exact Or.inr (Or.inr ⟨⟨0, _, Or.inr rfl⟩, fun _ => rfl, Or.inl rfl⟩)
  | finished k x h hq' => exact Or.inr (Or.inr ⟨⟨0, _, Or.inr rfl⟩, fun _ => rfl, Or.inl rfl⟩)

/-- The beginning of a review. -/
theorem start_asked {P : Project} {cfg : Config} {n : Str} {v : Result} {ans rest : List Str} {w : PReview}
    (h : startReview P cfg n (.res v) ans = some (w, rest)) :
    askedOf cfg v ans = some (w.request, rest) ∧ (w.frozen = true ↔ Freezes cfg v w.request) := by
  have e : (cfg.alwaysInteractive || (decide (Raw.res v ≠ .res .OK) && cfg.interactive)) =
      (cfg.alwaysInteractive || (decide (v ≠ .OK) && cfg.interactive)) := by
    cases v <;> rfl
  have e1 : ∀ q' : Request, (q' = .FREEZE ∨ (Raw.res v = .res .OK ∧ cfg.update = true) ∨
      (Raw.res v = .res .DIFF ∧ cfg.accept = true)) ↔ Freezes cfg v q' := by simp [Freezes]
  unfold startReview at h
  rw [e] at h
  unfold askedOf
  generalize (if (cfg.alwaysInteractive || (decide (v ≠ .OK) && cfg.interactive)) = true then interact (.res v) ans
    else some (.NONE, ans)) = x at h ⊢
  cases x with
  | none => cases h
  | some c =>
    obtain ⟨q', l⟩ := c
    dsimp only at h
    by_cases hf : Freezes cfg v q'
    · rw [if_pos ((e1 q').mpr hf)] at h
      cases h
      exact ⟨rfl, fun _ => hf, fun _ => rfl⟩
    · rw [if_neg (fun hc => hf ((e1 q').mp hc))] at h
      cases h
      exact ⟨rfl, fun hx => (by cases hx), fun hx => absurd hx hf⟩

/-! ### The files -/

/-- The files are those of tests that are executed at the same time, and the records tell how they ended. -/
structure FileInv (c : RConf fl) (fs : FS) (ans : List Str) (s : RSt fl) (index : Str → Bool)
    (rv : Str → Option (List Str)) (trace : List Str) (t : Str → Task) : Prop where
  inter : Interleaved (fun n => parallelTask c.P c.cfg c.all (index n) (rv n) n) c.todo fs trace s.fs t
  index : ∀ n, index n = s.indexed n
  trace : ∀ n, n ∈ trace ↔ n ∈ s.ran
  work : ∀ n, rv n = none → t n = s.work n
  taken : ∀ n l, rv n = some l → n ∈ s.run.taken ∧ l <:+ ans
  answers : s.ans <:+ ans
  review : ∀ r v, s.run.rpc = .reviewing r → s.review = some v →
    (∃ x, r.2.1 = .res x ∧ t r.1 = v.task ∧ (rv r.1).isSome ∧ (v.frozen = true → EndsOk v.task) ∧
      (v.frozen = false → ∃ q, v.task = .done (.done x q))) ∨
    (∃ m, r.2.1 = .text m ∧ v.frozen = false ∧ ∃ x q, v.task = .done (.done x q))
  recorded : ∀ x ∈ s.run.recorded, ∃ q, t x.1 = .done (.done x.2.1 q)
  order : Order c.cfg (Reported c fs) rv ans s.run.recorded s.run.rpc s.run.abort s.review s.ans

theorem bind_parallel (P : Project) (cfg : Config) (all : List Str) (i : Bool) (ans : List Str) (n : Str) :
    bindTask (parallelTask P cfg all i none n)
      (fun e => match e with | .done r q => laterTask P cfg n (some ans) r q | e => .done e) =
      parallelTask P cfg all i (some ans) n := by
  unfold parallelTask
  refine (bind_case (f := fun e => match e with | .done r q => laterTask P cfg n (some ans) r q | e => .done e)
    _ _ _ _ _ rfl (fun _ => rfl) rfl).trans ?_
  congr 1
  funext r q _
  cases i <;> rfl

theorem bind_index (P : Project) (cfg : Config) (all : List Str) (n : Str) :
    bindTask (parallelTask P cfg all false none n)
      (fun e => match e with | .done r q => indexTask P all (.done (.done r q)) | e => .done e) =
      parallelTask P cfg all true none n := by
  unfold parallelTask
  exact bind_case _ _ _ _ _ rfl (fun _ => rfl) rfl

/-- A quiet step changes the files of nobody. -/
theorem file_quiet (ht : Tidy c) {fs : FS} {ans : List Str} {s : RSt fl} {index : Str → Bool}
    {rv : Str → Option (List Str)} {trace : List Str} {t : Str → Task} (hw : WorkInv c s)
    (h : FileInv c fs ans s index rv trace t) {p : PSt fl} (hp : PStep c.pconf s.run p)
    (hy : p.ready = s.run.ready)
    (hq : p.rpc = s.run.rpc ∨ ((∀ r, s.run.rpc ≠ .reviewing r) ∧ ∀ r, p.rpc ≠ .reviewing r)) :
    FileInv c fs ans { s with run := p } index rv trace t := by
  obtain ⟨q1, q2, q3, q4, q5⟩ := quiet_step hp hy hq
  have hi := inv_reach ht.todo hw.reach
  obtain ⟨lost, hcount, -⟩ := (winv_reach (named_pconf ht) hw.reach).count
  have hnd : (s.run.taken ++ s.run.queue.map (·.1)).Nodup := by
    have := (hcount.nodup_iff).mpr hi.parts.1
    exact (List.nodup_append.mp (List.nodup_append.mp this).1).1
  refine ⟨h.inter, h.index, h.trace, h.work, ?_, h.answers, ?_, ?_, ?_⟩
  · intro n l hl
    show n ∈ p.taken ∧ _
    rw [q2]; exact h.taken n l hl
  · intro r v hr hv
    rcases hq with hq | hq
    · exact h.review r v (by rw [← hq]; exact hr) hv
    · exact absurd hr (hq.2 r)
  · intro x hx
    have hx : x ∈ p.recorded := hx
    rcases q5 with q5 | ⟨n, v, d, h1, h2⟩
    · rw [q5] at hx; exact h.recorded x hx
    · rw [h2] at hx
      rcases List.mem_append.mp hx with hx | hx
      · exact h.recorded x hx
      · rw [List.mem_singleton.mp hx]
        obtain ⟨q, e⟩ := (hw.recs _ (Or.inl h1)).1 v rfl
        have hno : rv n = none := by
          cases hl : rv n with
          | none => rfl
          | some l =>
            have := (h.taken n l hl).1
            exact absurd rfl ((List.nodup_append.mp hnd).2.2 n this n (List.mem_map_of_mem h1))
        exact ⟨q, by rw [h.work n hno]; exact e⟩
  · show Order c.cfg (Reported c fs) rv ans p.recorded p.rpc p.abort s.review s.ans
    rcases quiet_order hp hy hq with ⟨e1, e2, e3⟩ | ⟨e1, e2, e3, e4⟩ | ⟨e1, e2, e3⟩
    · rw [e1, e2, e3]; exact h.order
    · obtain ⟨l, left, mid, b, o1, o2, o3, o4, o5, -, -⟩ := h.order
      have hb : b = true := by
        cases b with
        | true => rfl
        | false => rw [o5 rfl] at e3; cases e3
      refine ⟨l, left, mid, b, by rw [e4]; exact o1, o2, o3, fun _ => o4 (Or.inl e1),
        fun hx => (by rw [hb] at hx; cases hx), fun _ => hb, ?_⟩
      intro r hr
      rw [e2] at hr; cases hr
    · have := h.order.over (review' := s.review) (now' := s.ans) e1 e2
      rcases e3 with e3 | ⟨n, v, d, h1, h2⟩
      · rw [e3]; exact this
      · obtain ⟨l, left, mid, b, o1, o2, o3, o4, o5, o6, o7⟩ := this
        refine ⟨l, left ++ [(n, v, d)], mid, b, by rw [h2, o1, List.append_assoc], o2, ?_, ?_, o5, o6, ?_⟩
        · intro x hx
          rcases List.mem_append.mp hx with hx | hx
          · exact o3 x hx
          · rw [List.mem_singleton.mp hx]
            show rv n = none
            cases hl : rv n with
            | none => rfl
            | some l =>
              have := (h.taken n l hl).1
              exact absurd rfl ((List.nodup_append.mp hnd).2.2 n this n (List.mem_map_of_mem h1))
        · intro hx
          obtain ⟨k, y, e1⟩ := e1
          rcases e1 with e1 | e1 <;> rw [e1] at hx <;> rcases hx with hx | hx <;> cases hx
        · intro r hx
          obtain ⟨k, y, e1⟩ := e1
          rcases e1 with e1 | e1 <;> rw [e1] at hx <;> cases hx

/-- Everything that holds in a parallel run. -/
theorem run_inv (ht : Tidy c) (hu : AsksReported c) {fs : FS} {ans : List Str} {s : RSt fl} (H : RReach c fs ans s) :
    WorkInv c s ∧ ∃ index rv trace t, FileInv c fs ans s index rv trace t := by
  induction H with
  | init =>
    refine ⟨⟨.init, fun _ _ => rfl, fun _ => Or.inl rfl, fun _ h => (by cases h), fun _ => Or.inl rfl,
      fun _ h => (by cases h), fun _ h => (by cases h), fun _ h => (by cases h), ?_⟩,
      fun _ => false, fun _ => none, [], _, ⟨.init, fun _ => rfl, fun _ => Iff.rfl, fun _ _ => rfl,
      fun _ _ h => (by cases h), List.suffix_rfl, fun _ _ h => (by cases h), fun _ h => (by cases h), [], [], ans, true, rfl, .nil,
      fun _ h => (by cases h), fun _ => ⟨rfl, rfl⟩, fun h => (by cases h), fun _ => rfl, fun _ h => (by cases h)⟩⟩
    intro r hr
    rcases hr with hr | hr | hr <;> cases hr
  | @step s s' H hs ih =>
    obtain ⟨hw, index, rv, trace, t, hf⟩ := ih
    have hi := inv_reach ht.todo hw.reach
    obtain ⟨lost, hcount, -⟩ := (winv_reach (named_pconf ht) hw.reach).count
    have hnd : (s.run.taken ++ s.run.queue.map (·.1)).Nodup := by
      have := (hcount.nodup_iff).mpr hi.parts.1
      exact (List.nodup_append.mp (List.nodup_append.mp this).1).1
    have htaken : ∀ n, n ∈ s.run.taken → n ∈ s.run.ready := by
      intro n hn
      refine hi.doneReady n (hcount.mem_iff.mp ?_)
      simp [hn]
    have hqueue : ∀ r ∈ s.run.queue, r.1 ∈ s.run.ready := by
      intro r hr
      refine hi.doneReady r.1 (hcount.mem_iff.mp ?_)
      have := List.mem_map_of_mem (f := fun x : PRec fl => x.1) hr
      simp only [List.mem_append]
      exact Or.inl (Or.inl (Or.inr this))
    have hrecs : ∀ r, r ∈ s.run.queue ∨ r ∈ pend s.run.spc ∨ r ∈ underReview s.run.rpc → r.1 ∈ s.run.ready := by
      intro r hr
      rcases hr with hr | hr | hr
      · exact hqueue r hr
      · refine hi.doneReady r.1 (hcount.mem_iff.mp ?_)
        have := List.mem_map_of_mem (f := fun x : PRec fl => x.1) hr
        simp only [List.mem_append]
        exact Or.inl (Or.inr this)
      · have hrec := (winv_reach (named_pconf ht) hw.reach).rec_
        cases hp : s.run.rpc with
        | reviewing r' =>
          rw [hp] at hr hrec
          rw [List.mem_singleton.mp hr]
          have hrec : s.run.recorded.map (·.1) ++ [r'.1] = s.run.taken := hrec
          refine htaken _ ?_
          rw [← hrec]; simp
        | check => rw [hp] at hr; cases hr
        | waiting => rw [hp] at hr; cases hr
        | leftover k x => rw [hp] at hr; cases hr
        | ended x => rw [hp] at hr; cases hr
    have hrv : ∀ n, n ∉ s.run.ready → rv n = none := by
      intro n hn
      cases hl : rv n with
      | none => rfl
      | some l => exact absurd (htaken n (hf.taken n l hl).1) hn
    cases hs with
    | scheduler p h hr hy => exact ⟨work_quiet ht hw h hy (Or.inl hr), _, _, _, _, file_quiet ht hw hf h hy (Or.inl hr)⟩
    | main p h hr hp hy =>
      exact ⟨work_quiet ht hw h hy (Or.inr ⟨hr, hp⟩), _, _, _, _, file_quiet ht hw hf h hy (Or.inr ⟨hr, hp⟩)⟩
    | opens n hn h =>
      refine ⟨⟨hw.reach, ?_, ?_, ?_, hw.fresh, hw.ran, ?_, ?_, hw.recs⟩, index, rv, trace, t,
        ⟨hf.inter, hf.index, hf.trace, hf.work, hf.taken, hf.answers, hf.review, hf.recorded, hf.order⟩⟩
      · intro m hm
        dsimp only at hm
        split at hm
        · cases hm
        · exact hw.unopened m hm
      · intro m
        dsimp only
        split
        · exact Or.inr (Or.inl rfl)
        · exact hw.reports m
      · intro m hm
        obtain ⟨rec, e⟩ := hw.indexed m hm
        dsimp only
        split
        · rename_i he
          rw [he, h] at e; cases e
        · exact ⟨rec, e⟩
      · intro m hm
        dsimp only
        rw [if_neg (fun e : m = n => hn.2 (e ▸ hm))]
        exact hw.files m hm
      · intro m hm hr
        dsimp only at hr
        rw [if_neg (fun e : m = n => hn.2 (e ▸ hm))] at hr
        exact hw.early m hm hr
    | works n g t' hn h hst =>
      have hno := hrv n hn.2
      have hwork := hf.work n hno
      have htodo := hi.sub n hn.1
      have hnd' : ∀ v q, s.work n ≠ .done (.done v q) := by
        intro v q e
        rw [e] at hst; cases hst
      refine ⟨⟨hw.reach, ?_, ?_, hw.indexed, ?_, ?_, hw.files, hw.early, ?_⟩, index, rv, trace ++ [n], _,
        ⟨hf.inter.step (task := t') n htodo (by rw [hwork]; exact hst), hf.index, ?_, ?_, hf.taken, hf.answers, ?_, ?_,
          hf.order⟩⟩
      · intro m hm
        dsimp only
        rw [if_neg (fun e => by rw [e, h] at hm; cases hm)]
        exact hw.unopened m hm
      · intro m
        dsimp only
        rcases hw.reports m with e | e | ⟨r, q, e1, e2⟩
        · exact Or.inl e
        · exact Or.inr (Or.inl e)
        · refine Or.inr (Or.inr ⟨r, q, e1, ?_⟩)
          rw [if_neg (fun e : m = n => hnd' r q (e ▸ e2))]
          exact e2
      · intro m
        dsimp only
        by_cases e : m = n
        · exact Or.inr (by simp [e])
        · rw [if_neg e]
          rcases hw.fresh m with e' | e'
          · exact Or.inl e'
          · exact Or.inr (List.mem_append_left _ e')
      · intro m hm
        rcases List.mem_append.mp hm with hm | hm
        · exact hw.ran m hm
        · rw [List.mem_singleton.mp hm]; exact hn.1
      · intro r hr
        have hready := hrecs r hr
        have hne : r.1 ≠ n := fun e => hn.2 (e ▸ hready)
        dsimp only
        rw [if_neg hne]
        exact hw.recs r hr
      · intro m
        rw [List.mem_append, List.mem_append, hf.trace m]
      · intro m hm
        dsimp only
        split
        · rfl
        · exact hf.work m hm
      · intro r v hr hv
        have hready := hrecs r (Or.inr (Or.inr (by
          have hr : s.run.rpc = .reviewing r := hr
          rw [hr]; exact List.mem_singleton.mpr rfl)))
        have hne : r.1 ≠ n := fun e => hn.2 (e ▸ hready)
        rw [if_neg hne]
        exact hf.review r v hr hv
      · intro x hx
        obtain ⟨q, e⟩ := hf.recorded x hx
        rw [if_neg]
        · exact ⟨q, e⟩
        · intro e'
          rw [e', hwork] at e
          exact hnd' _ _ e
    | writes n r q hn h hd =>
      refine ⟨⟨hw.reach, ?_, ?_, ?_, hw.fresh, hw.ran, ?_, ?_, hw.recs⟩, index, rv, trace, t,
        ⟨hf.inter, hf.index, hf.trace, hf.work, hf.taken, hf.answers, hf.review, hf.recorded, hf.order⟩⟩
      · intro m hm
        dsimp only at hm
        split at hm
        · cases hm
        · exact hw.unopened m hm
      · intro m
        dsimp only
        split
        · rename_i e
          subst e
          exact Or.inr (Or.inr ⟨r, q, rfl, hd⟩)
        · exact hw.reports m
      · intro m hm
        dsimp only
        split
        · exact ⟨_, rfl⟩
        · exact hw.indexed m hm
      · intro m hm
        dsimp only
        rw [if_neg (fun e : m = n => hn.2 (e ▸ hm))]
        exact hw.files m hm
      · intro m hm hr
        dsimp only at hr
        rw [if_neg (fun e : m = n => hn.2 (e ▸ hm))] at hr
        exact hw.early m hm hr
    | indexes n rec g a hn h hx hg =>
      have hno := hrv n hn.2
      have hidx : index n = false := by rw [hf.index n, hx]
      have hdone : ∃ r q, s.work n = .done (.done r q) := by
        rcases hw.reports n with e | e | ⟨r, q, -, e⟩
        · rw [e] at h; cases h
        · rw [e] at h; cases h
        · exact ⟨r, q, e⟩
      obtain ⟨r, q, hd⟩ := hdone
      have hran : n ∈ s.ran := by
        rcases hw.fresh n with e | e
        · rw [hd] at e; exact absurd e.symm (fresh_not_done n _)
        · exact e
      have hb := inter_bind (f := fun e => match e with
        | .done r q => indexTask c.P c.all (.done (.done r q)) | e => .done e) hf.inter n (fun _ => rfl)
      have e1 : (fun m => if m = n then bindTask (parallelTask c.P c.cfg c.all (index m) (rv m) m) (fun e => match e with
          | .done r q => indexTask c.P c.all (.done (.done r q)) | e => .done e)
          else parallelTask c.P c.cfg c.all (index m) (rv m) m) =
          fun m => parallelTask c.P c.cfg c.all (if m = n then true else index m) (rv m) m := by
        funext m
        by_cases e : m = n
        · subst e
          rw [if_pos rfl, if_pos rfl, hidx, hno]
          exact bind_index c.P c.cfg c.all m
        · rw [if_neg e, if_neg e]
      rw [e1] at hb
      have hst := hb.step (task := .done (.done r q)) (g' := g) n (hi.sub n hn.1) (by
        rw [if_pos rfl, hf.work n hno, hd]
        simp only [bindTask, indexTask, Task.step, hg])
      refine ⟨⟨hw.reach, hw.unopened, hw.reports, ?_, hw.fresh, hw.ran, hw.files, hw.early, hw.recs⟩, _, rv, _, _,
        ⟨hst, ?_, ?_, ?_, hf.taken, hf.answers, ?_, ?_, hf.order⟩⟩
      · intro m hm
        dsimp only at hm
        split at hm
        · rename_i e
          subst e
          exact ⟨rec, h⟩
        · exact hw.indexed m hm
      · intro m
        dsimp only
        split
        · rfl
        · exact hf.index m
      · intro m
        rw [List.mem_append, hf.trace m]
        constructor
        · rintro (hm | hm)
          · exact hm
          · rw [List.mem_singleton.mp hm]; exact hran
        · exact Or.inl
      · intro m hm
        dsimp only
        by_cases e : m = n
        · subst e
          rw [if_pos rfl, hd]
        · rw [if_neg e, if_neg e]
          exact hf.work m hm
      · intro r' v hr hv
        have hready := hrecs r' (Or.inr (Or.inr (by
          have hr : s.run.rpc = .reviewing r' := hr
          rw [hr]; exact List.mem_singleton.mpr rfl)))
        have hne : r'.1 ≠ n := fun e => hn.2 (e ▸ hready)
        rw [if_neg hne, if_neg hne]
        exact hf.review r' v hr hv
      · intro x hx
        obtain ⟨q', e⟩ := hf.recorded x hx
        by_cases e' : x.1 = n
        · rw [e', hf.work n hno, hd] at e
          cases e
          exact ⟨q, if_pos e'⟩
        · rw [if_neg e', if_neg e']
          exact ⟨q', e⟩
    | ends n hn ho =>
      have hp : PStep c.pconf s.run { s.run with
          ready := s.run.ready ++ [n],
          files := fun x => if x = batchName n then (s.reports n).map (fun l => encode (toText fl l))
            else s.run.files x } := by
        refine PStep.finish s.run n _ hn.1 hn.2 ?_
        rcases report_shape hw n with e | e | ⟨v, e⟩
        · exact Or.inl (by rw [e]; rfl)
        · exact Or.inr (Or.inl (by rw [e]; rfl))
        · exact Or.inr (Or.inr ⟨v, by rw [e]; rfl⟩)
      refine ⟨⟨hw.reach.step hp, hw.unopened, hw.reports, hw.indexed, hw.fresh, hw.ran, ?_, ?_, hw.recs⟩, index, rv, trace, t,
        ⟨hf.inter, hf.index, hf.trace, hf.work, hf.taken, hf.answers, hf.review, hf.recorded, hf.order⟩⟩
      · intro m hm
        dsimp only
        rcases List.mem_append.mp hm with hm | hm
        · have hmn : m ≠ n := fun e => hn.2 (e ▸ hm)
          rw [if_neg (fun e => hmn (ht.batches m (hi.sub m (hi.readySub m hm)) n (hi.sub n hn.1) e))]
          exact hw.files m hm
        · rw [List.mem_singleton.mp hm, if_pos rfl]
      · intro m hm hr
        rcases List.mem_append.mp hm with hm | hm
        · exact hw.early m hm hr
        · rw [List.mem_singleton.mp hm] at hr ⊢
          have hr : s.reports n = none := hr
          cases ho with
          | whole h =>
            obtain ⟨rec, e⟩ := hw.indexed n h
            rw [hr] at e; cases e
          | noIndex rec x h hx => rw [hr] at h; cases h
          | raised x h =>
            rw [hw.unopened n hr] at h
            exact absurd h (fresh_not_done n _)
          | broken h => rw [hr] at h; exact h
    | takes r q v rest h hq hv =>
      have hp : PStep c.pconf s.run { s.run with
          rpc := .reviewing r, queue := q, taken := s.run.taken ++ [r.1] } := PStep.take s.run r q h hq
      have hrm : r ∈ s.run.queue := by rw [hq]; exact List.mem_cons_self ..
      have hwi : WorkInv c { s with
          run := { s.run with rpc := .reviewing r, queue := q, taken := s.run.taken ++ [r.1] }
          review := some v
          ans := rest } := by
        refine ⟨hw.reach.step hp, hw.unopened, hw.reports, hw.indexed, hw.fresh, hw.ran, hw.files, hw.early, ?_⟩
        intro r' hr'
        rcases hr' with hr' | hr' | hr'
        · exact hw.recs r' (Or.inl (by rw [hq]; exact List.mem_cons_of_mem _ hr'))
        · exact hw.recs r' (Or.inr (Or.inl hr'))
        · rw [List.mem_singleton.mp hr']
          exact hw.recs r (Or.inl hrm)
      refine ⟨hwi, ?_⟩
      have hnot : r.1 ∉ s.run.taken := by
        intro hc
        exact (List.nodup_append.mp hnd).2.2 r.1 hc r.1 (List.mem_map_of_mem (f := fun x : PRec fl => x.1) hrm) rfl
      have hno : rv r.1 = none := by
        cases hl : rv r.1 with
        | none => rfl
        | some l => exact absurd (hf.taken _ l hl).1 hnot
      obtain ⟨w1, w2⟩ := hw.recs r (Or.inl hrm)
      cases hres : r.2.1 with
      | text m =>
        obtain ⟨u1, u2⟩ := hu r.1 (w2 m hres)
        rw [hres] at hv
        obtain ⟨t1, t2, t3⟩ := start_text hv u1 u2
        refine ⟨index, rv, trace, t, hf.inter, hf.index, hf.trace, hf.work, ?_, t2.trans hf.answers, ?_, hf.recorded, ?_⟩
        · intro n l hl
          obtain ⟨a1, a2⟩ := hf.taken n l hl
          exact ⟨List.mem_append_left _ a1, a2⟩
        · intro r' v' hr' hv'
          cases hr'
          cases hv'
          exact Or.inr ⟨m, hres, t1, t3⟩
        · obtain ⟨l, left, mid, b, o1, o2, o3, o4, o5, o6, -⟩ := hf.order
          refine ⟨l, left, mid, b, o1, o2, o3, fun hx => (by rcases hx with hx | hx <;> cases hx), o5,
            fun hx => (by cases hx), ?_⟩
          intro r' hr'
          cases hr'
          refine ⟨(o4 (Or.inr h)).1, o6 h, ?_⟩
          intro v' x _ hx
          rw [hres] at hx; cases hx
      | res x =>
        rw [hres] at hv
        obtain ⟨q0, hd⟩ := w1 x hres
        obtain ⟨t1, t2, t3, t4⟩ := start_review q0 hv
        have hb := inter_bind (f := fun e => match e with
          | .done r' q => laterTask c.P c.cfg r.1 (some s.ans) r' q | e => .done e) hf.inter r.1 (fun _ => rfl)
        have e1 : (fun m => if m = r.1 then bindTask (parallelTask c.P c.cfg c.all (index m) (rv m) m)
            (fun e => match e with | .done r' q => laterTask c.P c.cfg r.1 (some s.ans) r' q | e => .done e)
            else parallelTask c.P c.cfg c.all (index m) (rv m) m) =
            fun m => parallelTask c.P c.cfg c.all (index m) (if m = r.1 then some s.ans else rv m) m := by
          funext m
          by_cases e : m = r.1
          · rw [if_pos e, if_pos e, e, hno]
            exact bind_parallel c.P c.cfg c.all _ s.ans r.1
          · rw [if_neg e, if_neg e]
        rw [e1] at hb
        have htask : bindTask (t r.1) (fun e => match e with
            | .done r' q => laterTask c.P c.cfg r.1 (some s.ans) r' q | e => .done e) = v.task := by
          rw [hf.work _ hno, hd]
          exact t1
        have hkeep : ∀ y ∈ s.run.recorded, y.1 ≠ r.1 := by
          intro y hy hc
          have hrec := (winv_reach (named_pconf ht) hw.reach).rec_
          rw [h] at hrec
          apply hnot
          rw [← hrec.1, ← hc]
          exact List.mem_map_of_mem (f := fun x : Rec fl => x.1) hy
        refine ⟨index, _, trace, _, hb, hf.index, hf.trace, ?_, ?_, t2.trans hf.answers, ?_, ?_, ?_⟩
        · intro m hm
          dsimp only at hm ⊢
          by_cases e : m = r.1
          · rw [if_pos e] at hm; cases hm
          · rw [if_neg e] at hm ⊢
            exact hf.work m hm
        · intro n l hl
          by_cases e : n = r.1
          · rw [if_pos e] at hl
            cases hl
            exact ⟨by rw [e]; exact List.mem_append_right _ (List.mem_singleton.mpr rfl), hf.answers⟩
          · rw [if_neg e] at hl
            obtain ⟨a1, a2⟩ := hf.taken n l hl
            exact ⟨List.mem_append_left _ a1, a2⟩
        · intro r' v' hr' hv'
          cases hr'
          cases hv'
          refine Or.inl ⟨x, hres, ?_, ?_, t3, t4⟩
          · rw [if_pos rfl]
            exact htask
          · rw [if_pos rfl]; rfl
        · intro y hy
          obtain ⟨q', e⟩ := hf.recorded y hy
          rw [if_neg]
          · exact ⟨q', e⟩
          · intro hc
            have hrec := (winv_reach (named_pconf ht) hw.reach).rec_
            rw [h] at hrec
            apply hnot
            rw [← hrec.1, ← hc]
            exact List.mem_map_of_mem (f := fun x : Rec fl => x.1) hy
        · obtain ⟨l, left, mid, b, o1, o2, o3, o4, o5, o6, -⟩ := hf.order
          obtain ⟨k1, k2⟩ := o4 (Or.inr h)
          obtain ⟨k3, k4⟩ := start_asked hv
          refine ⟨l, left, mid, b, o1, o2.congr (fun x hx => ?_), fun x hx => (by rw [k1] at hx; cases hx),
            fun hx => (by rcases hx with hx | hx <;> cases hx), o5, fun hx => (by cases hx), ?_⟩
          · obtain ⟨y, hy, rfl⟩ := List.mem_map.mp hx
            exact if_neg (hkeep y (by rw [o1]; exact List.mem_append_left _ hy))
          · intro r' hr'
            cases hr'
            refine ⟨k1, o6 h, ?_⟩
            intro v' x' hv' hx'
            cases hv'
            rw [hres] at hx'
            cases hx'
            rw [k2] at k3
            exact ⟨by dsimp only; rw [if_pos rfl, k2],
              ⟨index, rv, trace, s.fs, t, q0, hf.inter, hno, by rw [hf.work _ hno, hd]⟩, k3, k4⟩
    | takesEof r q h hq hv =>
      have hp : PStep c.pconf s.run { s.run with
          rpc := .reviewing r, queue := q, taken := s.run.taken ++ [r.1] } := PStep.take s.run r q h hq
      have hrm : r ∈ s.run.queue := by rw [hq]; exact List.mem_cons_self ..
      refine ⟨⟨hw.reach.step hp, hw.unopened, hw.reports, hw.indexed, hw.fresh, hw.ran, hw.files, hw.early, ?_⟩,
        index, rv, trace, t, ⟨hf.inter, hf.index, hf.trace, hf.work, ?_, List.nil_suffix, ?_, hf.recorded, ?_⟩⟩
      · intro r' hr'
        rcases hr' with hr' | hr' | hr'
        · exact hw.recs r' (Or.inl (by rw [hq]; exact List.mem_cons_of_mem _ hr'))
        · exact hw.recs r' (Or.inr (Or.inl hr'))
        · rw [List.mem_singleton.mp hr']
          exact hw.recs r (Or.inl hrm)
      · intro n l hl
        obtain ⟨a1, a2⟩ := hf.taken n l hl
        exact ⟨List.mem_append_left _ a1, a2⟩
      · intro r' v' _ hv'
        cases hv'
      · obtain ⟨l, left, mid, b, o1, o2, o3, o4, o5, o6, -⟩ := hf.order
        refine ⟨l, left, mid, b, o1, o2, o3, fun hx => (by rcases hx with hx | hx <;> cases hx), o5,
          fun hx => (by cases hx), ?_⟩
        intro r' hr'
        cases hr'
        exact ⟨(o4 (Or.inr h)).1, o6 h, fun _ _ hx => (by cases hx)⟩
    | reviews r v g t' h hv hst =>
      refine ⟨⟨hw.reach, hw.unopened, hw.reports, hw.indexed, hw.fresh, hw.ran, hw.files, hw.early, hw.recs⟩, ?_⟩
      rcases hf.review r v h hv with ⟨x, b1, b2, b3, b4, b5⟩ | ⟨m, b1, b2, y, q, b3⟩
      · have hready := hrecs r (Or.inr (Or.inr (by rw [h]; exact List.mem_singleton.mpr rfl)))
        have hran : r.1 ∈ s.ran := by
          obtain ⟨q0, hd⟩ := (hw.recs r (Or.inr (Or.inr (by rw [h]; exact List.mem_singleton.mpr rfl)))).1 x b1
          rcases hw.fresh r.1 with e | e
          · rw [hd] at e; exact absurd e.symm (fresh_not_done _ _)
          · exact e
        have hstep := hf.inter.step (task := t') r.1 (hi.sub _ (hi.readySub _ hready)) (by rw [b2]; exact hst)
        refine ⟨index, rv, _, _, hstep, hf.index, ?_, ?_, hf.taken, hf.answers, ?_, ?_, ?_⟩
        · intro m
          rw [List.mem_append, hf.trace m]
          constructor
          · rintro (hm | hm)
            · exact hm
            · rw [List.mem_singleton.mp hm]; exact hran
          · exact Or.inl
        · intro m hm
          dsimp only
          rw [if_neg]
          · exact hf.work m hm
          · intro e
            rw [e] at hm
            rw [hm] at b3; cases b3
        · intro r' v' hr' hv'
          have hr' : s.run.rpc = .reviewing r' := hr'
          rw [h] at hr'
          cases hr'
          cases hv'
          refine Or.inl ⟨x, b1, if_pos rfl, b3, fun hx => endsOk_step (b4 hx) hst, ?_⟩
          intro hx
          obtain ⟨q, e⟩ := b5 hx
          rw [e] at hst; cases hst
        · intro y hy
          obtain ⟨q, e⟩ := hf.recorded y hy
          rw [if_neg]
          · exact ⟨q, e⟩
          · intro hc
            rw [hc, b2] at e
            rw [e] at hst; cases hst
        · obtain ⟨l, left, mid, b, o1, o2, o3, o4, o5, o6, o7⟩ := hf.order
          refine ⟨l, left, mid, b, o1, o2, o3, o4, o5, o6, ?_⟩
          intro r' hr'
          obtain ⟨k1, k2, k3⟩ := o7 r' hr'
          refine ⟨k1, k2, ?_⟩
          intro v' x' hv' hx'
          cases hv'
          exact k3 v x' hv hx'
      · rw [b3] at hst; cases hst
    | reviewed r v res x q h hv hd hfin =>
      have hp := PStep.reviewed (c := c.pconf) s.run r res
        (decide (v.request = .ABORT) || (c.cfg.failFast && decide (res ≠ .OK))) h trivial
      refine ⟨⟨hw.reach.step hp, hw.unopened, hw.reports, hw.indexed, hw.fresh, hw.ran, hw.files, hw.early, ?_⟩,
        index, rv, trace, t, ⟨hf.inter, hf.index, hf.trace, hf.work, hf.taken, hf.answers, ?_, ?_, ?_⟩⟩
      · intro r' hr'
        rcases hr' with hr' | hr' | hr'
        · exact hw.recs r' (Or.inl hr')
        · exact hw.recs r' (Or.inr (Or.inl hr'))
        · cases hr'
      · intro r' v' hr' _
        cases hr'
      · intro y hy
        rcases List.mem_append.mp hy with hy | hy
        · exact hf.recorded y hy
        · rw [List.mem_singleton.mp hy]
          rcases hf.review r v h hv with ⟨z, b1, b2, b3, b4, b5⟩ | ⟨m, b1, b2, y, q, b3⟩
          · refine ⟨q, ?_⟩
            show t r.1 = .done (.done res q)
            rw [b2, hd]
            unfold PReview.final at hfin
            cases hfr : v.frozen with
            | true =>
              rw [hfr, if_pos rfl] at hfin
              have := b4 hfr
              rw [hd] at this
              rw [this x q rfl, ← Raw.res.inj hfin]
            | false =>
              rw [hfr, if_neg (by simp), b1] at hfin
              obtain ⟨q', e⟩ := b5 hfr
              rw [hd] at e
              cases e
              rw [Raw.res.inj hfin]
          · unfold PReview.final at hfin
            rw [b2, if_neg (by simp), b1] at hfin
            cases hfin
      · obtain ⟨l, left, mid, b, o1, o2, o3, o4, o5, o6, o7⟩ := hf.order
        obtain ⟨k1, k2, k3⟩ := o7 r h
        rcases hf.review r v h hv with ⟨z, b1, -⟩ | ⟨m, b1, b2, -⟩
        · obtain ⟨k3, hd0, k4, k5⟩ := k3 v z hv b1
          have hres : res = if Freezes c.cfg z v.request then .OK else z := by
            unfold PReview.final at hfin
            by_cases hfr : Freezes c.cfg z v.request
            · rw [if_pos hfr]
              rw [k5.mpr hfr, if_pos rfl] at hfin
              exact (Raw.res.inj hfin).symm
            · rw [if_neg hfr]
              rw [if_neg (fun hx => hfr (k5.mp hx)), b1] at hfin
              exact (Raw.res.inj hfin).symm
          subst k2
          have hs := Threads.snoc o2 k3 hd0 k4 hres
          refine ⟨l ++ [(r.1, res, r.2.2)], [], s.ans,
            !(decide (v.request = .ABORT) || (c.cfg.failFast && decide (res ≠ .OK))), ?_, ?_, fun _ hx => (by cases hx), fun _ => ⟨rfl, rfl⟩, ?_,
            fun hx => (by cases hx), fun _ hx => (by cases hx)⟩
          · show s.run.recorded ++ _ = _
            rw [o1, k1, List.append_nil, List.append_nil]
          · rw [List.map_append]
            exact hs
          · intro hx
            show (s.run.abort || _) = true
            have hx := congrArg (! ·) hx
            simp only [Bool.not_not, Bool.not_false] at hx
            rw [hx, Bool.or_true]
        · unfold PReview.final at hfin
          rw [b2, if_neg (by simp), b1] at hfin
          cases hfin
    | reviewedText r v m x q h hv hd hfin =>
      have hp := PStep.reviewedText (c := c.pconf) s.run r m
        (decide (v.request = .ABORT) || c.cfg.failFast) h trivial
      refine ⟨⟨hw.reach.step hp, hw.unopened, hw.reports, hw.indexed, hw.fresh, hw.ran, hw.files, hw.early, ?_⟩,
        index, rv, trace, t, ⟨hf.inter, hf.index, hf.trace, hf.work, hf.taken, hf.answers, ?_, hf.recorded,
          hf.order.over ⟨_, _, Or.inl rfl⟩ (fun hx => (by rw [hx]; rfl))⟩⟩
      · intro r' hr'
        rcases hr' with hr' | hr' | hr'
        · exact hw.recs r' (Or.inl hr')
        · exact hw.recs r' (Or.inr (Or.inl hr'))
        · cases hr'
      · intro r' v' hr' _
        cases hr'
    | reviewRaises r h hv =>
      have hp := PStep.reviewRaises (c := c.pconf) s.run r h trivial
      refine ⟨⟨hw.reach.step hp, hw.unopened, hw.reports, hw.indexed, hw.fresh, hw.ran, hw.files, hw.early, ?_⟩,
        index, rv, trace, t, ⟨hf.inter, hf.index, hf.trace, hf.work, hf.taken, hf.answers, ?_, hf.recorded,
          hf.order.over ⟨_, _, Or.inl rfl⟩ (fun hx => hx)⟩⟩
      · intro r' hr'
        rcases hr' with hr' | hr' | hr'
        · exact hw.recs r' (Or.inl hr')
        · exact hw.recs r' (Or.inr (Or.inl hr'))
        · cases hr'
      · intro r' v' hr' _
        cases hr'
    | interrupt r h =>
      have hp := PStep.interrupt (c := c.pconf) s.run (Or.inr (Or.inr ⟨r, h⟩))
      refine ⟨⟨hw.reach.step hp, hw.unopened, hw.reports, hw.indexed, hw.fresh, hw.ran, hw.files, hw.early, ?_⟩,
        index, rv, trace, t, ⟨hf.inter, hf.index, hf.trace, hf.work, hf.taken, hf.answers, ?_, hf.recorded,
          hf.order.over ⟨_, _, Or.inl rfl⟩ (fun _ => rfl)⟩⟩
      · intro r' hr'
        rcases hr' with hr' | hr' | hr'
        · exact hw.recs r' (Or.inl hr')
        · exact hw.recs r' (Or.inr (Or.inl hr'))
        · cases hr'
      · intro r' v' hr' _
        cases hr'

end Verif.Lemmas
