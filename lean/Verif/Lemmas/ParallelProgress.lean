import Verif.Lemmas.ParallelRecords

/-! # Parallel runs can always be completed -/

namespace Verif.Lemmas
open Verif.Py Verif.Model

variable {fl : Durations}

theorem nodup_length_le {α : Type} [DecidableEq α] {l m : List α} (hl : l.Nodup)
    (h : ∀ a ∈ l, a ∈ m) : l.length ≤ m.length := by
  induction l generalizing m with
  | nil => simp
  | cons a l ih =>
    rw [List.nodup_cons] at hl
    have h1 := ih (m := m.erase a) hl.2 (by
      intro b hb
      have hne : b ≠ a := fun e => hl.1 (e ▸ hb)
      exact (List.mem_erase_of_ne hne).mpr (h b (by simp [hb])))
    have h2 : a ∈ m := h a (by simp)
    rw [List.length_erase_of_mem h2] at h1
    have : 0 < m.length := List.length_pos_of_mem h2
    simp only [List.length_cons]; omega

theorem nodup_perm_of_length {α : Type} [DecidableEq α] {l m : List α} (hl : l.Nodup)
    (h : ∀ a ∈ l, a ∈ m) (hn : m.length ≤ l.length) : l.Perm m := by
  induction l generalizing m with
  | nil =>
    have : m = [] := List.length_eq_zero_iff.mp (by simpa using hn)
    rw [this]
  | cons a l ih =>
    rw [List.nodup_cons] at hl
    have h2 : a ∈ m := h a (by simp)
    have h1 := ih (m := m.erase a) hl.2 (by
      intro b hb
      have hne : b ≠ a := fun e => hl.1 (e ▸ hb)
      exact (List.mem_erase_of_ne hne).mpr (h b (by simp [hb]))) (by
        rw [List.length_erase_of_mem h2]
        simp only [List.length_cons] at hn; omega)
    exact (h1.cons a).trans (List.perm_cons_erase h2).symm

/-- The dependencies among the tests to be run are not cyclic. -/
def Acyclic (c : PConf fl) (rank : Str → Nat) : Prop :=
  ∀ n ∈ c.todo, ∀ d ∈ c.deps n, d ∈ c.todo → rank d < rank n

theorem exists_runnable {c : PConf fl} {rank : Str → Nat} (hr : Acyclic c rank) {done : List Str}
    {n : Str} (hn : n ∈ c.todo) (hd : n ∉ done) :
    ∃ m ∈ c.todo, m ∉ done ∧ DepsIn c done m := by
  induction hk : rank n using Nat.strongRecOn generalizing n with
  | _ k ih =>
    subst hk
    by_cases h : DepsIn c done n
    · exact ⟨n, hn, hd, h⟩
    · unfold DepsIn at h
      have : ∃ d, d ∈ c.deps n ∧ d ∈ c.todo ∧ d ∉ done := by
        refine Classical.byContradiction fun hne => h ?_
        intro d h1 h2
        refine Classical.byContradiction fun h3 => hne ⟨d, h1, h2, h3⟩
      obtain ⟨d, h1, h2, h3⟩ := this
      exact ih (rank d) (hr n hn d h1 h2) h2 h3 rfl

/-- Every plan starts something if nothing is scheduled and tests are left. -/
theorem plan_progress {c : PConf fl} {rank : Str → Nat} (hr : Acyclic c rank) {s : PSt fl}
    (ht : c.todo.Nodup) (hi : Inv c s) (hd : s.done.length < c.todo.length) (hs : s.scheduled = [])
    {order l : List Str} (ho : order.Perm (remaining c s))
    (hl : l.Perm (plan c s.done order s.reserved)) : l ≠ [] := by
  have hres : s.reserved = [] := by
    rw [List.eq_nil_iff_forall_not_mem]
    intro r hrr
    obtain ⟨n, hn, -⟩ := (hi.reserved r).mp hrr
    rw [hs] at hn; cases hn
  have hex : ∃ n ∈ c.todo, n ∉ s.done := by
    refine Classical.byContradiction fun hne => ?_
    have : c.todo.length ≤ s.done.length := nodup_length_le ht (by
      intro a ha
      refine Classical.byContradiction fun h => hne ⟨a, ha, h⟩)
    omega
  obtain ⟨n, hn, hnd⟩ := hex
  obtain ⟨m, hm, hmd, hdep⟩ := exists_runnable hr hn hnd
  have hmo : m ∈ order := by
    rw [ho.mem_iff]
    simp only [remaining, List.mem_filter, Bool.and_eq_true, Bool.not_eq_true', List.contains_eq_mem,
      decide_eq_false_iff_not]
    exact ⟨hm, hmd, by rw [hs]; simp⟩
  have := plan_ne_nil hmo hdep
  rw [hres] at hl
  intro he
  subst he
  exact this (List.nil_perm.mp hl)

/-- Unless the run is aborted, the scheduler has something to wait for. -/
def LiveInv (c : PConf fl) (s : PSt fl) : Prop := s.abort = false →
  match s.spc with
  | .starting l => l ≠ [] ∨ s.scheduled ≠ []
  | .poll _ => s.scheduled ≠ []
  | .sweep _ _ => s.scheduled ≠ []
  | .collect d => d ≠ []
  | .publish rs => rs ≠ []
  | .stopped => c.todo.length ≤ s.done.length
  | _ => True

theorem live_step {c : PConf fl} {rank : Str → Nat} (hr : Acyclic c rank) {s t : PSt fl}
    (ht : c.todo.Nodup) (hi : Inv c s) (h : LiveInv c s) (hs : PStep c s t) : LiveInv c t := by
  have hpc := hi.pc
  cases hs with
  | planned order l h0 hd ha ho hl =>
    intro _
    dsimp only
    by_cases he : s.scheduled = []
    · exact Or.inl (plan_progress hr ht hi hd he ho hl)
    · exact Or.inr he
  | stop h0 hd =>
    intro ha
    dsimp only at ha ⊢
    have : ¬ s.done.length < c.todo.length := fun hx => hd ⟨hx, ha⟩
    omega
  | start n ns h0 hn => intro _; right; simp
  | skip n ns h0 hn =>
    rw [h0] at hpc
    have := hpc.2.2 n (by simp)
    exact absurd ⟨this.2.1, this.2.2.1⟩ hn
  | startedAll h0 =>
    intro ha
    have := h ha
    rw [h0] at this
    simpa using this
  | again h0 ha =>
    intro _
    have := h ha
    rw [h0] at this
    exact this
  | leave d h0 hd =>
    intro ha
    rcases hd with hd | hd
    · exact hd
    · dsimp only at ha; rw [hd] at ha; cases ha
  | seeReady n rest d h0 hrd => intro ha; have := h ha; rw [h0] at this; exact this
  | seeBusy n rest d h0 hrd => intro ha; have := h ha; rw [h0] at this; exact this
  | swept d h0 => intro ha; have := h ha; rw [h0] at this; exact this
  | collected d d' rs h0 hp hr =>
    intro ha
    have := h ha
    rw [h0] at this
    dsimp only at this ⊢
    intro he
    subst he
    rcases d' with _ | ⟨x, xs⟩
    · exact this (List.nil_perm.mp hp)
    · rw [List.mapM_cons] at hr
      cases h1 : collectOne c x (s.files (batchName x)) with
      | none => simp [h1] at hr
      | some r =>
        cases h2 : xs.mapM (fun n => collectOne c n (s.files (batchName n))) with
        | none => simp [h1, h2] at hr
        | some q => simp [h1, h2] at hr
  | crash d d' h0 hp hr => intro _; trivial
  | publish rs h0 => intro _; trivial
  | finish n b hst hrd hlv => exact h
  | more h0 hn => exact h
  | noMore h0 hn => exact h
  | take r q h0 hq => exact h
  | reviewed r res ab h0 hv =>
    intro ha
    have : s.abort = false := by
      dsimp only at ha
      revert ha; cases s.abort <;> simp
    exact h this
  | reviewedText r t ab h0 hv =>
    intro ha
    have : s.abort = false := by
      dsimp only at ha
      revert ha; cases s.abort <;> simp
    exact h this
  | reviewRaises r h0 hv => exact h
  | interrupt h0 => intro ha; cases ha
  | recordLeft k x n res d h0 hq => exact h
  | recordLeftText k x n t d h0 hq => intro ha; cases ha
  | finished k x h0 hq => intro ha; cases ha

theorem live_reach {c : PConf fl} {rank : Str → Nat} (hr : Acyclic c rank) (ht : c.todo.Nodup)
    {s : PSt fl} (h : PReach c s) : LiveInv c s := by
  induction h with
  | init => intro _; trivial
  | step hp hs ih => exact live_step hr ht (inv_reach ht hp) ih hs

/-- What is left to do. -/
def work (c : PConf fl) (s : PSt fl) : Nat :=
  (c.todo.length - s.started.length) + (c.todo.length - s.ready.length) +
  (c.todo.length - s.done.length) + 3 * s.left.toNat + 2 * s.queue.length + (underReview s.rpc).length

/-- The distance of the threads from their next contribution. -/
def distance (c : PConf fl) (s : PSt fl) : Nat :=
  (match s.spc with
  | .head => 2 * c.todo.length + 20
  | .starting _ => s.scheduled.length + 10
  | .poll [] => s.scheduled.length + 8
  | .poll (_ :: _) => 1
  | .sweep [] [] => s.scheduled.length + 9
  | .sweep (_ :: rest) [] => rest.length + 4
  | .sweep rest (_ :: _) => rest.length + 2
  | _ => 0) +
  (match s.rpc with
  | .check => 1
  | _ => 0)

/-- The main thread is in its loop. -/
def InLoop (s : PSt fl) : Prop := s.rpc = .check ∨ s.rpc = .waiting ∨ ∃ r, s.rpc = .reviewing r

/-- The order in which the work gets done. -/
def Closer (c : PConf fl) (t s : PSt fl) : Prop :=
  Prod.Lex (· < ·) (· < ·) (work c t, distance c t) (work c s, distance c s)

/-- Workers can finish and records can be reviewed. -/
structure Able (c : PConf fl) : Prop where
  leaves : ∀ n ∈ c.todo, ∃ b, c.leaves n b
  review : ∀ r, Genuine c r → ∃ res, c.review r (.res res) false

theorem lengths {c : PConf fl} {s : PSt fl} (hi : Inv c s) : s.started.length ≤ c.todo.length ∧
    s.ready.length ≤ s.started.length ∧ s.done.length + s.scheduled.length = s.started.length := by
  refine ⟨nodup_length_le hi.nodup hi.sub, nodup_length_le hi.readyNodup hi.readySub, ?_⟩
  have := hi.part.length_eq
  simpa using this

theorem progress_step {c : PConf fl} {rank : Str → Nat} (hr : Acyclic c rank) (hb : Behaved c)
    (ha : Able c) {s : PSt fl} (h : PReach c s) (hab : s.abort = false) (hl : InLoop s)
    (hn : ¬ (s.rpc = .check ∧ hasNext s = false)) :
    ∃ t, PStep c s t ∧ t.abort = false ∧ InLoop t ∧ Closer c t s := by
  have hi := inv_reach hb.todo h
  have hv := rinv_reach hb h
  have hlive := live_reach hr hb.todo h hab
  have hpc := hi.pc
  have hrec := hv.rec_
  obtain ⟨l1, l2, l3⟩ := lengths hi
  have hcount := hv.count.length_eq
  simp only [List.length_append, List.length_map] at hcount
  have hleft := hv.left
  rcases hl with hrp | hrp | ⟨r, hrp⟩
  · -- the main thread asks for the next report
    have hnx : hasNext s = true := by
      cases hx : hasNext s with
      | true => rfl
      | false => exact absurd ⟨hrp, hx⟩ hn
    refine ⟨_, PStep.more s hrp hnx, hab, Or.inr (Or.inl rfl), ?_⟩
    have e : work c { s with rpc := .waiting } = work c s := by
      simp [work, underReview, hrp]
    unfold Closer
    rw [e]
    refine Prod.Lex.right _ ?_
    simp [distance, hrp]
  · -- the main thread waits
    rw [hrp] at hrec
    rcases hq : s.queue with _ | ⟨r, q⟩
    · -- the scheduler has to act
      have hlp : s.left > 0 := by
        rcases hrec.2 hab with h | h
        · exact h
        · exact absurd hq h
      rw [hq] at hcount hleft
      simp only [List.length_nil] at hcount hleft
      -- a worker finishes if some scheduled test is not ready
      have worker : ∀ n ∈ s.scheduled, n ∉ s.ready →
          ∃ t, PStep c s t ∧ t.abort = false ∧ InLoop t ∧ Closer c t s := by
        intro n hns hnr
        have hst : n ∈ s.started := (hi.mem_started n).mpr (Or.inr hns)
        obtain ⟨b, hbb⟩ := ha.leaves n (hi.sub n hst)
        have hstep := PStep.finish s n b hst hnr hbb
        refine ⟨_, hstep, hab, Or.inr (Or.inl hrp), Prod.Lex.left _ _ ?_⟩
        have hi' := inv_step hb.todo hi hstep
        obtain ⟨k1, k2, k3⟩ := lengths hi'
        simp only [List.length_append, List.length_cons, List.length_nil] at k2
        simp only [work, List.length_append, List.length_cons, List.length_nil]
        omega
      -- a step that only moves the scheduler
      have move : ∀ pc : SPc fl, PStep c s { s with spc := pc } →
          distance c { s with spc := pc } < distance c s →
          ∃ t, PStep c s t ∧ t.abort = false ∧ InLoop t ∧ Closer c t s := by
        intro pc h1 h2
        exact ⟨_, h1, hab, Or.inr (Or.inl hrp), Prod.Lex.right _ h2⟩
      cases hsp : s.spc with
      | head =>
        rw [hsp] at hcount
        simp only [pend, List.length_nil] at hcount
        have hlt : s.done.length < c.todo.length := by omega
        refine move _ (PStep.planned s (remaining c s) _ hsp hlt hab (List.Perm.refl _) (List.Perm.refl _)) ?_
        simp only [distance, hsp, hrp]; omega
      | starting l =>
        cases l with
        | nil =>
          refine move _ (PStep.startedAll s hsp) ?_
          simp only [distance, hsp, hrp]; omega
        | cons n ns =>
          rw [hsp] at hpc
          have hn' := hpc.2.2 n (by simp)
          have hstep := PStep.start (c := c) s n ns hsp ⟨hn'.2.1, hn'.2.2.1⟩
          refine ⟨_, hstep, hab, Or.inr (Or.inl hrp), Prod.Lex.left _ _ ?_⟩
          obtain ⟨k1, k2, k3⟩ := lengths (inv_step hb.todo hi hstep)
          simp only [List.length_append, List.length_cons, List.length_nil] at k1
          simp only [work, List.length_append, List.length_cons, List.length_nil]
          omega
      | poll d =>
        rw [hsp] at hlive
        cases d with
        | cons x xs =>
          refine move _ (PStep.leave s (x :: xs) hsp (Or.inl (by simp))) ?_
          simp only [distance, hsp, hrp]; omega
        | nil =>
          by_cases hall : ∀ n ∈ s.scheduled, n ∈ s.ready
          · refine move _ (PStep.again s hsp hab) ?_
            rcases hsc : s.scheduled with _ | ⟨y, ys⟩
            · exact absurd hsc hlive
            · simp only [distance, hsp, hrp, hsc, List.length_cons]; omega
          · refine Classical.byContradiction fun hne => hall ?_
            intro n hn1
            refine Classical.byContradiction fun hn2 => hne (worker n hn1 hn2)
      | sweep rest d =>
        rw [hsp] at hpc
        by_cases hall : ∀ n ∈ s.scheduled, n ∈ s.ready
        · cases rest with
          | nil =>
            refine move _ (PStep.swept s d hsp) ?_
            cases d with
            | nil => simp only [distance, hsp, hrp]; omega
            | cons x xs => simp only [distance, hsp, hrp, List.length_nil]; omega
          | cons y ys =>
            have hy : y ∈ s.ready := hall y (hpc.2.2 y (by simp))
            refine move _ (PStep.seeReady s y ys d hsp hy) ?_
            cases d with
            | nil =>
              simp only [distance, hsp, hrp, List.nil_append]
              omega
            | cons x xs =>
              simp only [distance, hsp, hrp, List.cons_append, List.length_cons]
              omega
        · refine Classical.byContradiction fun hne => hall ?_
          intro n hn1
          refine Classical.byContradiction fun hn2 => hne (worker n hn1 hn2)
      | collect d =>
        rw [hsp] at hpc hlive
        cases hm : d.mapM (fun n => collectOne c n (s.files (batchName n))) with
        | none =>
          exfalso
          have := rinv_step hb hi hv (PStep.crash s d d hsp (List.Perm.refl _) hm)
          exact this.alive rfl
        | some rs =>
          have hstep := PStep.collected s d d rs hsp (List.Perm.refl _) hm
          refine ⟨_, hstep, hab, Or.inr (Or.inl hrp), Prod.Lex.left _ _ ?_⟩
          obtain ⟨k1, k2, k3⟩ := lengths (inv_step hb.todo hi hstep)
          simp only [List.length_append] at k3
          have : 0 < d.length := List.length_pos_iff.mpr hlive
          simp only [work, List.length_append]
          omega
      | publish rs =>
        rw [hsp] at hlive hcount
        simp only [pend] at hcount
        have : 0 < rs.length := List.length_pos_iff.mpr hlive
        refine ⟨_, PStep.publish s rs hsp, hab, Or.inr (Or.inl hrp), Prod.Lex.left _ _ ?_⟩
        simp only [work, List.length_append]
        omega
      | stopped =>
        exfalso
        rw [hsp] at hlive hcount
        simp only [pend, List.length_nil] at hcount
        dsimp only at hlive
        omega
      | crashed => exact absurd hsp hv.alive
    · -- a record is taken
      refine ⟨_, PStep.take s r q hrp hq, hab, Or.inr (Or.inr ⟨r, rfl⟩), Prod.Lex.left _ _ ?_⟩
      simp only [work, hq, hrp, underReview, List.length_cons, List.length_nil]
      omega
  · -- a record is reviewed
    obtain ⟨res, hres⟩ := ha.review r (hv.genuine r (Or.inr (Or.inr (by rw [hrp]; simp [underReview]))))
    refine ⟨_, PStep.reviewed s r res false hrp hres, by simp [hab], Or.inl rfl, Prod.Lex.left _ _ ?_⟩
    simp only [work, hrp, underReview, List.length_cons, List.length_nil]
    omega

theorem closer_wf (c : PConf fl) : WellFounded (Closer c) :=
  InvImage.wf (fun s => (work c s, distance c s)) (Prod.lex ⟨(· < ·), Nat.lt_wfRel.wf⟩ ⟨(· < ·), Nat.lt_wfRel.wf⟩).wf

theorem PSteps.trans {c : PConf fl} {s t r : PSt fl} (h1 : PSteps c s t) (h2 : PSteps c t r) :
    PSteps c s r := by
  induction h1 with
  | refl => exact h2
  | step hs _ ih => exact .step hs (ih h2)

theorem can_complete {c : PConf fl} {rank : Str → Nat} (hr : Acyclic c rank) (hb : Behaved c)
    (ha : Able c) {s : PSt fl} (h : PReach c s) (hab : s.abort = false) (hl : InLoop s) :
    ∃ t, PSteps c s t ∧ PReach c t ∧ t.abort = false ∧ t.rpc = .check ∧ hasNext t = false := by
  induction s using (closer_wf c).induction with
  | _ s ih =>
    by_cases hn : s.rpc = .check ∧ hasNext s = false
    · exact ⟨s, .refl s, h, hab, hn.1, hn.2⟩
    · obtain ⟨t, h1, h2, h3, h4⟩ := progress_step hr hb ha h hab hl hn
      obtain ⟨r, k1, k2, k3⟩ := ih t h4 (.step h h1) h2 h3
      exact ⟨r, .step h1 k1, k2, k3⟩

end Verif.Lemmas
