import Verif.Lemmas.ParallelProgress
import Verif.Spec.Parallel

/-! # Fair executions of parallel runs complete -/

namespace Verif.Lemmas
open Verif.Py Verif.Model Verif.Spec

variable {fl : Durations}

theorem stabilises {f : Nat → Nat} (h : ∀ i, f (i + 1) ≤ f i) : ∃ N, ∀ i, N ≤ i → f i = f N := by
  have mono : ∀ i j, i ≤ j → f j ≤ f i := by
    intro i j hij
    induction hij with
    | refl => exact Nat.le_refl _
    | step _ ih => exact Nat.le_trans (h _) ih
  have key : ∀ m N, f N ≤ m → ∃ N', ∀ i, N' ≤ i → f i = f N' := by
    intro m
    induction m with
    | zero =>
      intro N hN
      refine ⟨N, fun i hi => ?_⟩
      have := mono N i hi
      omega
    | succ m ih =>
      intro N hN
      by_cases hx : ∃ j, N ≤ j ∧ f j < f N
      · obtain ⟨j, h1, h2⟩ := hx
        exact ih j (by omega)
      · refine ⟨N, fun i hi => ?_⟩
        have := mono N i hi
        have : ¬ f i < f N := fun h => hx ⟨i, hi, h⟩
        omega
  exact key (f 0) 0 (Nat.le_refl _)

/-- Only the positions of the threads differ. -/
def SameCore (s t : PSt fl) : Prop :=
  t.started = s.started ∧ t.ready = s.ready ∧ t.done = s.done ∧ t.scheduled = s.scheduled ∧
  t.queue = s.queue ∧ t.left = s.left

/-- The positions of the main thread that can follow each other without work being done. -/
def RMove (a b : RPc fl) : Prop := b = a ∨ (a = .check ∧ b = .waiting)

/-- In the main loop, a step does some work or only moves a thread. -/
theorem work_step {c : PConf fl} {rank : Str → Nat} (hr : Acyclic c rank) (hb : Behaved c)
    {s t : PSt fl} (h : PReach c s) (hs : PStep c s t) (hab : t.abort = false) (hl : InLoop t) :
    work c t < work c s ∨ (work c t = work c s ∧ SameCore s t ∧ RMove s.rpc t.rpc) := by
  have hi := inv_reach hb.todo h
  have hv := rinv_reach hb h
  have hi' := inv_reach hb.todo (h.step hs)
  have hv' := rinv_reach hb (h.step hs)
  obtain ⟨l1, l2, l3⟩ := lengths hi
  obtain ⟨k1, k2, k3⟩ := lengths hi'
  have hpc := hi.pc
  have hleft := hv.left
  have hleft' := hv'.left
  have hlive : s.abort = false → _ := live_reach hr hb.todo h
  have notLoop : ∀ rp : RPc fl, (∀ r, rp ≠ .reviewing r) → rp ≠ .check → rp ≠ .waiting →
      t.rpc = rp → False := by
    intro rp h1 h2 h3 h4
    rcases hl with h | h | ⟨r, h⟩
    · exact h2 (h4 ▸ h)
    · exact h3 (h4 ▸ h)
    · exact h1 r (h4 ▸ h)
  cases hs with
  | start n ns h0 hn =>
    left
    simp only [List.length_append, List.length_cons, List.length_nil] at k1
    simp only [work, List.length_append, List.length_cons, List.length_nil]
    omega
  | finish n b hst hrd hlv =>
    left
    simp only [List.length_append, List.length_cons, List.length_nil] at k2
    simp only [work, List.length_append, List.length_cons, List.length_nil]
    omega
  | collected d d' rs h0 hp hm =>
    left
    have hlv := hlive hab
    rw [h0] at hlv
    have : 0 < d.length := List.length_pos_iff.mpr hlv
    simp only [List.length_append] at k3
    simp only [work, List.length_append]
    omega
  | crash d d' h0 hp hm => exact absurd rfl hv'.alive
  | publish rs h0 =>
    left
    have hlv := hlive hab
    rw [h0] at hlv
    have : 0 < rs.length := List.length_pos_iff.mpr hlv
    have hcount := hv.count.length_eq
    rw [h0] at hcount
    simp only [List.length_append, List.length_map, pend] at hcount
    simp only [work, List.length_append]
    omega
  | take r q h0 hq =>
    left
    simp only [work, hq, h0, underReview, List.length_cons, List.length_nil]
    omega
  | reviewed r res ab h0 hvv =>
    left
    simp only [work, h0, underReview, List.length_cons, List.length_nil]
    omega
  | more h0 hn =>
    right
    refine ⟨?_, ⟨rfl, rfl, rfl, rfl, rfl, rfl⟩, Or.inr ⟨h0, rfl⟩⟩
    simp [work, underReview, h0]
  | noMore h0 hn => exact (notLoop _ (by simp) (by simp) (by simp) rfl).elim
  | reviewedText r t ab h0 hvv => exact (notLoop _ (by simp) (by simp) (by simp) rfl).elim
  | reviewRaises r h0 hvv => exact (notLoop _ (by simp) (by simp) (by simp) rfl).elim
  | interrupt h0 => exact (notLoop _ (by simp) (by simp) (by simp) rfl).elim
  | recordLeft k x n res d h0 hq => exact (notLoop _ (by simp) (by simp) (by simp) rfl).elim
  | recordLeftText k x n t d h0 hq => exact (notLoop _ (by simp) (by simp) (by simp) rfl).elim
  | finished k x h0 hq => exact (notLoop _ (by simp) (by simp) (by simp) rfl).elim
  | _ => exact Or.inr ⟨rfl, ⟨rfl, rfl, rfl, rfl, rfl, rfl⟩, Or.inl rfl⟩

/-- When no work is being done, all scheduled tests are ready and the main thread waits, a step of
the scheduler brings it closer to doing work. -/
theorem distance_step {c : PConf fl} {rank : Str → Nat} (hr : Acyclic c rank) (hb : Behaved c)
    {s t : PSt fl} (h : PReach c s) (hs : PStep c s t) (hab : s.abort = false)
    (hab' : t.abort = false) (hw : work c t = work c s) (hall : ∀ n ∈ s.scheduled, n ∈ s.ready)
    (hrp : s.rpc = .waiting) (hrp' : t.rpc = .waiting) (hq : s.queue = []) :
    distance c t < distance c s := by
  have hi := inv_reach hb.todo h
  have hlive := live_reach hr hb.todo h hab
  have hpc := hi.pc
  obtain ⟨l1, l2, l3⟩ := lengths hi
  have hws := work_step hr hb h hs hab' (Or.inr (Or.inl hrp'))
  have hcount := (rinv_reach hb h).count.length_eq
  have hleft := (rinv_reach hb h).left
  have hrec := (rinv_reach hb h).rec_
  rw [hrp] at hrec
  rw [hq] at hcount hleft
  simp only [List.length_append, List.length_map, List.length_nil] at hcount hleft
  have hlp : s.left > 0 := by
    rcases hrec.2 hab with h | h
    · exact h
    · exact absurd hq h
  rcases hws with hws | ⟨_, hcore, _⟩
  · omega
  cases hs with
  | planned order l h0 hd ha ho hlp => simp only [distance, h0, hrp]; omega
  | stop h0 hd =>
    rw [h0] at hcount
    simp only [pend, List.length_nil] at hcount
    exact absurd ⟨by omega, hab⟩ hd
  | start n ns h0 hn =>
    have := congrArg List.length hcore.1
    simp at this
  | skip n ns h0 hn =>
    rw [h0] at hpc
    have := hpc.2.2 n (by simp)
    exact absurd ⟨this.2.1, this.2.2.1⟩ hn
  | startedAll h0 => simp only [distance, h0, hrp]; omega
  | again h0 ha =>
    rw [h0] at hlive
    rcases hsc : s.scheduled with _ | ⟨y, ys⟩
    · exact absurd hsc hlive
    · simp only [distance, h0, hrp, hsc, List.length_cons]; omega
  | leave d h0 hd =>
    rcases hd with hd | hd
    · rcases d with _ | ⟨x, xs⟩
      · exact absurd rfl hd
      · simp only [distance, h0, hrp]; omega
    · rw [hab] at hd; cases hd
  | seeReady n rest d h0 hrd =>
    cases d with
    | nil => simp only [distance, h0, hrp, List.nil_append]; omega
    | cons x xs => simp only [distance, h0, hrp, List.cons_append, List.length_cons]; omega
  | seeBusy n rest d h0 hrd =>
    rw [h0] at hpc
    exact absurd (hall n (hpc.2.2 n (by simp))) hrd
  | swept d h0 =>
    cases d with
    | nil => simp only [distance, h0, hrp]; omega
    | cons x xs => simp only [distance, h0, hrp, List.length_nil]; omega
  | collected d d' rs h0 hp hm =>
    rw [h0] at hlive
    have := congrArg List.length hcore.2.2.1
    simp only [List.length_append] at this
    have : 0 < d.length := List.length_pos_iff.mpr hlive
    omega
  | crash d d' h0 hp hm =>
    rw [h0] at hlive
    have := congrArg List.length hcore.2.2.1
    simp only [List.length_append] at this
    have : 0 < d.length := List.length_pos_iff.mpr hlive
    omega
  | publish rs h0 =>
    rw [h0] at hlive
    have := congrArg List.length hcore.2.2.2.2.1
    simp only [List.length_append] at this
    have : 0 < rs.length := List.length_pos_iff.mpr hlive
    omega
  | finish n b hst hrd hlv =>
    have := congrArg List.length hcore.2.1
    simp at this
  | more h0 hn => rw [hrp] at h0; cases h0
  | noMore h0 hn => cases hrp'
  | take r q h0 hq' => rw [hq] at hq'; cases hq'
  | reviewed r res ab h0 hvv => rw [hrp] at h0; cases h0
  | reviewedText r t ab h0 hvv => cases hrp'
  | reviewRaises r h0 hvv => cases hrp'
  | interrupt h0 => cases hrp'
  | recordLeft k x n res d h0 hq => cases hrp'
  | recordLeftText k x n t d h0 hq => cases hrp'
  | finished k x h0 hq => cases hrp'

theorem fair_reach {c : PConf fl} {σ : Nat → PSt fl} (hf : Fair c σ) (i : Nat) : PReach c (σ i) := by
  induction i with
  | zero => rw [hf.init]; exact .init
  | succ i ih =>
    rcases hf.step i with h | h
    · exact .step ih h
    · rw [h]; exact ih

theorem ready_mono {c : PConf fl} {s t : PSt fl} (h : PStep c s t) {n : Str} (hn : n ∈ s.ready) :
    n ∈ t.ready := by
  cases h <;> first | exact hn | exact List.mem_append.mpr (Or.inl hn)

theorem started_mono {c : PConf fl} {s t : PSt fl} (h : PStep c s t) {n : Str} (hn : n ∈ s.started) :
    n ∈ t.started := by
  cases h <;> first | exact hn | exact List.mem_append.mpr (Or.inl hn)

/-- A fair execution leaves the main loop. -/
theorem fair_leaves {c : PConf fl} {rank : Str → Nat} (hr : Acyclic c rank) (hb : Behaved c)
    {σ : Nat → PSt fl} (hf : Fair c σ) : ∃ i, ¬ InLoop (σ i) := by
  refine Classical.byContradiction fun hne => ?_
  have hl : ∀ i, InLoop (σ i) := fun i => Classical.byContradiction fun h => hne ⟨i, h⟩
  have hnend : ∀ i x, (σ i).rpc ≠ .ended x := by
    intro i x hx
    rcases hl i with h | h | ⟨r, h⟩ <;> rw [hx] at h <;> cases h
  have hab : ∀ i, (σ i).abort = false := by
    intro i
    cases hx : (σ i).abort with
    | false => rfl
    | true => obtain ⟨x, hx⟩ := hf.undisturbed i hx; exact absurd hx (hnend i x)
  have hreach := fair_reach hf
  have hstep : ∀ i, work c (σ (i + 1)) < work c (σ i) ∨ (work c (σ (i + 1)) = work c (σ i) ∧
      SameCore (σ i) (σ (i + 1)) ∧ RMove (σ i).rpc (σ (i + 1)).rpc) := by
    intro i
    rcases hf.step i with h | h
    · exact work_step hr hb (hreach i) h (hab _) (hl _)
    · rw [h]; exact Or.inr ⟨rfl, ⟨rfl, rfl, rfl, rfl, rfl, rfl⟩, Or.inl rfl⟩
  obtain ⟨N, hN⟩ := stabilises (f := fun i => work c (σ i)) (fun i => by
    rcases hstep i with h | h
    · exact Nat.le_of_lt h
    · exact Nat.le_of_eq h.1)
  have hmove : ∀ i, N ≤ i → SameCore (σ i) (σ (i + 1)) ∧ RMove (σ i).rpc (σ (i + 1)).rpc := by
    intro i hi
    rcases hstep i with h | h
    · have h1 := hN i hi
      have h2 := hN (i + 1) (by omega)
      omega
    · exact h.2
  have hcore : ∀ i, N ≤ i → SameCore (σ N) (σ i) := by
    intro i hi
    induction hi with
    | refl => exact ⟨rfl, rfl, rfl, rfl, rfl, rfl⟩
    | @step i hi ih =>
      obtain ⟨⟨a1, a2, a3, a4, a5, a6⟩, _⟩ := hmove i hi
      obtain ⟨b1, b2, b3, b4, b5, b6⟩ := ih
      exact ⟨a1.trans b1, a2.trans b2, a3.trans b3, a4.trans b4, a5.trans b5, a6.trans b6⟩
  have hrmono : ∀ i j, i ≤ j → ∀ n ∈ (σ i).ready, n ∈ (σ j).ready := by
    intro i j hij n hn
    induction hij with
    | refl => exact hn
    | @step j _ ih =>
      rcases hf.step j with h | h
      · exact ready_mono h ih
      · rw [h]; exact ih
  have hall : ∀ i, N ≤ i → ∀ n ∈ (σ i).scheduled, n ∈ (σ i).ready := by
    intro i hi n hn
    have hst : n ∈ (σ i).started := ((inv_reach hb.todo (hreach i)).mem_started n).mpr (Or.inr hn)
    obtain ⟨j, hj⟩ := hf.workers i n hst
    rcases Nat.le_total j i with h | h
    · exact hrmono j i h n hj
    · have h1 := (hcore j (by omega)).2.1
      have h2 := (hcore i hi).2.1
      rw [h2, ← h1]; exact hj
  -- the main thread ends up waiting
  have hkeep : ∀ i, N ≤ i → (σ i).rpc ≠ .check → ∀ j, i ≤ j → (σ j).rpc = (σ i).rpc := by
    intro i hi hc j hj
    induction hj with
    | refl => rfl
    | @step j hj ih =>
      have hij : i ≤ j := hj
      rcases (hmove j (by omega)).2 with h | ⟨h, _⟩
      · rw [h, ih]
      · rw [ih] at h; exact absurd h hc
  have hwait : ∃ M, N ≤ M ∧ (σ M).rpc = .waiting ∧ (σ M).queue = [] := by
    obtain ⟨M, hM1, hM2⟩ : ∃ M, N ≤ M ∧ (σ M).rpc ≠ .check := by
      by_cases hc : (σ N).rpc = .check
      · obtain ⟨j, h1, h2⟩ := hf.main N (hnend N) (by rw [hc]; intro h; cases h)
        exact ⟨j, h1, fun h => h2 (h.trans hc.symm)⟩
      · exact ⟨N, Nat.le_refl _, hc⟩
    have hstuck : ¬ ((σ M).rpc = .waiting → (σ M).queue ≠ []) := by
      intro h
      obtain ⟨j, h1, h2⟩ := hf.main M (hnend M) h
      exact h2 (hkeep M hM1 hM2 j h1)
    refine ⟨M, hM1, ?_⟩
    refine ⟨Classical.byContradiction fun h => hstuck fun h' => absurd h' h,
      Classical.byContradiction fun h => hstuck fun _ => h⟩
  obtain ⟨M, hM, hMw, hMq⟩ := hwait
  have hw : ∀ i, M ≤ i → (σ i).rpc = .waiting := by
    intro i hi
    rw [hkeep M hM (by rw [hMw]; intro h; cases h) i hi, hMw]
  have hq : ∀ i, M ≤ i → (σ i).queue = [] := by
    intro i hi
    rw [(hcore i (by omega)).2.2.2.2.1, ← (hcore M hM).2.2.2.2.1, hMq]
  have hdist : ∀ i, M ≤ i → distance c (σ (i + 1)) < distance c (σ i) ∨ σ (i + 1) = σ i := by
    intro i hi
    rcases hf.step i with h | h
    · left
      have h1 := hN i (by omega)
      have h2 := hN (i + 1) (by omega)
      exact distance_step hr hb (hreach i) h (hab _) (hab _) (by omega) (hall i (by omega)) (hw i hi)
        (hw _ (by omega)) (hq i hi)
    · exact Or.inr h
  obtain ⟨K, hK⟩ := stabilises (f := fun i => distance c (σ (M + i))) (fun i => by
    rcases hdist (M + i) (by omega) with h | h
    · exact Nat.le_of_lt h
    · show distance c (σ (M + i + 1)) ≤ _
      rw [h]; exact Nat.le_refl _)
  have hconst : ∀ j, M + K ≤ j → σ j = σ (M + K) := by
    intro j hj
    induction hj with
    | refl => rfl
    | @step j hj ih =>
      have hij : M + K ≤ j := hj
      rcases hdist j (by omega) with h | h
      · have h1 := hK (j - M) (by omega)
        have h2 := hK (j + 1 - M) (by omega)
        rw [show M + (j - M) = j by omega] at h1
        rw [show M + (j + 1 - M) = j + 1 by omega] at h2
        omega
      · exact h.trans ih
  -- so the scheduler does not move any more
  have hlive := live_reach hr hb.todo (hreach (M + K)) (hab _)
  have hv := rinv_reach hb (hreach (M + K))
  obtain ⟨l1, l2, l3⟩ := lengths (inv_reach hb.todo (hreach (M + K)))
  obtain ⟨j, h1, h2⟩ := hf.scheduler (M + K) (by
    intro hs
    rw [hs] at hlive
    have hcount := hv.count.length_eq
    have hleft := hv.left
    have hrec := hv.rec_
    rw [hw _ (by omega)] at hrec
    rw [hs, hq _ (by omega)] at hcount
    rw [hq _ (by omega)] at hleft
    simp only [pend, List.length_nil, List.length_append, List.length_map] at hcount hleft
    dsimp only at hlive
    rcases hrec.2 (hab _) with h | h
    · omega
    · exact h (hq _ (by omega))) hv.alive
  exact h2 (by rw [hconst j h1])

/-- A fair execution leaves the main loop and completes, with every test recorded. -/
theorem fair_leaves_loop {c : PConf fl} {rank : Str → Nat} (hr : Acyclic c rank) (hb : Behaved c)
    (hc : Calm c) {σ : Nat → PSt fl} (hf : Fair c σ) :
    ∃ i m, (σ i).rpc = .check ∧ hasNext (σ i) = false ∧ (σ m).rpc = .ended false ∧
      (σ m).recorded = (σ i).recorded ∧ (σ m).exitCode = (σ i).exitCode ∧ ((σ i).recorded.map (·.1)).Perm c.todo := by
  have hreach := fair_reach hf
  obtain ⟨k, hk⟩ := fair_leaves hr hb hf
  -- the first state outside of the main loop
  obtain ⟨i, hi1, hi2⟩ : ∃ i, InLoop (σ i) ∧ ¬ InLoop (σ (i + 1)) := by
    induction k with
    | zero =>
      exact absurd (Or.inl (by rw [hf.init]; rfl)) hk
    | succ k ih =>
      by_cases h : InLoop (σ k)
      · exact ⟨k, h, hk⟩
      · exact ih h
  have hab : (σ i).abort = false := by
    cases hx : (σ i).abort with
    | false => rfl
    | true =>
      obtain ⟨x, hx⟩ := hf.undisturbed i hx
      rcases hi1 with h | h | ⟨r, h⟩ <;> rw [hx] at h <;> cases h
  have hv := rinv_reach hb (hreach i)
  have hexit : (σ (i + 1)).rpc = .leftover 0 false ∧ (σ (i + 1)).recorded = (σ i).recorded ∧
      (σ (i + 1)).taken = (σ i).taken ∧ (σ i).rpc = .check ∧ hasNext (σ i) = false ∧
      (σ (i + 1)).exitCode = (σ i).exitCode := by
    rcases hf.step i with h | h
    · have hund := hf.undisturbed (i + 1)
      generalize σ (i + 1) = t at h hi2 hund
      have keep : t.rpc = (σ i).rpc → False := fun he => hi2 (by unfold InLoop; rw [he]; exact hi1)
      cases h with
      | noMore h0 hn => exact ⟨rfl, rfl, rfl, h0, hn, rfl⟩
      | interrupt h0 => obtain ⟨x, hx⟩ := hund rfl; cases hx
      | reviewedText r t ab h0 hvv =>
        obtain ⟨b, g1, g2⟩ := hv.genuine r (Or.inr (Or.inr (by rw [h0]; simp [underReview])))
        obtain ⟨res, hres⟩ := hc.review _ _ _ g1 g2 _ _ hvv
        cases hres
      | reviewRaises r h0 hvv =>
        obtain ⟨b, g1, g2⟩ := hv.genuine r (Or.inr (Or.inr (by rw [h0]; simp [underReview])))
        exact absurd hvv (hc.raises _ _ _ g1 g2)
      | more h0 hn => exact absurd (Or.inr (Or.inl rfl)) hi2
      | take r q h0 hq => exact absurd (Or.inr (Or.inr ⟨r, rfl⟩)) hi2
      | reviewed r res ab h0 hvv => exact absurd (Or.inl rfl) hi2
      | recordLeft k x n res d h0 hq => rcases hi1 with h | h | ⟨r, h⟩ <;> rw [h0] at h <;> cases h
      | recordLeftText k x n t d h0 hq => rcases hi1 with h | h | ⟨r, h⟩ <;> rw [h0] at h <;> cases h
      | finished k x h0 hq => rcases hi1 with h | h | ⟨r, h⟩ <;> rw [h0] at h <;> cases h
      | _ => exact (keep rfl).elim
    · rw [h] at hi2; exact absurd hi1 hi2
  obtain ⟨e1, e2, e3, e4, e5, e6⟩ := hexit
  have e5' := e5
  -- all tests have been taken
  have hrec := hv.rec_
  rw [e4] at hrec
  simp only [hasNext, hab, Bool.not_false, Bool.and_true, Bool.or_eq_false_iff, decide_eq_false_iff_not,
    Bool.not_eq_false', List.isEmpty_iff] at e5
  have hl2 := hv.left
  rw [e5.2] at hl2
  simp only [List.length_nil] at hl2
  have htn : (σ i).taken.Nodup := by
    have := (hv.count.nodup_iff).mpr (inv_reach hb.todo (hreach i)).parts.1
    rw [List.append_assoc] at this
    exact (List.nodup_append.mp this).1
  have hts : ∀ n ∈ (σ i).taken, n ∈ c.todo := by
    intro n hn
    have hd : n ∈ (σ i).done := hv.count.mem_iff.mp (by simp [hn])
    exact (inv_reach hb.todo (hreach i)).sub n
      (((inv_reach hb.todo (hreach i)).mem_started n).mpr (Or.inl hd))
  have hperm : ((σ i).recorded.map (·.1)).Perm c.todo := by
    rw [show (σ i).recorded.map (·.1) = (σ i).taken from hrec]
    exact nodup_perm_of_length htn hts (by omega)
  have hlen : c.todo.length ≤ (σ i).taken.length := by omega
  -- the main thread ends
  obtain ⟨j, hj1, hj2⟩ := hf.main (i + 1) (by rw [e1]; intro x h; cases h) (by rw [e1]; intro h; cases h)
  have key : ∀ d, (∃ m, (σ m).rpc = .ended false ∧ (σ m).recorded = (σ i).recorded ∧ (σ m).exitCode = (σ i).exitCode) ∨
      ((σ (i + 1 + d)).rpc = .leftover 0 false ∧ (σ (i + 1 + d)).recorded = (σ i).recorded ∧
        (σ (i + 1 + d)).taken = (σ i).taken ∧ (σ (i + 1 + d)).exitCode = (σ i).exitCode) := by
    intro d
    induction d with
    | zero => exact Or.inr ⟨e1, e2, e3, e6⟩
    | succ d ih =>
      rcases ih with h | ⟨k1, k2, k3, k4⟩
      · exact Or.inl h
      · have hv' := rinv_reach hb (hreach (i + 1 + d))
        have hq : (σ (i + 1 + d)).queue = [] := by
          have hcount := hv'.count.length_eq
          obtain ⟨l1, l2, l3⟩ := lengths (inv_reach hb.todo (hreach (i + 1 + d)))
          simp only [List.length_append, List.length_map, k3] at hcount
          exact List.length_eq_zero_iff.mp (by omega)
        rcases hf.step (i + 1 + d) with h | h
        · have hn : (σ (i + 1 + d + 1)).rpc = .ended false ∧ (σ (i + 1 + d + 1)).recorded = (σ (i + 1 + d)).recorded ∧
                (σ (i + 1 + d + 1)).exitCode = (σ (i + 1 + d)).exitCode ∨
              ((σ (i + 1 + d + 1)).rpc = .leftover 0 false ∧
                (σ (i + 1 + d + 1)).recorded = (σ (i + 1 + d)).recorded ∧
                (σ (i + 1 + d + 1)).taken = (σ (i + 1 + d)).taken ∧
                (σ (i + 1 + d + 1)).exitCode = (σ (i + 1 + d)).exitCode) := by
            generalize σ (i + 1 + d + 1) = t at h
            generalize σ (i + 1 + d) = s at h k1 hq
            cases h with
            | more h0 hn => rw [k1] at h0; cases h0
            | noMore h0 hn => rw [k1] at h0; cases h0
            | take r q h0 hq => rw [k1] at h0; cases h0
            | reviewed r res ab h0 hvv => rw [k1] at h0; cases h0
            | reviewedText r t ab h0 hvv => rw [k1] at h0; cases h0
            | reviewRaises r h0 hvv => rw [k1] at h0; cases h0
            | interrupt h0 =>
              rcases h0 with h0 | h0 | ⟨r, h0⟩ <;> rw [k1] at h0 <;> cases h0
            | recordLeft k x n res d h0 hq' => rw [hq] at hq'; cases hq'
            | recordLeftText k x n t d h0 hq' => rw [hq] at hq'; cases hq'
            | finished k x h0 hq' =>
              rw [k1] at h0; cases h0
              exact Or.inl ⟨rfl, rfl, rfl⟩
            | _ => exact Or.inr ⟨k1, rfl, rfl, rfl⟩
          rcases hn with ⟨h1, h2, h3⟩ | ⟨h1, h2, h3, h4⟩
          · exact Or.inl ⟨_, h1, h2.trans k2, h3.trans k4⟩
          · exact Or.inr ⟨h1, h2.trans k2, h3.trans k3, h4.trans k4⟩
        · right
          show (σ (i + 1 + d + 1)).rpc = _ ∧ (σ (i + 1 + d + 1)).recorded = _ ∧ (σ (i + 1 + d + 1)).taken = _ ∧
            (σ (i + 1 + d + 1)).exitCode = _
          rw [h]; exact ⟨k1, k2, k3, k4⟩
  rcases key (j - (i + 1)) with ⟨m, h1, h2, h3⟩ | ⟨h1, _, _⟩
  · exact ⟨i, m, e4, e5', h1, h2, h3, hperm⟩
  · rw [show i + 1 + (j - (i + 1)) = j by omega] at h1
    exact absurd (h1.trans e1.symm) hj2

/-- A fair execution completes, with every test recorded. -/
theorem fair_completes {c : PConf fl} {rank : Str → Nat} (hr : Acyclic c rank) (hb : Behaved c)
    (hc : Calm c) {σ : Nat → PSt fl} (hf : Fair c σ) :
    ∃ i, (σ i).rpc = .ended false ∧ ((σ i).recorded.map (·.1)).Perm c.todo := by
  obtain ⟨i, m, -, -, h1, h2, -, h3⟩ := fair_leaves_loop hr hb hc hf
  exact ⟨m, h1, by rw [h2]; exact h3⟩

/-- Executions up to the end of the main loop. -/
theorem run_exists {c : PConf fl} {rank : Str → Nat} (hr : Acyclic c rank) (hb : Behaved c)
    (ha : Able c) {s : PSt fl} (h : PReach c s) (hab : s.abort = false) (hl : InLoop s) :
    ∃ (L : Nat) (f : Nat → PSt fl), f 0 = s ∧ (∀ i, i < L → PStep c (f i) (f (i + 1))) ∧
      (∀ i, i ≤ L → (f i).abort = false) ∧ PReach c (f L) ∧ (f L).rpc = .check ∧
      hasNext (f L) = false := by
  induction s using (closer_wf c).induction with
  | _ s ih =>
    by_cases hn : s.rpc = .check ∧ hasNext s = false
    · exact ⟨0, fun _ => s, rfl, fun i hi => absurd hi (Nat.not_lt_zero i), fun _ _ => hab, h, hn.1, hn.2⟩
    · obtain ⟨t, h1, h2, h3, h4⟩ := progress_step hr hb ha h hab hl hn
      obtain ⟨L, f, k0, k1, k2, k3, k4, k5⟩ := ih t h4 (.step h h1) h2 h3
      refine ⟨L + 1, fun i => match i with | 0 => s | i + 1 => f i, rfl, ?_, ?_, k3, k4, k5⟩
      · intro i hi
        cases i with
        | zero => show PStep c s (f 0); rw [k0]; exact h1
        | succ i => exact k1 i (by omega)
      · intro i hi
        cases i with
        | zero => exact hab
        | succ i => exact k2 i (by omega)

/-- Where the main loop ends, every test that has been started has ended. -/
theorem loop_end {c : PConf fl} {rank : Str → Nat} (hr : Acyclic c rank) (hb : Behaved c) {s : PSt fl}
    (h : PReach c s) (hab : s.abort = false) (k4 : s.rpc = .check) (k5 : hasNext s = false) :
    (∀ n ∈ s.started, n ∈ s.ready) ∧ (s.spc = .head ∨ s.spc = .stopped) ∧ s.queue = [] ∧ s.left ≤ 0 ∧
      ¬ s.done.length < c.todo.length := by
  have hi := inv_reach hb.todo h
  have hv := rinv_reach hb h
  have hlive := live_reach hr hb.todo h hab
  obtain ⟨l1, l2, l3⟩ := lengths hi
  simp only [hasNext, hab, Bool.not_false, Bool.and_true, Bool.or_eq_false_iff, decide_eq_false_iff_not,
    Bool.not_eq_false', List.isEmpty_iff] at k5
  have hleft := hv.left
  have hcount := hv.count.length_eq
  rw [k5.2] at hleft hcount
  simp only [List.length_nil, List.length_append, List.length_map] at hleft hcount
  have hready : ∀ n ∈ s.started, n ∈ s.ready := by
    intro n hn
    rcases (hi.mem_started n).mp hn with h | h
    · exact hi.doneReady n h
    · have : 0 < s.scheduled.length := List.length_pos_of_mem h
      omega
  have hsched : s.scheduled = [] := List.length_eq_zero_iff.mp (by omega)
  have hspc : s.spc = .head ∨ s.spc = .stopped := by
    have hpc := hi.pc
    cases hs : s.spc with
    | head => exact Or.inl rfl
    | stopped => exact Or.inr rfl
    | crashed => exact absurd hs hv.alive
    | starting l =>
      rw [hs] at hlive hpc
      rcases hlive with h | h
      · cases l with
        | nil => exact absurd rfl h
        | cons n ns =>
          have hn := hpc.2.2 n (by simp)
          have hnd : n ∉ s.started := fun h => by
            rcases (hi.mem_started n).mp h with h | h
            · exact hn.2.1 h
            · exact hn.2.2.1 h
          have hp := nodup_length_le (l := n :: s.started) (m := c.todo)
            (List.nodup_cons.mpr ⟨hnd, hi.nodup⟩) (by
              intro m hm
              rcases List.mem_cons.mp hm with rfl | hm
              · exact hn.1
              · exact hi.sub m hm)
          simp only [List.length_cons] at hp
          omega
      · exact absurd hsched h
    | poll d => rw [hs] at hlive; exact absurd hsched hlive
    | sweep r d => rw [hs] at hlive; exact absurd hsched hlive
    | collect d =>
      rw [hs] at hlive hpc
      rcases d with _ | ⟨n, ns⟩
      · exact absurd rfl hlive
      · have := hpc.2 n (by simp)
        rw [hsched] at this
        simp at this
    | publish rs =>
      rw [hs] at hlive hcount
      have : 0 < rs.length := List.length_pos_iff.mpr hlive
      simp only [pend] at hcount
      omega
  exact ⟨hready, hspc, k5.2, by omega, by omega⟩

/-- Fair executions exist. -/
theorem fair_exists {c : PConf fl} {rank : Str → Nat} (hr : Acyclic c rank) (hb : Behaved c)
    (ha : Able c) : ∃ σ, Fair c σ := by
  obtain ⟨L, f, k0, k1, k2, k3, k4, k5⟩ := run_exists hr hb ha (s := PSt.init c) .init rfl (Or.inl rfl)
  have hab := k2 L (Nat.le_refl L)
  obtain ⟨hready, hspc, hqueue, hleft, hlen⟩ := loop_end hr hb k3 hab k4 k5
  replace k5 : True ∧ (f L).queue = [] := ⟨trivial, hqueue⟩
  let s1 : PSt fl := { f L with spc := .stopped }
  let s2 : PSt fl := { s1 with rpc := .leftover 0 false }
  let s3 : PSt fl := { s2 with rpc := .ended false, abort := true }
  have t1 : PStep c (f L) s1 ∨ s1 = f L := by
    rcases hspc with h | h
    · left
      exact .stop _ h (by omega)
    · right
      show { f L with spc := SPc.stopped } = f L
      rw [← h]
  have t2 : PStep c s1 s2 := .noMore s1 k4 (by
    show hasNext (f L) = false
    simp [hasNext, hab, k5.2]
    omega)
  have t3 : PStep c s2 s3 := .finished s2 0 false rfl (by
    show (f L).queue[0]? = none
    rw [k5.2]; rfl)
  let σ : Nat → PSt fl := fun i => if i ≤ L then f i else if i = L + 1 then s1 else
    if i = L + 2 then s2 else s3
  have hlast : ∀ j, L + 3 ≤ j → σ j = s3 := by
    intro j hj
    show (if j ≤ L then f j else if j = L + 1 then s1 else if j = L + 2 then s2 else s3) = s3
    rw [if_neg (by omega), if_neg (by omega), if_neg (by omega)]
  have a0 : ∀ i, i ≤ L → σ i = f i := fun i hi => if_pos hi
  have a1 : σ (L + 1) = s1 := by
    show (if L + 1 ≤ L then _ else if L + 1 = L + 1 then s1 else _) = s1
    rw [if_neg (by omega), if_pos rfl]
  have a2 : σ (L + 2) = s2 := by
    show (if L + 2 ≤ L then _ else if L + 2 = L + 1 then s1 else if L + 2 = L + 2 then s2 else _) = s2
    rw [if_neg (by omega), if_neg (by omega), if_pos rfl]
  have hstep : ∀ i, PStep c (σ i) (σ (i + 1)) ∨ σ (i + 1) = σ i := by
    intro i
    by_cases h1 : i < L
    · rw [a0 i (by omega), a0 (i + 1) (by omega)]; exact Or.inl (k1 i h1)
    · by_cases h2 : i = L
      · subst h2; rw [a0 i (by omega), a1]; exact t1
      · by_cases h3 : i = L + 1
        · subst h3; rw [a1, a2]; exact Or.inl t2
        · by_cases h4 : i = L + 2
          · subst h4; rw [a2, hlast _ (by omega)]; exact Or.inl t3
          · rw [hlast i (by omega), hlast (i + 1) (by omega)]; exact Or.inr rfl
  have hundist : ∀ i, (σ i).abort = true → σ i = s3 := by
    intro i hi
    by_cases h1 : i ≤ L
    · rw [a0 i h1, k2 i h1] at hi; cases hi
    · by_cases h3 : i = L + 1
      · subst h3; rw [a1] at hi; exact absurd (hi.symm.trans hab) (by simp)
      · by_cases h4 : i = L + 2
        · subst h4; rw [a2] at hi; exact absurd (hi.symm.trans hab) (by simp)
        · exact hlast i (by omega)
  have hst : ∀ j, (σ j).started ⊆ (σ (j + 1)).started := by
    intro j n hn
    rcases hstep j with h | h
    · exact started_mono h hn
    · rw [h]; exact hn
  have hst' : ∀ d j, (σ j).started ⊆ (σ (j + d)).started := by
    intro d j
    induction d with
    | zero => exact fun _ h => h
    | succ d ih => exact fun n hn => hst (j + d) (ih hn)
  refine ⟨σ, ?_, hstep, ?_, ?_, ?_, ?_⟩
  · rw [a0 0 (by omega), k0]
  · intro i hi
    rw [hundist i hi]; exact ⟨false, rfl⟩
  · intro i n hn
    refine ⟨L + 3, ?_⟩
    rw [hlast _ (by omega)]
    have := hst' (L + 3) i hn
    rw [hlast _ (by omega)] at this
    exact hready n this
  · intro i h1 h2
    refine ⟨i + (L + 3), by omega, ?_⟩
    rw [hlast (i + (L + 3)) (by omega)]
    exact fun h => h1 h.symm
  · intro i h1 h2
    refine ⟨i + (L + 3), by omega, ?_⟩
    rw [hlast (i + (L + 3)) (by omega)]
    exact fun h => h1 false h.symm

end Verif.Lemmas
