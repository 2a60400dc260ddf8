import Verif.Model.Parallel

/-! # Invariants of the parallel runner -/

namespace Verif.Lemmas
open Verif.Py Verif.Model

variable {fl : Durations}

/-- No common resource. -/
def NoShare (c : PConf fl) (a b : Str) : Prop := ∀ r ∈ c.res a, r ∉ c.res b

theorem NoShare.symm {c : PConf fl} {a b : Str} (h : NoShare c a b) : NoShare c b a :=
  fun r h1 h2 => h r h2 h1

/-- The dependencies of a test that are to be run are done. -/
def DepsIn (c : PConf fl) (done : List Str) (n : Str) : Prop :=
  ∀ d ∈ c.deps n, d ∈ c.todo → d ∈ done

theorem runnable_iff (c : PConf fl) (done : List Str) (n : Str) :
    runnable c done n = true ↔ DepsIn c done n := by
  unfold runnable DepsIn
  simp only [List.all_eq_true, Bool.or_eq_true, Bool.not_eq_true', List.contains_eq_mem,
    decide_eq_false_iff_not, decide_eq_true_eq]
  constructor
  · intro h d hd ht
    rcases h d hd with h | h
    · exact absurd ht h
    · exact h
  · intro h d hd
    by_cases ht : d ∈ c.todo
    · exact Or.inr (h d hd ht)
    · exact Or.inl ht

theorem plan_spec (c : PConf fl) (done : List Str) (order : List Str) (reserved : List Nat) :
    (plan c done order reserved).Sublist order ∧
    (∀ n ∈ plan c done order reserved, DepsIn c done n ∧ ∀ r ∈ c.res n, r ∉ reserved) ∧
    (plan c done order reserved).Pairwise (NoShare c) := by
  induction order generalizing reserved with
  | nil => simp [plan]
  | cons n ns ih =>
    unfold plan
    split
    · rename_i hc
      rw [Bool.and_eq_true, runnable_iff] at hc
      have hres : ∀ r ∈ c.res n, r ∉ reserved := by
        intro r hr
        have := List.all_eq_true.mp hc.2 r hr
        simpa using this
      obtain ⟨i1, i2, i3⟩ := ih (reserved ++ c.res n)
      refine ⟨i1.cons₂ n, ?_, ?_⟩
      · intro m hm
        rcases List.mem_cons.mp hm with rfl | hm
        · exact ⟨hc.1, hres⟩
        · refine ⟨(i2 m hm).1, fun r hr hr' => (i2 m hm).2 r hr (by simp [hr'])⟩
      · refine List.Pairwise.cons ?_ i3
        intro m hm r hr hr'
        exact (i2 m hm).2 r hr' (by simp [hr])
    · obtain ⟨i1, i2, i3⟩ := ih reserved
      exact ⟨i1.cons n, i2, i3⟩

/-- If nothing is reserved, a plan is empty only if no test is runnable. -/
theorem plan_ne_nil {c : PConf fl} {done order : List Str} {n : Str} (hn : n ∈ order)
    (hd : DepsIn c done n) : plan c done order [] ≠ [] := by
  induction order with
  | nil => cases hn
  | cons m ms ih =>
    unfold plan
    split
    · simp
    · rename_i hc
      rcases List.mem_cons.mp hn with rfl | hn
      · exfalso
        apply hc
        rw [Bool.and_eq_true, runnable_iff]
        exact ⟨hd, by simp⟩
      · exact ih hn

/-- What holds of the scheduler's program counter. -/
def PcInv (c : PConf fl) (s : PSt fl) : SPc fl → Prop
  | .starting l => l.Nodup ∧ l.Pairwise (NoShare c) ∧ ∀ n ∈ l, n ∈ c.todo ∧ n ∉ s.done ∧
      n ∉ s.scheduled ∧ DepsIn c s.done n ∧ ∀ r ∈ c.res n, r ∉ s.reserved
  | .poll d => d.Nodup ∧ ∀ n ∈ d, n ∈ s.scheduled ∧ n ∈ s.ready
  | .sweep rest d => (d ++ rest).Nodup ∧ (∀ n ∈ d, n ∈ s.scheduled ∧ n ∈ s.ready) ∧
      ∀ n ∈ rest, n ∈ s.scheduled
  | .collect d => d.Nodup ∧ ∀ n ∈ d, n ∈ s.scheduled ∧ n ∈ s.ready
  | _ => True

/-- The invariant of the scheduler and the workers. -/
structure Inv (c : PConf fl) (s : PSt fl) : Prop where
  part : (s.done ++ s.scheduled).Perm s.started
  nodup : s.started.Nodup
  sub : ∀ n ∈ s.started, n ∈ c.todo
  readySub : ∀ n ∈ s.ready, n ∈ s.started
  readyNodup : s.ready.Nodup
  doneReady : ∀ n ∈ s.done, n ∈ s.ready
  reserved : ∀ r, r ∈ s.reserved ↔ ∃ n ∈ s.scheduled, r ∈ c.res n
  apart : s.scheduled.Pairwise (NoShare c)
  deps : ∀ n ∈ s.started, DepsIn c s.done n
  pc : PcInv c s s.spc

theorem Inv.parts {c : PConf fl} {s : PSt fl} (h : Inv c s) :
    s.done.Nodup ∧ s.scheduled.Nodup ∧ ∀ n ∈ s.done, n ∉ s.scheduled := by
  have := (h.part.nodup_iff).mpr h.nodup
  rw [List.nodup_append] at this
  exact ⟨this.1, this.2.1, fun n h1 h2 => this.2.2 n h1 n h2 rfl⟩

theorem Inv.mem_started {c : PConf fl} {s : PSt fl} (h : Inv c s) (n : Str) :
    n ∈ s.started ↔ n ∈ s.done ∨ n ∈ s.scheduled := by
  rw [← h.part.mem_iff, List.mem_append]

private theorem filter_split (l d : List Str) (hd : d.Nodup) (hl : l.Nodup) (h : ∀ n ∈ d, n ∈ l) :
    (d ++ l.filter (fun n => !d.contains n)).Perm l := by
  have h1 : (l.filter (fun n => d.contains n) ++ l.filter (fun n => !d.contains n)).Perm l :=
    List.filter_append_perm _ _
  have h2 : d.Perm (l.filter (fun n => d.contains n)) := by
    rw [List.perm_ext_iff_of_nodup hd (hl.filter _)]
    intro a
    simp only [List.mem_filter, List.contains_eq_mem, decide_eq_true_eq]
    exact ⟨fun ha => ⟨h a ha, ha⟩, fun ha => ha.2⟩
  exact (List.Perm.append_right _ h2).trans h1

theorem pairwise_apart {c : PConf fl} {l : List Str} (h : l.Pairwise (NoShare c)) {a b : Str}
    (ha : a ∈ l) (hb : b ∈ l) (hne : a ≠ b) : NoShare c a b := by
  induction h with
  | nil => cases ha
  | cons hx _ ih =>
    rcases List.mem_cons.mp ha with ha1 | ha1
    · rcases List.mem_cons.mp hb with hb1 | hb1
      · exact absurd (ha1.trans hb1.symm) hne
      · rw [ha1]; exact hx b hb1
    · rcases List.mem_cons.mp hb with hb1 | hb1
      · rw [hb1]; exact (hx a ha1).symm
      · exact ih ha1 hb1

private theorem inv_collect {c : PConf fl} {s : PSt fl} (h : Inv c s) {d : List Str}
    (hd : d.Nodup ∧ ∀ n ∈ d, n ∈ s.scheduled ∧ n ∈ s.ready) (pc : SPc fl) (hpc : pc ≠ .head →
      (∃ rs, pc = .publish rs) ∨ pc = .crashed) :
    Inv c { s with
      spc := pc,
      done := s.done ++ d,
      scheduled := s.scheduled.filter (fun n => !d.contains n),
      reserved := s.reserved.filter (fun r => !d.any (fun n => (c.res n).contains r)) } := by
  obtain ⟨p1, p2, p3⟩ := h.parts
  refine ⟨?_, h.nodup, h.sub, h.readySub, h.readyNodup, ?_, ?_, ?_, ?_, ?_⟩
  · dsimp only
    rw [List.append_assoc]
    exact (List.Perm.append_left _ (filter_split _ _ hd.1 p2 (fun n hn => (hd.2 n hn).1))).trans h.part
  · intro n hn
    rcases List.mem_append.mp hn with hn | hn
    · exact h.doneReady n hn
    · exact (hd.2 n hn).2
  · intro r
    simp only [List.mem_filter, h.reserved, Bool.not_eq_true', List.contains_eq_mem,
      decide_eq_false_iff_not]
    constructor
    · rintro ⟨⟨n, h1, h2⟩, h3⟩
      refine ⟨n, ⟨h1, ?_⟩, h2⟩
      intro hn
      have : d.any (fun n => decide (r ∈ c.res n)) = true :=
        List.any_eq_true.mpr ⟨n, hn, by simpa using h2⟩
      rw [this] at h3; cases h3
    · rintro ⟨n, ⟨h1, h2⟩, h3⟩
      refine ⟨⟨n, h1, h3⟩, ?_⟩
      cases ha : d.any (fun n => decide (r ∈ c.res n)) with
      | false => rfl
      | true =>
        exfalso
        obtain ⟨m, hm, hr⟩ := List.any_eq_true.mp ha
        have hr' : r ∈ c.res m := by simpa using hr
        have hne : n ≠ m := fun e => h2 (e ▸ hm)
        have := pairwise_apart h.apart h1 (hd.2 m hm).1 hne
        exact this r h3 hr'
  · exact h.apart.sublist List.filter_sublist
  · intro n hn e he ht
    exact List.mem_append.mpr (Or.inl (h.deps n hn e he ht))
  · dsimp only
    by_cases hh : pc = .head
    · rw [hh]; trivial
    · rcases hpc hh with ⟨rs, rfl⟩ | rfl <;> trivial

theorem inv_init (c : PConf fl) : Inv c (PSt.init c) := by
  refine ⟨List.Perm.refl _, List.nodup_nil, ?_, ?_, List.nodup_nil, ?_, ?_, List.Pairwise.nil, ?_, trivial⟩
  all_goals simp [PSt.init]

theorem inv_step {c : PConf fl} {s t : PSt fl} (ht : c.todo.Nodup) (h : Inv c s) (hs : PStep c s t) :
    Inv c t := by
  have hpc := h.pc
  obtain ⟨p1, p2, p3⟩ := h.parts
  cases hs with
  | planned order l h0 hd ha ho hl =>
    obtain ⟨q1, q2, q3⟩ := plan_spec c s.done order s.reserved
    have hno : order.Nodup := (ho.nodup_iff).mpr (ht.filter _)
    refine ⟨h.part, h.nodup, h.sub, h.readySub, h.readyNodup, h.doneReady, h.reserved, h.apart, h.deps, ?_⟩
    refine ⟨(hl.nodup_iff).mpr (hno.sublist q1), (hl.pairwise_iff NoShare.symm).mpr q3, ?_⟩
    intro n hn
    have hn' := hl.mem_iff.mp hn
    have hr := ho.mem_iff.mp (q1.subset hn')
    simp only [remaining, List.mem_filter, Bool.and_eq_true, Bool.not_eq_true', List.contains_eq_mem,
      decide_eq_false_iff_not] at hr
    exact ⟨hr.1, hr.2.1, hr.2.2, q2 n hn'⟩
  | stop h0 hd =>
    exact ⟨h.part, h.nodup, h.sub, h.readySub, h.readyNodup, h.doneReady, h.reserved, h.apart, h.deps, trivial⟩
  | start n ns h0 hn =>
    rw [h0] at hpc
    obtain ⟨a1, a2, a3⟩ := hpc
    obtain ⟨b1, b2, b3, b4, b5⟩ := a3 n (by simp)
    have hns : n ∉ s.started := by
      rw [h.mem_started]; exact fun hx => hx.elim hn.1 hn.2
    refine ⟨?_, ?_, ?_, ?_, h.readyNodup, h.doneReady, ?_, ?_, ?_, ?_⟩
    · dsimp only
      rw [← List.append_assoc]
      exact List.Perm.append_right _ h.part
    · rw [List.nodup_append]
      refine ⟨h.nodup, by simp, ?_⟩
      rintro a ha b hb rfl
      have : a = n := by simpa using hb
      exact hns (this ▸ ha)
    · intro m hm
      rcases List.mem_append.mp hm with hm | hm
      · exact h.sub m hm
      · have : m = n := by simpa using hm
        rw [this]; exact b1
    · intro m hm
      exact List.mem_append.mpr (Or.inl (h.readySub m hm))
    · intro r
      simp only [List.mem_append, h.reserved, List.mem_cons, List.not_mem_nil, or_false]
      constructor
      · rintro (⟨m, h1, h2⟩ | h1)
        · exact ⟨m, Or.inl h1, h2⟩
        · exact ⟨n, Or.inr rfl, h1⟩
      · rintro ⟨m, h1 | rfl, h2⟩
        · exact Or.inl ⟨m, h1, h2⟩
        · exact Or.inr h2
    · rw [List.pairwise_append]
      refine ⟨h.apart, by simp, ?_⟩
      intro m hm k hk
      have : k = n := by simpa using hk
      subst this
      intro r hr hr'
      exact b5 r hr' ((h.reserved r).mpr ⟨m, hm, hr⟩)
    · intro m hm
      rcases List.mem_append.mp hm with hm | hm
      · exact h.deps m hm
      · have : m = n := by simpa using hm
        rw [this]; exact b4
    · rw [List.nodup_cons] at a1
      rw [List.pairwise_cons] at a2
      refine ⟨a1.2, a2.2, ?_⟩
      intro m hm
      obtain ⟨c1, c2, c3, c4, c5⟩ := a3 m (by simp [hm])
      refine ⟨c1, c2, ?_, c4, ?_⟩
      · dsimp only
        simp only [List.mem_append, List.mem_cons, List.not_mem_nil, or_false, not_or]
        exact ⟨c3, fun e => a1.1 (e ▸ hm)⟩
      · intro r hr
        dsimp only
        simp only [List.mem_append, not_or]
        exact ⟨c5 r hr, fun hr' => a2.1 m hm r hr' hr⟩
  | skip n ns h0 hn =>
    rw [h0] at hpc
    obtain ⟨a1, a2, a3⟩ := hpc
    refine ⟨h.part, h.nodup, h.sub, h.readySub, h.readyNodup, h.doneReady, h.reserved, h.apart, h.deps, ?_⟩
    exact ⟨(List.nodup_cons.mp a1).2, (List.pairwise_cons.mp a2).2, fun m hm => a3 m (by simp [hm])⟩
  | startedAll h0 =>
    refine ⟨h.part, h.nodup, h.sub, h.readySub, h.readyNodup, h.doneReady, h.reserved, h.apart, h.deps, ?_⟩
    exact ⟨List.nodup_nil, by simp⟩
  | again h0 ha =>
    refine ⟨h.part, h.nodup, h.sub, h.readySub, h.readyNodup, h.doneReady, h.reserved, h.apart, h.deps, ?_⟩
    exact ⟨by simpa using p2, by simp, fun n hn => hn⟩
  | leave d h0 hd =>
    rw [h0] at hpc
    exact ⟨h.part, h.nodup, h.sub, h.readySub, h.readyNodup, h.doneReady, h.reserved, h.apart, h.deps, hpc⟩
  | seeReady n rest d h0 hr =>
    rw [h0] at hpc
    obtain ⟨a1, a2, a3⟩ := hpc
    refine ⟨h.part, h.nodup, h.sub, h.readySub, h.readyNodup, h.doneReady, h.reserved, h.apart, h.deps, ?_⟩
    refine ⟨by simpa using a1, ?_, fun m hm => a3 m (by simp [hm])⟩
    intro m hm
    rcases List.mem_append.mp hm with hm | hm
    · exact a2 m hm
    · have : m = n := by simpa using hm
      rw [this]; exact ⟨a3 n (by simp), hr⟩
  | seeBusy n rest d h0 hr =>
    rw [h0] at hpc
    obtain ⟨a1, a2, a3⟩ := hpc
    refine ⟨h.part, h.nodup, h.sub, h.readySub, h.readyNodup, h.doneReady, h.reserved, h.apart, h.deps, ?_⟩
    refine ⟨?_, a2, fun m hm => a3 m (by simp [hm])⟩
    exact a1.sublist (List.Sublist.append_left (List.sublist_cons_self _ _) _)
  | swept d h0 =>
    rw [h0] at hpc
    obtain ⟨a1, a2, a3⟩ := hpc
    refine ⟨h.part, h.nodup, h.sub, h.readySub, h.readyNodup, h.doneReady, h.reserved, h.apart, h.deps, ?_⟩
    exact ⟨by simpa using a1, a2⟩
  | collected d d' rs h0 hp hr =>
    rw [h0] at hpc
    exact inv_collect h hpc _ (fun _ => Or.inl ⟨rs, rfl⟩)
  | crash d d' h0 hp hr =>
    rw [h0] at hpc
    exact inv_collect h hpc _ (fun _ => Or.inr rfl)
  | publish rs h0 =>
    exact ⟨h.part, h.nodup, h.sub, h.readySub, h.readyNodup, h.doneReady, h.reserved, h.apart, h.deps, trivial⟩
  | finish n b hs hr hb =>
    refine ⟨h.part, h.nodup, h.sub, ?_, ?_, ?_, h.reserved, h.apart, h.deps, ?_⟩
    · intro m hm
      rcases List.mem_append.mp hm with hm | hm
      · exact h.readySub m hm
      · have : m = n := by simpa using hm
        rw [this]; exact hs
    · rw [List.nodup_append]
      refine ⟨h.readyNodup, by simp, ?_⟩
      rintro a ha b hb rfl
      have : a = n := by simpa using hb
      exact hr (this ▸ ha)
    · intro m hm
      exact List.mem_append.mpr (Or.inl (h.doneReady m hm))
    · have mono : ∀ d : List Str, (∀ n ∈ d, n ∈ s.scheduled ∧ n ∈ s.ready) →
          ∀ m ∈ d, m ∈ s.scheduled ∧ m ∈ s.ready ++ [n] := fun d hd m hm =>
        ⟨(hd m hm).1, List.mem_append.mpr (Or.inl (hd m hm).2)⟩
      dsimp only
      cases hsp : s.spc with
      | starting l => rw [hsp] at hpc; exact hpc
      | poll d => rw [hsp] at hpc; exact ⟨hpc.1, mono d hpc.2⟩
      | sweep r d => rw [hsp] at hpc; exact ⟨hpc.1, mono d hpc.2.1, hpc.2.2⟩
      | collect d => rw [hsp] at hpc; exact ⟨hpc.1, mono d hpc.2⟩
      | _ => trivial
  | more h0 hn =>
    exact ⟨h.part, h.nodup, h.sub, h.readySub, h.readyNodup, h.doneReady, h.reserved, h.apart, h.deps, h.pc⟩
  | noMore h0 hn =>
    exact ⟨h.part, h.nodup, h.sub, h.readySub, h.readyNodup, h.doneReady, h.reserved, h.apart, h.deps, h.pc⟩
  | take r q h0 hq =>
    exact ⟨h.part, h.nodup, h.sub, h.readySub, h.readyNodup, h.doneReady, h.reserved, h.apart, h.deps, h.pc⟩
  | reviewed r res ab h0 hv =>
    exact ⟨h.part, h.nodup, h.sub, h.readySub, h.readyNodup, h.doneReady, h.reserved, h.apart, h.deps, h.pc⟩
  | reviewedText r t ab h0 hv =>
    exact ⟨h.part, h.nodup, h.sub, h.readySub, h.readyNodup, h.doneReady, h.reserved, h.apart, h.deps, h.pc⟩
  | reviewRaises r h0 hv =>
    exact ⟨h.part, h.nodup, h.sub, h.readySub, h.readyNodup, h.doneReady, h.reserved, h.apart, h.deps, h.pc⟩
  | interrupt h0 =>
    exact ⟨h.part, h.nodup, h.sub, h.readySub, h.readyNodup, h.doneReady, h.reserved, h.apart, h.deps, h.pc⟩
  | recordLeft k x n res d h0 hq =>
    exact ⟨h.part, h.nodup, h.sub, h.readySub, h.readyNodup, h.doneReady, h.reserved, h.apart, h.deps, h.pc⟩
  | recordLeftText k x n t d h0 hq =>
    exact ⟨h.part, h.nodup, h.sub, h.readySub, h.readyNodup, h.doneReady, h.reserved, h.apart, h.deps, h.pc⟩
  | finished k x h0 hq =>
    exact ⟨h.part, h.nodup, h.sub, h.readySub, h.readyNodup, h.doneReady, h.reserved, h.apart, h.deps, h.pc⟩

theorem inv_reach {c : PConf fl} {s : PSt fl} (ht : c.todo.Nodup) (h : PReach c s) : Inv c s := by
  induction h with
  | init => exact inv_init c
  | step _ hs ih => exact inv_step ht ih hs

end Verif.Lemmas
