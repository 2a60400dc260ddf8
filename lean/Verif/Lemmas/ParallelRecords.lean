import Verif.Lemmas.Parallel

/-! # What happens to the records of a parallel run -/

namespace Verif.Lemmas
open Verif.Py Verif.Model

variable {fl : Durations}

/-- Workers that end leave a report of their test, in a directory of their own. -/
structure Behaved (c : PConf fl) : Prop where
  todo : c.todo.Nodup
  batches : ∀ a ∈ c.todo, ∀ b ∈ c.todo, batchName a = batchName b → a = b
  leaves : ∀ n ∈ c.todo, ∀ b, c.leaves n b → ∃ r, collectOne c n b = some r ∧ r.1 = n

/-- The reports that workers leave, if any, are about their test, in a directory of their own. Workers may
leave no report, an empty one or a broken one. -/
structure Named (c : PConf fl) : Prop where
  todo : c.todo.Nodup
  batches : ∀ a ∈ c.todo, ∀ b ∈ c.todo, batchName a = batchName b → a = b
  leaves : ∀ n ∈ c.todo, ∀ b, c.leaves n b → ∀ r, collectOne c n b = some r → r.1 = n

theorem Behaved.named {c : PConf fl} (h : Behaved c) : Named c :=
  ⟨h.todo, h.batches, fun n hn b hb r hr => by
    obtain ⟨r', h1, h2⟩ := h.leaves n hn b hb
    rw [h1] at hr; cases hr; exact h2⟩

/-- A record that comes from the report file a worker left. -/
def Genuine (c : PConf fl) (r : PRec fl) : Prop := ∃ b, c.leaves r.1 b ∧ collectOne c r.1 b = some r

/-- Records collected and not handed over. -/
def pend : SPc fl → List (PRec fl)
  | .publish rs => rs
  | _ => []

/-- The names recorded, in terms of the names taken and the records waiting. -/
def RecInv (s : PSt fl) : RPc fl → Prop
  | .check => s.recorded.map (·.1) = s.taken
  | .waiting => s.recorded.map (·.1) = s.taken ∧ (s.abort = false → s.left > 0 ∨ s.queue ≠ [])
  | .reviewing r => s.recorded.map (·.1) ++ [r.1] = s.taken
  | .leftover k _ => k ≤ s.queue.length ∧ ∃ pre, pre.Sublist s.taken ∧
      s.recorded.map (·.1) = pre ++ (s.queue.take k).map (·.1)
  | .ended _ => ∃ k, k ≤ s.queue.length ∧ ∃ pre, pre.Sublist s.taken ∧
      s.recorded.map (·.1) = pre ++ (s.queue.take k).map (·.1)

/-- The record under review. -/
def underReview : RPc fl → List (PRec fl)
  | .reviewing r => [r]
  | _ => []

/-- The invariant of the records, whatever the workers leave. -/
structure WInv (c : PConf fl) (s : PSt fl) : Prop where
  files : ∀ n ∈ s.ready, c.leaves n (s.files (batchName n))
  crash : s.spc = .crashed → ∃ n ∈ c.todo, ∃ b, c.leaves n b ∧ collectOne c n b = none
  count : ∃ lost, (s.taken ++ s.queue.map (·.1) ++ (pend s.spc).map (·.1) ++ lost).Perm s.done ∧
    (s.spc ≠ .crashed → lost = [])
  left : s.left = (c.todo.length : Int) - (s.taken.length + s.queue.length)
  rec_ : RecInv s s.rpc
  genuine : ∀ r, r ∈ s.queue ∨ r ∈ pend s.spc ∨ r ∈ underReview s.rpc → Genuine c r
  recorded : ∀ x ∈ s.recorded, ∃ r, Genuine c r ∧ r.1 = x.1 ∧ r.2.2 = x.2.2 ∧
    ((∃ ab, c.review r (.res x.2.1) ab) ∨ r.2.1 = .res x.2.1)

/-- The invariant of the records when workers leave a report. -/
structure RInv (c : PConf fl) (s : PSt fl) : Prop where
  files : ∀ n ∈ s.ready, c.leaves n (s.files (batchName n))
  alive : s.spc ≠ .crashed
  count : (s.taken ++ s.queue.map (·.1) ++ (pend s.spc).map (·.1)).Perm s.done
  left : s.left = (c.todo.length : Int) - (s.taken.length + s.queue.length)
  rec_ : RecInv s s.rpc
  genuine : ∀ r, r ∈ s.queue ∨ r ∈ pend s.spc ∨ r ∈ underReview s.rpc → Genuine c r
  recorded : ∀ x ∈ s.recorded, ∃ r, Genuine c r ∧ r.1 = x.1 ∧ r.2.2 = x.2.2 ∧
    ((∃ ab, c.review r (.res x.2.1) ab) ∨ r.2.1 = .res x.2.1)

theorem WInv.strong {c : PConf fl} {s : PSt fl} (hb : Behaved c) (h : WInv c s) : RInv c s := by
  have ha : s.spc ≠ .crashed := by
    intro hx
    obtain ⟨n, hn, b, h1, h2⟩ := h.crash hx
    obtain ⟨r, h3, -⟩ := hb.leaves n hn b h1
    rw [h2] at h3; cases h3
  obtain ⟨lost, h1, h2⟩ := h.count
  rw [h2 ha, List.append_nil] at h1
  exact ⟨h.files, ha, h1, h.left, h.rec_, h.genuine, h.recorded⟩

theorem RInv.weak {c : PConf fl} {s : PSt fl} (h : RInv c s) : WInv c s :=
  ⟨h.files, fun hx => absurd hx h.alive, ⟨[], by rw [List.append_nil]; exact h.count, fun _ => rfl⟩, h.left,
    h.rec_, h.genuine, h.recorded⟩

theorem mapM_some_names {f : Str → Option (PRec fl)} {d : List Str} {rs : List (PRec fl)}
    (h : d.mapM f = some rs) (hf : ∀ n ∈ d, ∀ r, f n = some r → r.1 = n) :
    rs.map (·.1) = d ∧ ∀ r ∈ rs, r.1 ∈ d ∧ f r.1 = some r := by
  induction d generalizing rs with
  | nil => simp at h; subst h; simp
  | cons n ns ih =>
    rw [List.mapM_cons] at h
    cases h1 : f n with
    | none => simp [h1] at h
    | some r =>
      cases h2 : ns.mapM f with
      | none => simp [h1, h2] at h
      | some qs =>
        simp only [h1, h2, Option.pure_def, Option.bind_eq_bind, Option.bind_some, Option.some.injEq] at h
        subst h
        obtain ⟨i1, i2⟩ := ih h2 (fun m hm => hf m (by simp [hm]))
        have hr := hf n (by simp) r h1
        refine ⟨by simp [i1, hr], ?_⟩
        intro q hq
        rcases List.mem_cons.mp hq with rfl | hq
        · exact ⟨by simp [hr], by rw [hr]; exact h1⟩
        · exact ⟨by simp [(i2 q hq).1], (i2 q hq).2⟩

theorem mapM_none {f : Str → Option (PRec fl)} {d : List Str} (h : d.mapM f = none) :
    ∃ n ∈ d, f n = none := by
  induction d with
  | nil => simp at h
  | cons n ns ih =>
    rw [List.mapM_cons] at h
    cases h1 : f n with
    | none => exact ⟨n, by simp, h1⟩
    | some r =>
      cases h2 : ns.mapM f with
      | none =>
        obtain ⟨m, hm, h3⟩ := ih h2
        exact ⟨m, by simp [hm], h3⟩
      | some qs => simp [h1, h2] at h

theorem winv_init (c : PConf fl) : WInv c (PSt.init c) := by
  refine ⟨by simp [PSt.init], by simp [PSt.init], ⟨[], List.Perm.refl _, fun _ => rfl⟩,
    by simp [PSt.init], rfl, ?_, ?_⟩
  all_goals simp [PSt.init, pend, underReview]

private theorem winv_pc {c : PConf fl} {s : PSt fl} (h : WInv c s) (pc : SPc fl) (hp : pend s.spc = [])
    (hc : s.spc ≠ .crashed) (hq : pend pc = []) (hne : pc ≠ .crashed) : WInv c { s with spc := pc } := by
  refine ⟨h.files, fun hx => absurd hx hne, ?_, h.left, h.rec_, ?_, h.recorded⟩
  · obtain ⟨lost, h1, h2⟩ := h.count
    refine ⟨lost, ?_, fun _ => h2 hc⟩
    rw [hp] at h1
    dsimp only
    rw [hq]; exact h1
  · intro r hr
    refine h.genuine r ?_
    dsimp only at hr
    rw [hq] at hr
    rcases hr with hr | hr | hr
    · exact Or.inl hr
    · cases hr
    · exact Or.inr (Or.inr hr)

theorem take_append_left {α : Type} {l1 l2 : List α} {k : Nat} (h : k ≤ l1.length) :
    (l1 ++ l2).take k = l1.take k := by
  rw [List.take_append, Nat.sub_eq_zero_of_le h]; simp

theorem winv_step {c : PConf fl} {s t : PSt fl} (hb : Named c) (hi : Inv c s) (h : WInv c s)
    (hs : PStep c s t) : WInv c t := by
  have hpc := hi.pc
  have hrec := h.rec_
  cases hs with
  | planned order l h0 hd ha ho hl => exact winv_pc h _ (by rw [h0]; rfl) (by rw [h0]; simp) rfl (by simp)
  | stop h0 hd => exact winv_pc h _ (by rw [h0]; rfl) (by rw [h0]; simp) rfl (by simp)
  | start n ns h0 hn =>
    refine ⟨h.files, by simp, ?_, h.left, h.rec_, ?_, h.recorded⟩
    · obtain ⟨lost, h1, h2⟩ := h.count
      rw [h0] at h1
      exact ⟨lost, h1, fun _ => h2 (by rw [h0]; simp)⟩
    · intro r hr
      refine h.genuine r ?_
      rcases hr with hr | hr | hr
      · exact Or.inl hr
      · cases hr
      · exact Or.inr (Or.inr hr)
  | skip n ns h0 hn => exact winv_pc h _ (by rw [h0]; rfl) (by rw [h0]; simp) rfl (by simp)
  | startedAll h0 => exact winv_pc h _ (by rw [h0]; rfl) (by rw [h0]; simp) rfl (by simp)
  | again h0 ha => exact winv_pc h _ (by rw [h0]; rfl) (by rw [h0]; simp) rfl (by simp)
  | leave d h0 hd => exact winv_pc h _ (by rw [h0]; rfl) (by rw [h0]; simp) rfl (by simp)
  | seeReady n rest d h0 hr => exact winv_pc h _ (by rw [h0]; rfl) (by rw [h0]; simp) rfl (by simp)
  | seeBusy n rest d h0 hr => exact winv_pc h _ (by rw [h0]; rfl) (by rw [h0]; simp) rfl (by simp)
  | swept d h0 => exact winv_pc h _ (by rw [h0]; rfl) (by rw [h0]; simp) rfl (by simp)
  | collected d d' rs h0 hp hr =>
    rw [h0] at hpc
    have hf : ∀ n ∈ d', ∀ r, collectOne c n (s.files (batchName n)) = some r → r.1 = n := by
      intro n hn r hr
      have hn' := hpc.2 n (hp.mem_iff.mp hn)
      have ht := hi.sub n (hi.readySub n hn'.2)
      exact hb.leaves n ht _ (h.files n hn'.2) r hr
    obtain ⟨m1, m2⟩ := mapM_some_names hr hf
    refine ⟨h.files, by simp, ?_, h.left, h.rec_, ?_, h.recorded⟩
    · obtain ⟨lost, hc, hl⟩ := h.count
      have hl := hl (by rw [h0]; simp)
      subst hl
      rw [h0] at hc
      simp only [pend, List.map_nil, List.append_nil] at hc
      refine ⟨[], ?_, fun _ => rfl⟩
      simp only [pend, List.append_nil]
      rw [m1]
      exact hc.append hp
    · intro r hr'
      rcases hr' with hr' | hr' | hr'
      · exact h.genuine r (Or.inl hr')
      · obtain ⟨k1, k2⟩ := m2 r hr'
        exact ⟨_, h.files r.1 (hpc.2 r.1 (hp.mem_iff.mp k1)).2, k2⟩
      · exact h.genuine r (Or.inr (Or.inr hr'))
  | crash d d' h0 hp hr =>
    rw [h0] at hpc
    obtain ⟨n, hn, hx⟩ := mapM_none hr
    have hn' := hpc.2 n (hp.mem_iff.mp hn)
    have ht := hi.sub n (hi.readySub n hn'.2)
    refine ⟨h.files, fun _ => ⟨n, ht, _, h.files n hn'.2, hx⟩, ?_, h.left, h.rec_, ?_, h.recorded⟩
    · obtain ⟨lost, hc, hl⟩ := h.count
      have hl := hl (by rw [h0]; simp)
      subst hl
      rw [h0] at hc
      simp only [pend, List.map_nil, List.append_nil] at hc
      refine ⟨d, ?_, fun hx => absurd rfl hx⟩
      simp only [pend, List.map_nil, List.append_nil]
      exact hc.append (List.Perm.refl d)
    · intro r hr'
      refine h.genuine r ?_
      rcases hr' with hr' | hr' | hr'
      · exact Or.inl hr'
      · cases hr'
      · exact Or.inr (Or.inr hr')
  | publish rs h0 =>
    refine ⟨h.files, by simp, ?_, ?_, ?_, ?_, h.recorded⟩
    · obtain ⟨lost, hc, hl⟩ := h.count
      have hl := hl (by rw [h0]; simp)
      subst hl
      rw [h0] at hc
      exact ⟨[], by simpa [pend] using hc, fun _ => rfl⟩
    · have := h.left
      simp only [List.length_append]; omega
    · cases hrp : s.rpc with
      | check => rw [hrp] at hrec; exact hrec
      | waiting =>
        rw [hrp] at hrec
        refine ⟨hrec.1, fun ha => ?_⟩
        rcases rs with _ | ⟨r, rs⟩
        · simpa using hrec.2 ha
        · right; simp
      | reviewing r => rw [hrp] at hrec; exact hrec
      | leftover k x =>
        rw [hrp] at hrec
        obtain ⟨k1, pre, k2, k3⟩ := hrec
        refine ⟨by simp; omega, pre, k2, ?_⟩
        dsimp only
        rw [take_append_left k1]; exact k3
      | ended x =>
        rw [hrp] at hrec
        obtain ⟨k, k1, pre, k2, k3⟩ := hrec
        refine ⟨k, by simp; omega, pre, k2, ?_⟩
        dsimp only
        rw [take_append_left k1]; exact k3
    · intro r hr
      refine h.genuine r ?_
      rw [h0]
      rcases hr with hr | hr | hr
      · rcases List.mem_append.mp hr with hr | hr
        · exact Or.inl hr
        · exact Or.inr (Or.inl hr)
      · cases hr
      · exact Or.inr (Or.inr hr)
  | finish n b hst hr hlv =>
    refine ⟨?_, h.crash, h.count, h.left, h.rec_, h.genuine, h.recorded⟩
    intro m hm
    dsimp only
    rcases List.mem_append.mp hm with hm | hm
    · split
      · rename_i he
        have := hb.batches m (hi.sub m (hi.readySub m hm)) n (hi.sub n hst) he
        exact absurd (this ▸ hm) hr
      · exact h.files m hm
    · have : m = n := by simpa using hm
      rw [this, if_pos rfl]; exact hlv
  | more h0 hn =>
    rw [h0] at hrec
    refine ⟨h.files, h.crash, h.count, h.left, ⟨hrec, ?_⟩, ?_, h.recorded⟩
    · intro ha
      simp only [hasNext, Bool.and_eq_true, Bool.or_eq_true, decide_eq_true_eq, Bool.not_eq_true',
        List.isEmpty_eq_false_iff] at hn
      exact hn.1
    · intro r hr
      refine h.genuine r ?_
      rcases hr with hr | hr | hr
      · exact Or.inl hr
      · exact Or.inr (Or.inl hr)
      · cases hr
  | noMore h0 hn =>
    rw [h0] at hrec
    refine ⟨h.files, h.crash, h.count, h.left, ⟨by simp, s.taken, List.Sublist.refl _, ?_⟩, ?_, h.recorded⟩
    · simpa [RecInv] using hrec
    · intro r hr
      refine h.genuine r ?_
      rcases hr with hr | hr | hr
      · exact Or.inl hr
      · exact Or.inr (Or.inl hr)
      · cases hr
  | take r q h0 hq =>
    rw [h0] at hrec
    refine ⟨h.files, h.crash, ?_, ?_, ?_, ?_, h.recorded⟩
    · obtain ⟨lost, hc, hl⟩ := h.count
      rw [hq] at hc
      exact ⟨lost, by simpa using hc, hl⟩
    · have := h.left
      rw [hq] at this
      simp only [List.length_cons] at this
      simp only [List.length_append, List.length_cons, List.length_nil]; omega
    · dsimp only [RecInv]
      rw [hrec.1]
    · intro x hx
      refine h.genuine x ?_
      rcases hx with hx | hx | hx
      · exact Or.inl (by rw [hq]; simp [hx])
      · exact Or.inr (Or.inl hx)
      · have : x = r := by simpa [underReview] using hx
        exact Or.inl (by rw [hq, this]; simp)
  | reviewed r res ab h0 hv =>
    rw [h0] at hrec
    refine ⟨h.files, h.crash, h.count, h.left, ?_, ?_, ?_⟩
    · simpa [RecInv] using hrec
    · intro x hx
      refine h.genuine x ?_
      rcases hx with hx | hx | hx
      · exact Or.inl hx
      · exact Or.inr (Or.inl hx)
      · cases hx
    · intro x hx
      rcases List.mem_append.mp hx with hx | hx
      · exact h.recorded x hx
      · have : x = (r.1, res, r.2.2) := by simpa using hx
        subst this
        exact ⟨r, h.genuine r (Or.inr (Or.inr (by rw [h0]; simp [underReview]))), rfl, rfl,
          Or.inl ⟨ab, hv⟩⟩
  | reviewedText r t ab h0 hv =>
    rw [h0] at hrec
    refine ⟨h.files, h.crash, h.count, h.left, ⟨by simp, s.recorded.map (·.1), ?_, by simp⟩, ?_, h.recorded⟩
    · dsimp only [RecInv] at hrec ⊢
      rw [← hrec]; exact List.sublist_append_left _ _
    · intro x hx
      refine h.genuine x ?_
      rcases hx with hx | hx | hx
      · exact Or.inl hx
      · exact Or.inr (Or.inl hx)
      · cases hx
  | reviewRaises r h0 hv =>
    rw [h0] at hrec
    refine ⟨h.files, h.crash, h.count, h.left, ⟨by simp, s.recorded.map (·.1), ?_, by simp⟩, ?_, h.recorded⟩
    · dsimp only [RecInv] at hrec ⊢
      rw [← hrec]; exact List.sublist_append_left _ _
    · intro x hx
      refine h.genuine x ?_
      rcases hx with hx | hx | hx
      · exact Or.inl hx
      · exact Or.inr (Or.inl hx)
      · cases hx
  | interrupt h0 =>
    refine ⟨h.files, h.crash, h.count, h.left, ⟨by simp, s.recorded.map (·.1), ?_, by simp⟩, ?_, h.recorded⟩
    · rcases h0 with h0 | h0 | ⟨r, h0⟩
      · rw [h0] at hrec; dsimp only [RecInv] at hrec ⊢; rw [hrec]; exact List.Sublist.refl _
      · rw [h0] at hrec; dsimp only [RecInv] at hrec ⊢; rw [hrec.1]; exact List.Sublist.refl _
      · rw [h0] at hrec; dsimp only [RecInv] at hrec ⊢; rw [← hrec]; exact List.sublist_append_left _ _
    · intro x hx
      refine h.genuine x ?_
      rcases hx with hx | hx | hx
      · exact Or.inl hx
      · exact Or.inr (Or.inl hx)
      · cases hx
  | recordLeft k x n res d h0 hq =>
    rw [h0] at hrec
    obtain ⟨k1, pre, k2, k3⟩ := hrec
    have hk : k < s.queue.length := (List.getElem?_eq_some_iff.mp hq).1
    refine ⟨h.files, h.crash, h.count, h.left, ⟨by dsimp only; omega, pre, k2, ?_⟩, ?_, ?_⟩
    · dsimp only
      rw [List.map_append, k3, List.append_assoc, List.take_add_one, hq]
      simp
    · intro y hy
      refine h.genuine y ?_
      rcases hy with hy | hy | hy
      · exact Or.inl hy
      · exact Or.inr (Or.inl hy)
      · cases hy
    · intro y hy
      rcases List.mem_append.mp hy with hy | hy
      · exact h.recorded y hy
      · have : y = (n, res, d) := by simpa using hy
        subst this
        exact ⟨(n, .res res, d), h.genuine _ (Or.inl (List.mem_of_getElem? hq)), rfl, rfl, Or.inr rfl⟩
  | recordLeftText k x n t d h0 hq =>
    rw [h0] at hrec
    obtain ⟨k1, pre, k2, k3⟩ := hrec
    refine ⟨h.files, h.crash, h.count, h.left, ⟨k, k1, pre, k2, k3⟩, ?_, h.recorded⟩
    intro y hy
    refine h.genuine y ?_
    rcases hy with hy | hy | hy
    · exact Or.inl hy
    · exact Or.inr (Or.inl hy)
    · cases hy
  | finished k x h0 hq =>
    rw [h0] at hrec
    obtain ⟨k1, pre, k2, k3⟩ := hrec
    refine ⟨h.files, h.crash, h.count, h.left, ⟨k, k1, pre, k2, k3⟩, ?_, h.recorded⟩
    intro y hy
    refine h.genuine y ?_
    rcases hy with hy | hy | hy
    · exact Or.inl hy
    · exact Or.inr (Or.inl hy)
    · cases hy

theorem winv_reach {c : PConf fl} {s : PSt fl} (hb : Named c) (h : PReach c s) : WInv c s := by
  induction h with
  | init => exact winv_init c
  | step hr hs ih => exact winv_step hb (inv_reach hb.todo hr) ih hs

theorem rinv_step {c : PConf fl} {s t : PSt fl} (hb : Behaved c) (hi : Inv c s) (h : RInv c s)
    (hs : PStep c s t) : RInv c t := (winv_step hb.named hi h.weak hs).strong hb

theorem rinv_reach {c : PConf fl} {s : PSt fl} (hb : Behaved c) (h : PReach c s) : RInv c s :=
  (winv_reach hb.named h).strong hb

end Verif.Lemmas
