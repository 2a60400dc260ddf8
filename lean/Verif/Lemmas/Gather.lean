import Verif.Spec.Gather
import Verif.Lemmas.Requests

/-! # Lemmas on concurrent requests -/

namespace Verif.Lemmas
open Verif.Py Verif.Model Verif.Spec

variable {T : RqTypes} {S : Rq → Prop} {N : Nat}

/-! ### One task -/

/-- What a task does by itself: with snapshots `pre` of its requests before, the program `p` makes the requests of the
log, which are answered by the snapshots `own`, and `q` is left. -/
def Runs (c : RqConfig) : List (RqSnap T) → RqProg T → List (RqEvent T) → List (RqSnap T) → RqProg T → Prop
  | _, p, [], [], q => p = q
  | pre, p, e :: log, s :: own, q => ∃ k, p = .send e.request k ∧ e.outcome = .val s.response ∧
      s.key.hash = (markOrder pre (fromRequest T c.ign c.toHash e.request)).hash ∧
      Runs c (pre ++ [s]) (k e.outcome) log own q
  | _, _, _, _, _ => False

theorem Runs.snoc {c : RqConfig} {pre : List (RqSnap T)} {p : RqProg T} {log : List (RqEvent T)}
    {own : List (RqSnap T)} {r : Rq} {k : RqOutcome T → RqProg T} (h : Runs c pre p log own (.send r k))
    (s : RqSnap T) (real : Bool)
    (hs : s.key.hash = (markOrder (pre ++ own) (fromRequest T c.ign c.toHash r)).hash) :
    Runs c pre p (log ++ [⟨r, .val s.response, real⟩]) (own ++ [s]) (k (.val s.response)) := by
  induction log generalizing pre p own with
  | nil =>
    cases own with
    | nil =>
      refine ⟨k, h, rfl, ?_, rfl⟩
      simpa using hs
    | cons => exact h.elim
  | cons e log ih =>
    cases own with
    | nil => exact h.elim
    | cons s' own =>
      obtain ⟨k', h1, h2, h3, h4⟩ := h
      refine ⟨k', h1, h2, h3, ih h4 ?_⟩
      simpa using hs

/-- The hashes of the snapshots of a task. -/
theorem Runs.hashes {c : RqConfig} (hok : HashOK T c.ign c.toHash S N) {pre : List (RqSnap T)} {p q : RqProg T}
    {log : List (RqEvent T)} {own : List (RqSnap T)} (h : Runs c pre p log own q)
    (hS : ∀ e ∈ log, S e.request) (hN : pre.length + log.length ≤ N)
    (hpre : HashesInv T c.ign c.toHash S N (pre.map (·.key.hash))) :
    HashesInv T c.ign c.toHash S N ((pre ++ own).map (·.key.hash)) ∧
    (∀ s ∈ own, ∃ e ∈ log, e.outcome = .val s.response ∧ ∃ m, m ≤ N ∧ s.key.hash = nthHash T c.ign c.toHash e.request m) ∧
    (∀ e ∈ log, ∃ s ∈ own, e.outcome = .val s.response) := by
  induction log generalizing pre p own with
  | nil =>
    cases own with
    | nil => simpa using hpre
    | cons => exact h.elim
  | cons e log ih =>
    cases own with
    | nil => exact h.elim
    | cons s own =>
      obtain ⟨k, h1, h2, h3, h4⟩ := h
      rw [List.length_cons] at hN
      have hr := hS e List.mem_cons_self
      obtain ⟨m, g0, g1, g2, g3⟩ := markOrder_spec hok e.request hr pre (by omega) hpre
      have hs : s.key.hash = nthHash T c.ign c.toHash e.request m := by rw [h3, g1]; rfl
      have hpre' : HashesInv T c.ign c.toHash S N ((pre ++ [s]).map (·.key.hash)) := by
        rw [List.map_append]
        simp only [List.map_cons, List.map_nil, hs]
        exact hpre.add hok _ hr m g0 g2 g3
      obtain ⟨i1, i2, i3⟩ := ih h4 (fun e he => hS e (List.mem_cons_of_mem _ he)) (by simp; omega) hpre'
      refine ⟨by simpa using i1, ?_, ?_⟩
      · intro s' hs'
        rcases List.mem_cons.mp hs' with rfl | hs'
        · exact ⟨e, List.mem_cons_self, h2, m, g0, hs⟩
        · obtain ⟨e', he', g⟩ := i2 s' hs'
          exact ⟨e', List.mem_cons_of_mem _ he', g⟩
      · intro e' he'
        rcases List.mem_cons.mp he' with rfl | he'
        · exact ⟨s, List.mem_cons_self, h2⟩
        · obtain ⟨s', hs', g⟩ := i3 e' he'
          exact ⟨s', List.mem_cons_of_mem _ hs', g⟩

/-- The key of a request depends only on the row of the request. -/
theorem markOrder_row {ign : Ignore} {toHash : Option (RqJson → Str)} (hok : HashOK T ign toHash S N) (r : Rq) (hr : S r)
    (a b : List (RqSnap T)) (hNa : a.length ≤ N) (hNb : b.length ≤ N) (ha : HashesInv T ign toHash S N (a.map (·.key.hash)))
    (hb : HashesInv T ign toHash S N (b.map (·.key.hash)))
    (h : ∀ n, n ≤ N → (nthHash T ign toHash r n ∈ a.map (·.key.hash) ↔ nthHash T ign toHash r n ∈ b.map (·.key.hash))) :
    markOrder a (fromRequest T ign toHash r) = markOrder b (fromRequest T ign toHash r) := by
  obtain ⟨m, g0, g1, g2, g3⟩ := markOrder_spec hok r hr a hNa ha
  obtain ⟨m', g0', g1', g2', g3'⟩ := markOrder_spec hok r hr b hNb hb
  have : m = m' := by
    rcases Nat.lt_trichotomy m m' with hl | he | hl
    · exact absurd ((h m g0).mpr (g2' m hl)) g3
    · exact he
    · exact absurd ((h m' g0').mp (g2 m' hl)) g3'
  rw [g1, g1', this]

/-- Rows with a common hash have the same first hash. -/
theorem row_first {ign : Ignore} {toHash : Option (RqJson → Str)} (hok : HashOK T ign toHash S N) {r r' : Rq} {n n' : Nat}
    (hr : S r) (hr' : S r') (hn : n ≤ N) (hn' : n' ≤ N)
    (h : nthHash T ign toHash r n = nthHash T ign toHash r' n') :
    nthHash T ign toHash r 0 = nthHash T ign toHash r' 0 := by
  cases n with
  | zero =>
    cases n' with
    | zero => exact h
    | succ n' => exact absurd h (hok.first r r' n' hr hr' (by omega))
  | succ n =>
    cases n' with
    | zero => exact absurd h.symm (hok.first r' r n hr' hr (by omega))
    | succ n' => exact (hok.later r r' n n' hr hr' (by omega) (by omega) h).2 0 (Nat.zero_le _)

/-! ### Steps -/

theorem setTask_self (st : RqLoop T) (i : Nat) (t : RqTask T) : (st.setTask i t).tasks i = t := by
  simp [RqLoop.setTask]

theorem setTask_other (st : RqLoop T) (i j : Nat) (t : RqTask T) (h : j ≠ i) :
    (st.setTask i t).tasks j = st.tasks j := by
  simp [RqLoop.setTask, h]

theorem setTask_requests (st : RqLoop T) (i : Nat) (t : RqTask T) : (st.setTask i t).requests = st.requests := rfl

/-- A step, case by case. -/
inductive Stepped (c : RqConfig) (snaps : List (RqSnap T)) (st : RqLoop T) : RqLoop T → Prop
  | idle : Stepped c snaps st st
  | found (i : Nat) (r : Rq) (k : RqOutcome T → RqProg T) (log : List (RqEvent T)) (s : RqSnap T) :
      st.tasks i = ⟨.send r k, none, log⟩ →
      findRq snaps (markOrder st.requests (fromRequest T c.ign c.toHash r)).hash = some s →
      Stepped c snaps st (RqLoop.setTask { st with requests := addRq st.requests s } i
        ⟨k (.val s.response), none, log ++ [⟨r, .val s.response, false⟩]⟩)
  | missing (i : Nat) (r : Rq) (k : RqOutcome T → RqProg T) (log : List (RqEvent T)) :
      st.tasks i = ⟨.send r k, none, log⟩ →
      findRq snaps (markOrder st.requests (fromRequest T c.ign c.toHash r)).hash = none →
      Stepped c snaps st (st.setTask i ⟨k .missing, none, log ++ [⟨r, .missing, false⟩]⟩)
  | asks (i : Nat) (r : Rq) (k : RqOutcome T → RqProg T) (log : List (RqEvent T)) :
      st.tasks i = ⟨.send r k, none, log⟩ →
      findRq snaps (markOrder st.requests (fromRequest T c.ign c.toHash r)).hash = none →
      Stepped c snaps st
        (st.setTask i ⟨.send r k, some (markOrder st.requests (fromRequest T c.ign c.toHash r)), log⟩)
  | fails (i : Nat) (r : Rq) (k : RqOutcome T → RqProg T) (key : RqKey) (log : List (RqEvent T)) (e : T.E) :
      st.tasks i = ⟨.send r k, some key, log⟩ →
      Stepped c snaps st (st.setTask i ⟨k (.raised e), none, log ++ [⟨r, .raised e, true⟩]⟩)
  | answered (i : Nat) (r : Rq) (k : RqOutcome T → RqProg T) (key : RqKey) (log : List (RqEvent T)) (v : T.V) :
      st.tasks i = ⟨.send r k, some key, log⟩ →
      Stepped c snaps st (RqLoop.setTask { st with requests := st.requests ++ [⟨key, v⟩] } i
        ⟨k (.val v), none, log ++ [⟨r, .val v, true⟩]⟩)

theorem stepped (c : RqConfig) (snaps : List (RqSnap T)) (st : RqLoop T) (x : RqStep T) :
    Stepped c snaps st (st.step c snaps x) := by
  cases x with
  | go i =>
    simp only [RqLoop.step]
    rcases ht : st.tasks i with ⟨p, w, log⟩
    cases p with
    | done => exact .idle
    | send r k =>
      cases w with
      | some key => exact .idle
      | none =>
        dsimp only
        rcases hf : findRq snaps (markOrder st.requests (fromRequest T c.ign c.toHash r)).hash with _ | s
        · dsimp only
          split
          · exact .missing i r k log ht hf
          · exact .asks i r k log ht hf
        · exact .found i r k log s ht hf
  | answer i a =>
    simp only [RqLoop.step]
    rcases ht : st.tasks i with ⟨p, w, log⟩
    cases p with
    | done => exact .idle
    | send r k =>
      cases w with
      | none => exact .idle
      | some key =>
        cases a with
        | error e => exact .fails i r k key log e ht
        | ok v => exact .answered i r k key log v ht

/-- Logs grow; a task that has a request to make makes it before any other one. -/
def GrowsTo (t t' : RqTask T) : Prop :=
  ∃ l, t'.log = t.log ++ l ∧ ∀ r k, t.prog = .send r k →
    (l = [] ∧ t'.prog = .send r k) ∨ ∃ e l', l = e :: l' ∧ e.request = r

theorem GrowsTo.refl (t : RqTask T) : GrowsTo t t := ⟨[], by simp, fun _ _ h => .inl ⟨rfl, h⟩⟩

theorem GrowsTo.trans {a b d : RqTask T} (h : GrowsTo a b) (h' : GrowsTo b d) : GrowsTo a d := by
  obtain ⟨l, h1, h2⟩ := h
  obtain ⟨l', h1', h2'⟩ := h'
  refine ⟨l ++ l', by rw [h1', h1, List.append_assoc], fun r k hp => ?_⟩
  rcases h2 r k hp with ⟨rfl, hb⟩ | ⟨e, l2, rfl, he⟩
  · exact h2' r k hb
  · exact .inr ⟨e, l2 ++ l', rfl, he⟩

theorem grows_step (c : RqConfig) (snaps : List (RqSnap T)) (st st' : RqLoop T) (h : Stepped c snaps st st')
    (j : Nat) : GrowsTo (st.tasks j) (st'.tasks j) := by
  have one : ∀ (i : Nat) (base : RqLoop T) (t : RqTask T) (r : Rq) (k : RqOutcome T → RqProg T) (w : Option RqKey)
      (log : List (RqEvent T)) (e : RqEvent T), base.tasks = st.tasks → st.tasks i = ⟨.send r k, w, log⟩ →
      t.log = log ++ [e] → e.request = r → GrowsTo (st.tasks j) ((base.setTask i t).tasks j) := by
    intro i base t r k w log e hb ht hl he
    by_cases hj : j = i
    · subst hj
      rw [setTask_self, ht]
      refine ⟨[e], hl, fun r' k' hp => .inr ⟨e, [], rfl, ?_⟩⟩
      cases hp
      exact he
    · rw [setTask_other _ _ _ _ hj, hb]
      exact .refl _
  cases h with
  | idle => exact .refl _
  | found i r k log s ht _ => exact one i _ _ r k none log _ rfl ht rfl rfl
  | missing i r k log ht _ => exact one i _ _ r k none log _ rfl ht rfl rfl
  | asks i r k log ht _ =>
    by_cases hj : j = i
    · subst hj
      rw [setTask_self, ht]
      exact ⟨[], by simp, fun r' k' hp => .inl ⟨rfl, hp⟩⟩
    · rw [setTask_other _ _ _ _ hj]
      exact .refl _
  | fails i r k key log e ht => exact one i _ _ r k (some key) log _ rfl ht rfl rfl
  | answered i r k key log v ht => exact one i _ _ r k (some key) log _ rfl ht rfl rfl

theorem grows_steps (c : RqConfig) (snaps : List (RqSnap T)) (steps : List (RqStep T)) (st : RqLoop T) (j : Nat) :
    GrowsTo (st.tasks j) ((st.steps c snaps steps).tasks j) := by
  induction steps generalizing st with
  | nil => exact .refl _
  | cons x steps ih => exact (grows_step c snaps st _ (stepped c snaps st x) j).trans (ih _)

theorem requests_grow (c : RqConfig) (snaps : List (RqSnap T)) (steps : List (RqStep T)) (st : RqLoop T) :
    st.requests.length ≤ (st.steps c snaps steps).requests.length := by
  induction steps generalizing st with
  | nil => exact Nat.le_refl _
  | cons x steps ih =>
    refine Nat.le_trans ?_ (ih (st.step c snaps x))
    have h := stepped c snaps st x
    generalize st.step c snaps x = st' at h
    cases h with
    | idle => exact Nat.le_refl _
    | found i r k log s _ _ =>
      rw [setTask_requests]
      dsimp only [addRq]
      split
      · exact Nat.le_refl _
      · simp
    | missing i r k log _ _ => exact Nat.le_refl _
    | asks i r k log _ _ => exact Nat.le_refl _
    | fails i r k key log e _ => exact Nat.le_refl _
    | answered i r k key log v _ => rw [setTask_requests]; simp

/-! ### The first run -/

/-- What holds during a run: each task does what it would do by itself. -/
structure LoopInv (c : RqConfig) (S : Rq → Prop) (N : Nat) (tests : Nat → RqProg T) (st : RqLoop T) (own : Nat → List (RqSnap T)) : Prop where
  runs : ∀ i, Runs c [] (tests i) (st.tasks i).log (own i) (st.tasks i).prog
  mem : ∀ s, s ∈ st.requests ↔ ∃ i, s ∈ own i
  hashes : HashesInv T c.ign c.toHash S N (st.requests.map (·.key.hash))
  waits : ∀ i key r k, (st.tasks i).waits = some key → (st.tasks i).prog = .send r k →
    key = markOrder (own i) (fromRequest T c.ign c.toHash r)
  lens : ∀ i, (st.tasks i).log.length ≤ st.requests.length ∧ (own i).length ≤ st.requests.length

theorem LoopInv.start (c : RqConfig) (S : Rq → Prop) (N : Nat) (tests : Nat → RqProg T) :
    LoopInv c S N tests (RqLoop.start tests) (fun _ => []) where
  runs := fun _ => rfl
  mem := fun s => by simp [RqLoop.start]
  hashes := HashesInv.nil _ _
  waits := fun i key r k h => by simp [RqLoop.start] at h
  lens := fun i => by simp [RqLoop.start]

/-- The key that a request gets is the one that it would get if its task were alone. -/
theorem LoopInv.key {c : RqConfig} (hok : HashOK T c.ign c.toHash S N) {tests : Nat → RqProg T} {st : RqLoop T}
    {own : Nat → List (RqSnap T)} (inv : LoopInv c S N tests st own) (i : Nat) (r : Rq)
    (hr : S r) (hS : ∀ j, ∀ e ∈ (st.tasks j).log, S e.request) (hN : st.requests.length ≤ N)
    (hsep : ∀ j, ∀ e ∈ (st.tasks j).log,
      nthHash T c.ign c.toHash r 0 = nthHash T c.ign c.toHash e.request 0 → i = j) :
    markOrder st.requests (fromRequest T c.ign c.toHash r) = markOrder (own i) (fromRequest T c.ign c.toHash r) := by
  have hown := fun j => (inv.runs j).hashes hok (hS j) (by have := (inv.lens j).1; simp; omega) (HashesInv.nil _ _)
  apply markOrder_row hok r hr _ _ hN (Nat.le_trans (inv.lens i).2 hN) inv.hashes (by simpa using (hown i).1)
  intro n hn
  constructor
  · intro h
    obtain ⟨s, hs, he⟩ := List.mem_map.mp h
    obtain ⟨j, hj⟩ := (inv.mem s).mp hs
    obtain ⟨e, he', _, m, hm0, hm⟩ := (hown j).2.1 s hj
    have : i = j := hsep j e he' (row_first hok hr (hS j e he') hn hm0 (by rw [← he, hm]))
    subst this
    exact List.mem_map.mpr ⟨s, hj, he⟩
  · intro h
    obtain ⟨s, hs, he⟩ := List.mem_map.mp h
    exact List.mem_map.mpr ⟨s, (inv.mem s).mpr ⟨i, hs⟩, he⟩

/-- Adding the snapshot of a request. -/
theorem LoopInv.add {c : RqConfig} (hok : HashOK T c.ign c.toHash S N) {tests : Nat → RqProg T} {st : RqLoop T}
    {own : Nat → List (RqSnap T)} (inv : LoopInv c S N tests st own) (i : Nat) (r : Rq) (k : RqOutcome T → RqProg T)
    (w : Option RqKey) (log : List (RqEvent T)) (s : RqSnap T) (real : Bool) (ht : st.tasks i = ⟨.send r k, w, log⟩)
    (hr : S r) (hN : st.requests.length ≤ N)
    (hkey : markOrder st.requests (fromRequest T c.ign c.toHash r) =
      markOrder (own i) (fromRequest T c.ign c.toHash r))
    (hs : s.key.hash = (markOrder st.requests (fromRequest T c.ign c.toHash r)).hash) :
    (∀ x ∈ st.requests, x.key.hash ≠ s.key.hash) ∧
    LoopInv c S N tests (RqLoop.setTask { st with requests := st.requests ++ [s] } i
        ⟨k (.val s.response), none, log ++ [⟨r, .val s.response, real⟩]⟩)
      (fun j => if j = i then own i ++ [s] else own j) := by
  obtain ⟨m, g0, g1, g2, g3⟩ := markOrder_spec hok r hr st.requests hN inv.hashes
  have hm : s.key.hash = nthHash T c.ign c.toHash r m := by rw [hs, g1]; rfl
  refine ⟨fun x hx he => g3 (by rw [← hm, ← he]; exact List.mem_map.mpr ⟨x, hx, rfl⟩), ?_, ?_, ?_, ?_, ?_⟩
  · intro j
    by_cases hj : j = i
    · subst hj
      rw [setTask_self, if_pos rfl]
      have := inv.runs j
      rw [ht] at this
      exact this.snoc s real (by rw [hs, hkey]; rfl)
    · rw [setTask_other _ _ _ _ hj, if_neg hj]
      exact inv.runs j
  · intro x
    rw [setTask_requests]
    constructor
    · intro hx
      rcases List.mem_append.mp hx with hx | hx
      · obtain ⟨j, hj⟩ := (inv.mem x).mp hx
        refine ⟨j, ?_⟩
        by_cases h : j = i
        · subst h; rw [if_pos rfl]; exact List.mem_append.mpr (.inl hj)
        · rw [if_neg h]; exact hj
      · exact ⟨i, by rw [if_pos rfl]; exact List.mem_append.mpr (.inr hx)⟩
    · rintro ⟨j, hj⟩
      by_cases h : j = i
      · subst h
        rw [if_pos rfl] at hj
        rcases List.mem_append.mp hj with hj | hj
        · exact List.mem_append.mpr (.inl ((inv.mem x).mpr ⟨j, hj⟩))
        · exact List.mem_append.mpr (.inr hj)
      · rw [if_neg h] at hj
        exact List.mem_append.mpr (.inl ((inv.mem x).mpr ⟨j, hj⟩))
  · rw [setTask_requests, List.map_append]
    simp only [List.map_cons, List.map_nil, hm]
    exact inv.hashes.add hok r hr m g0 g2 g3
  · intro j key r' k' hw hp
    by_cases hj : j = i
    · subst hj
      rw [setTask_self] at hw
      cases hw
    · rw [setTask_other _ _ _ _ hj] at hw hp
      rw [if_neg hj]
      exact inv.waits j key r' k' hw hp
  · intro j
    rw [setTask_requests, List.length_append, List.length_singleton]
    have h := inv.lens j
    by_cases hj : j = i
    · subst hj
      rw [ht] at h
      rw [setTask_self, if_pos rfl, List.length_append, List.length_append, List.length_singleton,
        List.length_singleton]
      exact ⟨Nat.succ_le_succ h.1, Nat.succ_le_succ h.2⟩
    · rw [setTask_other _ _ _ _ hj, if_neg hj]
      exact ⟨Nat.le_succ_of_le h.1, Nat.le_succ_of_le h.2⟩

theorem addRq_new {requests : List (RqSnap T)} {s : RqSnap T} (h : ∀ x ∈ requests, x.key.hash ≠ s.key.hash) :
    addRq requests s = requests ++ [s] := by
  unfold addRq
  rw [if_neg]
  simp only [List.any_eq_true, beq_iff_eq, not_exists, not_and]
  exact h

/-- The whole run. -/
theorem loopInv_steps {c : RqConfig} (hok : HashOK T c.ign c.toHash S N) (tests : Nat → RqProg T)
    (snaps : List (RqSnap T)) (final : RqLoop T) (hdone : ∀ i, (final.tasks i).prog = .done)
    (hS : ∀ i, ∀ e ∈ (final.tasks i).log, S e.request) (hN : final.requests.length ≤ N)
    (hval : ∀ i, ∀ e ∈ (final.tasks i).log, ∃ v, e.outcome = .val v)
    (hsep : ∀ i j, ∀ e ∈ (final.tasks i).log, ∀ e' ∈ (final.tasks j).log,
      nthHash T c.ign c.toHash e.request 0 = nthHash T c.ign c.toHash e'.request 0 → i = j)
    (steps : List (RqStep T)) (st : RqLoop T) (own : Nat → List (RqSnap T)) (inv : LoopInv c S N tests st own)
    (hfinal : st.steps c snaps steps = final) : ∃ own', LoopInv c S N tests final own' := by
  induction steps generalizing st own with
  | nil => exact ⟨own, by rw [← hfinal]; exact inv⟩
  | cons x steps ih =>
    have hfinal' : (st.step c snaps x).steps c snaps steps = final := hfinal
    have hg : ∀ j, GrowsTo ((st.step c snaps x).tasks j) (final.tasks j) := fun j => by
      rw [← hfinal']; exact grows_steps c snaps steps _ j
    have hg0 : ∀ j, GrowsTo (st.tasks j) (final.tasks j) := fun j => by
      rw [← hfinal]; exact grows_steps c snaps (x :: steps) _ j
    have hN0 : st.requests.length ≤ N := by
      refine Nat.le_trans ?_ hN
      rw [← hfinal]; exact requests_grow c snaps (x :: steps) st
    have hS0 : ∀ j, ∀ e ∈ (st.tasks j).log, S e.request := by
      intro j e he
      obtain ⟨l, h1, _⟩ := hg0 j
      exact hS j e (by rw [h1]; exact List.mem_append.mpr (.inl he))
    have hSr : ∀ i r k, (st.tasks i).prog = .send r k → S r := by
      intro i r k hp
      obtain ⟨l, h1, h2⟩ := hg0 i
      rcases h2 r k hp with ⟨_, hd⟩ | ⟨e0, l0, rfl, he0⟩
      · rw [hdone i] at hd; cases hd
      · rw [← he0]; exact hS i e0 (by rw [h1]; simp)
    have hkey : ∀ i r k, (st.tasks i).prog = .send r k →
        markOrder st.requests (fromRequest T c.ign c.toHash r) =
          markOrder (own i) (fromRequest T c.ign c.toHash r) := by
      intro i r k hp
      apply inv.key hok i r (hSr i r k hp) hS0 hN0
      intro j e he heq
      obtain ⟨l, h1, h2⟩ := hg0 i
      obtain ⟨l', h1', _⟩ := hg0 j
      rcases h2 r k hp with ⟨_, hd⟩ | ⟨e0, l0, rfl, he0⟩
      · rw [hdone i] at hd; cases hd
      · refine hsep i j e0 ?_ e ?_ (by rw [he0]; exact heq)
        · rw [h1]; simp
        · rw [h1']; exact List.mem_append.mpr (.inl he)
    -- an event of the state after the step is one of the final log
    have hlogged : ∀ j, ∀ e ∈ ((st.step c snaps x).tasks j).log, ∃ v, e.outcome = .val v := by
      intro j e he
      obtain ⟨l, h1, _⟩ := hg j
      exact hval j e (by rw [h1]; exact List.mem_append.mpr (.inl he))
    have hcase := stepped c snaps st x
    generalize hst' : st.step c snaps x = st' at hcase hlogged hfinal'
    cases hcase with
    | idle => exact ih st own inv hfinal'
    | found i r k log s ht hf =>
      have hp : (st.tasks i).prog = .send r k := by rw [ht]
      obtain ⟨_, hs⟩ := findRq_some hf
      obtain ⟨hnew, inv'⟩ := inv.add hok i r k none log s false ht (hSr i r k hp) hN0 (hkey i r k hp) hs
      rw [addRq_new hnew] at hfinal'
      exact ih _ _ inv' hfinal'
    | missing i r k log ht hf =>
      obtain ⟨v, hv⟩ := hlogged i ⟨r, .missing, false⟩ (by rw [setTask_self]; simp)
      cases hv
    | asks i r k log ht hf =>
      have hp : (st.tasks i).prog = .send r k := by rw [ht]
      refine ih (st.setTask i ⟨.send r k, some (markOrder st.requests (fromRequest T c.ign c.toHash r)), log⟩) own
        ⟨?_, inv.mem, inv.hashes, ?_, ?_⟩ hfinal'
      · intro j
        by_cases hj : j = i
        · subst hj
          have := inv.runs j
          rw [ht] at this
          rw [setTask_self]
          exact this
        · rw [setTask_other _ _ _ _ hj]; exact inv.runs j
      · intro j key r' k' hw hp'
        by_cases hj : j = i
        · subst hj
          rw [setTask_self] at hw hp'
          cases hw
          cases hp'
          exact hkey j r k hp
        · rw [setTask_other _ _ _ _ hj] at hw hp'
          exact inv.waits j key r' k' hw hp'
      · intro j
        have h := inv.lens j
        by_cases hj : j = i
        · subst hj
          rw [ht] at h
          rw [setTask_self]
          exact h
        · rw [setTask_other _ _ _ _ hj]; exact h
    | fails i r k key log e ht =>
      obtain ⟨v, hv⟩ := hlogged i ⟨r, .raised e, true⟩ (by rw [setTask_self]; simp)
      cases hv
    | answered i r k key log v ht =>
      have hp : (st.tasks i).prog = .send r k := by rw [ht]
      have hw : (st.tasks i).waits = some key := by rw [ht]
      have hk := inv.waits i key r k hw hp
      obtain ⟨_, inv'⟩ := inv.add hok i r k (some key) log ⟨key, v⟩ true ht (hSr i r k hp) hN0 (hkey i r k hp)
        (by rw [hkey i r k hp, hk])
      exact ih _ _ inv' hfinal'

/-! ### The replay -/

/-- What holds during a replay: each task has done a part (`log`, `own`) of what it did in the first run. -/
structure ReplayInv {W : Type} (c : RqConfig) (S : Rq → Prop) (N : Nat) (view : T.V → W) (logs : Nat → List (RqEvent T))
    (owns : Nat → List (RqSnap T)) (snaps : List (RqSnap T)) (st : RqLoop T) (log : Nat → List (RqEvent T))
    (own : Nat → List (RqSnap T)) : Prop where
  part : ∀ i, ∃ l o, logs i = log i ++ l ∧ owns i = own i ++ o ∧ Runs c (own i) (st.tasks i).prog l o .done
  seen : ∀ i, rqObserved view (st.tasks i).log = rqObserved view (log i)
  quiet : ∀ i, (st.tasks i).waits = none ∧ ∀ e ∈ (st.tasks i).log, e.real = false
  looks : ∀ i, LooksThrough view (st.tasks i).prog
  mem : ∀ h, h ∈ st.requests.map (·.key.hash) ↔ ∃ i, h ∈ (own i).map (·.key.hash)
  hashes : HashesInv T c.ign c.toHash S N (st.requests.map (·.key.hash))
  loaded : ∀ s ∈ st.requests, s ∈ snaps

theorem replay_step {W : Type} (view : T.V → W) {c c' : RqConfig} (hign : c'.ign = c.ign) (hth : c'.toHash = c.toHash)
    (hok : HashOK T c.ign c.toHash S N) (tests : Nat → RqProg T) (logs : Nat → List (RqEvent T))
    (owns : Nat → List (RqSnap T)) (hruns : ∀ i, Runs c [] (tests i) (logs i) (owns i) .done)
    (hsep : ∀ i j, ∀ e ∈ logs i, ∀ e' ∈ logs j,
      nthHash T c.ign c.toHash e.request 0 = nthHash T c.ign c.toHash e'.request 0 → i = j)
    (hS : ∀ i, ∀ e ∈ logs i, S e.request) (H : List Str) (hH : H.length ≤ N)
    (hin : ∀ i, ∀ s ∈ owns i, s.key.hash ∈ H) (hlens : ∀ i, (logs i).length ≤ N ∧ (owns i).length ≤ N)
    (snaps : List (RqSnap T))
    (hsnaps : ∀ i, ∀ s ∈ owns i, ∃ s', findRq snaps s.key.hash = some s' ∧ view s'.response = view s.response)
    (st : RqLoop T) (log : Nat → List (RqEvent T)) (own : Nat → List (RqSnap T))
    (inv : ReplayInv c S N view logs owns snaps st log own) (x : RqStep T) :
    ∃ log' own', ReplayInv c S N view logs owns snaps (st.step c' snaps x) log' own' := by
  have hown := fun j => (hruns j).hashes hok (hS j) (by have := (hlens j).1; simp; omega) (HashesInv.nil _ _)
  have hN : st.requests.length ≤ N := by
    refine Nat.le_trans ?_ hH
    have := inv.hashes.nodup.length_le_of_subset (l₂ := H) (by
      intro h hh
      obtain ⟨j, hj⟩ := (inv.mem h).mp hh
      obtain ⟨y, hy, he⟩ := List.mem_map.mp hj
      obtain ⟨_, oj, _, hoj, _⟩ := inv.part j
      rw [← he]
      exact hin j y (by rw [hoj]; exact List.mem_append.mpr (.inl hy)))
    simpa using this
  -- what a task that goes on finds
  have main : ∀ i r k lg, st.tasks i = ⟨.send r k, none, lg⟩ →
      ∃ e l s o s', e.request = r ∧ logs i = log i ++ e :: l ∧ owns i = own i ++ s :: o ∧
        e.outcome = .val s.response ∧ view s'.response = view s.response ∧ s'.key.hash = s.key.hash ∧
        findRq snaps (markOrder st.requests (fromRequest T c'.ign c'.toHash r)).hash = some s' ∧
        (∀ y ∈ st.requests, y.key.hash ≠ s'.key.hash) ∧
        HashesInv T c.ign c.toHash S N ((st.requests ++ [s']).map (·.key.hash)) ∧
        Runs c (own i ++ [s]) (k e.outcome) l o .done := by
    intro i r k lg ht
    obtain ⟨l, o, h1, h2, h3⟩ := inv.part i
    rw [ht] at h3
    cases l with
    | nil =>
      cases o with
      | nil => cases h3
      | cons => exact h3.elim
    | cons e l =>
      cases o with
      | nil => exact h3.elim
      | cons s o =>
        obtain ⟨k', g1, g2, g3, g4⟩ := h3
        cases g1
        have hs : s ∈ owns i := by rw [h2]; simp
        have hr : S e.request := hS i e (by rw [h1]; simp)
        obtain ⟨s', f1, f2⟩ := hsnaps i s hs
        have hinvo : HashesInv T c.ign c.toHash S N ((own i).map (·.key.hash)) := by
          have := (hown i).1
          rw [List.nil_append, h2, List.map_append] at this
          exact this.prefix
        have hkey : markOrder st.requests (fromRequest T c.ign c.toHash e.request) =
            markOrder (own i) (fromRequest T c.ign c.toHash e.request) := by
          apply markOrder_row hok _ hr _ _ hN (by
            have := (hlens i).2
            rw [h2, List.length_append] at this
            omega) inv.hashes hinvo
          intro n hn
          constructor
          · intro h
            obtain ⟨j, hj⟩ := (inv.mem _).mp h
            obtain ⟨y, hy, he⟩ := List.mem_map.mp hj
            obtain ⟨lj, oj, _, hoj, _⟩ := inv.part j
            obtain ⟨e', he', _, m, hm0, hm⟩ := (hown j).2.1 y (by rw [hoj]; exact List.mem_append.mpr (.inl hy))
            have : i = j := hsep i j e (by rw [h1]; simp) e' he' (row_first hok hr (hS j e' he') hn hm0 (by rw [← he, hm]))
            subst this
            exact hj
          · intro h
            exact (inv.mem _).mpr ⟨i, h⟩
        obtain ⟨m, m0, m1, m2, m3⟩ := markOrder_spec hok e.request hr st.requests hN inv.hashes
        have hsm : s'.key.hash = nthHash T c.ign c.toHash e.request m := by
          rw [(findRq_some f1).2, g3, ← hkey, m1]; rfl
        refine ⟨e, l, s, o, s', rfl, h1, h2, g2, f2, (findRq_some f1).2, ?_, ?_, ?_, g4⟩
        · rw [hign, hth, hkey, ← g3]; exact f1
        · intro y hy he
          exact m3 (by rw [← hsm, ← he]; exact List.mem_map.mpr ⟨y, hy, rfl⟩)
        · rw [List.map_append]
          simp only [List.map_cons, List.map_nil, hsm]
          exact inv.hashes.add hok _ hr m m0 m2 m3
  have hcase := stepped c' snaps st x
  generalize st.step c' snaps x = st' at hcase
  cases hcase with
  | idle => exact ⟨log, own, inv⟩
  | missing i r k lg ht hf =>
    obtain ⟨_, _, _, _, s', _, _, _, _, _, _, h, _⟩ := main i r k lg ht
    rw [hf] at h; cases h
  | asks i r k lg ht hf =>
    obtain ⟨_, _, _, _, s', _, _, _, _, _, _, h, _⟩ := main i r k lg ht
    rw [hf] at h; cases h
  | fails i r k key lg e ht =>
    have := (inv.quiet i).1
    rw [ht] at this; cases this
  | answered i r k key lg v ht =>
    have := (inv.quiet i).1
    rw [ht] at this; cases this
  | found i r k lg s0 ht hf =>
    obtain ⟨e, l, s, o, s', h1, h2, h3, h4, h5, h6, h7, h8, h9, h10⟩ := main i r k lg ht
    rw [hf] at h7
    cases h7
    rw [addRq_new h8]
    have hlooks : (∀ a b, viewOutcome view a = viewOutcome view b → k a = k b) ∧ ∀ o, LooksThrough view (k o) := by
      have := inv.looks i
      rw [ht] at this
      cases this with
      | send _ _ same rest => exact ⟨same, rest⟩
    have hout : viewOutcome view (.val s0.response) = viewOutcome view e.outcome := by
      rw [h4]; simp [viewOutcome, h5]
    refine ⟨fun j => if j = i then log i ++ [e] else log j, fun j => if j = i then own i ++ [s] else own j,
      ⟨?_, ?_, ?_, ?_, ?_, ?_, ?_⟩⟩
    · intro j
      by_cases hj : j = i
      · subst hj
        simp only [if_pos, setTask_self]
        refine ⟨l, o, by rw [h2]; simp, by rw [h3]; simp, ?_⟩
        rw [hlooks.1 _ _ hout]
        exact h10
      · simp only [if_neg hj, setTask_other _ _ _ _ hj]
        exact inv.part j
    · intro j
      by_cases hj : j = i
      · subst hj
        have := inv.seen j
        rw [ht] at this
        simp only [if_pos, setTask_self]
        simp only [rqObserved, List.map_append, List.map_cons, List.map_nil] at this ⊢
        rw [this, hout, h1]
      · simp only [if_neg hj, setTask_other _ _ _ _ hj]
        exact inv.seen j
    · intro j
      by_cases hj : j = i
      · subst hj
        have := (inv.quiet j).2
        rw [ht] at this
        rw [setTask_self]
        refine ⟨rfl, fun e' he' => ?_⟩
        rcases List.mem_append.mp he' with he' | he'
        · exact this e' he'
        · rw [List.mem_singleton.mp he']
      · rw [setTask_other _ _ _ _ hj]
        exact inv.quiet j
    · intro j
      by_cases hj : j = i
      · subst hj
        rw [setTask_self]
        exact hlooks.2 _
      · rw [setTask_other _ _ _ _ hj]
        exact inv.looks j
    · intro h
      rw [setTask_requests, List.map_append, List.mem_append, inv.mem]
      constructor
      · rintro (⟨j, hj⟩ | hh)
        · refine ⟨j, ?_⟩
          by_cases hji : j = i
          · subst hji
            rw [if_pos rfl, List.map_append]
            exact List.mem_append.mpr (.inl hj)
          · rw [if_neg hji]; exact hj
        · refine ⟨i, ?_⟩
          rw [if_pos rfl, List.map_append]
          refine List.mem_append.mpr (.inr ?_)
          simp only [List.map_cons, List.map_nil, List.mem_singleton] at hh ⊢
          rw [hh, h6]
      · rintro ⟨j, hj⟩
        by_cases hji : j = i
        · subst hji
          rw [if_pos rfl, List.map_append] at hj
          rcases List.mem_append.mp hj with hj | hj
          · exact .inl ⟨j, hj⟩
          · right
            simp only [List.map_cons, List.map_nil, List.mem_singleton] at hj ⊢
            rw [hj, h6]
        · rw [if_neg hji] at hj
          exact .inl ⟨j, hj⟩
    · exact h9
    · intro y hy
      rcases List.mem_append.mp hy with hy | hy
      · exact inv.loaded y hy
      · rw [List.mem_singleton.mp hy]
        exact (findRq_some hf).1

end Verif.Lemmas
