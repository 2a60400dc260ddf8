import Verif.Spec.Patching

/-! # C108: HTTP mocks are confined to their blocks -/

namespace Verif.Props
open Verif.Py Verif.Model Verif.Spec

theorem adapter_set (own : Nat → Bool) (st : Sessions) (s : Nat) (a : Adapter) :
    (st.setAttr s a).adapter own s = a := by
  simp [Sessions.setAttr, Sessions.adapter]

theorem adapter_set_other (own : Nat → Bool) (st : Sessions) (s s' : Nat) (a : Adapter) (h : s' ≠ s) :
    (st.setAttr s a).adapter own s' = st.adapter own s' := by
  simp [Sessions.setAttr, Sessions.adapter, h]

theorem send_set (st : Sessions) (s : Nat) (a : Adapter) : (st.setAttr s a).send = st.send := rfl

theorem sendHop_send (own : Nat → Bool) (s : Nat) (st : Sessions) : (sendHop own s st).2.send = st.send := by
  unfold sendHop
  cases h : st.send with
  | none => simp [h]
  | some b => simp [send_set, h]

theorem sendHops_send (own : Nat → Bool) (s n : Nat) (st : Sessions) : (sendHops own s n st).2.send = st.send := by
  induction n generalizing st with
  | zero => rfl
  | succ n ih => simp [sendHops, ih, sendHop_send]

theorem sendRequest_send (own : Nat → Bool) (s n : Nat) (st : Sessions) :
    (sendRequest own s n st).2.send = st.send := by
  unfold sendRequest
  cases h : st.send with
  | none => simp [h, sendHops_send]
  | some b => simp [send_set, h, sendHops_send]

theorem run_send (own : Nat → Bool) (d : Doing) (st : Sessions) : (d.run own st).2.send = st.send := by
  induction d generalizing st with
  | done => rfl
  | request s n rest ih => simp [Doing.run, ih, sendRequest_send]
  | block b body rest _ ih => simp [Doing.run, ih]

theorem sendHops_block (own : Nat → Bool) (s n b : Nat) (st : Sessions) (h : st.send = some b) :
    (sendHops own s n st).1 = List.replicate n (.block b) := by
  induction n generalizing st with
  | zero => rfl
  | succ n ih =>
    have hs : (sendHop own s st).2.send = some b := by rw [sendHop_send, h]
    have h1 : (sendHop own s st).1 = [.block b] := by simp [sendHop, h, adapter_set]
    simp [sendHops, ih _ hs, h1, List.replicate_succ]

theorem sendRequest_block (own : Nat → Bool) (s n b : Nat) (st : Sessions) (h : st.send = some b) :
    (sendRequest own s n st).1 = List.replicate (n + 1) (.block b) := by
  simp only [sendRequest, h, adapter_set, List.replicate_succ]
  rw [sendHops_block own s n b _ (by rw [send_set, h])]

theorem sendHops_none (own : Nat → Bool) (s n : Nat) (st : Sessions) (h : st.send = none) :
    sendHops own s n st = (List.replicate n (st.adapter own s), st) := by
  induction n generalizing st with
  | zero => rfl
  | succ n ih => simp [sendHops, sendHop, h, ih _ h, List.replicate_succ]

theorem sendRequest_none (own : Nat → Bool) (s n : Nat) (st : Sessions) (h : st.send = none) :
    sendRequest own s n st = (List.replicate (n + 1) (st.adapter own s), st) := by
  simp [sendRequest, h, sendHops_none own s n st h, List.replicate_succ]

/-- A session that is not used asks what it asked before. -/
theorem sendHops_other (own : Nat → Bool) (s s' n : Nat) (st : Sessions) (h : s' ≠ s) :
    (sendHops own s n st).2.adapter own s' = st.adapter own s' := by
  induction n generalizing st with
  | zero => rfl
  | succ n ih =>
    simp only [sendHops, ih]
    unfold sendHop
    cases st.send with
    | none => rfl
    | some b => simp [adapter_set_other, h]

theorem sendRequest_other (own : Nat → Bool) (s s' n : Nat) (st : Sessions) (h : s' ≠ s) :
    (sendRequest own s n st).2.adapter own s' = st.adapter own s' := by
  unfold sendRequest
  cases st.send with
  | none => exact sendHops_other own s s' n st h
  | some b => simp [adapter_set_other, sendHops_other, h]

/-- The session asks what its class says, and goes on to do so. -/
theorem sendRequest_class (own : Nat → Bool) (s s' n : Nat) (st : Sessions)
    (h : own s' = false ∨ ¬ (st.send.isSome = true ∧ s = s')) (hu : st.adapter own s' = classAdapter own s') :
    (sendRequest own s n st).2.adapter own s' = classAdapter own s' := by
  by_cases hs : s' = s
  · subst hs
    cases hb : st.send with
    | none => rw [sendRequest_none own s' n st hb]; exact hu
    | some b =>
      rcases h with h | h
      · simp [sendRequest, hb, adapter_set, classAdapter, h]
      · simp [hb] at h
  · rw [sendRequest_other own s s' n st hs]; exact hu

theorem run_class (own : Nat → Bool) (s : Nat) (d : Doing) (st : Sessions)
    (h : own s = false ∨ ¬ UsedInBlock s st.send.isSome d) (hu : st.adapter own s = classAdapter own s) :
    (d.run own st).2.adapter own s = classAdapter own s := by
  induction d generalizing st with
  | done => exact hu
  | request s' n rest ih =>
    simp only [Doing.run]
    refine ih _ ?_ (sendRequest_class own s' s n st ?_ hu)
    · rw [sendRequest_send]
      exact h.imp id (fun h hr => h (Or.inr hr))
    · exact h.imp id (fun h hr => h (Or.inl ⟨hr.1, hr.2⟩))
  | block b body rest ihb ihr =>
    simp only [Doing.run]
    refine ihr _ (h.imp id (fun h hr => h (Or.inr hr))) ?_
    exact ihb { st with send := some b } (h.imp id (fun h hr => h (Or.inl hr))) hu

theorem run_length (own : Nat → Bool) (d : Doing) (st : Sessions) (inner : Option Nat) :
    (requestsOf inner d).length = (d.run own st).1.length := by
  induction d generalizing st inner with
  | done => rfl
  | request s n rest ih => simp [requestsOf, Doing.run, ih (sendRequest own s n st).2 inner]
  | block b body rest ihb ihr =>
    simp only [requestsOf, Doing.run, List.length_append]
    rw [ihb { st with send := some b }, ihr]

theorem inside_of (own : Nat → Bool) (d : Doing) (st : Sessions) (r : Requested) (a : List Adapter)
    (h : (r, a) ∈ (requestsOf st.send d).zip (d.run own st).1) (b : Nat) (hb : r.inner = some b) :
    a = List.replicate (r.hops + 1) (.block b) := by
  induction d generalizing st with
  | done => simp [requestsOf] at h
  | request s n rest ih =>
    simp only [requestsOf, Doing.run, List.zip_cons_cons, List.mem_cons] at h
    rcases h with h | h
    · obtain ⟨rfl, rfl⟩ := Prod.mk.inj h
      exact sendRequest_block own s n b st hb
    · exact ih _ (by rw [sendRequest_send]; exact h)
  | block b' body rest ihb ihr =>
    simp only [requestsOf, Doing.run] at h
    rw [List.zip_append (run_length own body { st with send := some b' } (some b'))] at h
    rcases List.mem_append.mp h with h | h
    · exact ihb { st with send := some b' } h
    · exact ihr { (body.run own { st with send := some b' }).2 with send := st.send } h

theorem outside_of (own : Nat → Bool) (d : Doing) (st : Sessions) (r : Requested) (a : List Adapter)
    (h : (r, a) ∈ (requestsOf st.send d).zip (d.run own st).1) (hb : r.inner = none)
    (ho : own r.session = false ∨ ¬ UsedInBlock r.session st.send.isSome d)
    (hu : st.adapter own r.session = classAdapter own r.session) :
    a = List.replicate (r.hops + 1) (classAdapter own r.session) := by
  induction d generalizing st with
  | done => simp [requestsOf] at h
  | request s n rest ih =>
    simp only [requestsOf, Doing.run, List.zip_cons_cons, List.mem_cons] at h
    rcases h with h | h
    · obtain ⟨rfl, rfl⟩ := Prod.mk.inj h
      rw [sendRequest_none own s n st hb]
      exact congrArg (List.replicate (n + 1)) hu
    · refine ih _ (by rw [sendRequest_send]; exact h) ?_ (sendRequest_class own s _ n st ?_ hu)
      · rw [sendRequest_send]
        exact ho.imp id (fun h hr => h (Or.inr hr))
      · exact ho.imp id (fun h hr => h (Or.inl ⟨hr.1, hr.2⟩))
  | block b' body rest ihb ihr =>
    simp only [requestsOf, Doing.run] at h
    rw [List.zip_append (run_length own body { st with send := some b' } (some b'))] at h
    rcases List.mem_append.mp h with h | h
    · exact ihb { st with send := some b' } h (ho.imp id (fun h hr => h (Or.inl hr))) hu
    · refine ihr { (body.run own { st with send := some b' }).2 with send := st.send } h (ho.imp id (fun h hr => h (Or.inr hr))) ?_
      exact run_class own _ body { st with send := some b' } (ho.imp id (fun h hr => h (Or.inl hr))) hu

/-- **C108, requests, in blocks.** Each request in a block, and each redirect that it follows, is answered by the
adapter of the innermost block around it and by nothing else, whatever the class of the session is, and whatever has
been done before, within other blocks or outside of them. -/
theorem C108_inside (own : Nat → Bool) (d : Doing) (st : Sessions) (hst : Unpatched st) :
    (requestsOf none d).length = (d.run own st).1.length ∧
      ∀ r a b, (r, a) ∈ (requestsOf none d).zip (d.run own st).1 → r.inner = some b →
        a = List.replicate (r.hops + 1) (.block b) :=
  ⟨run_length own d st none, fun r a b h hb => inside_of own d st r a (by rw [hst.1]; exact h) b hb⟩

/-- **C108, requests, out of blocks (partial).** Each request out of blocks goes where it goes without mocks, and when
the test is over `send` is the original one and sessions ask for adapters as before. The full property is for every
session; this is for sessions whose class does not override `get_adapter`, and for those that have not been used in a
block (see `C108_outside_refuted`). -/
theorem C108_outside_partial (own : Nat → Bool) (d : Doing) (st : Sessions) (hst : Unpatched st) :
    (∀ r a, (r, a) ∈ (requestsOf none d).zip (d.run own st).1 → r.inner = none →
      own r.session = false ∨ ¬ UsedInBlock r.session false d →
        a = List.replicate (r.hops + 1) (classAdapter own r.session)) ∧
    (d.run own st).2.send = none ∧
    ∀ s, own s = false ∨ ¬ UsedInBlock s false d → (d.run own st).2.adapter own s = classAdapter own s := by
  have hu : ∀ s, st.adapter own s = classAdapter own s := fun s => by
    simp [Sessions.adapter, hst.2 s, classAdapter]
  refine ⟨fun r a h hb ho => ?_, ?_, fun s ho => ?_⟩
  · exact outside_of own d st r a (by rw [hst.1]; exact h) hb (by rw [hst.1]; exact ho) (hu _)
  · rw [run_send, hst.1]
  · exact run_class own s d st (by rw [hst.1]; exact ho) (hu s)

/-- A request of session 0, with a redirect, in a block; then one out of it. -/
def inThenOut : Doing := .block 7 (.request 0 1 .done) (.request 0 0 .done)

/-- **C108, requests, refuted for some sessions.** A session of a class that overrides `get_adapter` loses its own way
of finding adapters when it is used in a block: out of the block it goes to the usual adapter. -/
theorem C108_outside_refuted :
    ¬ ∀ (own : Nat → Bool) (d : Doing) (st : Sessions), Unpatched st →
      ∀ r a, (r, a) ∈ (requestsOf none d).zip (d.run own st).1 → r.inner = none →
        a = List.replicate (r.hops + 1) (classAdapter own r.session) := by
  intro h
  have := h (fun _ => true) inThenOut ⟨none, fun _ => none⟩ ⟨rfl, fun _ => rfl⟩ ⟨0, none, 0⟩ [.usual]
    (by decide) rfl
  exact absurd this (by decide)

/-- The same test with a session of the usual class: nested blocks too. -/
example :
    Unpatched ⟨none, fun _ => none⟩ ∧
    (inThenOut.run (fun _ => false) ⟨none, fun _ => none⟩).1 = [[.block 7, .block 7], [.usual]] ∧
    ((Doing.block 1 (.request 0 0 (.block 2 (.request 0 1 .done) (.request 0 0 .done))) .done).run
      (fun _ => false) ⟨none, fun _ => none⟩).1 = [[.block 1], [.block 2, .block 2], [.block 1]] :=
  ⟨⟨rfl, fun _ => rfl⟩, by decide, by decide⟩

/-! ### httpx -/

/-- The method of the blocks around. -/
def stacked : List Nat → TransportMethod
  | [] => .original
  | b :: outer => .mocked b (stacked outer)

theorem handle_stacked (has captures : Nat → Bool) (around : List Nat) :
    (stacked around).handle has captures = asked has captures around := by
  induction around with
  | nil => rfl
  | cons b outer ih =>
    simp only [stacked, TransportMethod.handle, asked, ih]
    cases has b <;> cases captures b <;> rfl

theorem runX_of (captures : Nat → Bool) (d : DoingX) (around : List Nat) :
    d.run captures ⟨stacked around, stacked around⟩ =
      (answeredX captures around d, ⟨stacked around, stacked around⟩) := by
  induction d generalizing around with
  | done => rfl
  | request async has rest ih =>
    simp only [DoingX.run, ih, answeredX, handle_stacked, ite_self]
  | block b body rest ihb ihr =>
    have := ihb (b :: around)
    simp only [stacked] at this
    simp only [DoingX.run, this, ihr, answeredX]

/-- **C108, httpx.** Requests, synchronous or not, come to the blocks around them and to no others, from the inside to
the outside, until a block has a snapshot or does not capture, and only after all of them to the network; when the test
is over both methods are the original ones. -/
theorem C108_httpx (captures : Nat → Bool) (d : DoingX) :
    d.run captures ⟨.original, .original⟩ = (answeredX captures [] d, ⟨.original, .original⟩) :=
  runX_of captures d []

/-- Nothing is asked of the network out of turn: a request in a block with a snapshot, or in one that does not capture,
ends there. -/
theorem C108_httpx_network (captures has : Nat → Bool) (around : List Nat) :
    Stop.network ∈ asked has captures around ↔ ∀ b ∈ around, has b = false ∧ captures b = true := by
  induction around with
  | nil => simp [asked]
  | cons b outer ih =>
    rw [List.forall_mem_cons, ← ih]
    cases h : has b <;> cases c : captures b <;> simp [asked, h, c]

example :
    (DoingX.block 1 (.block 2 (.request true (fun _ => false) (.request false (· == 2) .done))
        (.request false (fun _ => false) .done)) (.request true (fun _ => true) .done)).run (· == 2)
      ⟨.original, .original⟩ =
    ([[.block 2, .block 1], [.block 2], [.block 1], [.network]], ⟨.original, .original⟩) := by decide

end Verif.Props
