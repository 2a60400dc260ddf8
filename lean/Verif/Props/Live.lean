import Verif.Spec.Live
import Verif.Props.Functions
import Verif.Props.Requests

/-! # C115: real calls and requests are passed through, once each -/

namespace Verif.Props
open Verif.Py Verif.Model Verif.Spec

private theorem step_fn {T : FnTypes} (capture : Bool) (snaps : List (FnSnap T)) (answers : Nat → Except T.E T.V)
    (calls : List (FnSnap T)) (i : Nat) (c : T.C) :
    (snapshotCall capture snaps answers calls i c).2.2 = i ∨
      (snapshotCall capture snaps answers calls i c).2.2 = i + 1 ∧
      (snapshotCall capture snaps answers calls i c).1 = fnSeen (answers i) := by
  unfold snapshotCall
  rcases T.hash c with _ | h
  · exact .inl rfl
  · dsimp only
    rcases findSnap snaps h with _ | s
    · dsimp only
      by_cases hc : (!capture) = true
      · rw [if_pos hc]; exact .inl rfl
      · rw [if_neg hc]
        rcases answers i with _ | _ <;> exact .inr ⟨rfl, rfl⟩
    · exact .inl rfl

private theorem live_fn {T : FnTypes} (capture : Bool) (snaps : List (FnSnap T)) (answers : Nat → Except T.E T.V)
    (p : Prog T) : ∀ calls i, fnLive (runProg capture snaps answers p calls i).1 =
      (List.range' i (fnLive (runProg capture snaps answers p calls i).1).length).map
        (fun n => fnSeen (answers n)) := by
  induction p with
  | done => intro calls i; rfl
  | call c k ih =>
    intro calls i
    have key := step_fn capture snaps answers calls i c
    simp only [runProg]
    generalize snapshotCall capture snaps answers calls i c = r at key ⊢
    have := ih r.1 r.2.1 r.2.2
    rcases key with h | ⟨h, h'⟩
    · have e : ∀ rest, fnLive (⟨c, r.1, decide (r.2.2 ≠ i)⟩ :: rest) = fnLive rest := by
        intro rest
        unfold fnLive
        rw [List.filter_cons_of_neg (by simp [h])]
      rw [e]
      rw [h] at this ⊢
      exact this
    · have e : ∀ rest, fnLive (⟨c, r.1, decide (r.2.2 ≠ i)⟩ :: rest) = r.1 :: fnLive rest := by
        intro rest
        unfold fnLive
        rw [List.filter_cons_of_pos (by simp [h])]
        rfl
      rw [e]
      rw [h] at this ⊢
      rw [List.length_cons, List.range'_succ, List.map_cons, ← this, h']

/-- **C115 for functions.** The real calls are made one for each call of the test that is not answered from
a snapshot, in this order, and the test sees of each exactly what the function did: its value or its
exception. -/
theorem C115_functions {T : FnTypes} (refresh complete : Bool) (stored : FnFiles T)
    (answers : Nat → Except T.E T.V) (test : Prog T) :
    fnLive (withFunctions refresh complete stored answers test).log =
      (List.range (fnLive (withFunctions refresh complete stored answers test).log).length).map
        (fun n => fnSeen (answers n)) := by
  have := live_fn (refresh || complete) (if refresh = true then [] else stored.map (·.2)) answers test [] 0
  rw [← List.range_eq_range'] at this
  exact this

example : fnLive (withFunctions (T := numT) false true [("x.json".toList, ⟨(1 : Nat), ['x'], (9 : Nat)⟩)]
    (fun i => .ok (show Nat from i)) (calling [2, 1, 2])).log = [.val (0 : Nat), .val (1 : Nat)] := rfl

private theorem step_rq {T : RqTypes} (c : RqConfig) (snaps : List (RqSnap T)) (answers : Nat → Except T.E T.V)
    (requests : List (RqSnap T)) (i : Nat) (r : Rq) :
    (sendRq c snaps answers requests i r).2.2 = i ∨
      (sendRq c snaps answers requests i r).2.2 = i + 1 ∧
      (sendRq c snaps answers requests i r).1 = rqSeen (answers i) := by
  unfold sendRq
  dsimp only
  rcases findRq snaps (markOrder requests (fromRequest T c.ign c.toHash r)).hash with _ | s
  · dsimp only
    by_cases hc : (!(c.refresh || c.complete)) = true
    · rw [if_pos hc]; exact .inl rfl
    · rw [if_neg hc]
      rcases answers i with _ | _ <;> exact .inr ⟨rfl, rfl⟩
  · exact .inl rfl

private theorem live_rq {T : RqTypes} (c : RqConfig) (snaps : List (RqSnap T)) (answers : Nat → Except T.E T.V)
    (p : RqProg T) : ∀ requests i, rqLive (runRq c snaps answers p requests i).1 =
      (List.range' i (rqLive (runRq c snaps answers p requests i).1).length).map
        (fun n => rqSeen (answers n)) := by
  induction p with
  | done => intro requests i; rfl
  | send q k ih =>
    intro requests i
    have key := step_rq c snaps answers requests i q
    simp only [runRq]
    generalize sendRq c snaps answers requests i q = r at key ⊢
    have := ih r.1 r.2.1 r.2.2
    rcases key with h | ⟨h, h'⟩
    · have e : ∀ rest, rqLive (⟨q, r.1, decide (r.2.2 ≠ i)⟩ :: rest) = rqLive rest := by
        intro rest
        unfold rqLive
        rw [List.filter_cons_of_neg (by simp [h])]
      rw [e]
      rw [h] at this ⊢
      exact this
    · have e : ∀ rest, rqLive (⟨q, r.1, decide (r.2.2 ≠ i)⟩ :: rest) = r.1 :: rqLive rest := by
        intro rest
        unfold rqLive
        rw [List.filter_cons_of_pos (by simp [h])]
        rfl
      rw [e]
      rw [h] at this ⊢
      rw [List.length_cons, List.range'_succ, List.map_cons, ← this, h']

/-- **C115 for requests.** The same for the requests of a test that makes one after the other. -/
theorem C115_requests {T : RqTypes} (c : RqConfig) (legacy : List (StoredRq T)) (file : Dict (StoredRq T))
    (answers : Nat → Except T.E T.V) (test : RqProg T) (run : RqRun T)
    (h : withRequests c legacy file answers test = some run) :
    rqLive run.log = (List.range (rqLive run.log).length).map (fun n => rqSeen (answers n)) := by
  unfold withRequests at h
  obtain ⟨snaps, -, rfl⟩ := Option.map_eq_some_iff.mp h
  have := live_rq c snaps answers test [] 0
  rw [← List.range_eq_range'] at this
  exact this

example : (withRequests (T := numR) { complete := true } [] [] (fun i => if i = 0 then .error () else .ok (show Nat from i))
    retrying).map (fun run => (rqLive run.log).length) = some 2 := rfl

end Verif.Props
