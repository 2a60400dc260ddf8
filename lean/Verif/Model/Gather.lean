import Verif.Model.Requests

/-! # Model of concurrent requests (`booktest/httpx.py`)

A test that makes requests in several tasks (`asyncio.gather`). `handle_async_request` (httpx.py:257-264) looks for a
snapshot without giving up control; if there is none, it awaits the answer of the server, and other tasks go on before
the answer is noted. Each task is a test as in `Model/Requests.lean`; what the event loop does is an arbitrary list of
steps. Requests of threads with `requests` are the special case in which an answer comes directly after the look,
because of the lock (requests.py:337-346; `threading_rlock` gives up after ten seconds, which is not modelled). -/

namespace Verif.Model
open Verif.Py

/-- A task: what it is going to do; the key of its request if it awaits an answer; what it has done. -/
structure RqTask (T : RqTypes) where
  prog : RqProg T
  waits : Option RqKey := none
  log : List (RqEvent T) := []

/-- The tasks and `self.requests`. -/
structure RqLoop (T : RqTypes) where
  tasks : Nat → RqTask T
  requests : List (RqSnap T)

/-- A step: a task makes its next request, or the server answers the request of a task. -/
inductive RqStep (T : RqTypes) where
  | go (i : Nat)
  | answer (i : Nat) (a : Except T.E T.V)

variable {T : RqTypes}

/-- Changing one task. -/
def RqLoop.setTask (st : RqLoop T) (i : Nat) (t : RqTask T) : RqLoop T :=
  { st with tasks := fun j => if j = i then t else st.tasks j }

/-- `handle_async_request` (httpx.py:257-264) with `lookup_snapshot` (httpx.py:228-246), up to the next `await`. A step
of a task that cannot do it changes nothing. -/
def RqLoop.step (c : RqConfig) (snaps : List (RqSnap T)) (st : RqLoop T) : RqStep T → RqLoop T
  | .go i =>
    match st.tasks i with
    | ⟨.send r k, none, log⟩ =>
      let key := markOrder st.requests (fromRequest T c.ign c.toHash r)
      match findRq snaps key.hash with
      | some s =>
        RqLoop.setTask { st with requests := addRq st.requests s } i
          ⟨k (.val s.response), none, log ++ [⟨r, .val s.response, false⟩]⟩
      | none =>
        if !(c.refresh || c.complete) then st.setTask i ⟨k .missing, none, log ++ [⟨r, .missing, false⟩]⟩
        else st.setTask i ⟨.send r k, some key, log⟩
    | _ => st
  | .answer i a =>
    match st.tasks i with
    | ⟨.send r k, some key, log⟩ =>
      match a with
      | .error e => st.setTask i ⟨k (.raised e), none, log ++ [⟨r, .raised e, true⟩]⟩
      | .ok v =>
        RqLoop.setTask { st with requests := st.requests ++ [⟨key, v⟩] } i
          ⟨k (.val v), none, log ++ [⟨r, .val v, true⟩]⟩
    | _ => st

/-- The tasks before they start. -/
def RqLoop.start (tests : Nat → RqProg T) : RqLoop T := ⟨fun i => { prog := tests i }, []⟩

/-- A number of steps. -/
def RqLoop.steps (c : RqConfig) (snaps : List (RqSnap T)) (steps : List (RqStep T)) (st : RqLoop T) : RqLoop T :=
  steps.foldl (RqLoop.step c snaps) st

/-- What became of a block: the tasks, the listing, the dictionary written to the snapshot file. -/
structure GatherRun (T : RqTypes) where
  tasks : Nat → RqTask T
  listing : List (Str × Str)
  written : Option (Dict (StoredRq T))

/-- `async with`/`with SnapshotHttpx(…): test` (httpx.py:175-321) for a test with tasks; `none`: a stored snapshot cannot
be loaded. -/
def withGather (c : RqConfig) (legacy : List (StoredRq T)) (file : Dict (StoredRq T)) (tests : Nat → RqProg T)
    (steps : List (RqStep T)) : Option (GatherRun T) :=
  (loadAll c legacy file).map (fun snaps =>
    let st := (RqLoop.start tests).steps c snaps steps
    ⟨st.tasks, rqListing st.requests, storeAll c.lose st.requests []⟩)

end Verif.Model
