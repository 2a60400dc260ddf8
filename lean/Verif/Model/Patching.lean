import Verif.Py.Dict

/-! # Model of the patching of `requests` and `httpx`

`SnapshotRequests.start` and `stop` (`booktest/requests.py:323-358`) replace `requests.Session.send`, and for the
time of a request the attribute `get_adapter` of the session. `SnapshotHttpx.start` and `stop`
(`booktest/httpx.py:266-300`) replace two methods of the transports.

A test is what it does: requests, and blocks `with SnapshotRequests(…)` or `with SnapshotHttpx(…)` with what is done
in them. A block that is left by an exception is one in which less is done: `__exit__` calls `stop`, which puts the
methods back before anything else. Blocks are numbered. What the adapter of a block does is in `Model/Requests.lean`.

Simplifications: one thread, so the lock is always free; every block is a new object; the classes of sessions do not
override `send`. -/

namespace Verif.Model
open Verif.Py

/-! ### `requests` -/

/-- Where `get_adapter` leads to: to the adapter that is mounted for the URL, to what a class derived from `Session`
does instead, or to the adapter of a block. -/
inductive Adapter where
  | usual
  | own
  | block (b : Nat)
deriving DecidableEq, Repr

/-- `requests.Session.send` (`none`: the original one, else that of a block), and for every session the attribute
`get_adapter` of the object, if it has one. -/
structure Sessions where
  send : Option Nat
  attr : Nat → Option Adapter

/-- `session.get_adapter`: the attribute of the object, else that of the class. -/
def Sessions.adapter (own : Nat → Bool) (st : Sessions) (s : Nat) : Adapter :=
  (st.attr s).getD (if own s then .own else .usual)

/-- `_set_method(session, "get_adapter", …)` (requests.py:261-272). -/
def Sessions.setAttr (st : Sessions) (s : Nat) (a : Adapter) : Sessions :=
  { st with attr := fun s' => if s' = s then some a else st.attr s' }

/-- A request without redirects: the adapters that are asked. The original `send` asks the adapter of the session;
`_fake_send` (requests.py:337-346) sets the attribute of the session before and afterwards. The value that it is
set to afterwards is `requests.Session.get_adapter` at the time of `start`, which nobody replaces. -/
def sendHop (own : Nat → Bool) (s : Nat) (st : Sessions) : List Adapter × Sessions :=
  match st.send with
  | none => ([st.adapter own s], st)
  | some b =>
    let st := st.setAttr s (.block b)
    ([st.adapter own s], st.setAttr s .usual)

/-- Redirects: `Session.resolve_redirects` calls `self.send` for each of them. -/
def sendHops (own : Nat → Bool) (s : Nat) : Nat → Sessions → List Adapter × Sessions
  | 0, st => ([], st)
  | n + 1, st =>
    let x := sendHop own s st
    let y := sendHops own s n x.2
    (x.1 ++ y.1, y.2)

/-- A request that is redirected a number of times: `Session.send` asks the adapter and then follows the redirects,
within the `try` of `_fake_send` (requests.py:337-346). -/
def sendRequest (own : Nat → Bool) (s hops : Nat) (st : Sessions) : List Adapter × Sessions :=
  match st.send with
  | none =>
    let x := sendHops own s hops st
    (st.adapter own s :: x.1, x.2)
  | some b =>
    let st := st.setAttr s (.block b)
    let x := sendHops own s hops st
    (st.adapter own s :: x.1, x.2.setAttr s .usual)

/-- What a test does. -/
inductive Doing where
  | done
  | request (session hops : Nat) (rest : Doing)
  | block (b : Nat) (body rest : Doing)

/-- Executing it: the adapters that are asked by each request; `start` and `stop` (requests.py:323-358) at the
beginning and at the end of blocks. -/
def Doing.run (own : Nat → Bool) : Doing → Sessions → List (List Adapter) × Sessions
  | .done, st => ([], st)
  | .request s hops rest, st =>
    let x := sendRequest own s hops st
    let y := rest.run own x.2
    (x.1 :: y.1, y.2)
  | .block b body rest, st =>
    let last := st.send
    let x := body.run own { st with send := some b }
    let y := rest.run own { x.2 with send := last }
    (x.1 ++ y.1, y.2)

/-! ### `httpx` -/

/-- A method of a transport: the original one, or that of a block, which knows the method that it replaced. -/
inductive TransportMethod where
  | original
  | mocked (b : Nat) (real : TransportMethod)
deriving DecidableEq, Repr

/-- `httpx.HTTPTransport.handle_request` and `httpx.AsyncHTTPTransport.handle_async_request`. -/
structure Transports where
  sync : TransportMethod
  async : TransportMethod
deriving DecidableEq, Repr

/-- Where a request comes: to blocks, and to the network. -/
inductive Stop where
  | block (b : Nat)
  | network
deriving DecidableEq, Repr

/-- `handle_request`, `handle_async_request` (httpx.py:248-264): a block that has no snapshot of the request asks the
method that it replaced, or raises an exception if it does not capture. `has b` and `captures b` say which. -/
def TransportMethod.handle (has captures : Nat → Bool) : TransportMethod → List Stop
  | .original => [.network]
  | .mocked b real => .block b :: if has b then [] else if captures b then real.handle has captures else []

/-- What a test does with `httpx`: requests, with the snapshots that the blocks have at that moment. -/
inductive DoingX where
  | done
  | request (async : Bool) (has : Nat → Bool) (rest : DoingX)
  | block (b : Nat) (body rest : DoingX)

/-- Executing it; `start` (httpx.py:266-290) and `stop` (httpx.py:292-300) at the beginning and at the end of blocks. -/
def DoingX.run (captures : Nat → Bool) : DoingX → Transports → List (List Stop) × Transports
  | .done, st => ([], st)
  | .request async has rest, st =>
    let y := rest.run captures st
    ((if async then st.async else st.sync).handle has captures :: y.1, y.2)
  | .block b body rest, st =>
    let realSync := st.sync
    let realAsync := st.async
    let x := body.run captures ⟨.mocked b st.sync, .mocked b st.async⟩
    let y := rest.run captures { x.2 with sync := realSync, async := realAsync }
    (x.1 ++ y.1, y.2)

end Verif.Model
