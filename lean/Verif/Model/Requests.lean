import Verif.Py.Dict
import Verif.Py.Sort

/-! # Model of `booktest/requests.py` and of the common parts of `booktest/httpx.py`

`RequestKey`, `mark_order`, `lookup_snapshot`, `send`/`handle_request`, `stop` and the loading of
snapshots are the same text in both files up to the class of responses; line numbers are those of
`requests.py`, followed by those of `httpx.py`.

Abstract: responses and their JSON form (`save`, `load`), the exceptions of the network, the digest
(`json_to_sha1`), `str.lower`.  Bodies are taken as already encoded by `encode_body` (see `Model/Bodies.lean`).  A test is a
tree as in `Model/Functions.lean`; the answers of the server are an arbitrary stream.  Concurrent
requests are in `Model/Gather.lean`, redirects and the patching of `Session` and `HTTPTransport` in
`Model/Patching.lean`, the responses of the two libraries in `Model/Responses.lean`. -/

namespace Verif.Model
open Verif.Py

/-- The JSON object of a request key without its `hash` entry. -/
structure RqJson where
  url : Str
  method : Str
  headers : Option (Dict Str)
  body : Option Str
  order : Option Nat
deriving DecidableEq, Repr

/-- The parameters of the model. -/
structure RqTypes where
  /-- responses -/
  V : Type
  /-- their JSON form -/
  S : Type
  /-- exceptions of the network -/
  E : Type
  /-- the JSON form of a response; `none`: an exception, for example for undecodable content -/
  save : V → Option S
  /-- the response made from a JSON form -/
  load : S → Option V
  /-- `json_to_sha1` (requests.py:19-23) of the object without `hash` -/
  digest : RqJson → Str
  /-- `str.lower` -/
  lower : Str → Str

/-- `RequestKey`: the JSON object and the hash. -/
structure RqKey where
  json : RqJson
  hash : Str
deriving DecidableEq, Repr

/-- The values of the parameter `ignore_headers`: false (or empty), `True`, or a list of names. -/
inductive Ignore where
  | nothing
  | everything
  | these (names : List Str)

/-- A request as the test makes it; `body` is encoded. -/
structure Rq where
  url : Str
  method : Str
  headers : Dict Str
  body : Option Str
deriving DecidableEq, Repr

variable (T : RqTypes)

/-- The part of `RequestKey.__init__` about headers (requests.py:47-60; httpx.py:37-50). -/
def dropHeaders (ign : Ignore) (j : RqJson) : RqJson :=
  match ign, j.headers with
  | .nothing, _ => j
  | _, none => j
  | .everything, some _ => { j with headers := none }
  | .these names, some hs =>
    { j with headers := some (hs.filter (fun p => !(names.map T.lower).contains (T.lower p.1))) }

/-- `RequestKey(json_object, ignore_headers, json_to_hash)` (requests.py:38-69; httpx.py:28-59);
`h` is the `hash` entry of the object. -/
def mkKey (ign : Ignore) (toHash : Option (RqJson → Str)) (j : RqJson) (h : Option Str) : RqKey :=
  let j := dropHeaders T ign j
  ⟨j, h.getD ((toHash.getD T.digest) j)⟩

/-- `RequestKey.increase_order` (requests.py:71-76; httpx.py:61-66): the new key is hashed with the
default digest. -/
def increaseOrder (k : RqKey) : RqKey :=
  mkKey T .nothing none { k.json with order := some (k.json.order.getD 0 + 1) } none

/-- `RequestKey.from_request` (requests.py:93-124; httpx.py:83-118). -/
def fromRequest (ign : Ignore) (toHash : Option (RqJson → Str)) (r : Rq) : RqKey :=
  mkKey T ign toHash ⟨r.url, r.method, some r.headers, r.body, none⟩ none

/-- `RequestSnapshot`. -/
structure RqSnap where
  key : RqKey
  response : T.V

/-- What the test sees of a request. -/
inductive RqOutcome where
  | val (v : T.V)
  | missing
  | raised (e : T.E)

/-- A test, as far as it concerns requests. -/
inductive RqProg where
  | done
  | send (r : Rq) (k : RqOutcome T → RqProg)

/-- One request in the log of a run. -/
structure RqEvent where
  request : Rq
  outcome : RqOutcome T
  real : Bool

variable {T}

/-- `mark_order` (requests.py:189-194; httpx.py:221-226). -/
def markOrder (requests : List (RqSnap T)) (key : RqKey) : RqKey :=
  requests.foldl (fun key i => if key.hash = i.key.hash then increaseOrder T key else key) key

/-- The search `for snapshot in reversed(self.snapshots)` (requests.py:204-205; httpx.py:236-237). -/
def findRq (snaps : List (RqSnap T)) (h : Str) : Option (RqSnap T) :=
  snaps.reverse.find? (fun s => s.key.hash == h)

/-- `if snapshot not in self.requests: self.requests.append(snapshot)` (requests.py:206-207;
httpx.py:238-239); snapshots are compared by their hashes. -/
def addRq (requests : List (RqSnap T)) (s : RqSnap T) : List (RqSnap T) :=
  if requests.any (fun x => x.key.hash == s.key.hash) then requests else requests ++ [s]

/-- The settings of a block. -/
structure RqConfig where
  refresh : Bool := false
  complete : Bool := false
  lose : Bool := true
  ign : Ignore := .everything
  toHash : Option (RqJson → Str) := none

/-- `lookup_snapshot` and `send`/`handle_request` (requests.py:196-223; httpx.py:228-264): the outcome,
`self.requests` and the number of real requests so far. -/
def sendRq (c : RqConfig) (snaps : List (RqSnap T)) (answers : Nat → Except T.E T.V)
    (requests : List (RqSnap T)) (i : Nat) (r : Rq) : RqOutcome T × List (RqSnap T) × Nat :=
  let key := markOrder requests (fromRequest T c.ign c.toHash r)
  match findRq snaps key.hash with
  | some s => (.val s.response, addRq requests s, i)
  | none =>
    if !(c.refresh || c.complete) then (.missing, requests, i)
    else
      match answers i with
      | .error e => (.raised e, requests, i + 1)
      | .ok v => (.val v, requests ++ [⟨key, v⟩], i + 1)

/-- Running a test. -/
def runRq (c : RqConfig) (snaps : List (RqSnap T)) (answers : Nat → Except T.E T.V) :
    RqProg T → List (RqSnap T) → Nat → List (RqEvent T) × List (RqSnap T)
  | .done, requests, _ => ([], requests)
  | .send r k, requests, i =>
    let x := sendRq c snaps answers requests i r
    let rest := runRq c snaps answers (k x.1) x.2.1 x.2.2
    (⟨r, x.1, decide (x.2.2 ≠ i)⟩ :: rest.1, rest.2)

/-- A snapshot in its stored form. -/
structure StoredRq (T : RqTypes) where
  request : RqJson
  hash : Option Str
  response : T.S

/-- `RequestSnapshot.json_object` with `RequestKey.to_json_object` (requests.py:81-91, 153-164;
httpx.py:71-81, 149-166). -/
def toStored (lose : Bool) (s : RqSnap T) : Option (StoredRq T) :=
  (T.save s.response).map (fun r =>
    ⟨if lose then { s.key.json with headers := none, body := none } else s.key.json, some s.key.hash, r⟩)

/-- The dictionary built by `stop` (requests.py:361-365; httpx.py:302-306); `none`: an exception, before
the file is opened. -/
def storeAll (lose : Bool) : List (RqSnap T) → Dict (StoredRq T) → Option (Dict (StoredRq T))
  | [], d => some d
  | s :: rest, d =>
    match toStored lose s with
    | none => none
    | some x => storeAll lose rest (d.set s.key.hash x)

/-- `RequestSnapshot.from_json_object` (requests.py:140-151; httpx.py:134-147). -/
def fromStored (ign : Ignore) (toHash : Option (RqJson → Str)) (x : StoredRq T) : Option (RqSnap T) :=
  (T.load x.response).map (fun v => ⟨mkKey T ign toHash x.request x.hash, v⟩)

/-- Loading (requests.py:297-315; httpx.py:197-216): the files of the old directory, in the order they
are listed, then the values of the dictionary in the file. -/
def loadAll (c : RqConfig) (legacy : List (StoredRq T)) (file : Dict (StoredRq T)) :
    Option (List (RqSnap T)) :=
  if c.refresh then some []
  else (legacy ++ file.map (·.2)).mapM (fromStored c.ign c.toHash)

/-- What became of a block: the log, the entries listed in the test output (URL and hash), the
dictionary written to the snapshot file. -/
structure RqRun (T : RqTypes) where
  log : List (RqEvent T)
  listing : List (Str × Str)
  written : Option (Dict (StoredRq T))

/-- The entries printed by `t_snapshots` (requests.py:370-373; httpx.py:311-314), sorted by URL and
hash. -/
def rqListing (requests : List (RqSnap T)) : List (Str × Str) :=
  sortedBy pairLe (requests.map (fun s => (s.key.json.url, s.key.hash)))

/-- `with SnapshotRequests(…): test`, `with SnapshotHttpx(…): test` (requests.py:275-380;
httpx.py:175-321). `none`: a stored snapshot cannot be loaded and the block raises before the test. -/
def withRequests (c : RqConfig) (legacy : List (StoredRq T)) (file : Dict (StoredRq T))
    (answers : Nat → Except T.E T.V) (test : RqProg T) : Option (RqRun T) :=
  (loadAll c legacy file).map (fun snaps =>
    let r := runRq c snaps answers test [] 0
    ⟨r.1, rqListing r.2, storeAll c.lose r.2 []⟩)

end Verif.Model
