import Verif.Py.Loads
import Verif.Py.Base64
import Verif.Model.Hashing
import Verif.Model.Responses
import Verif.Model.Env

/-! # The texts of the snapshot files

`Model/Functions.lean`, `Model/Requests.lean` and `Model/Env.lean` take what is stored as values; here are the texts of the
files (`json.dump(…, indent=4)`) and how they are read. A file is its text: all characters written are ASCII.
Not modelled: values changed by the test after they were recorded and before they are written (the recorder keeps
references to arguments and results). -/

namespace Verif.Model
open Verif.Py

/-- `value[name]`; `none`: `KeyError`, or the value is no dictionary. -/
def _root_.Verif.Py.PyData.item (d : PyData) (name : Str) : Option PyData :=
  match d with
  | .dict items => (items.find? (fun p => p.1 == .str name)).map (·.2)
  | _ => none

/-- A dictionary with strings as keys. -/
def dictData (items : Dict PyData) : PyData := .dict (items.map (fun p => (.str p.1, p.2)))

/-! ### Function snapshots -/

/-- `FunctionCall.__init__` (functions.py:15-26): the hash in the object or else the digest of its text. `none`: the
object is no dictionary (`AttributeError`). Simplified: a hash that is no string, which is never written, counts as an
exception, too. -/
def callHash (digest : Str → Str) (c : PyData) : Option Str :=
  match c with
  | .dict items =>
    match PyData.item (.dict items) "hash".toList with
    | none => some (digest (dumps c))
    | some .none => some (digest (dumps c))
    | some (.str h) => some h
    | some _ => none
  | _ => none

/-- `self.json_object["hash"] = hash_code` (functions.py:24): appended, if it is not there. -/
def withHash (c : PyData) (h : Str) : PyData :=
  match c with
  | .dict items =>
    match PyData.item (.dict items) "hash".toList with
    | some (.str _) => c
    | some _ => .dict (items.map (fun p => if p.1 == .str "hash".toList then (p.1, .str h) else p))
    | none => .dict (items ++ [(.str "hash".toList, .str h)])
  | c => c

/-- `functions.py` with values that JSON can hold; a call is its JSON object (`FnCall.data` for the calls of a test,
functions.py:43-50), `digest` is SHA-1 of a text. -/
def pyFunctions (digest : Str → Str) (E : Type) : FnTypes where
  C := PyData
  V := PyData
  E := E
  hash := callHash digest
  json := fun v => loads (dumpIndent 4 0 v)

variable {digest : Str → Str} {E : Type}

/-- The text of a snapshot file (functions.py:72-77, 185-186). -/
def callText (call : PyData) (hash : Str) (result : PyData) : Str :=
  dumpIndent 4 0 (dictData [("call".toList, withHash call hash), ("result".toList, result)])

/-- `FunctionCallSnapshot.from_json_object(json.load(f))` (functions.py:67-70). -/
def readCall (digest : Str → Str) (E : Type) (text : Str) : Option (FnSnap (pyFunctions digest E)) :=
  match loads text with
  | none => none
  | some d =>
    match d.item "call".toList with
    | none => none
    | some c =>
      match callHash digest c with
      | none => none
      | some h =>
        match d.item "result".toList with
        | none => none
        | some r => some ⟨c, h, r⟩

/-- Writing the files (functions.py:180-186). -/
def writeTexts : List (FnSnap (pyFunctions digest E)) → Dict Str → Dict Str
  | [], files => files
  | s :: rest, files => writeTexts rest (files.set (s.hash ++ ".json".toList) (callText s.call s.hash s.result))

/-- What became of a block: the log of calls, the listing, the texts of the files. -/
structure TextRun (digest : Str → Str) (E : Type) where
  log : List (FnEvent (pyFunctions digest E))
  listing : List Str
  files : Dict Str

/-- The block of `withFunctions` over the texts of the files (functions.py:109-204); `none`: a file cannot be read, so
`start` raises. -/
def withFunctionTexts (refresh complete : Bool) (stored : Dict Str)
    (answers : Nat → Except E PyData) (test : Prog (pyFunctions digest E)) : Option (TextRun digest E) :=
  match (if refresh then some [] else stored.mapM (fun p => readCall digest E p.2)) with
  | none => none
  | some snaps =>
    let r := runProg (T := pyFunctions digest E) (refresh || complete) snaps answers test [] 0
    some ⟨r.1, fnListing r.2, writeTexts r.2 []⟩

/-! ### Environment snapshots -/

/-- A value of a snapshot of variables in JSON. (A value that is neither `None` nor a string never gets into
`capture`.) -/
def EVal.data : EVal → PyData
  | .none => .none
  | .str s => .str s
  | .other => .bool true

/-- `json.dump(self.capture, f, indent=4)` (env.py:61-62). -/
def envText (cap : Dict EVal) : Str := dumpIndent 4 0 (dictData (cap.map (fun p => (p.1, p.2.data))))

/-- A value of a snapshot file. -/
def EVal.ofData : PyData → EVal
  | .none => .none
  | .str s => .str s
  | _ => .other

/-- The items of a dictionary that has been read: all keys are strings. -/
def stringItems (items : List (PyKey × PyData)) : Dict PyData :=
  items.filterMap (fun p => match p.1 with
    | .str k => some (k, p.2)
    | _ => none)

/-- `json.load(f)` (env.py:29-30); `none`: it raises, or the text is no object. -/
def readEnv (text : Str) : Option (Dict EVal) :=
  match loads text with
  | some (.dict items) => some ((stringItems items).map (fun p => (p.1, EVal.ofData p.2)))
  | _ => none

/-! ### Snapshots of requests -/

/-- Headers in JSON. -/
def headersData (hs : Dict Str) : PyData := dictData (hs.map (fun p => (p.1, .str p.2)))

/-- A dictionary of strings. -/
def readHeaders : PyData → Option (Dict Str)
  | .dict items => (stringItems items).mapM (fun p => match p.2 with
      | .str v => some (p.1, v)
      | _ => none)
  | _ => none

/-- `RequestKey.to_json_object` (requests.py:81-91; httpx.py:71-81): the entries are in the order in which they are put
into the object, the hash at the end (requests.py:62-66, 71-76, 104-110). -/
def requestData (j : RqJson) (hash : Option Str) : PyData :=
  dictData ([("url".toList, .str j.url), ("method".toList, .str j.method)] ++
    (j.headers.map (fun hs => ("headers".toList, headersData hs))).toList ++
    (j.body.map (fun b => ("body".toList, PyData.str b))).toList ++
    (j.order.map (fun n => ("order".toList, PyData.int (Int.ofNat n)))).toList ++
    (hash.map (fun h => ("hash".toList, PyData.str h))).toList)

/-- A string. -/
def _root_.Verif.Py.PyData.asStr : PyData → Option Str
  | .str s => some s
  | _ => none

/-- A number that is not negative. -/
def _root_.Verif.Py.PyData.asNat : PyData → Option Nat
  | .int (.ofNat n) => some n
  | _ => none

/-- An entry that may be missing; `none`: it is there and has another type. -/
def optItem {α : Type} (d : PyData) (name : Str) (f : PyData → Option α) : Option (Option α) :=
  match d.item name with
  | none => some none
  | some x => (f x).map some

/-- The object given to `RequestKey` when a file is read (requests.py:150; httpx.py:146), as a value of the model.
Simplified: `none` if an entry has a type that is never written. -/
def readRequest (d : PyData) : Option (RqJson × Option Str) :=
  match (d.item "url".toList).bind PyData.asStr, (d.item "method".toList).bind PyData.asStr,
    optItem d "headers".toList readHeaders, optItem d "body".toList PyData.asStr,
    optItem d "order".toList PyData.asNat, optItem d "hash".toList PyData.asStr with
  | some url, some method, some headers, some body, some order, some hash =>
    some (⟨url, method, headers, body, order⟩, hash)
  | _, _, _, _, _, _ => none

/-- `"encoding": self.response.encoding`: a string or `None`. -/
def encodingData : Option Str → PyData
  | none => .none
  | some s => .str s

/-- The `response` entry (requests.py:156-161). -/
def requestsData (r : RequestsStored) : PyData :=
  dictData [("headers".toList, headersData r.headers), ("statusCode".toList, .int (Int.ofNat r.status)),
    ("encoding".toList, encodingData r.encoding), ("content".toList, .str r.content)]

/-- Reading the `response` entry (requests.py:142-148). -/
def readRequests (d : PyData) : Option RequestsStored :=
  match (d.item "headers".toList).bind readHeaders, (d.item "statusCode".toList).bind PyData.asNat,
    d.item "encoding".toList, (d.item "content".toList).bind PyData.asStr with
  | some headers, some status, some encoding, some content =>
    match encoding with
    | .none => some ⟨headers, status, none, content⟩
    | .str e => some ⟨headers, status, some e, content⟩
    | _ => none
  | _, _, _, _ => none

/-- The `response` entry (httpx.py:157-163): the content in base64. -/
def httpxData (r : HttpxResponse) : PyData :=
  dictData [("headers".toList, headersData r.headers), ("statusCode".toList, .int (Int.ofNat r.status)),
    ("content".toList, .str (b64encode r.content))]

/-- Reading the `response` entry (httpx.py:138-144). -/
def readHttpx (d : PyData) : Option HttpxResponse :=
  match (d.item "headers".toList).bind readHeaders, (d.item "statusCode".toList).bind PyData.asNat,
    ((d.item "content".toList).bind PyData.asStr).bind b64decode with
  | some headers, some status, some content => some ⟨headers, status, content⟩
  | _, _, _ => none

/-- The text of the snapshot file (requests.py:361-368; httpx.py:302-309), given the JSON form of responses. -/
def requestsText {T : RqTypes} (data : T.S → PyData) (d : Dict (StoredRq T)) : Str :=
  dumpIndent 4 0 (dictData (d.map (fun p => (p.1,
    dictData [("request".toList, requestData p.2.request p.2.hash), ("response".toList, data p.2.response)]))))

/-- Reading one snapshot (requests.py:140-151; httpx.py:134-147). -/
def readStored {T : RqTypes} (read : PyData → Option T.S) (d : PyData) : Option (StoredRq T) :=
  match (d.item "request".toList).bind readRequest, (d.item "response".toList).bind read with
  | some rq, some rp => some ⟨rq.1, rq.2, rp⟩
  | _, _ => none

/-- Reading the snapshot file (requests.py:308-315; httpx.py:208-213). -/
def readRequestsText {T : RqTypes} (read : PyData → Option T.S) (text : Str) : Option (Dict (StoredRq T)) :=
  match loads text with
  | some (.dict items) => (stringItems items).mapM (fun p => (readStored read p.2).map (fun x => (p.1, x)))
  | _ => none

/-! ### Metrics -/

/-- `Metrics.to_file` (reports.py:73-77): `json.dump` without an indent. -/
def metricsText (tookMs : Nat) : Str := dumps (dictData [("tookMs".toList, .int (Int.ofNat tookMs))])

/-- `Metrics.of_file` (reports.py:79-83). -/
def readMetrics (text : Str) : Option PyData := (loads text).bind (fun d => d.item "tookMs".toList)

end Verif.Model
