import Verif.Model.Requests
import Verif.Py.Utf8

/-! # The responses of `requests` and `httpx`, as stored and loaded

`Model/Requests.lean` is parametric in the responses; these are the two instances.  The texts of the
files, in JSON and base64, are in `Model/SnapshotFiles.lean`. -/

namespace Verif.Model
open Verif.Py

/-- A `requests.Response`, as far as it is stored; `caseless`: the headers are a
`CaseInsensitiveDict`, as in responses of the library, rather than a plain dictionary. -/
structure RequestsResponse where
  headers : Dict Str
  caseless : Bool
  status : Nat
  encoding : Option Str
  content : Bytes
deriving DecidableEq

/-- The `response` entry of a snapshot of `requests.py`. -/
structure RequestsStored where
  headers : Dict Str
  status : Nat
  encoding : Option Str
  content : Str
deriving DecidableEq

/-- `RequestSnapshot.json_object` (requests.py:153-164): `self.response.content.decode()` raises if the
content is not UTF-8. -/
def requestsSave (v : RequestsResponse) : Option RequestsStored :=
  (decode v.content).map (fun c => ⟨v.headers, v.status, v.encoding, c⟩)

/-- `RequestSnapshot.from_json_object` (requests.py:140-151). -/
def requestsLoad (s : RequestsStored) : Option RequestsResponse :=
  some ⟨s.headers, false, s.status, s.encoding, encode s.content⟩

/-- `response.headers.get(name)`, for a plain dictionary and a `CaseInsensitiveDict` (of the library
`requests`). -/
def RequestsResponse.header (lower : Str → Str) (v : RequestsResponse) (name : Str) : Option Str :=
  if v.caseless then (v.headers.find? (fun p => lower p.1 == lower name)).map (·.2)
  else v.headers.get name

/-- `requests.py` with its responses. -/
def requestsT (E : Type) (digest : RqJson → Str) (lower : Str → Str) : RqTypes where
  V := RequestsResponse
  S := RequestsStored
  E := E
  save := requestsSave
  load := requestsLoad
  digest := digest
  lower := lower

/-- An `httpx.Response`, as far as it is stored. Not modelled: the `Content-Length` header the
constructor of a loaded response adds if there is none. -/
structure HttpxResponse where
  headers : Dict Str
  status : Nat
  content : Bytes
deriving DecidableEq

/-- `RequestSnapshot.json_object` (httpx.py:149-166): the content is stored in base64, which can encode
everything; `del headers["content-encoding"]`. -/
def httpxSave (v : HttpxResponse) : Option HttpxResponse :=
  some { v with headers := v.headers.filter (fun p => p.1 != "content-encoding".toList) }

/-- `RequestSnapshot.from_json_object` (httpx.py:134-147): `.decode("utf-8")` raises if the content is
not UTF-8; the constructor of `httpx.Response` encodes the text again. -/
def httpxLoad (s : HttpxResponse) : Option HttpxResponse :=
  (decode s.content).map (fun c => { s with content := encode c })

/-- `httpx.py` with its responses. -/
def httpxT (E : Type) (digest : RqJson → Str) (lower : Str → Str) : RqTypes where
  V := HttpxResponse
  S := HttpxResponse
  E := E
  save := httpxSave
  load := httpxLoad
  digest := digest
  lower := lower

end Verif.Model
