import Verif.Py.Base64
import Verif.Model.Requests

/-! # Model of the encoding of the bodies of requests -/

namespace Verif.Model
open Verif.Py

/-- The body of a request, when there is one. -/
inductive RqBody where
  | text (s : Str)
  | raw (b : Bytes)
  /-- files, generators and other objects -/
  | other

/-- `default_encode_body` (requests.py:26-33) of a body that is not `None`: `none` is the `ValueError`.
(Strings are of Unicode scalar values, so that encoding them does not raise.) -/
def encodeBody : RqBody → Option Str
  | .text s => some (b64encode (encode s))
  | .raw b => some (b64encode b)
  | .other => none

/-- A request as the test makes it. -/
structure RawRq where
  url : Str
  method : Str
  headers : Dict Str
  body : Option RqBody

/-- The encoding of the body in `RequestKey.from_properties` (requests.py:101-110; httpx.py:91-100) with the
default `encode_body`: `none` is its exception. -/
def encodeRq (r : RawRq) : Option Rq :=
  match r.body with
  | none => some ⟨r.url, r.method, r.headers, none⟩
  | some b =>
    match encodeBody b with
    | none => none
    | some s => some ⟨r.url, r.method, r.headers, some s⟩

end Verif.Model
