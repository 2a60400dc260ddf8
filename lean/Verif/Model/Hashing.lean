import Verif.Py.Dumps
import Verif.Model.Functions
import Verif.Model.Requests

/-! # The digests of function calls and requests

`Model/Functions.lean` and `Model/Requests.lean` take the digest as a parameter.  Here it is what the
code computes: SHA-1 (the function `sha`, with hexadecimal digits) of the JSON text. -/

namespace Verif.Model
open Verif.Py

/-- A call of a snapshotted function: where the function is, its `__qualname__`, and its arguments. -/
structure FnCall where
  mod : Str
  qualname : Str
  args : List PyData
  kwargs : List (Str × PyData)
deriving Repr

/-- The object made by `FunctionCall.from_properties` (functions.py:43-50). -/
def FnCall.data (c : FnCall) : PyData :=
  .dict [(.str "func".toList, .str c.qualname),
    (.str "args".toList, .list c.args),
    (.str "kwargs".toList, .dict (c.kwargs.map (fun p => (.str p.1, p.2))))]

/-- The text that is hashed: `json.dumps(self.json_object)` (functions.py:22). -/
def FnCall.text (c : FnCall) : Str := dumps c.data

/-- The model of `functions.py` with the digest of the code (functions.py:15-26).  Results are values
of any type; only calls `json.dumps` accepts are among the calls. -/
def fnTypes (sha : Str → Str) (V E : Type) (json : V → Option V) : FnTypes where
  C := FnCall
  V := V
  E := E
  hash c := some (sha c.text)
  json := json

/-- A field that may be absent. -/
def optField (name : Str) : Option PyData → List (PyKey × PyData)
  | none => []
  | some x => [(.str name, x)]

/-- The object of a request key as `json.dumps(json_object, sort_keys=True)` writes it: the fields
`body`, `headers`, `method`, `order` and `url` and the headers in the order of their names
(requests.py:19-23, 71-76, 84-106). -/
def RqJson.data (j : RqJson) : PyData :=
  .dict (optField "body".toList (j.body.map .str) ++
    optField "headers".toList
      (j.headers.map (fun hs => .dict ((sortedBy pairLe hs).map (fun p => (.str p.1, .str p.2))))) ++
    [(.str "method".toList, .str j.method)] ++
    optField "order".toList (j.order.map (fun n => .int n)) ++
    [(.str "url".toList, .str j.url)])

/-- `json_to_sha1` (requests.py:19-23; httpx.py:16-20). -/
def jsonToSha1 (sha : Str → Str) (j : RqJson) : Str := sha (dumps j.data)

end Verif.Model
