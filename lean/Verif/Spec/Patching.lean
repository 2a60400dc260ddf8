import Verif.Model.Patching

/-! # Who ought to answer requests -/

namespace Verif.Spec
open Verif.Model

/-- A request: its session, the innermost block around it, and the number of redirects. -/
structure Requested where
  session : Nat
  inner : Option Nat
  hops : Nat
deriving DecidableEq, Repr

/-- The requests of a test, in order. -/
def requestsOf : Option Nat → Doing → List Requested
  | _, .done => []
  | inner, .request s hops rest => ⟨s, inner, hops⟩ :: requestsOf inner rest
  | inner, .block b body rest => requestsOf (some b) body ++ requestsOf inner rest

/-- What the class of a session says. -/
def classAdapter (own : Nat → Bool) (s : Nat) : Adapter := if own s then .own else .usual

/-- Nothing is patched. -/
def Unpatched (st : Sessions) : Prop := st.send = none ∧ ∀ s, st.attr s = none

/-- The session makes requests in a block. -/
def UsedInBlock (s : Nat) : Bool → Doing → Prop
  | _, .done => False
  | inside, .request s' _ rest => (inside = true ∧ s' = s) ∨ UsedInBlock s inside rest
  | inside, .block _ body rest => UsedInBlock s true body ∨ UsedInBlock s inside rest

/-- `httpx`: the blocks around a request are asked from the inside to the outside, until one of them has a snapshot or
does not capture, and then the network. -/
def asked (has captures : Nat → Bool) : List Nat → List Stop
  | [] => [.network]
  | b :: outer => .block b :: if has b || !captures b then [] else asked has captures outer

/-- The blocks that are asked by each request, with the blocks around. -/
def answeredX (captures : Nat → Bool) : List Nat → DoingX → List (List Stop)
  | _, .done => []
  | around, .request _ has rest => asked has captures around :: answeredX captures around rest
  | around, .block b body rest => answeredX captures (b :: around) body ++ answeredX captures around rest

end Verif.Spec
