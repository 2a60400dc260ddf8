import Verif.Model.Objects
import Verif.Spec.CaseRun

/-! # Specification vocabulary for assertions about objects (C112) -/

namespace Verif.Spec
open Verif.Py Verif.Model

variable {O : Type}

/-- The steps that create objects. -/
def creates : ItStep O → Bool
  | .it _ _ => true
  | .member _ _ _ => true
  | _ => false

/-- The `i`-th object of a test is called `title` and is the object `o`: it is given, or it is the selected
member of an earlier object. -/
inductive IsObject (steps : List (ItStep O)) : Nat → Str → O → Prop
  | it {i : Nat} {title : Str} {o : O} : (steps.filter creates)[i]? = some (.it title o) → IsObject steps i title o
  | member {i j : Nat} {title parent : Str} {sel : O → Except Raised O} {o o' : O} :
      (steps.filter creates)[i]? = some (.member j title sel) → j < i → IsObject steps j parent o →
      sel o = .ok o' → IsObject steps i (parent ++ ".".toList ++ title) o'

/-- The number of the object a step would create. -/
def nextObject (steps : List (ItStep O)) (k : Nat) : Nat := ((steps.take k).filter creates).length

/-- The `k`-th step goes well: the object it is about exists, its condition holds, its selection gives an object,
its call does not mark an error. -/
inductive GoesWell (steps : List (ItStep O)) (k : Nat) : Prop
  | it {title : Str} {o : O} : steps[k]? = some (.it title o) → GoesWell steps k
  | must {i : Nat} {title t : Str} {cond : O → Except Raised Bool} {msg : O → Option Str} {o : O} :
      steps[k]? = some (.must i title cond msg) → i < nextObject steps k → IsObject steps i t o →
      cond o = .ok true → GoesWell steps k
  | member {i : Nat} {title t : Str} {sel : O → Except Raised O} {o o' : O} :
      steps[k]? = some (.member i title sel) → i < nextObject steps k → IsObject steps i t o →
      sel o = .ok o' → GoesWell steps k
  | call {o : Op} : steps[k]? = some (.call o) → marksError o = false → GoesWell steps k

/-- The call a step comes down to when it runs: a header with the full name of the new object, or an assertion
whose condition has been evaluated on the object, or the call itself. -/
inductive Becomes (steps : List (ItStep O)) (k : Nat) : Op → Prop
  | it {title : Str} {o : O} : steps[k]? = some (.it title o) →
      Becomes steps k (.header ("## ".toList ++ title ++ "..".toList))
  | must {i : Nat} {title t : Str} {cond : O → Except Raised Bool} {msg : O → Option Str} {o : O} {b : Bool} :
      steps[k]? = some (.must i title cond msg) → i < nextObject steps k → IsObject steps i t o →
      cond o = .ok b → Becomes steps k (.must title b (msg o))
  | member {i : Nat} {title t : Str} {sel : O → Except Raised O} {o : O} :
      steps[k]? = some (.member i title sel) → i < nextObject steps k → IsObject steps (nextObject steps k) t o →
      Becomes steps k (.header ("## ".toList ++ t ++ "..".toList))
  | call {o : Op} : steps[k]? = some (.call o) → Becomes steps k o

/-- The `k`-th step raises `r` after the calls `before`: only a condition raises after something has been
printed. -/
inductive Stops (steps : List (ItStep O)) (k : Nat) : Raised → List Op → Prop
  | cond {i : Nat} {title t : Str} {cond : O → Except Raised Bool} {msg : O → Option Str} {o : O} {r : Raised} :
      steps[k]? = some (.must i title cond msg) → IsObject steps i t o → cond o = .error r →
      Stops steps k r [.i (" * MUST ".toList ++ title ++ "...".toList)]
  | select {i : Nat} {title t : Str} {sel : O → Except Raised O} {o : O} {r : Raised} :
      steps[k]? = some (.member i title sel) → IsObject steps i t o → sel o = .error r → Stops steps k r []
  | unknownMust {i : Nat} {title : Str} {cond : O → Except Raised Bool} {msg : O → Option Str} {r : Raised} :
      steps[k]? = some (.must i title cond msg) → nextObject steps k ≤ i → Stops steps k r []
  | unknownMember {i : Nat} {title : Str} {sel : O → Except Raised O} {r : Raised} :
      steps[k]? = some (.member i title sel) → nextObject steps k ≤ i → Stops steps k r []

end Verif.Spec
