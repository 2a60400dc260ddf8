import Verif.Model.Setup

/-! # Vocabulary for setup and teardown

A log is added to the world: it records the parts of the generators that were started and the calls of
the test. -/

namespace Verif.Spec
open Verif.Model

/-- `part i n`: the code of generator `i` between its `n`-th `yield` and the next one (`part i 0` is the
setup, `part i 1` the teardown). -/
inductive Mark where
  | part (i n : Nat)
  | test
deriving DecidableEq, Repr

variable {S E V : Type}

/-- A generator that also writes down which of its parts are started. -/
def loggedGen (i : Nat) (gen : Gen S E) : Gen (S × List Mark) E where
  G := gen.G × Nat
  start := (gen.start, 0)
  next := fun (g, n) (s, l) =>
    match gen.next g s with
    | (s', .yielded g') => ((s', l ++ [.part i n]), .yielded (g', n + 1))
    | (s', .stopped) => ((s', l ++ [.part i n]), .stopped)
    | (s', .raised e) => ((s', l ++ [.part i n]), .raised e)

/-- A test that also writes down that it was called. -/
def loggedTest (body : Body S E V) : Body (S × List Mark) E V := fun (s, l) =>
  match body s with
  | (s', r) => ((s', l ++ [.test]), r)

/-- The setup part of the generator reaches a `yield` in the world `s`. -/
def SetupOK (gen : Gen S E) (s : S) : Prop := ∃ s' g, gen.next gen.start s = (s', .yielded g)

/-- The decorators of the generators, numbered from `i`; the last one is applied last. -/
def decorators (noYield : E) : Nat → List (Gen S E) → List (Body (S × List Mark) E V → Body (S × List Mark) E V)
  | _, [] => []
  | i, gen :: rest => withSetup noYield (loggedGen i gen) :: decorators noYield (i + 1) rest

/-- The parts in the order in which decorators numbered from `i` are entered if the last one is the
outermost one. -/
def setups (i n : Nat) : List Mark := (List.range' i n).reverse.map (fun k => .part k 0)

/-- The order in which they are left. -/
def teardowns (i n : Nat) : List Mark := (List.range' i n).map (fun k => .part k 1)

end Verif.Spec
