/-! # Model of `booktest/utils.py` and of the process setup

Generators are arbitrary: a state between the calls of `next`, and what a call of `next` does to the
rest of the world `S`.  A test (or a run of tests) is an arbitrary function on `S` that returns or
raises.  Not modelled: code that does not end, and the `finally` blocks of a generator that is still
suspended when it is dropped (Python runs them on garbage collection). -/

namespace Verif.Model

/-- What `next(generator)` does: it reaches a `yield`, raises `StopIteration` because the function
returned, or raises something else. -/
inductive Next (G E : Type) where
  | yielded (g : G)
  | stopped
  | raised (e : E)

/-- A generator function without arguments: the generator it returns and what `next` does with it. -/
structure Gen (S E : Type) where
  G : Type
  start : G
  next : G → S → S × Next G E

/-- A test, or anything else a `with` block can contain. -/
abbrev Body (S E V : Type) := S → S × Except E V

variable {S E V : Type}

/-- `with SetupTeardown(gen): body` (utils.py:6-23, used in utils.py:30-31, runs.py:90-91, 437-438).
`__exit__` is called whether the body returned or raised, but not if `__enter__` raised; it returns
`None`, so it hides no exception. A generator function that does not yield raises `StopIteration` in
`__enter__`; it is the error `noYield` (`RuntimeError` in a coroutine). -/
def withSetup (noYield : E) (gen : Gen S E) (body : Body S E V) : Body S E V := fun s =>
  match gen.next gen.start s with
  | (s1, .raised e) => (s1, .error e)
  | (s1, .stopped) => (s1, .error noYield)
  | (s1, .yielded g) =>
    match body s1 with
    | (s2, r) =>
      match gen.next g s2 with
      | (s3, .raised e) => (s3, .error e)
      | (s3, .stopped) => (s3, r)
      | (s3, .yielded _) => (s3, r)

/-- `combine_decorators` (utils.py:39-47): the decorators are applied one after the other. -/
def combineDecorators {F : Type} (decorators : List (F → F)) (func : F) : F :=
  decorators.foldl (fun rv i => i rv) func

/-- `empty_setup_teardown` (detection.py:19-22). -/
def emptySetup : Gen S E where
  G := Bool
  start := true
  next := fun g s => (s, if g then .yielded false else .stopped)

/-- `BookTestSetup(setup_teardown).setup_teardown()` around a run of tests (detection.py:25-33,
runs.py:90-91, 437-438). -/
def withProcessSetup (noYield : E) (setup : Option (Gen S E)) (run : Body S E V) : Body S E V :=
  withSetup noYield (setup.getD emptySetup) run

end Verif.Model
