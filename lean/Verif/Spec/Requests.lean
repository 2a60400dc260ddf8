import Verif.Model.Requests

/-! # Specification vocabulary for request snapshots (C52–C55, C78) -/

namespace Verif.Spec
open Verif.Py Verif.Model

variable {T : RqTypes}

/-- The keys given to the first, second, … of a row of equal requests. -/
def nthKey (T : RqTypes) (ign : Ignore) (toHash : Option (RqJson → Str)) (r : Rq) : Nat → RqKey
  | 0 => fromRequest T ign toHash r
  | n + 1 => increaseOrder T (nthKey T ign toHash r n)

/-- The hashes of these keys. -/
def nthHash (T : RqTypes) (ign : Ignore) (toHash : Option (RqJson → Str)) (r : Rq) (n : Nat) : Str :=
  (nthKey T ign toHash r n).hash

/-- The requests of a log. -/
def requestedIn (log : List (RqEvent T)) (r : Rq) : Prop := ∃ e ∈ log, e.request = r

/-- The objects that are hashed when equal requests among `S` are made at most `N + 1` times. -/
def RequestObjects (T : RqTypes) (ign : Ignore) (S : Rq → Prop) (N : Nat) (j : RqJson) : Prop :=
  ∃ r k, S r ∧ (∀ n, k = some n → n ≤ N) ∧ j = { (fromRequest T ign none r).json with order := k }

/-- No digest collisions among the objects `J`: objects with the same digest have the same `order`, and
stay indistinguishable for the digest when `order` is changed. (The digest of a JSON text with sorted
keys is like that unless SHA-1 values of these texts collide, see `C111_digest`.) -/
def DigestOK (T : RqTypes) (J : RqJson → Prop) : Prop := ∀ a b : RqJson, J a → J b → T.digest a = T.digest b →
  a.order = b.order ∧ ∀ k, J { a with order := k } → J { b with order := k } →
    T.digest { a with order := k } = T.digest { b with order := k }

/-- The same for the hashes in use for the requests `S`, made at most `N + 1` times, with a custom hash
for the first of equal requests: it does not produce digests of later requests, and requests with the
same later digests have the same first hash. -/
structure HashOK (T : RqTypes) (ign : Ignore) (toHash : Option (RqJson → Str)) (S : Rq → Prop) (N : Nat) : Prop where
  first : ∀ r r' n, S r → S r' → n < N → nthHash T ign toHash r 0 ≠ nthHash T ign toHash r' (n + 1)
  later : ∀ r r' n n', S r → S r' → n < N → n' < N →
    nthHash T ign toHash r (n + 1) = nthHash T ign toHash r' (n' + 1) →
    n = n' ∧ ∀ k, k ≤ N → nthHash T ign toHash r k = nthHash T ign toHash r' k

/-- What a test makes of outcomes when it looks at responses only through `view`. -/
def viewOutcome {W : Type} (view : T.V → W) : RqOutcome T → Option (W ⊕ T.E)
  | .val v => some (.inl (view v))
  | .missing => none
  | .raised e => some (.inr e)

/-- The test looks at responses only through `view`. -/
inductive LooksThrough {W : Type} (view : T.V → W) : RqProg T → Prop
  | done : LooksThrough view .done
  | send (r : Rq) (k : RqOutcome T → RqProg T)
      (same : ∀ a b, viewOutcome view a = viewOutcome view b → k a = k b)
      (rest : ∀ o, LooksThrough view (k o)) : LooksThrough view (.send r k)

/-- What happened, as far as the test can see it. -/
def rqObserved {W : Type} (view : T.V → W) (log : List (RqEvent T)) : List (Rq × Option (W ⊕ T.E)) :=
  log.map (fun e => (e.request, viewOutcome view e.outcome))

/-- Two tests that make the same requests up to a relation, whatever the answers. -/
inductive SameUpTo (R : Rq → Rq → Prop) : RqProg T → RqProg T → Prop
  | done : SameUpTo R .done .done
  | send (r r' : Rq) (k k' : RqOutcome T → RqProg T) (same : R r r')
      (rest : ∀ o, SameUpTo R (k o) (k' o)) : SameUpTo R (.send r k) (.send r' k')

/-- The requests differ at most in their headers. -/
def DifferInHeaders (r r' : Rq) : Prop := r.url = r'.url ∧ r.method = r'.method ∧ r.body = r'.body

/-- Is a header, in any letter case, among the names? -/
def Named (lower : Str → Str) (names : List Str) (header : Str) : Prop :=
  ∃ n ∈ names, lower n = lower header

/-- The requests differ at most in headers with these names: the other headers are the same, in the
same order. -/
def DifferInNamed (lower : Str → Str) (names : List Str) (r r' : Rq) : Prop :=
  DifferInHeaders r r' ∧
  ∃ hs : Dict Str, Keeps lower names r.headers hs ∧ Keeps lower names r'.headers hs
where
  /-- `hs` is the list without the headers with these names. -/
  Keeps (lower : Str → Str) (names : List Str) : Dict Str → Dict Str → Prop
    | [], hs => hs = []
    | p :: l, hs => (Named lower names p.1 ∧ Keeps lower names l hs) ∨
        (¬ Named lower names p.1 ∧ ∃ hs', hs = p :: hs' ∧ Keeps lower names l hs')

end Verif.Spec
