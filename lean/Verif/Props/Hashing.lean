import Verif.Lemmas.Hashing
import Verif.Lemmas.Requests
import Verif.Props.Functions
import Verif.Props.Requests

/-! # C110, C111: what the digests of function calls and requests tell apart -/

namespace Verif.Props
open Verif.Py Verif.Model Verif.Spec Verif.Lemmas

/-! ### C110: function calls -/

/-- `json.dumps` is as Python writes it. -/
example : dumps (.dict [(.str "a".toList, .list [.int (-12), .none, .bool true, .float "1.5".toList]),
    (.int 3, .tuple []), (.str "ä\"".toList, .dict [])]) =
    "{\"a\": [-12, null, true, 1.5], \"3\": [], \"\\u00e4\\\"\": {}}".toList := by decide +kernel

private theorem plain_data {c : FnCall} (hc : PlainCall c) : PlainData c.data := by
  unfold FnCall.data
  refine .dict _ ?_ ?_
  · intro p hp
    simp only [List.mem_cons, List.not_mem_nil, or_false] at hp
    rcases hp with rfl | rfl | rfl <;> exact ⟨_, rfl⟩
  · intro p hp
    simp only [List.mem_cons, List.not_mem_nil, or_false] at hp
    rcases hp with rfl | rfl | rfl
    · exact .str _
    · exact .list _ hc.1
    · refine .dict _ ?_ ?_
      · intro q hq
        obtain ⟨a, _, rfl⟩ := List.mem_map.mp hq
        exact ⟨_, rfl⟩
      · intro q hq
        obtain ⟨a, ha, rfl⟩ := List.mem_map.mp hq
        exact hc.2 a ha

private theorem kwargs_inj {a b : List (Str × PyData)}
    (h : a.map (fun p => (PyKey.str p.1, p.2)) = b.map (fun p => (PyKey.str p.1, p.2))) : a = b := by
  induction a generalizing b with
  | nil => cases b with
    | nil => rfl
    | cons _ _ => cases h
  | cons p a ih => cases b with
    | nil => cases h
    | cons q b =>
      simp only [List.map_cons, List.cons.injEq, Prod.mk.injEq, PyKey.str.injEq] at h
      rw [ih h.2, Prod.ext h.1.1 h.1.2]

/-- **C110**: the hashed text of a call tells the name of the function and all its arguments: calls with
values JSON can give back have the same text only if they are the same (but for the module of the
function). -/
theorem C110_told_apart_partial (c d : FnCall) (hc : PlainCall c) (hd : PlainCall d) :
    c.text = d.text ↔ SameCall c d := by
  constructor
  · intro h
    have h1 := dumps_eq (plain_data hc) (plain_data hd) h
    simp only [FnCall.data, PyData.dict.injEq, List.cons.injEq, Prod.mk.injEq, PyData.str.injEq,
      PyData.list.injEq, and_true, true_and] at h1
    exact ⟨h1.1, h1.2.1, kwargs_inj h1.2.2⟩
  · rintro ⟨h1, h2, h3⟩
    unfold FnCall.text FnCall.data
    rw [h1, h2, h3]

/-- Calls of `f` with `-1, [None]` and `x=1.5`, and with other arguments. -/
example : PlainCall ⟨"m".toList, "f".toList, [.int (-1), .list [.none]], [("x".toList, .float "1.5".toList)]⟩ ∧
    PlainCall ⟨"m".toList, "f".toList, [.int (-1), .list [.none, .str "null".toList]], []⟩ := by
  refine ⟨⟨?_, ?_⟩, ⟨?_, ?_⟩⟩
  · intro x hx
    simp only [List.mem_cons, List.not_mem_nil, or_false] at hx
    rcases hx with rfl | rfl
    · exact .int _
    · refine .list _ ?_
      intro y hy
      simp only [List.mem_cons, List.not_mem_nil, or_false] at hy
      rw [hy]
      exact .none
  · intro p hp
    simp only [List.mem_cons, List.not_mem_nil, or_false] at hp
    rw [hp]
    exact .float _ (.inr (.inr (.inr (by decide))))
  · intro x hx
    simp only [List.mem_cons, List.not_mem_nil, or_false] at hx
    rcases hx with rfl | rfl
    · exact .int _
    · refine .list _ ?_
      intro y hy
      simp only [List.mem_cons, List.not_mem_nil, or_false] at hy
      rcases hy with rfl | rfl
      · exact .none
      · exact .str _
  · intro p hp
    cases hp

private theorem last_of_value {T : FnTypes} {l : List (FnEvent T)} {h : Str} {v : T.V}
    (hv : lastValue l h = some v) : ∃ pre e post, l = pre ++ e :: post ∧ T.hash e.call = some h ∧
      e.outcome = .val v ∧ ∀ e' ∈ post, T.hash e'.call = some h → ∀ v', e'.outcome ≠ .val v' := by
  induction l with
  | nil => cases hv
  | cons e l ih =>
    simp only [lastValue, Option.or_eq_some_iff] at hv
    rcases hv with hv | ⟨h0, hv⟩
    · obtain ⟨pre, e', post, h1, h2⟩ := ih hv
      exact ⟨e :: pre, e', post, by rw [h1]; rfl, h2⟩
    · refine ⟨[], e, l, rfl, ?_⟩
      unfold valueFor at hv
      split at hv
      · rename_i hc
        refine ⟨hc, ?_, ?_⟩
        · split at hv
          · rename_i ho; cases hv; exact ho
          · cases hv
        · intro e' he' hh v' ho
          clear ih
          induction l with
          | nil => cases he'
          | cons a l ih =>
            simp only [lastValue, Option.or_eq_none_iff] at h0
            rcases List.mem_cons.mp he' with rfl | he'
            · have := h0.2
              unfold valueFor at this
              rw [if_pos hh, ho] at this
              cases this
            · exact ih h0.1 he'
      · cases hv

private theorem value_of_last {T : FnTypes} {l : List (FnEvent T)} {h : Str} {e : FnEvent T} {v : T.V}
    (he : e ∈ l) (hh : T.hash e.call = some h) (ho : e.outcome = .val v) : lastValue l h ≠ none := by
  induction l with
  | nil => cases he
  | cons a l ih =>
    simp only [lastValue, ne_eq, Option.or_eq_none_iff, not_and]
    intro h0
    rcases List.mem_cons.mp he with rfl | he
    · unfold valueFor
      rw [if_pos hh, ho]
      intro h; cases h
    · exact absurd h0 (ih he)

/-- **C110**: what a replay gives for a call is the last result the capture run got from the same
function with the same arguments, and nothing if there was no such call: results of other functions or of
other arguments are not mixed up.  Of the digest only this is assumed: it does not collide for the texts
of the calls of these two runs. -/
theorem C110_replay_partial (sha : Str → Str) (V E : Type) (json : V → Option V) (refresh complete : Bool)
    (stored : FnFiles (fnTypes sha V E json)) (answers answers' : Nat → Except E V)
    (test test' : Prog (fnTypes sha V E json)) (files files' : FnFiles (fnTypes sha V E json))
    (log log' : List (FnEvent (fnTypes sha V E json)))
    (hlog : log = (withFunctions refresh complete stored answers test).log)
    (hlog' : log' = (withFunctions false false files' answers' test').log)
    (hw : (withFunctions refresh complete stored answers test).files = some files)
    (hp : files.Perm files')
    (hplain : ∀ e ∈ log ++ log', PlainCall e.call)
    (hno : NoCollision sha (fun t => ∃ e ∈ log ++ log', t = FnCall.text e.call)) :
    ∀ e ∈ log',
      (∃ pre a post v w, log = pre ++ a :: post ∧ SameCall a.call e.call ∧ a.outcome = .val v ∧
        (∀ a' ∈ post, SameCall a'.call e.call → ∀ v', a'.outcome ≠ .val v') ∧
        json v = some w ∧ e.outcome = .val w) ∨
      ((∀ a ∈ log, SameCall a.call e.call → ∀ v, a.outcome ≠ .val v) ∧ e.outcome = .missing) := by
  intro e he
  have hsame : ∀ a ∈ log, (fnTypes sha V E json).hash a.call = some (sha (FnCall.text e.call)) ↔
      SameCall a.call e.call := by
    intro a ha
    have h1 : (fnTypes sha V E json).hash a.call = some (sha (FnCall.text a.call)) := rfl
    rw [h1, Option.some.injEq]
    have hma : a ∈ log ++ log' := List.mem_append_left _ ha
    have hme : e ∈ log ++ log' := List.mem_append_right _ he
    rw [← C110_told_apart_partial a.call e.call (hplain a hma) (hplain e hme)]
    exact ⟨fun h => hno _ _ ⟨a, hma, rfl⟩ ⟨e, hme, rfl⟩ h, fun h => by rw [h]⟩
  obtain ⟨h1, h2⟩ := C50_last_captured refresh complete stored answers answers' test test' files files' hw hp e
    (hlog' ▸ he) (sha (FnCall.text e.call)) rfl
  rw [← hlog] at h1 h2
  cases hl : lastValue log (sha (FnCall.text e.call)) with
  | some v =>
    left
    obtain ⟨w, hw1, hw2⟩ := h1 v hl
    obtain ⟨pre, a, post, e1, e2, e3, e4⟩ := last_of_value hl
    refine ⟨pre, a, post, v, w, e1, ?_, e3, ?_, hw1, hw2⟩
    · exact (hsame a (by rw [e1]; simp)).mp e2
    · intro a' ha' hs
      exact e4 a' ha' ((hsame a' (by rw [e1]; simp [ha'])).mpr hs)
  | none =>
    right
    refine ⟨?_, h2 hl⟩
    intro a ha hs v ho
    exact value_of_last ha ((hsame a ha).mpr hs) ho hl

/-- The digest of the examples: the text itself, so that nothing collides. -/
private abbrev idT : FnTypes := fnTypes id Nat Nat some

/-- A test that makes these calls. -/
private def makes : List FnCall → Prog idT
  | [] => .done
  | c :: l => .call c (fun _ => makes l)

/-- The results seen in a replay of these calls after a capture run of those calls, in which the answers
were 0, 1, … -/
private def replayed (captured replay : List FnCall) : Option (List (Option Nat)) :=
  (withFunctions (T := idT) true false [] (fun n => .ok n) (makes captured)).files.map (fun files =>
    (withFunctions (T := idT) false false files (fun n => .ok n) (makes replay)).log.map (fun e =>
      match e.outcome with
      | .val v => some v
      | _ => none))

private def callOf (m : Str) (args : List PyData) (kwargs : List (Str × PyData)) : FnCall :=
  ⟨m, "f".toList, args, kwargs⟩

/-- Two calls are captured and replayed in the other order; a third is missing. -/
example : replayed [callOf [] [.int 1] [], callOf [] [.str "1".toList] []]
    [callOf [] [.str "1".toList] [], callOf [] [.int 1] [], callOf [] [.int 1, .none] []] =
    some [some 1, some 0, none] := by decide +kernel

/-- The module of a function is not hashed: `a.f()` is replayed with the result of `b.f()`. -/
theorem C110_module_refuted :
    replayed [callOf "b".toList [] []] [callOf "a".toList [] []] = some [some 0] := by decide +kernel

/-- In one test that calls both `a.f()` and `b.f()`, a replay gives both the result of the second. -/
theorem C110_modules_refuted :
    replayed [callOf "a".toList [] [], callOf "b".toList [] []]
      [callOf "a".toList [] [], callOf "b".toList [] []] = some [some 1, some 1] := by decide +kernel

/-- Tuples are hashed like lists: `f((1,))` is replayed with the result of `f([1])`. -/
theorem C110_tuple_refuted :
    replayed [callOf [] [.list [.int 1]] []] [callOf [] [.tuple [.int 1]] []] = some [some 0] := by
  decide +kernel

/-- Numbers as keys are hashed like strings: `f({1: 'a'})` is replayed with the result of
`f({'1': 'a'})`. -/
theorem C110_key_refuted :
    replayed [callOf [] [.dict [(.str "1".toList, .str "a".toList)]] []]
      [callOf [] [.dict [(.int 1, .str "a".toList)]] []] = some [some 0] := by decide +kernel

/-- The order of keyword arguments is hashed: `f(y=2, x=1)` is not found after `f(x=1, y=2)`, although
for Python these are the same call. -/
theorem C110_order_refuted :
    replayed [callOf [] [] [("x".toList, .int 1), ("y".toList, .int 2)]]
      [callOf [] [] [("y".toList, .int 2), ("x".toList, .int 1)]] = some [none] := by decide +kernel

/-! ### C111: requests -/

private theorem plain_opt {name : Str} {o : Option PyData} (h : ∀ x, o = some x → PlainData x) :
    ∀ p ∈ optField name o, (∃ s, p.1 = .str s) ∧ PlainData p.2 := by
  intro p hp
  cases o with
  | none => cases hp
  | some x =>
    rcases List.mem_cons.mp hp with rfl | hp
    · exact ⟨⟨_, rfl⟩, h x rfl⟩
    · cases hp

private theorem plain_headers (hs : Dict Str) :
    PlainData (.dict ((sortedBy pairLe hs).map (fun p => (.str p.1, .str p.2)))) := by
  refine .dict _ ?_ ?_
  · intro q hq
    obtain ⟨a, _, rfl⟩ := List.mem_map.mp hq
    exact ⟨_, rfl⟩
  · intro q hq
    obtain ⟨a, _, rfl⟩ := List.mem_map.mp hq
    exact .str _

private theorem plain_json (j : RqJson) : PlainData j.data := by
  have h : ∀ p ∈ optField "body".toList (j.body.map PyData.str) ++
      optField "headers".toList
        (j.headers.map (fun hs => PyData.dict ((sortedBy pairLe hs).map (fun p => (.str p.1, .str p.2))))) ++
      [(PyKey.str "method".toList, PyData.str j.method)] ++
      optField "order".toList (j.order.map (fun n => PyData.int n)) ++
      [(PyKey.str "url".toList, PyData.str j.url)], (∃ s, p.1 = .str s) ∧ PlainData p.2 := by
    intro p hp
    simp only [List.mem_append, List.mem_cons, List.not_mem_nil, or_false] at hp
    rcases hp with (((hp | hp) | rfl) | hp) | rfl
    · refine plain_opt ?_ p hp
      intro x hx
      obtain ⟨b, _, rfl⟩ := Option.map_eq_some_iff.mp hx
      exact .str _
    · refine plain_opt ?_ p hp
      intro x hx
      obtain ⟨b, _, rfl⟩ := Option.map_eq_some_iff.mp hx
      exact plain_headers b
    · exact ⟨⟨_, rfl⟩, .str _⟩
    · refine plain_opt ?_ p hp
      intro x hx
      obtain ⟨b, _, rfl⟩ := Option.map_eq_some_iff.mp hx
      exact .int _
    · exact ⟨⟨_, rfl⟩, .str _⟩
  exact .dict _ (fun p hp => (h p hp).1) (fun p hp => (h p hp).2)

private theorem headers_inj {a b : List (Str × Str)}
    (h : a.map (fun p => (PyKey.str p.1, PyData.str p.2)) = b.map (fun p => (PyKey.str p.1, PyData.str p.2))) :
    a = b := by
  induction a generalizing b with
  | nil => cases b with
    | nil => rfl
    | cons _ _ => cases h
  | cons p a ih => cases b with
    | nil => cases h
    | cons q b =>
      simp only [List.map_cons, List.cons.injEq, Prod.mk.injEq, PyKey.str.injEq, PyData.str.injEq] at h
      rw [ih h.2, Prod.ext h.1.1 h.1.2]

/-- An optional field at the front is told apart by its name. -/
private theorem opt_inj {name : Str} {a b : Option PyData} {l m : List (PyKey × PyData)}
    (hl : ∀ p, l.head? = some p → p.1 ≠ .str name) (hm : ∀ p, m.head? = some p → p.1 ≠ .str name)
    (h : optField name a ++ l = optField name b ++ m) : a = b ∧ l = m := by
  cases a with
  | none =>
    cases b with
    | none => exact ⟨rfl, h⟩
    | some y =>
      have h' : l = (.str name, y) :: m := h
      exact absurd rfl (hl _ (by rw [h']; rfl))
  | some x =>
    cases b with
    | none =>
      have h' : (.str name, x) :: l = m := h
      exact absurd rfl (hm _ (by rw [← h']; rfl))
    | some y =>
      have h' : (PyKey.str name, x) :: l = (.str name, y) :: m := h
      simp only [List.cons.injEq, Prod.mk.injEq, true_and] at h'
      exact ⟨by rw [h'.1], h'.2⟩

/-- The headers in the order of their names. -/
private abbrev inOrder (hs : Option (Dict Str)) : Option (List (Str × Str)) := hs.map (sortedBy pairLe)

private theorem data_inj (a b : RqJson) :
    a.data = b.data ↔ a.url = b.url ∧ a.method = b.method ∧ a.body = b.body ∧ a.order = b.order ∧
      inOrder a.headers = inOrder b.headers := by
  constructor
  · intro h
    unfold RqJson.data at h
    simp only [PyData.dict.injEq, List.append_assoc] at h
    have hne : ∀ {s t : Str}, s ≠ t → (PyKey.str s) ≠ .str t := fun h e => h (by injection e)
    have tail1 : ∀ (x : PyData) (l : List (PyKey × PyData)) (p : PyKey × PyData),
        ([(PyKey.str "method".toList, x)] ++ l).head? = some p → p.1 = .str "method".toList := by
      intro x l p hp; injection hp with hp; rw [← hp]
    have tail2 : ∀ (x : PyData) (p : PyKey × PyData),
        [(PyKey.str "url".toList, x)].head? = some p → p.1 = .str "url".toList := by
      intro x p hp; injection hp with hp; rw [← hp]
    have tail3 : ∀ (o : Option PyData) (x : PyData) (l : List (PyKey × PyData)) (p : PyKey × PyData),
        (optField "headers".toList o ++ ([(PyKey.str "method".toList, x)] ++ l)).head? = some p →
        p.1 = .str "headers".toList ∨ p.1 = .str "method".toList := by
      intro o x l p hp
      cases o with
      | none => injection hp with hp; rw [← hp]; exact .inr rfl
      | some y => injection hp with hp; rw [← hp]; exact .inl rfl
    obtain ⟨h1, h⟩ := opt_inj
      (by
        intro p hp
        rcases tail3 _ _ _ p hp with e | e <;> rw [e] <;> exact hne (by decide))
      (by
        intro p hp
        rcases tail3 _ _ _ p hp with e | e <;> rw [e] <;> exact hne (by decide)) h
    obtain ⟨h2, h⟩ := opt_inj
      (by intro p hp; rw [tail1 _ _ p hp]; exact hne (by decide))
      (by intro p hp; rw [tail1 _ _ p hp]; exact hne (by decide)) h
    have h' : (PyKey.str "method".toList, PyData.str a.method) ::
        (optField "order".toList (a.order.map (fun n => PyData.int n)) ++ [(PyKey.str "url".toList, PyData.str a.url)]) =
        (PyKey.str "method".toList, PyData.str b.method) ::
        (optField "order".toList (b.order.map (fun n => PyData.int n)) ++ [(PyKey.str "url".toList, PyData.str b.url)]) := h
    simp only [List.cons.injEq, Prod.mk.injEq, true_and, PyData.str.injEq] at h'
    obtain ⟨h3, h⟩ := h'
    obtain ⟨h4, h⟩ := opt_inj
      (by intro p hp; rw [tail2 _ p hp]; exact hne (by decide))
      (by intro p hp; rw [tail2 _ p hp]; exact hne (by decide)) h
    simp only [List.cons.injEq, Prod.mk.injEq, true_and, PyData.str.injEq, and_true] at h
    refine ⟨h, h3, ?_, ?_, ?_⟩
    · cases ha : a.body <;> cases hb : b.body <;> simp_all
    · cases ha : a.order with
      | none => cases hb : b.order with
        | none => rfl
        | some y => rw [ha, hb] at h4; cases h4
      | some x => cases hb : b.order with
        | none => rw [ha, hb] at h4; cases h4
        | some y =>
          rw [ha, hb] at h4
          injection h4 with h4
          injection h4 with h4
          injection h4 with h4
          rw [h4]
    · cases ha : a.headers with
      | none => cases hb : b.headers with
        | none => rfl
        | some y => rw [ha, hb] at h2; cases h2
      | some x => cases hb : b.headers with
        | none => rw [ha, hb] at h2; cases h2
        | some y =>
          rw [ha, hb] at h2
          simp only [Option.map_some, Option.some.injEq, PyData.dict.injEq] at h2
          simp only [inOrder, Option.map_some, headers_inj h2]
  · rintro ⟨h1, h2, h3, h4, h5⟩
    have h6 : (a.headers.map (fun hs => PyData.dict ((sortedBy pairLe hs).map (fun p => (.str p.1, .str p.2))))) =
        (b.headers.map (fun hs => PyData.dict ((sortedBy pairLe hs).map (fun p => (.str p.1, .str p.2))))) := by
      cases ha : a.headers with
      | none => cases hb : b.headers with
        | none => rfl
        | some y => rw [ha, hb] at h5; cases h5
      | some x => cases hb : b.headers with
        | none => rw [ha, hb] at h5; cases h5
        | some y =>
          rw [ha, hb] at h5
          simp only [Option.map_some, Option.some.injEq] at h5
          simp only [Option.map_some, h5]
    unfold RqJson.data
    rw [h1, h2, h3, h4, h6]

/-- The model of requests with the digest of the code. -/
def shaT (T : RqTypes) (sha : Str → Str) : RqTypes := ⟨T.V, T.S, T.E, T.save, T.load, jsonToSha1 sha, T.lower⟩

/-- **C111**: unless SHA-1 values of request keys collide, the digest is as the theorems about requests
(C52, C55, C109) assume. -/
theorem C111_digest (T : RqTypes) (sha : Str → Str) (J : RqJson → Prop)
    (h : NoCollision sha (fun t => ∃ j : RqJson, J j ∧ t = dumps j.data)) : DigestOK (shaT T sha) J := by
  intro a b ha hb hab
  have h1 := (data_inj a b).mp (dumps_eq (plain_json a) (plain_json b) (h _ _ ⟨a, ha, rfl⟩ ⟨b, hb, rfl⟩ hab))
  refine ⟨h1.2.2.2.1, ?_⟩
  intro k _ _
  change sha (dumps (RqJson.data { a with order := k })) = sha (dumps (RqJson.data { b with order := k }))
  rw [(data_inj { a with order := k } { b with order := k }).mpr ⟨h1.1, h1.2.1, h1.2.2.1, rfl, h1.2.2.2.2⟩]

/-- **C111**: so the assumption of the theorems about replays, `HashOK`, is that the SHA-1 values of finitely
many texts do not collide: the keys of the requests of the run, counted up to their number. -/
theorem C111_hashes (T : RqTypes) (sha : Str → Str) (ign : Ignore) (S : Rq → Prop) (N : Nat)
    (h : NoCollision sha (fun t => ∃ j : RqJson, RequestObjects (shaT T sha) ign S N j ∧ t = dumps j.data)) :
    HashOK (shaT T sha) ign none S N := C52_default ign S N (C111_digest T sha _ h)

private theorem perm_of_same {α : Type} [BEq α] [LawfulBEq α] {l m : List α} (hl : l.Nodup) (hm : m.Nodup)
    (h : ∀ a, a ∈ l ↔ a ∈ m) : l.Perm m := by
  rw [List.perm_iff_count]
  intro a
  rw [hl.count, hm.count]
  simp only [h]

private theorem dropHeaders_headers (T : RqTypes) (ign : Ignore) (r : Rq) :
    (dropHeaders T ign ⟨r.url, r.method, some r.headers, r.body, none⟩).headers =
      match ign with
      | .nothing => some r.headers
      | .everything => none
      | .these names => some (r.headers.filter (fun p => !(names.map T.lower).contains (T.lower p.1))) := by
  cases ign <;> rfl

private theorem dropHeaders_rest (T : RqTypes) (ign : Ignore) (r : Rq) :
    (dropHeaders T ign ⟨r.url, r.method, some r.headers, r.body, none⟩).url = r.url ∧
    (dropHeaders T ign ⟨r.url, r.method, some r.headers, r.body, none⟩).method = r.method ∧
    (dropHeaders T ign ⟨r.url, r.method, some r.headers, r.body, none⟩).body = r.body := by
  cases ign <;> exact ⟨rfl, rfl, rfl⟩

private theorem sorted_same {a b : Dict Str} (ha : a.Nodup) (hb : b.Nodup) :
    sortedBy pairLe a = sortedBy pairLe b ↔ ∀ p, p ∈ a ↔ p ∈ b := by
  constructor
  · intro h p
    rw [← (sortedBy_perm pairLe a).mem_iff, h, (sortedBy_perm pairLe b).mem_iff]
  · intro h
    exact sortedBy_congr pairLe_trans pairLe_total pairLe_antisymm (perm_of_same ha hb h)

private theorem keeps_these (lower : Str → Str) (names : List Str) (p : Str × Str) :
    (!(names.map lower).contains (lower p.1)) = true ↔ KeepsHeader lower (.these names) p := by
  simp only [Bool.not_eq_true', List.contains_eq_mem, decide_eq_false_iff_not, List.mem_map, not_exists, not_and]
  constructor
  · intro h; exact .these names p h
  · rintro (_ | ⟨_, _, h⟩); exact h

private theorem nodup_of_names {l : Dict Str} (h : (l.map (·.1)).Nodup) : l.Nodup := by
  induction l with
  | nil => exact .nil
  | cons p l ih =>
    simp only [List.map_cons, List.nodup_cons] at h
    exact List.nodup_cons.mpr ⟨fun hp => h.1 (List.mem_map.mpr ⟨p, hp, rfl⟩), ih h.2⟩

private theorem headers_same (T : RqTypes) (ign : Ignore) (r r' : Rq)
    (hn : (r.headers.map (·.1)).Nodup) (hn' : (r'.headers.map (·.1)).Nodup) :
    inOrder (dropHeaders T ign ⟨r.url, r.method, some r.headers, r.body, none⟩).headers =
      inOrder (dropHeaders T ign ⟨r'.url, r'.method, some r'.headers, r'.body, none⟩).headers ↔
    ∀ p, KeepsHeader T.lower ign p → (p ∈ r.headers ↔ p ∈ r'.headers) := by
  have hn1 := nodup_of_names hn
  have hn2 := nodup_of_names hn'
  rw [dropHeaders_headers, dropHeaders_headers]
  cases ign with
  | nothing =>
    simp only [inOrder, Option.map_some, Option.some.injEq]
    rw [sorted_same hn1 hn2]
    exact ⟨fun h p _ => h p, fun h p => h p (.nothing p)⟩
  | everything =>
    simp only [inOrder, Option.map_none, true_iff]
    intro p hp
    cases hp
  | these names =>
    simp only [inOrder, Option.map_some, Option.some.injEq]
    rw [sorted_same (hn1.filter _) (hn2.filter _)]
    constructor
    · intro h p hp
      have := h p
      simpa only [List.mem_filter, (keeps_these T.lower names p).mpr hp, and_true] using this
    · intro h p
      simp only [List.mem_filter, keeps_these]
      constructor
      · rintro ⟨h1, h2⟩; exact ⟨(h p h2).mp h1, h2⟩
      · rintro ⟨h1, h2⟩; exact ⟨(h p h2).mpr h1, h2⟩

/-- **C111**: the `n`-th request in a row of equal ones is taken for the `m`-th of another row exactly if
`n = m` and the rows have the same URL, method and body and the same headers among those that are not
ignored; the order of the headers does not matter.  Of the digest only this is assumed: it does not
collide for these two texts. -/
theorem C111_same (T : RqTypes) (sha : Str → Str) (ign : Ignore) (r r' : Rq)
    (hn : (r.headers.map (·.1)).Nodup) (hn' : (r'.headers.map (·.1)).Nodup) (n m : Nat)
    (hno : NoCollision sha (fun t => t = dumps (nthKey (shaT T sha) ign none r n).json.data ∨
      t = dumps (nthKey (shaT T sha) ign none r' m).json.data)) :
    nthHash (shaT T sha) ign none r n = nthHash (shaT T sha) ign none r' m ↔
      n = m ∧ r.url = r'.url ∧ r.method = r'.method ∧ r.body = r'.body ∧
      ∀ p, KeepsHeader T.lower ign p → (p ∈ r.headers ↔ p ∈ r'.headers) := by
  have hash_eq : ∀ (r : Rq) n, nthHash (shaT T sha) ign none r n =
      sha (dumps (nthKey (shaT T sha) ign none r n).json.data) := by
    intro r n
    cases n with
    | zero => rfl
    | succ n => rfl
  have hj : ∀ (r : Rq), (fromRequest (shaT T sha) ign none r).json =
      dropHeaders (shaT T sha) ign ⟨r.url, r.method, some r.headers, r.body, none⟩ := fun _ => rfl
  have hord : ((if n = 0 then none else some n : Option Nat) = if m = 0 then none else some m) ↔ n = m := by
    constructor
    · intro h
      split at h <;> split at h
      · omega
      · cases h
      · cases h
      · injection h
    · intro h; rw [h]
  obtain ⟨u1, u2, u3⟩ := dropHeaders_rest (shaT T sha) ign r
  obtain ⟨v1, v2, v3⟩ := dropHeaders_rest (shaT T sha) ign r'
  have hdata : (nthKey (shaT T sha) ign none r n).json.data = (nthKey (shaT T sha) ign none r' m).json.data ↔
      n = m ∧ r.url = r'.url ∧ r.method = r'.method ∧ r.body = r'.body ∧
      ∀ p, KeepsHeader T.lower ign p → (p ∈ r.headers ↔ p ∈ r'.headers) := by
    rw [data_inj, nthKey_json, nthKey_json, hj, hj]
    dsimp only
    rw [u1, u2, u3, v1, v2, v3, hord, headers_same (shaT T sha) ign r r' hn hn']
    constructor
    · rintro ⟨a, b, c, d, e⟩; exact ⟨d, a, b, c, e⟩
    · rintro ⟨d, a, b, c, e⟩; exact ⟨a, b, c, d, e⟩
  rw [hash_eq, hash_eq, ← hdata]
  constructor
  · intro h
    exact dumps_eq (plain_json _) (plain_json _) (hno _ _ (.inl rfl) (.inr rfl) h)
  · intro h; rw [h]

/-- Two requests with their headers in different orders and different dates. -/
example : let r : Rq := ⟨"u".toList, "GET".toList, [("a".toList, "1".toList), ("Date".toList, "2".toList), ("b".toList, "3".toList)], none⟩
    let r' : Rq := ⟨"u".toList, "GET".toList, [("b".toList, "3".toList), ("a".toList, "1".toList), ("Date".toList, "4".toList)], none⟩
    (r.headers.map (·.1)).Nodup ∧ (r'.headers.map (·.1)).Nodup ∧ NoCollision id (fun _ => True) ∧
    nthHash (shaT numR id) (.these ["Date".toList]) none r 1 = nthHash (shaT numR id) (.these ["Date".toList]) none r' 1 ∧
    nthHash (shaT numR id) (.these []) none r 1 ≠ nthHash (shaT numR id) (.these []) none r' 1 ∧
    nthHash (shaT numR id) (.these ["Date".toList]) none r 1 ≠ nthHash (shaT numR id) (.these ["Date".toList]) none r' 2 := by
  refine ⟨by decide, by decide, fun _ _ _ _ h => h, by decide +kernel, by decide +kernel, by decide +kernel⟩

end Verif.Props
