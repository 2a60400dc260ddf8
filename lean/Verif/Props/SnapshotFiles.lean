import Verif.Lemmas.SnapshotFiles
import Verif.Lemmas.Base64
import Verif.Props.Functions
import Verif.Props.Loads
import Verif.Lemmas.Requests

/-! # C121, C122: snapshots go through the texts of their files unharmed -/

namespace Verif.Props
open Verif.Py Verif.Model Verif.Spec Verif.Lemmas

variable {digest : Str → Str} {E : Type}

/-! ### Function snapshots -/

/-- C121: the file of a recorded call gives back the hash and the result. -/
theorem C121_file (call : PyData) (hash : Str) (result : PyData) (hc : GoodCall call) (hr : Storable result) :
    ∃ c, readCall digest E (callText call hash result) = some ⟨c, hash, asRead result⟩ :=
  ⟨_, readCall_text hc hr⟩

/-- C121: writing again what was read gives the same text, so files of calls that are replayed do not change. -/
theorem C121_rewritten (call : PyData) (hash : Str) (result : PyData) (hc : GoodCall call) (hr : Storable result)
    (s : FnSnap (pyFunctions digest E)) (h : readCall digest E (callText call hash result) = some s) :
    callText s.call s.hash s.result = callText call hash result := by
  rw [readCall_text hc hr] at h
  injection h with h
  subst h
  dsimp only
  rw [callText_asRead, rewritten_text hc]

private theorem loaded {stored : Dict Str} (hs : WrittenFiles stored) :
    ∃ snaps : List (FnSnap (pyFunctions digest E)), stored.mapM (fun p => readCall digest E p.2) = some snaps ∧
      ∀ s ∈ snaps, GoodSnap s := by
  induction stored with
  | nil => exact ⟨[], rfl, by simp⟩
  | cons p stored ih =>
    obtain ⟨snaps, h1, h2⟩ := ih (fun q hq => hs q (List.mem_cons_of_mem _ hq))
    obtain ⟨call, x, result, hc, hr, rfl⟩ := hs p List.mem_cons_self
    refine ⟨⟨asRead (withHash call x), x, asRead result⟩ :: snaps, ?_, ?_⟩
    · rw [List.mapM_cons, h1]
      dsimp only
      rw [readCall_text hc hr]
      rfl
    · intro s hm
      rcases List.mem_cons.mp hm with rfl | hm
      · exact ⟨storable_asRead _ hr, call, hc, .inr rfl⟩
      · exact h2 s hm

private theorem lastValue_event {T : FnTypes} {log : List (FnEvent T)} {h : Str} {v : T.V}
    (hv : lastValue log h = some v) : ∃ e ∈ log, e.outcome = .val v := by
  induction log with
  | nil => cases hv
  | cons e log ih =>
    simp only [lastValue, Option.or_eq_some_iff] at hv
    rcases hv with hv | ⟨_, hv⟩
    · obtain ⟨e', h1, h2⟩ := ih hv
      exact ⟨e', List.mem_cons_of_mem _ h1, h2⟩
    · refine ⟨e, List.mem_cons_self, ?_⟩
      unfold valueFor at hv
      split at hv
      · split at hv
        · rename_i ho
          injection hv with hv
          rw [ho, hv]
        · cases hv
      · cases hv

/-- Everything about a run over files that booktest has written. -/
private theorem text_run (refresh complete : Bool) (stored : Dict Str) (hs : WrittenFiles stored)
    (answers : Nat → Except E PyData) (test : Prog (pyFunctions digest E)) :
    ∃ (fs : FnFiles (pyFunctions digest E)) (r : TextRun digest E),
      withFunctionTexts refresh complete stored answers test = some r ∧
      r.log = (withFunctions refresh complete fs answers test).log ∧
      ((∀ e ∈ r.log, GoodCall e.call ∧ ∀ v, e.outcome = .val v → Storable v) →
        ∃ files, (withFunctions refresh complete fs answers test).files = some files ∧
          r.files = files.map (fun p => (p.1, callText p.2.call p.2.hash p.2.result)) ∧
          ∀ p ∈ files, GoodSnap p.2 ∧ p.1 = p.2.hash ++ ".json".toList ∧ asRead p.2.result = p.2.result) := by
  obtain ⟨snaps, h1, h2⟩ := loaded (digest := digest) (E := E) hs
  refine ⟨snaps.map (fun s => ([], s)),
    ⟨(runProg (T := pyFunctions digest E) (refresh || complete) (if refresh then [] else snaps) answers test [] 0).1,
     fnListing (runProg (T := pyFunctions digest E) (refresh || complete) (if refresh then [] else snaps) answers test [] 0).2,
     writeTexts (runProg (T := pyFunctions digest E) (refresh || complete) (if refresh then [] else snaps) answers test [] 0).2
      []⟩, ?_, ?_, ?_⟩
  · unfold withFunctionTexts
    cases refresh with
    | true => rfl
    | false =>
      rw [if_neg (by decide), h1]
      rfl
  · unfold withFunctions
    dsimp only
    rw [List.map_map]
    have : snaps.map ((fun p : Str × FnSnap (pyFunctions digest E) => p.2) ∘ fun s => ([], s)) = snaps := by
      rw [show ((fun p : Str × FnSnap (pyFunctions digest E) => p.2) ∘ fun s => ([], s)) = id from rfl, List.map_id]
    rw [this]
  · intro hlog
    dsimp only at hlog ⊢
    have hgood : ∀ s ∈ (runProg (T := pyFunctions digest E) (refresh || complete) (if refresh then [] else snaps)
        answers test [] 0).2, GoodSnap s := by
      intro s hm
      rcases calls_from _ _ _ _ _ _ s hm with h | h | ⟨e, he, e1, e2⟩
      · cases h
      · cases refresh with
        | true => cases h
        | false => exact h2 s h
      · obtain ⟨g1, g2⟩ := hlog e he
        exact ⟨g2 _ e2, e.call, g1, .inl e1.symm⟩
    obtain ⟨files, k1, k2, k3⟩ := writeTexts_files _ hgood [] (by intro p hp; cases hp)
    refine ⟨files, ?_, k2, k3⟩
    unfold withFunctions
    dsimp only
    rw [List.map_map]
    have : snaps.map ((fun p : Str × FnSnap (pyFunctions digest E) => p.2) ∘ fun s => ([], s)) = snaps := by
      rw [show ((fun p : Str × FnSnap (pyFunctions digest E) => p.2) ∘ fun s => ([], s)) = id from rfl, List.map_id]
    rw [this]
    exact k1

/-- C121: whatever a run records as texts in its files is what a later run gets from these texts, in whatever order the
files are listed: for a call that returned values in the first run, the last one as JSON gives it back; for any other
call an exception. No function is really called. -/
theorem C121_replay (refresh complete : Bool) (stored : Dict Str) (hs : WrittenFiles stored)
    (answers answers' : Nat → Except E PyData) (test test' : Prog (pyFunctions digest E)) (r : TextRun digest E)
    (h1 : withFunctionTexts refresh complete stored answers test = some r)
    (hlog : ∀ e ∈ r.log, GoodCall e.call ∧ ∀ v, e.outcome = .val v → Storable v)
    (files : Dict Str) (hp : files.Perm r.files) :
    ∃ r', withFunctionTexts false false files answers' test' = some r' ∧
      ∀ e ∈ r'.log, e.real = false ∧ ∀ h, callHash digest e.call = some h →
        (∀ v, lastValue r.log h = some v → e.outcome = .val (asRead v)) ∧
        (lastValue r.log h = none → e.outcome = .missing) := by
  obtain ⟨fs, r0, g1, g2, g3⟩ := text_run (digest := digest) refresh complete stored hs answers test
  rw [h1] at g1
  injection g1 with g1
  subst g1
  obtain ⟨fs1, k1, k2, k3⟩ := g3 hlog
  rw [k2] at hp
  obtain ⟨fs2, p1, p2⟩ := perm_of_map _ hp
  have hread : files.mapM (fun p => readCall digest E p.2) = some (fs2.map (fun p => rereadSnap p.2)) := by
    rw [p2, List.mapM_map]
    exact mapM_some (fun p hm => readCall_good p.2 (k3 p (p1.mem_iff.mp hm)).1)
  have hrun : withFunctionTexts false false files answers' test' = some
      (let x := runProg (T := pyFunctions digest E) (false || false) (fs2.map (fun p => rereadSnap p.2)) answers' test' [] 0
       ⟨x.1, fnListing x.2, writeTexts x.2 []⟩) := by
    unfold withFunctionTexts
    rw [if_neg (by decide), hread]
  refine ⟨_, hrun, ?_⟩
  · intro e he
    dsimp only at he
    have hkeys : (fs2.map (fun p => rereadSnap p.2)).map (fun s => (s.hash, s.result)) =
        (fs2.map (·.2)).map (fun s => (s.hash, s.result)) := by
      simp only [List.map_map]
      apply List.map_congr_left
      intro p hm
      exact congrArg (Prod.mk p.2.hash) (k3 p (p1.mem_iff.mp hm)).2.2
    have he' : e ∈ (withFunctions (T := pyFunctions digest E) false false fs2 answers' test').log := by
      unfold withFunctions
      dsimp only
      rw [if_neg (by decide), ← log_congr _ _ _ answers' hkeys test' [] [] 0]
      exact he
    refine ⟨(C49_replay (T := pyFunctions digest E) fs2 answers' test' e he').1, ?_⟩
    intro h hh
    have := C50_last_captured (T := pyFunctions digest E) refresh complete fs answers answers' test test' fs1 fs2 k1
      p1.symm e he' h hh
    rw [← g2] at this
    refine ⟨?_, this.2⟩
    intro v hv
    obtain ⟨w, w1, w2⟩ := this.1 v hv
    obtain ⟨ev, hev, hv'⟩ := lastValue_event hv
    have : (pyFunctions digest E).json v = some (asRead v) := loads_dumpIndent 4 ((hlog ev hev).2 v hv')
    rw [this] at w1
    injection w1 with w1
    rw [w2, w1]

/-- C121: the files a run leaves are files that booktest has written, so all of this goes on for any number of runs. -/
theorem C121_written (refresh complete : Bool) (stored : Dict Str) (hs : WrittenFiles stored)
    (answers : Nat → Except E PyData) (test : Prog (pyFunctions digest E)) :
    ∃ r, withFunctionTexts refresh complete stored answers test = some r ∧
      ((∀ e ∈ r.log, GoodCall e.call ∧ ∀ v, e.outcome = .val v → Storable v) → WrittenFiles r.files) := by
  obtain ⟨fs, r, g1, g2, g3⟩ := text_run (digest := digest) refresh complete stored hs answers test
  refine ⟨r, g1, ?_⟩
  intro hlog
  obtain ⟨fs1, k1, k2, k3⟩ := g3 hlog
  intro p hp
  rw [k2] at hp
  obtain ⟨q, hq, rfl⟩ := List.mem_map.mp hp
  obtain ⟨q1, q2, -⟩ := k3 q hq
  obtain ⟨call, hc, _, e⟩ := good_text q.2 q1
  exact ⟨call, q.2.hash, q.2.result, hc, q1.1, by rw [q2, e]⟩

/-- A test that makes one call and does nothing else. -/
private def oneCall (digest : Str → Str) (E : Type) : Prog (pyFunctions digest E) :=
  .call (FnCall.data ⟨[], "f".toList, [.int 3], []⟩) (fun _ => .done)

private def tooClever : Nat → Except Unit PyData := fun _ => .ok (.tuple [.int 1, .int 2])

/-- Whether the first outcome is a tuple. -/
private def sawTuple {digest : Str → Str} {E : Type} : List (PyData × FnOutcome (pyFunctions digest E)) → Bool
  | (_, .val v) :: _ => match (v : PyData) with
    | .tuple _ => true
    | _ => false
  | _ => false

private theorem good_f : GoodCall (FnCall.data ⟨[], "f".toList, [.int 3], []⟩) := by
  refine ⟨?_, _, rfl, ?_⟩
  · refine .dict _ (show (["func".toList, "args".toList, "kwargs".toList] : List Str).Nodup by decide) ?_
    intro p hp
    simp only [List.mem_cons, List.not_mem_nil, or_false] at hp
    rcases hp with rfl | rfl | rfl
    · exact .str _
    · refine .list _ ?_
      intro x hx
      simp only [List.mem_cons, List.not_mem_nil, or_false] at hx
      subst hx
      exact .int _
    · exact .dict _ (by simp) (by simp)
  · intro p hp
    simp only [List.mem_cons, List.not_mem_nil, or_false] at hp
    rcases hp with rfl | rfl | rfl <;> decide

/-- C121, what does not hold: a replay shows the test what the recording run showed it. A function that returns a tuple
returns a list when it is replayed. -/
theorem C121_same_type_refuted : ∃ (test : Prog (pyFunctions id Unit)) (r r' : TextRun id Unit),
    withFunctionTexts true false [] tooClever test = some r ∧
    (∀ e ∈ r.log, GoodCall e.call ∧ ∀ v, e.outcome = .val v → Storable v) ∧
    withFunctionTexts false false r.files tooClever test = some r' ∧
    observed r'.log ≠ observed r.log := by
  have hst : Storable (.tuple [.int 1, .int 2]) := by
    refine .tuple _ ?_
    intro x hx
    simp only [List.mem_cons, List.not_mem_nil, or_false] at hx
    rcases hx with rfl | rfl <;> exact .int _
  obtain ⟨r, h1, _⟩ := C121_written (digest := id) true false [] (by intro p hp; cases hp) tooClever (oneCall id Unit)
  have e1 : r.log = [⟨FnCall.data ⟨[], "f".toList, [.int 3], []⟩, .val (.tuple [.int 1, .int 2]), true⟩] := by
    have : some r.log = some [⟨FnCall.data ⟨[], "f".toList, [.int 3], []⟩, .val (.tuple [.int 1, .int 2]), true⟩] :=
      (congrArg (Option.map TextRun.log) h1).symm
    injection this
  have hlog : ∀ e ∈ r.log, GoodCall e.call ∧ ∀ v, e.outcome = .val v → Storable v := by
    rw [e1]
    intro e he
    simp only [List.mem_cons, List.not_mem_nil, or_false] at he
    subst he
    refine ⟨good_f, ?_⟩
    intro v hv
    injection hv with hv
    subst hv
    exact hst
  obtain ⟨r', h2, h3⟩ := C121_replay (digest := id) true false [] (by intro p hp; cases hp) tooClever tooClever
    (oneCall id Unit) (oneCall id Unit) r h1 hlog r.files (List.Perm.refl _)
  refine ⟨oneCall id Unit, r, r', h1, hlog, h2, ?_⟩
  intro h
  have hobs : sawTuple (observed r.log) = true := by rw [e1]; rfl
  rw [← h] at hobs
  cases hl : r'.log with
  | nil => rw [hl] at hobs; cases hobs
  | cons e l =>
    have hc : e.call = FnCall.data ⟨[], "f".toList, [.int 3], []⟩ := by
      have : (observed r'.log).map (·.1) = (observed r.log).map (·.1) := by rw [h]
      rw [hl, e1] at this
      injection this
    have := ((h3 e (by rw [hl]; exact List.mem_cons_self)).2 _ (by rw [hc]; rfl)).1 (.tuple [.int 1, .int 2])
      (by rw [e1]; rfl)
    rw [hl] at hobs
    unfold observed at hobs
    rw [List.map_cons, this] at hobs
    cases hobs

/-! ### Environment, requests, metrics -/

private theorem faithful_strings {hs : Dict Str} (h : ProperHeaders hs) : Faithful (headersData hs) := by
  refine faithful_dictData ?_ ?_
  · rw [List.map_map]
    exact h
  · intro p hp
    obtain ⟨q, _, rfl⟩ := List.mem_map.mp hp
    exact .str _

private theorem readHeaders_data (hs : Dict Str) : readHeaders (headersData hs) = some hs := by
  unfold readHeaders headersData dictData
  dsimp only
  rw [stringItems_dictData, List.mapM_map]
  have := mapM_some (f := fun p : Str × Str => some p) (g := id) (l := hs) (fun _ _ => rfl)
  rw [List.map_id] at this
  exact this

/-- C122: the snapshot file of variables gives back what was written. -/
theorem C122_env (cap : Dict EVal) (hn : (cap.map (·.1)).Nodup) (ho : ∀ p ∈ cap, p.2 ≠ .other) :
    readEnv (envText cap) = some cap := by
  unfold readEnv envText
  rw [C119_same]
  · unfold dictData
    dsimp only
    rw [stringItems_dictData, List.map_map]
    congr 1
    conv => rhs; rw [← List.map_id cap]
    apply List.map_congr_left
    rintro ⟨k, v⟩ hp
    cases v with
    | none => rfl
    | str s => rfl
    | other => exact absurd rfl (ho _ hp)
  · refine faithful_dictData ?_ ?_
    · rw [List.map_map]
      exact hn
    · intro p hp
      obtain ⟨⟨k, v⟩, _, rfl⟩ := List.mem_map.mp hp
      cases v with
      | none => exact .none
      | str s => exact .str s
      | other => exact .bool true

private theorem optKey {α : Type} (o : Option α) (name : Str) (f : α → PyData) :
    ((o.map (fun x => (name, f x))).toList.map (·.1)).Sublist [name] := by
  cases o with
  | none => exact List.nil_sublist _
  | some x => exact List.Sublist.refl _

private theorem faithful_request (j : RqJson) (h : Option Str) (hh : ∀ hs, j.headers = some hs → ProperHeaders hs) :
    Faithful (requestData j h) := by
  unfold requestData
  refine faithful_dictData ?_ ?_
  · have hd : (["url".toList, "method".toList] ++ ["headers".toList] ++ ["body".toList] ++ ["order".toList] ++
        ["hash".toList] : List Str).Nodup := by decide
    refine List.Sublist.nodup ?_ hd
    rw [List.map_append, List.map_append, List.map_append, List.map_append]
    exact ((((List.Sublist.refl _).append (optKey _ _ _)).append (optKey _ _ _)).append (optKey _ _ _)).append (optKey _ _ _)
  · intro p hp
    simp only [List.mem_append, List.mem_cons, List.not_mem_nil, or_false, Option.mem_toList,
      Option.map_eq_some_iff] at hp
    rcases hp with ((((rfl | rfl) | ⟨hs, h1, rfl⟩) | ⟨b, h1, rfl⟩) | ⟨n, h1, rfl⟩) | ⟨x, h1, rfl⟩
    · exact .str _
    · exact .str _
    · exact faithful_strings (hh hs h1)
    · exact .str _
    · exact .int _
    · exact .str _

private theorem readRequest_data (j : RqJson) (h : Option Str) : readRequest (requestData j h) = some (j, h) := by
  obtain ⟨url, method, headers, body, order⟩ := j
  have g1 : (requestData ⟨url, method, headers, body, order⟩ h).item "url".toList = some (.str url) := by
    unfold requestData; rw [item_dictData]; rfl
  have g2 : (requestData ⟨url, method, headers, body, order⟩ h).item "method".toList = some (.str method) := by
    unfold requestData; rw [item_dictData]; rfl
  have g3 : (requestData ⟨url, method, headers, body, order⟩ h).item "headers".toList = headers.map headersData := by
    unfold requestData; rw [item_dictData]
    cases headers <;> cases body <;> cases order <;> cases h <;> rfl
  have g4 : (requestData ⟨url, method, headers, body, order⟩ h).item "body".toList = body.map .str := by
    unfold requestData; rw [item_dictData]
    cases headers <;> cases body <;> cases order <;> cases h <;> rfl
  have g5 : (requestData ⟨url, method, headers, body, order⟩ h).item "order".toList =
      order.map (fun n => .int (Int.ofNat n)) := by
    unfold requestData; rw [item_dictData]
    cases headers <;> cases body <;> cases order <;> cases h <;> rfl
  have g6 : (requestData ⟨url, method, headers, body, order⟩ h).item "hash".toList = h.map .str := by
    unfold requestData; rw [item_dictData]
    cases headers <;> cases body <;> cases order <;> cases h <;> rfl
  have k3 : optItem (requestData ⟨url, method, headers, body, order⟩ h) "headers".toList readHeaders = some headers := by
    unfold optItem
    rw [g3]
    cases headers with
    | none => rfl
    | some hs => rw [Option.map_some]; dsimp only; rw [readHeaders_data]; rfl
  have k4 : optItem (requestData ⟨url, method, headers, body, order⟩ h) "body".toList PyData.asStr = some body := by
    unfold optItem
    rw [g4]
    cases body <;> rfl
  have k5 : optItem (requestData ⟨url, method, headers, body, order⟩ h) "order".toList PyData.asNat = some order := by
    unfold optItem
    rw [g5]
    cases order <;> rfl
  have k6 : optItem (requestData ⟨url, method, headers, body, order⟩ h) "hash".toList PyData.asStr = some h := by
    unfold optItem
    rw [g6]
    cases h <;> rfl
  unfold readRequest
  rw [g1, g2, k3, k4, k5, k6]
  rfl

/-- The snapshot file of either library. -/
private theorem requests_text {T : RqTypes} (data : T.S → PyData) (read : PyData → Option T.S) (d : Dict (StoredRq T))
    (hk : (d.map (·.1)).Nodup)
    (hh : ∀ p ∈ d, ∀ hs, p.2.request.headers = some hs → ProperHeaders hs)
    (hd : ∀ p ∈ d, Faithful (data p.2.response) ∧ read (data p.2.response) = some p.2.response) :
    readRequestsText read (requestsText data d) = some d := by
  unfold readRequestsText requestsText
  rw [C119_same]
  · unfold dictData
    dsimp only
    rw [stringItems_dictData, List.mapM_map]
    have : ∀ p ∈ d, ((fun p : Str × PyData => (readStored (T := T) read p.2).map (fun x => (p.1, x))) ∘
        fun p : Str × StoredRq T => (p.1, PyData.dict ([("request".toList, requestData p.2.request p.2.hash),
          ("response".toList, data p.2.response)].map (fun p => (PyKey.str p.1, p.2))))) p = some (id p) := by
      rintro ⟨k, rq, h, rp⟩ hp
      dsimp only [Function.comp]
      have e := (hd _ hp).2
      dsimp only at e
      have i1 := item_dictData [("request".toList, requestData rq h), ("response".toList, data rp)] "request".toList
      have i2 := item_dictData [("request".toList, requestData rq h), ("response".toList, data rp)] "response".toList
      unfold dictData at i1 i2
      unfold readStored
      rw [i1, i2]
      have j1 : Dict.get [("request".toList, requestData rq h), ("response".toList, data rp)] "request".toList =
        some (requestData rq h) := rfl
      have j2 : Dict.get [("request".toList, requestData rq h), ("response".toList, data rp)] "response".toList =
        some (data rp) := rfl
      rw [j1, j2, Option.bind_some, Option.bind_some, readRequest_data, e]
      rfl
    rw [mapM_some this, List.map_id]
  · refine faithful_dictData ?_ ?_
    · rw [List.map_map]
      exact hk
    · intro p hp
      obtain ⟨q, hq, rfl⟩ := List.mem_map.mp hp
      refine faithful_dictData (show (["request".toList, "response".toList] : List Str).Nodup by decide) ?_
      intro x hx
      simp only [List.mem_cons, List.not_mem_nil, or_false] at hx
      rcases hx with rfl | rfl
      · exact faithful_request _ _ (hh q hq)
      · exact (hd q hq).1

/-- C122: the snapshot file of `requests` gives back the dictionary that was written, with every request, hash, status,
encoding, header and text. -/
theorem C122_requests (E : Type) (digest : RqJson → Str) (lower : Str → Str) (d : Dict (StoredRq (requestsT E digest lower)))
    (hk : (d.map (·.1)).Nodup) (hh : ∀ p ∈ d, ∀ hs, p.2.request.headers = some hs → ProperHeaders hs)
    (hr : ∀ p ∈ d, ProperHeaders (RequestsStored.headers p.2.response)) :
    readRequestsText (T := requestsT E digest lower) readRequests (requestsText requestsData d) = some d := by
  apply requests_text (T := requestsT E digest lower) requestsData readRequests d hk hh
  intro p hp
  have h := hr p hp
  generalize (p.2.response : RequestsStored) = r at h
  obtain ⟨headers, status, encoding, content⟩ := r
  constructor
  · unfold requestsData
    refine faithful_dictData (show (["headers".toList, "statusCode".toList, "encoding".toList, "content".toList] :
      List Str).Nodup by decide) ?_
    intro x hx
    simp only [List.mem_cons, List.not_mem_nil, or_false] at hx
    rcases hx with rfl | rfl | rfl | rfl
    · exact faithful_strings h
    · exact .int _
    · cases encoding with
      | none => exact .none
      | some s => exact .str s
    · exact .str _
  · have g1 : (requestsData ⟨headers, status, encoding, content⟩).item "headers".toList = some (headersData headers) := by
      unfold requestsData; rw [item_dictData]; rfl
    have g2 : (requestsData ⟨headers, status, encoding, content⟩).item "statusCode".toList = some (.int (Int.ofNat status)) := by
      unfold requestsData; rw [item_dictData]; rfl
    have g3 : (requestsData ⟨headers, status, encoding, content⟩).item "encoding".toList = some (encodingData encoding) := by
      unfold requestsData; rw [item_dictData]; rfl
    have g4 : (requestsData ⟨headers, status, encoding, content⟩).item "content".toList = some (.str content) := by
      unfold requestsData; rw [item_dictData]; rfl
    unfold readRequests
    rw [g1, g2, g3, g4, Option.bind_some, readHeaders_data]
    cases encoding <;> rfl

/-- C122: the snapshot file of `httpx` gives back the dictionary that was written, with the content of the responses byte by
byte. -/
theorem C122_httpx (E : Type) (digest : RqJson → Str) (lower : Str → Str) (d : Dict (StoredRq (httpxT E digest lower)))
    (hk : (d.map (·.1)).Nodup) (hh : ∀ p ∈ d, ∀ hs, p.2.request.headers = some hs → ProperHeaders hs)
    (hr : ∀ p ∈ d, ProperHeaders (HttpxResponse.headers p.2.response)) :
    readRequestsText (T := httpxT E digest lower) readHttpx (requestsText httpxData d) = some d := by
  apply requests_text (T := httpxT E digest lower) httpxData readHttpx d hk hh
  intro p hp
  have h := hr p hp
  generalize (p.2.response : HttpxResponse) = r at h
  obtain ⟨headers, status, content⟩ := r
  constructor
  · unfold httpxData
    refine faithful_dictData (show (["headers".toList, "statusCode".toList, "content".toList] : List Str).Nodup by decide) ?_
    intro x hx
    simp only [List.mem_cons, List.not_mem_nil, or_false] at hx
    rcases hx with rfl | rfl | rfl
    · exact faithful_strings h
    · exact .int _
    · exact .str _
  · have g1 : (httpxData ⟨headers, status, content⟩).item "headers".toList = some (headersData headers) := by
      unfold httpxData; rw [item_dictData]; rfl
    have g2 : (httpxData ⟨headers, status, content⟩).item "statusCode".toList = some (.int (Int.ofNat status)) := by
      unfold httpxData; rw [item_dictData]; rfl
    have g3 : (httpxData ⟨headers, status, content⟩).item "content".toList = some (.str (b64encode content)) := by
      unfold httpxData; rw [item_dictData]; rfl
    unfold readHttpx
    rw [g1, g2, g3, Option.bind_some, readHeaders_data, Option.bind_some, Option.bind_some]
    have : PyData.asStr (.str (b64encode content)) = some (b64encode content) := rfl
    rw [this, Option.bind_some, b64decode_encode]
    rfl

/-- C122: base64 gives back all bytes. -/
theorem C122_base64 (b : Bytes) : b64decode (b64encode b) = some b := b64decode_encode b

/-- C122: `metrics.json` gives back the duration. -/
theorem C122_metrics (n : Nat) : readMetrics (metricsText n) = some (.int (Int.ofNat n)) := by
  have e : metricsText n = '{' :: '"' :: ("tookMs".toList.flatMap jsonChar ++ '"' :: (':' :: ' ' ::
      (intText (Int.ofNat n) ++ "}".toList))) := by
    unfold metricsText dictData
    simp only [List.map_cons, List.map_nil, dumps, dumpsFields]
    rfl
  have hint : ∀ f, scanOnce (f + 1) (intText (Int.ofNat n) ++ "}".toList) = some (.int (Int.ofNat n), "}".toList) := by
    intro f
    refine scanOnce_int _ ?_ f
    intro c t h
    injection h with h _
    subst h
    decide
  have hw : skipWs (intText (Int.ofNat n) ++ "}".toList) = intText (Int.ofNat n) ++ "}".toList := by
    obtain ⟨c, s, h1, h2⟩ := dumpIndent_head 4 0 (Storable.int (Int.ofNat n))
    have h1 : intText (Int.ofNat n) = c :: s := by rw [← h1]; simp only [dumpIndent]
    rw [h1, List.cons_append]
    exact skipWs_stop (valueChar_ne h2).1
  unfold readMetrics loads
  obtain ⟨g, hg⟩ : ∃ g, 2 * (metricsText n).length + 2 = g + 3 := ⟨2 * (metricsText n).length - 1, by rw [e]; simp; omega⟩
  rw [hg, e, skipWs_stop (by decide), scanOnce.eq_def]
  dsimp only
  rw [if_neg (by decide), if_pos rfl, skipWs_stop (by decide)]
  dsimp only
  rw [if_neg (by decide), scanFields.eq_def]
  dsimp only
  rw [if_pos rfl, scanString_json]
  dsimp only
  rw [skipWs_stop (by decide)]
  dsimp only
  rw [if_pos rfl, show skipWs (' ' :: (intText (Int.ofNat n) ++ "}".toList)) = skipWs (intText (Int.ofNat n) ++ "}".toList)
    from rfl, hw, hint]
  rfl

/-! ### What runs write can be read -/

private theorem proper_filter {hs : Dict Str} (h : ProperHeaders hs) (f : Str × Str → Bool) : ProperHeaders (hs.filter f) :=
  ((List.filter_sublist (p := f) (l := hs)).map _).nodup h

/-- The headers of a key are those of a dictionary. -/
private def ProperKey (k : RqKey) : Prop := ∀ hs, k.json.headers = some hs → ProperHeaders hs

private theorem proper_mkKey {T : RqTypes} (ign : Ignore) (toHash : Option (RqJson → Str)) (j : RqJson) (h : Option Str)
    (hj : ∀ hs, j.headers = some hs → ProperHeaders hs) : ProperKey (mkKey T ign toHash j h) := by
  intro hs e
  replace e : (dropHeaders T ign j).headers = some hs := e
  unfold dropHeaders at e
  split at e
  · exact hj hs e
  · exact hj hs e
  · cases e
  · rename_i he
    injection e with e
    rw [← e]
    exact proper_filter (hj _ he) _

private theorem proper_markOrder {T : RqTypes} (requests : List (RqSnap T)) : ∀ (key : RqKey), ProperKey key →
    ProperKey (markOrder requests key) := by
  induction requests with
  | nil => intro key h; exact h
  | cons s requests ih =>
    intro key h
    unfold markOrder
    rw [List.foldl_cons]
    apply ih
    split
    · exact proper_mkKey .nothing none _ none h
    · exact h

private theorem proper_run {T : RqTypes} (good : T.V → Prop) (c : RqConfig) (snaps : List (RqSnap T))
    (hs : ∀ s ∈ snaps, ProperKey s.key ∧ good s.response) (answers : Nat → Except T.E T.V) (p : RqProg T) :
    ∀ requests i, (∀ s ∈ requests, ProperKey s.key ∧ good s.response) →
      (∀ e ∈ (runRq c snaps answers p requests i).1, ProperHeaders e.request.headers ∧ ∀ v, e.outcome = .val v → good v) →
      ∀ s ∈ (runRq c snaps answers p requests i).2, ProperKey s.key ∧ good s.response := by
  induction p with
  | done => intro requests i h _; exact h
  | send r k ih =>
    intro requests i h he
    simp only [runRq] at he ⊢
    refine ih _ _ _ ?_ (fun e hm => he e (List.mem_cons_of_mem _ hm))
    have h0 := he _ List.mem_cons_self
    clear ih he
    intro s hm
    unfold sendRq at hm h0
    dsimp only at hm h0
    cases hf : findRq snaps (markOrder requests (fromRequest T c.ign c.toHash r)).hash with
    | some s' =>
      rw [hf] at hm
      dsimp only at hm
      unfold addRq at hm
      split at hm
      · exact h s hm
      · rcases List.mem_append.mp hm with hm | hm
        · exact h s hm
        · simp only [List.mem_singleton] at hm
          subst hm
          exact hs s (findRq_some hf).1
    | none =>
      rw [hf] at hm h0
      dsimp only at hm h0
      by_cases hc : (!(c.refresh || c.complete)) = true
      · rw [if_pos hc] at hm; exact h s hm
      rw [if_neg hc] at hm h0
      cases ha : answers i with
      | error e => rw [ha] at hm; exact h s hm
      | ok v =>
        rw [ha] at hm h0
        dsimp only at hm h0
        rcases List.mem_append.mp hm with hm | hm
        · exact h s hm
        · simp only [List.mem_singleton] at hm
          subst hm
          refine ⟨proper_markOrder _ _ (proper_mkKey _ _ _ _ ?_), h0.2 v rfl⟩
          intro hs' e
          injection e with e
          rw [← e]
          exact h0.1

private theorem keys_setD {α : Type} (d : Dict α) (k : Str) (v : α) (h : (d.map (·.1)).Nodup) :
    ((d.set k v).map (·.1)).Nodup := by
  exact Dict.nodup_set (d := d) h k v

private theorem storeAll_keys {T : RqTypes} (lose : Bool) (l : List (RqSnap T)) : ∀ (d out : Dict (StoredRq T)),
    (d.map (·.1)).Nodup → storeAll lose l d = some out → (out.map (·.1)).Nodup := by
  induction l with
  | nil => intro d out h e; injection e with e; exact e ▸ h
  | cons s l ih =>
    intro d out h e
    unfold storeAll at e
    cases hy : toStored lose s with
    | none => rw [hy] at e; cases e
    | some y => rw [hy] at e; exact ih _ _ (keys_setD d _ _ h) e

private theorem written_proper {T : RqTypes} (good : T.V → Prop) (goodS : T.S → Prop)
    (hsave : ∀ v x, good v → T.save v = some x → goodS x) (hload : ∀ x v, goodS x → T.load x = some v → good v)
    (c : RqConfig) (legacy : List (StoredRq T)) (file d : Dict (StoredRq T)) (answers : Nat → Except T.E T.V)
    (test : RqProg T) (run : RqRun T)
    (hfile : ∀ x ∈ legacy ++ file.map (·.2), (∀ hs, x.request.headers = some hs → ProperHeaders hs) ∧ goodS x.response)
    (hrun : withRequests c legacy file answers test = some run)
    (hlog : ∀ e ∈ run.log, ProperHeaders e.request.headers ∧ ∀ v, e.outcome = .val v → good v)
    (hw : run.written = some d) :
    (d.map (·.1)).Nodup ∧ ∀ p ∈ d, (∀ hs, p.2.request.headers = some hs → ProperHeaders hs) ∧ goodS p.2.response := by
  simp only [withRequests, Option.map_eq_some_iff] at hrun
  obtain ⟨snaps, hl, rfl⟩ := hrun
  dsimp only at hw hlog
  have hsn : ∀ s ∈ snaps, ProperKey s.key ∧ good s.response := by
    unfold loadAll at hl
    split at hl
    · injection hl with hl
      subst hl
      intro s hs
      cases hs
    · intro s hs
      obtain ⟨x, hx, he⟩ := mapM_mem hl s hs
      obtain ⟨h1, h2⟩ := hfile x hx
      unfold fromStored at he
      obtain ⟨v, hv, rfl⟩ := Option.map_eq_some_iff.mp he
      exact ⟨proper_mkKey _ _ _ _ h1, hload _ _ h2 hv⟩
  have hfin := proper_run good c snaps hsn answers test [] 0 (by intro s h; cases h) hlog
  refine ⟨storeAll_keys c.lose _ [] d List.nodup_nil hw, ?_⟩
  intro p hp
  rcases storeAll_mem c.lose _ [] d hw p hp with h | ⟨s, hs, _, h⟩
  · cases h
  · obtain ⟨k1, k2⟩ := hfin s hs
    unfold toStored at h
    obtain ⟨x, hx, h⟩ := Option.map_eq_some_iff.mp h
    rw [← h]
    refine ⟨?_, hsave _ _ k2 hx⟩
    intro hs' e
    dsimp only at e
    split at e
    · cases e
    · exact k1 hs' e

/-- C122: every snapshot file that a run with `requests` writes can be read and gives back what the run stored. (The names
of headers are distinct, in the requests and responses of the run and in the snapshots it starts with.) -/
theorem C122_requests_run (E : Type) (digest : RqJson → Str) (lower : Str → Str) (c : RqConfig)
    (legacy : List (StoredRq (requestsT E digest lower))) (file d : Dict (StoredRq (requestsT E digest lower)))
    (answers : Nat → Except E RequestsResponse) (test : RqProg (requestsT E digest lower))
    (run : RqRun (requestsT E digest lower))
    (hfile : ∀ x ∈ legacy ++ file.map (·.2), (∀ hs, x.request.headers = some hs → ProperHeaders hs) ∧
      ProperHeaders (RequestsStored.headers x.response))
    (hrun : withRequests c legacy file answers test = some run)
    (hlog : ∀ e ∈ run.log, ProperHeaders e.request.headers ∧
      ∀ v : RequestsResponse, e.outcome = .val v → ProperHeaders v.headers)
    (hw : run.written = some d) :
    readRequestsText (T := requestsT E digest lower) readRequests (requestsText requestsData d) = some d := by
  obtain ⟨h1, h2⟩ := written_proper (T := requestsT E digest lower) (fun v => ProperHeaders (RequestsResponse.headers v))
    (fun x => ProperHeaders (RequestsStored.headers x)) (by
      intro v x hv hx
      obtain ⟨t, _, rfl⟩ := Option.map_eq_some_iff.mp (show Option.map _ _ = some x from hx)
      exact hv) (by
      intro x v hx hv
      injection (show some _ = some v from hv) with hv
      subst hv
      exact hx) c legacy file d answers test run hfile hrun hlog hw
  exact C122_requests E digest lower d h1 (fun p hp => (h2 p hp).1) (fun p hp => (h2 p hp).2)

/-- C122: the same for `httpx`. -/
theorem C122_httpx_run (E : Type) (digest : RqJson → Str) (lower : Str → Str) (c : RqConfig)
    (legacy : List (StoredRq (httpxT E digest lower))) (file d : Dict (StoredRq (httpxT E digest lower)))
    (answers : Nat → Except E HttpxResponse) (test : RqProg (httpxT E digest lower))
    (run : RqRun (httpxT E digest lower))
    (hfile : ∀ x ∈ legacy ++ file.map (·.2), (∀ hs, x.request.headers = some hs → ProperHeaders hs) ∧
      ProperHeaders (HttpxResponse.headers x.response))
    (hrun : withRequests c legacy file answers test = some run)
    (hlog : ∀ e ∈ run.log, ProperHeaders e.request.headers ∧
      ∀ v : HttpxResponse, e.outcome = .val v → ProperHeaders v.headers)
    (hw : run.written = some d) :
    readRequestsText (T := httpxT E digest lower) readHttpx (requestsText httpxData d) = some d := by
  obtain ⟨h1, h2⟩ := written_proper (T := httpxT E digest lower) (fun v => ProperHeaders (HttpxResponse.headers v))
    (fun x => ProperHeaders (HttpxResponse.headers x)) (by
      intro v x hv hx
      injection (show some _ = some x from hx) with hx
      subst hx
      exact proper_filter hv _) (by
      intro x v hx hv
      obtain ⟨t, _, rfl⟩ := Option.map_eq_some_iff.mp (show Option.map _ _ = some v from hv)
      exact hx) c legacy file d answers test run hfile hrun hlog hw
  exact C122_httpx E digest lower d h1 (fun p hp => (h2 p hp).1) (fun p hp => (h2 p hp).2)

/-- C122: and every file of variables that a run writes. -/
theorem C122_env_run (refresh complete : Bool) (file : Option (Dict EVal)) (names : List Str) (test : OsEnv → OsEnv)
    (o : OsEnv) (cap : Dict EVal) (h : (withSnapshotEnv refresh complete file names test o).written = some cap) :
    readEnv (envText cap) = some cap := by
  have key : ∀ (capturing : Bool) (snaps : Dict EVal) (names : List Str) (o : OsEnv) (old : Dict (Option Str))
      (cap : Dict EVal), (cap.map (·.1)).Nodup → (∀ p ∈ cap, p.2 ≠ .other) →
      ∀ o' old' cap', snapStart capturing snaps names o old cap = (o', old', cap', none) →
        (cap'.map (·.1)).Nodup ∧ ∀ p ∈ cap', p.2 ≠ .other := by
    intro capturing snaps names
    induction names with
    | nil =>
      intro o old cap h1 h2 o' old' cap' e
      simp only [snapStart, Prod.mk.injEq] at e
      rw [← e.2.2.1]
      exact ⟨h1, h2⟩
    | cons name names ih =>
      intro o old cap h1 h2 o' old' cap' e
      have hset : ∀ v : EVal, v ≠ .other → (∀ p ∈ cap.set name v, p.2 ≠ .other) := by
        intro v hv p hp
        rcases mem_setD hp with hp | rfl
        · exact h2 p hp
        · exact hv
      unfold snapStart at e
      dsimp only at e
      cases hg : snaps.get name with
      | none =>
        rw [hg] at e
        dsimp only at e
        cases capturing with
        | false => simp at e
        | true =>
          refine ih _ _ _ (keys_setD _ _ _ h1) (hset _ ?_) _ _ _ e
          cases o name <;> simp [EVal.ofOption]
      | some v =>
        rw [hg] at e
        dsimp only at e
        cases v with
        | none =>
          rw [if_pos rfl] at e
          cases hd : delVar o name with
          | mk o1 x =>
            rw [hd] at e
            cases x with
            | some x => simp at e
            | none => exact ih _ _ _ (keys_setD _ _ _ h1) (hset _ (by simp)) _ _ _ e
        | str s => exact ih _ _ _ (keys_setD _ _ _ h1) (hset _ (by simp)) _ _ _ e
        | other => simp [setVar] at e
  unfold withSnapshotEnv at h
  split at h
  · cases h
  · rename_i o1 old cap1 hs
    split at h
    · cases h
    · injection h with h
      subst h
      obtain ⟨h1, h2⟩ := key _ _ _ _ _ [] List.nodup_nil (by intro p hp; cases hp) _ _ _ hs
      exact C122_env _ h1 h2

private def sendsT : RqTypes := requestsT Unit (fun j => j.url ++ natText (j.order.getD 0)) id

private def sendsTwice : RqProg sendsT :=
  .send ⟨"u".toList, "GET".toList, [("H".toList, "x".toList)], none⟩ (fun _ =>
    .send ⟨"u".toList, "GET".toList, [], none⟩ (fun _ => .done))

private def sendsAnswers (i : Nat) : Except Unit RequestsResponse :=
  .ok ⟨[("A".toList, "é".toList)], true, 200 + i, none, [104, 105]⟩

/-- A run that records two answers with `requests`, and what its file gives back. -/
example : ∃ (run : RqRun sendsT) (d : Dict (StoredRq sendsT)),
    withRequests (T := sendsT) { refresh := true } [] [] sendsAnswers sendsTwice = some run ∧
    run.written = some d ∧ readRequestsText (T := sendsT) readRequests (requestsText requestsData d) = some d ∧
    d.length = 2 := by
  have hrun : withRequests (T := sendsT) { refresh := true } [] [] sendsAnswers sendsTwice =
      some (let r := runRq (T := sendsT) { refresh := true } [] sendsAnswers sendsTwice [] 0
        ⟨r.1, rqListing r.2, storeAll false r.2 []⟩) := rfl
  obtain ⟨d, hd, hl⟩ : ∃ d, storeAll false (runRq (T := sendsT) { refresh := true } [] sendsAnswers sendsTwice [] 0).2 [] =
      some d ∧ d.length = 2 := ⟨_, rfl, rfl⟩
  refine ⟨_, d, hrun, hd, ?_, hl⟩
  refine C122_requests_run Unit _ id { refresh := true } [] [] d _ _ _ (by intro x hx; cases hx) hrun ?_ hd
  intro e he
  rcases List.mem_cons.mp he with rfl | he
  · refine ⟨show List.Nodup ["H".toList] by decide, ?_⟩
    intro v hv
    injection hv with hv
    subst hv
    exact show List.Nodup ["A".toList] by decide
  rcases List.mem_cons.mp he with rfl | he
  · refine ⟨List.nodup_nil, ?_⟩
    intro v hv
    injection hv with hv
    subst hv
    exact show List.Nodup ["A".toList] by decide
  cases he

/-- Variables, one of which is not set. -/
example : readEnv (envText [("A".toList, .str "é\"".toList), ("B".toList, .none)]) =
    some [("A".toList, .str "é\"".toList), ("B".toList, .none)] :=
  C122_env _ (by decide) (by decide)

private def binaryT : RqTypes := httpxT Unit (fun j => j.url) id

/-- An answer of `httpx` that is not a text. -/
example : readRequestsText (T := binaryT) readHttpx (requestsText httpxData
      [("h".toList, (⟨⟨"u".toList, "POST".toList, some [("A".toList, "1".toList)], some "eA==".toList, some 1⟩,
        some "h".toList, HttpxResponse.mk [("b".toList, "é".toList)] 200 [0, 255, 128, 10]⟩ : StoredRq binaryT))]) =
    some [("h".toList, ⟨⟨"u".toList, "POST".toList, some [("A".toList, "1".toList)], some "eA==".toList, some 1⟩,
        some "h".toList, HttpxResponse.mk [("b".toList, "é".toList)] 200 [0, 255, 128, 10]⟩)] := by
  refine C122_httpx Unit _ id _ (show List.Nodup ["h".toList] by decide) ?_ ?_
  · intro p hp hs e
    obtain rfl := List.mem_singleton.mp hp
    injection e with e
    subst e
    exact show List.Nodup ["A".toList] by decide
  · intro p hp
    obtain rfl := List.mem_singleton.mp hp
    exact show List.Nodup ["b".toList] by decide

/-- A duration. -/
example : readMetrics (metricsText 1234) = some (.int 1234) := C122_metrics 1234

end Verif.Props
