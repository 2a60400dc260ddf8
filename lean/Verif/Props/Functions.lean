import Verif.Lemmas.Functions

/-! # Properties of function snapshots and function mocks (C49–C51, C56, C77) -/

namespace Verif.Props
open Verif.Py Verif.Model Verif.Spec Verif.Lemmas

variable {T : FnTypes}

/-- The contents of the files. -/
private def contents (files : FnFiles T) : List (FnSnap T) := files.map (·.2)

/-! ### C49: replaying -/

/-- **C49**: outside capture mode no snapshotted function is really called; a call gets a value only if a
snapshot of that call has it, and raises if there is no snapshot. -/
theorem C49_replay (stored : FnFiles T) (answers : Nat → Except T.E T.V) (test : Prog T) :
    ∀ e ∈ (withFunctions false false stored answers test).log, e.real = false ∧
      ((∃ h v, T.hash e.call = some h ∧ e.outcome = .val v ∧ Recorded stored h v) ∨
       (∃ h, T.hash e.call = some h ∧ e.outcome = .missing ∧ ∀ v, ¬ Recorded stored h v) ∨
       (T.hash e.call = none ∧ e.outcome = .badArgs)) := by
  intro e he
  obtain ⟨h1, h2⟩ := replay_events (contents stored) answers test [] 0 e he
  refine ⟨h2, ?_⟩
  rw [h1]
  unfold replayOutcome
  rcases hh : T.hash e.call with _ | h
  · exact .inr (.inr ⟨rfl, rfl⟩)
  · dsimp only
    rcases hf : findSnap (contents stored) h with _ | s
    · refine .inr (.inl ⟨h, rfl, rfl, ?_⟩)
      rintro v ⟨p, hp, hp2, -⟩
      exact findSnap_none.mp hf p.2 (List.mem_map.mpr ⟨p, hp, rfl⟩) hp2
    · obtain ⟨g1, g2⟩ := findSnap_some hf
      obtain ⟨p, hp, hps⟩ := List.mem_map.mp g1
      exact .inl ⟨h, s.result, rfl, rfl, p, hp, by rw [hps]; exact g2, by rw [hps]⟩

/-- With one snapshot per call, a recorded call returns the recorded value. -/
theorem C49_recorded (stored : FnFiles T) (hone : OnePerCall stored) (answers : Nat → Except T.E T.V)
    (test : Prog T) : ∀ e ∈ (withFunctions false false stored answers test).log, ∀ h v,
      T.hash e.call = some h → Recorded stored h v → e.outcome = .val v := by
  intro e he h v hh ⟨p, hp, hp1, hp2⟩
  obtain ⟨h1, _⟩ := replay_events (contents stored) answers test [] 0 e he
  rw [h1]
  unfold replayOutcome
  have hf := findSnap_of_mem (snaps := contents stored) (by simpa [contents, OnePerCall, Function.comp_def] using hone)
    (List.mem_map.mpr ⟨p, hp, rfl⟩)
  rw [hp1] at hf
  rw [hh]
  dsimp only
  rw [hf, ← hp2]

/-- Nothing in a replay depends on what the real functions would do. -/
theorem C49_independent (stored : FnFiles T) (answers answers' : Nat → Except T.E T.V) (test : Prog T) :
    withFunctions false false stored answers test = withFunctions false false stored answers' test := by
  unfold withFunctions
  simp only [Bool.or_self, replay_answers _ answers answers']

/-- The order in which the snapshot files are listed does not matter, in any mode. -/
theorem C49_order (refresh complete : Bool) (stored stored' : FnFiles T) (hone : OnePerCall stored)
    (hp : stored.Perm stored') (answers : Nat → Except T.E T.V) (test : Prog T) :
    withFunctions refresh complete stored answers test =
      withFunctions refresh complete stored' answers test := by
  unfold withFunctions
  have : ∀ x, findSnap (if refresh = true then [] else stored.map (·.2)) x =
      findSnap (if refresh = true then [] else stored'.map (·.2)) x := by
    intro x
    split
    · rfl
    · exact findSnap_perm (by simpa [OnePerCall, Function.comp_def] using hone) (hp.map _) x
  simp only [runProg_congr _ _ _ this]

/-! ### Concrete types for examples -/

/-- Calls and results are numbers; a call is its own hash, written in strokes; everything can be
stored. -/
def numT : FnTypes where
  C := Nat
  V := Nat
  E := Unit
  hash := fun c => some (List.replicate c 'x')
  json := some

/-- A test making the calls of a list one after the other. -/
def calling : List Nat → Prog numT
  | [] => .done
  | c :: cs => .call (show Nat from c) (fun _ => calling cs)

/-- A replay with one recorded and one missing call. -/
example : observed (withFunctions (T := numT) false false
      [("x.json".toList, ⟨(1 : Nat), ['x'], (7 : Nat)⟩)] (fun _ => .ok (0 : Nat)) (calling [1, 2])).log =
    [((1 : Nat), .val (7 : Nat)), ((2 : Nat), .missing)] := rfl

example : OnePerCall (T := numT) [("x.json".toList, ⟨(1 : Nat), ['x'], (7 : Nat)⟩)] := by
  simp [OnePerCall]

/-! ### C51: the stored files -/

/-- **C51**: in every mode, the files written are one for each call (by hash) that returned a value in
this run, under the name of the hash; they keep the value of the last such call, as JSON gives it back.
Snapshots of calls that were not made are gone. -/
theorem C51_files (refresh complete : Bool) (stored : FnFiles T) (answers : Nat → Except T.E T.V)
    (test : Prog T) (files : FnFiles T)
    (hw : (withFunctions refresh complete stored answers test).files = some files) :
    files.keys.Nodup ∧ OnePerCall files ∧
    (∀ p ∈ files, p.1 = p.2.hash ++ ".json".toList ∧
      ∃ v, lastValue (withFunctions refresh complete stored answers test).log p.2.hash = some v ∧
        T.json v = some p.2.result) ∧
    (∀ h, (∃ p ∈ files, p.2.hash = h) ↔
      ∃ e ∈ (withFunctions refresh complete stored answers test).log, ∃ v,
        T.hash e.call = some h ∧ e.outcome = .val v) := by
  unfold withFunctions at hw ⊢
  simp only at hw ⊢
  have hinv := callsInv_run (refresh || complete) (if refresh = true then [] else stored.map (·.2)) answers
    test [] [] 0 (callsInv_nil _)
  rw [List.nil_append] at hinv
  generalize hr : runProg (refresh || complete) (if refresh = true then [] else stored.map (·.2)) answers
    test [] 0 = r at hw hinv ⊢
  obtain ⟨log, calls⟩ := r
  simp only at hw hinv ⊢
  have hj : ∀ s ∈ calls, (T.json s.result).isSome := by
    intro s hs
    rcases hj : T.json s.result with _ | v
    · rw [writeCalls_none calls [] ⟨s, hs, hj⟩] at hw; cases hw
    · rfl
  obtain ⟨new, h1, h2⟩ := writeCalls_spec calls [] hinv.nodup (by simp [Dict.keys]) hj
  rw [h1, List.nil_append] at hw
  cases hw
  have hmem : ∀ p ∈ files, ∃ s ∈ calls, p.1 = s.hash ++ ".json".toList ∧ p.2.hash = s.hash ∧
      T.json s.result = some p.2.result := by
    intro p hp
    have : (p.1, p.2.call, p.2.hash, some p.2.result) ∈
        List.map (fun s => (s.hash ++ ".json".toList, s.call, s.hash, T.json s.result)) calls := by
      rw [← h2]; exact List.mem_map.mpr ⟨p, hp, rfl⟩
    obtain ⟨s, hs, he⟩ := List.mem_map.mp this
    simp only [Prod.mk.injEq] at he
    exact ⟨s, hs, he.1.symm, he.2.2.1.symm, he.2.2.2⟩
  have hmem' : ∀ s ∈ calls, ∃ p ∈ files, p.2.hash = s.hash := by
    intro s hs
    have : (s.hash ++ ".json".toList, s.call, s.hash, T.json s.result) ∈
        List.map (fun p => (p.1, p.2.call, p.2.hash, some p.2.result)) files := by
      rw [h2]; exact List.mem_map.mpr ⟨s, hs, rfl⟩
    obtain ⟨p, hp, he⟩ := List.mem_map.mp this
    simp only [Prod.mk.injEq] at he
    exact ⟨p, hp, he.2.2.1⟩
  have hhashes : files.map (fun p => p.2.hash) = calls.map (·.hash) := by
    have := congrArg (List.map (fun x : Str × T.C × Str × Option T.V => x.2.2.1)) h2
    simpa [List.map_map, Function.comp_def] using this
  have hkeys : files.keys = (calls.map (·.hash)).map (· ++ ".json".toList) := by
    have := congrArg (List.map (fun x : Str × T.C × Str × Option T.V => x.1)) h2
    simp only [List.map_map, Function.comp_def] at this
    simp only [Dict.keys, List.map_map, Function.comp_def]
    exact this
  refine ⟨?_, ?_, ?_, ?_⟩
  · rw [hkeys]
    exact List.Pairwise.map _ (fun a b hab he => hab (fileName_inj he)) hinv.nodup
  · unfold OnePerCall; rw [hhashes]; exact hinv.nodup
  · intro p hp
    obtain ⟨s, hs, e1, e2, e3⟩ := hmem p hp
    exact ⟨by rw [e1, e2], s.result, by rw [e2]; exact hinv.values s hs, e3⟩
  · intro h
    have hlast : ∀ l : List (FnEvent T), (lastValue l h).isSome ↔
        ∃ e ∈ l, ∃ v, T.hash e.call = some h ∧ e.outcome = .val v := by
      intro l
      induction l with
      | nil => simp [lastValue]
      | cons e l ih =>
        simp only [lastValue, Option.isSome_or, Bool.or_eq_true, ih, List.mem_cons]
        have : (valueFor h e).isSome ↔ ∃ v, T.hash e.call = some h ∧ e.outcome = .val v := by
          unfold valueFor
          by_cases hc : T.hash e.call = some h
          · rw [if_pos hc]
            cases e.outcome <;> simp [hc]
          · rw [if_neg hc]; simp [hc]
        rw [this]
        constructor
        · rintro (⟨e', h1, h2⟩ | h1)
          · exact ⟨e', .inr h1, h2⟩
          · exact ⟨e, .inl rfl, h1⟩
        · rintro ⟨e', rfl | h1, h2⟩
          · exact .inr h2
          · exact .inl ⟨e', h1, h2⟩
    rw [← hlast]
    constructor
    · rintro ⟨p, hp, rfl⟩
      obtain ⟨s, hs, _, e2, _⟩ := hmem p hp
      rw [e2, hinv.values s hs]; rfl
    · intro hl
      obtain ⟨s, hs, rfl⟩ := hinv.all h hl
      exact hmem' s hs

/-- The files are written if every value returned by a call can be stored. -/
theorem C51_written (refresh complete : Bool) (stored : FnFiles T) (answers : Nat → Except T.E T.V)
    (test : Prog T)
    (hj : ∀ h v, lastValue (withFunctions refresh complete stored answers test).log h = some v →
      (T.json v).isSome) :
    ((withFunctions refresh complete stored answers test).files).isSome := by
  unfold withFunctions at hj ⊢
  simp only at hj ⊢
  have hinv := callsInv_run (refresh || complete) (if refresh = true then [] else stored.map (·.2)) answers
    test [] [] 0 (callsInv_nil _)
  rw [List.nil_append] at hinv
  obtain ⟨new, h1, _⟩ := writeCalls_spec _ [] hinv.nodup (by simp [Dict.keys])
    (fun s hs => hj _ _ (hinv.values s hs))
  rw [h1]; rfl

/-- An old snapshot that is not used (of call 3) disappears; the used one (of call 1) stays. -/
example : ((withFunctions (T := numT) false false
      [("x.json".toList, ⟨(1 : Nat), ['x'], (7 : Nat)⟩), ("xxx.json".toList, ⟨(3 : Nat), ['x', 'x', 'x'], (8 : Nat)⟩)]
      (fun _ => .ok (0 : Nat)) (calling [1, 1])).files.map
        (fun fs => fs.map (fun p => (p.1, (show Nat from p.2.result))))) =
    some [("x.json".toList, 7)] := rfl

/-! ### C50: capture, then replay -/

/-- What was captured is what a replay of any test gets: for a call that returned values in the capture
run, the last one (as JSON gives it back); for any other call an exception. -/
theorem C50_last_captured (refresh complete : Bool) (stored : FnFiles T) (answers answers' : Nat → Except T.E T.V)
    (test test' : Prog T) (files files' : FnFiles T)
    (hw : (withFunctions refresh complete stored answers test).files = some files)
    (hp : files.Perm files') :
    ∀ e ∈ (withFunctions false false files' answers' test').log, ∀ h, T.hash e.call = some h →
      (∀ v, lastValue (withFunctions refresh complete stored answers test).log h = some v →
        ∃ w, T.json v = some w ∧ e.outcome = .val w) ∧
      (lastValue (withFunctions refresh complete stored answers test).log h = none → e.outcome = .missing) := by
  obtain ⟨_, hone, h3, h4⟩ := C51_files refresh complete stored answers test files hw
  intro e he h hh
  have he' : e ∈ (withFunctions false false files answers' test').log := by
    rw [C49_order false false files files' hone hp]; exact he
  have hlast : ∀ l : List (FnEvent T), ∀ v, lastValue l h = some v →
      ∃ e ∈ l, ∃ v, T.hash e.call = some h ∧ e.outcome = .val v := by
    intro l
    induction l with
    | nil => simp [lastValue]
    | cons e l ih =>
      intro v hv
      simp only [lastValue, Option.or_eq_some_iff] at hv
      rcases hv with hv | ⟨_, hv⟩
      · obtain ⟨e', h1, h2⟩ := ih v hv
        exact ⟨e', List.mem_cons_of_mem _ h1, h2⟩
      · refine ⟨e, List.mem_cons_self, v, ?_⟩
        unfold valueFor at hv
        split at hv
        · rename_i hc
          refine ⟨hc, ?_⟩
          split at hv
          · rename_i ho; cases hv; exact ho
          · cases hv
        · cases hv
  constructor
  · intro v hv
    obtain ⟨p, hp1, hp2⟩ := (h4 h).mpr (hlast _ v hv)
    obtain ⟨_, w, hw1, hw2⟩ := h3 p hp1
    rw [hp2, hv] at hw1
    cases hw1
    exact ⟨p.2.result, hw2, C49_recorded files hone answers' test' e he' h _ hh ⟨p, hp1, hp2, rfl⟩⟩
  · intro hnone
    rcases (C49_replay files answers' test' e he').2 with ⟨h', v, a1, a2, p, hp1, hp2, _⟩ | ⟨h', a1, a2, _⟩ | ⟨a1, a2⟩
    · rw [hh] at a1; cases a1
      obtain ⟨_, w, hw1, _⟩ := h3 p hp1
      rw [hp2, hnone] at hw1; cases hw1
    · exact a2
    · rw [hh] at a1; cases a1

/-- A call that cannot be hashed raises. -/
private theorem bad_args (capture : Bool) (snaps : List (FnSnap T)) (answers : Nat → Except T.E T.V)
    (p : Prog T) : ∀ calls i, ∀ e ∈ (runProg capture snaps answers p calls i).1,
      T.hash e.call = none → e.outcome = .badArgs := by
  induction p with
  | done => intro calls i e he; cases he
  | call c k ih =>
    intro calls i e he hn
    simp only [runProg] at he
    rcases List.mem_cons.mp he with rfl | he
    · simp only at hn ⊢; simp only [snapshotCall, hn]
    · exact ih _ _ _ _ he hn

private theorem same_event {log : List (FnEvent T)} (hnd : (log.filterMap (fun e => T.hash e.call)).Nodup)
    {a b : FnEvent T} (ha : a ∈ log) (hb : b ∈ log) {h : Str} (h1 : T.hash a.call = some h)
    (h2 : T.hash b.call = some h) : a = b := by
  induction log with
  | nil => cases ha
  | cons x log ih =>
    have rest : (log.filterMap (fun e => T.hash e.call)).Nodup := by
      simp only [List.filterMap_cons] at hnd
      split at hnd
      · exact hnd
      · exact (List.nodup_cons.mp hnd).2
    have out : ∀ y ∈ log, T.hash x.call = some h → T.hash y.call ≠ some h := by
      intro y hy hx hyh
      simp only [List.filterMap_cons, hx] at hnd
      exact (List.nodup_cons.mp hnd).1 (List.mem_filterMap.mpr ⟨y, hy, hyh⟩)
    rcases List.mem_cons.mp ha with rfl | ha'
    · rcases List.mem_cons.mp hb with rfl | hb'
      · rfl
      · exact absurd h2 (out b hb' h1)
    · rcases List.mem_cons.mp hb with rfl | hb'
      · exact absurd h1 (out a ha' h2)
      · exact ih rest ha' hb'

/-- **C50, partial**: after a capture run in which every call returned a value, JSON gives these values
back unchanged, and the same call always returned the same value, replaying the stored files (in any
order) takes the same course: the same calls with the same values, none of them real.  What is missing
of the claim: functions that answer the same call differently, see `C50_repeated_refuted`. -/
theorem C50_replay_partial (refresh complete : Bool) (stored : FnFiles T)
    (answers answers' : Nat → Except T.E T.V) (test : Prog T)
    (hval : ∀ e ∈ (withFunctions refresh complete stored answers test).log,
      ∃ v, e.outcome = .val v ∧ T.json v = some v)
    (hdet : ∀ e ∈ (withFunctions refresh complete stored answers test).log,
      ∀ e' ∈ (withFunctions refresh complete stored answers test).log,
      T.hash e.call = T.hash e'.call → e.outcome = e'.outcome) :
    ∃ files, (withFunctions refresh complete stored answers test).files = some files ∧
      ∀ files', files.Perm files' →
        observed (withFunctions false false files' answers' test).log =
          observed (withFunctions refresh complete stored answers test).log ∧
        ∀ e ∈ (withFunctions false false files' answers' test).log, e.real = false := by
  have hlast : ∀ (l : List (FnEvent T)) h v, lastValue l h = some v →
      ∃ e ∈ l, T.hash e.call = some h ∧ e.outcome = .val v := by
    intro l h
    induction l with
    | nil => simp [lastValue]
    | cons e l ih =>
      intro v hv
      simp only [lastValue, Option.or_eq_some_iff] at hv
      rcases hv with hv | ⟨_, hv⟩
      · obtain ⟨e', h1, h2⟩ := ih v hv
        exact ⟨e', List.mem_cons_of_mem _ h1, h2⟩
      · refine ⟨e, List.mem_cons_self, ?_⟩
        unfold valueFor at hv
        split at hv
        · rename_i hc
          refine ⟨hc, ?_⟩
          split at hv
          · rename_i ho; cases hv; exact ho
          · cases hv
        · cases hv
  have hfiles := C51_written refresh complete stored answers test (by
    intro h v hv
    obtain ⟨e, he, _, ho⟩ := hlast _ h v hv
    obtain ⟨w, hw1, hw2⟩ := hval e he
    rw [ho] at hw1; cases hw1
    rw [hw2]; rfl)
  obtain ⟨files, hw⟩ := Option.isSome_iff_exists.mp hfiles
  obtain ⟨_, hone, h3, h4⟩ := C51_files refresh complete stored answers test files hw
  refine ⟨files, hw, ?_⟩
  intro files' hp
  rw [← C49_order false false files files' hone hp]
  refine ⟨?_, fun e he => (C49_replay files answers' test e he).1⟩
  have key : ∀ e ∈ (withFunctions refresh complete stored answers test).log,
      e.outcome = replayOutcome (contents files) e.call := by
    intro e he
    obtain ⟨v, hv, hvj⟩ := hval e he
    have hhash : ∃ h, T.hash e.call = some h := by
      rcases hh : T.hash e.call with _ | h
      · exfalso
        have hbad := bad_args _ _ _ test [] 0 e he hh
        rw [hv] at hbad; cases hbad
      · exact ⟨h, rfl⟩
    obtain ⟨h, hh⟩ := hhash
    obtain ⟨p, hp1, hp2⟩ := (h4 h).mpr ⟨e, he, v, hh, hv⟩
    obtain ⟨_, w, hw1, hw2⟩ := h3 p hp1
    rw [hp2] at hw1
    obtain ⟨e', he', hh', ho'⟩ := hlast _ h w hw1
    have hew := hdet e he e' he' (by rw [hh, hh'])
    rw [hv, ho'] at hew
    cases hew
    rw [hvj] at hw2
    unfold replayOutcome
    have hf := findSnap_of_mem (snaps := contents files)
      (by simpa [contents, OnePerCall, Function.comp_def] using hone) (List.mem_map.mpr ⟨p, hp1, rfl⟩)
    rw [hp2] at hf
    rw [hh]
    dsimp only
    rw [hf, hv]
    dsimp only
    exact congrArg FnOutcome.val (Option.some.inj hw2)
  exact replay_same (refresh || complete) (if refresh = true then [] else contents stored)
    (contents files) answers answers' test [] 0 [] 0 key

/-- A capture of three calls, one of them repeated, with the answers 5, 6, 5. -/
example : observed (withFunctions (T := numT) true false []
      (fun i => .ok (if i = 1 then (6 : Nat) else (5 : Nat))) (calling [1, 2, 1])).log = [((1 : Nat), .val (5 : Nat)), ((2 : Nat), .val (6 : Nat)), ((1 : Nat), .val (5 : Nat))] := rfl

/-- **C50, refuted**: when the same call is answered differently the second time, the capture run shows
the test both answers, the replay only the last one. -/
theorem C50_repeated_refuted : ∃ (answers : Nat → Except numT.E numT.V) (test : Prog numT) (files : FnFiles numT),
    (withFunctions true false [] answers test).files = some files ∧
    (∀ e ∈ (withFunctions true false [] answers test).log, ∃ v, e.outcome = .val v ∧ numT.json v = some v) ∧
    ∀ answers', observed (withFunctions false false files answers' test).log ≠
      observed (withFunctions true false [] answers test).log := by
  refine ⟨fun i => .ok (show Nat from i), calling [1, 1], [("x.json".toList, ⟨(1 : Nat), ['x'], (1 : Nat)⟩)],
    rfl, ?_, ?_⟩
  · intro e he
    have : (withFunctions (T := numT) true false [] (fun i => .ok (show Nat from i)) (calling [1, 1])).log =
        [⟨(1 : Nat), .val (0 : Nat), true⟩, ⟨(1 : Nat), .val (1 : Nat), true⟩] := rfl
    rw [this] at he
    simp only [List.mem_cons, List.not_mem_nil, or_false] at he
    rcases he with rfl | rfl
    · exact ⟨_, rfl, rfl⟩
    · exact ⟨_, rfl, rfl⟩
  · intro answers' h
    rw [C49_independent _ answers' (fun i => .ok (show Nat from i))] at h
    have h1 : observed (withFunctions (T := numT) false false [("x.json".toList, ⟨(1 : Nat), ['x'], (1 : Nat)⟩)]
        (fun i => .ok (show Nat from i)) (calling [1, 1])).log =
        [((1 : Nat), .val (1 : Nat)), ((1 : Nat), .val (1 : Nat))] := rfl
    have h2 : observed (withFunctions (T := numT) true false []
        (fun i => .ok (show Nat from i)) (calling [1, 1])).log =
        [((1 : Nat), .val (0 : Nat)), ((1 : Nat), .val (1 : Nat))] := rfl
    rw [h1, h2] at h
    have h3 : (FnOutcome.val (1 : Nat) : FnOutcome numT) = .val (0 : Nat) := congrArg (·.2) (List.cons.inj h).1
    exact absurd (show (1 : Nat) = 0 from FnOutcome.val.inj h3) (by decide)

/-- With `-S` the stored snapshots have no influence, and every call that can be hashed is real. -/
theorem C50_refresh (complete : Bool) (stored stored' : FnFiles T) (answers : Nat → Except T.E T.V)
    (test : Prog T) :
    withFunctions true complete stored answers test = withFunctions true complete stored' answers test ∧
    ∀ e ∈ (withFunctions true complete stored answers test).log, T.hash e.call ≠ none → e.real = true := by
  refine ⟨rfl, ?_⟩
  have : ∀ (p : Prog T) calls i, ∀ e ∈ (runProg true [] answers p calls i).1, T.hash e.call ≠ none →
      e.real = true := by
    intro p
    induction p with
    | done => intro calls i e he; simp [runProg] at he
    | call c k ih =>
      intro calls i e he hh
      simp only [runProg] at he
      rcases List.mem_cons.mp he with rfl | he
      · simp only at hh ⊢
        rcases hc : T.hash c with _ | h
        · exact absurd hc hh
        · rw [decide_eq_true_eq]
          have hnone : findSnap ([] : List (FnSnap T)) h = none := rfl
          unfold snapshotCall
          simp only [hc, hnone, Bool.not_true, Bool.false_eq_true, if_false]
          rcases answers i with _ | _ <;> simp
      · exact ih _ _ _ e he hh
  exact this test [] 0

/-- With `-s` or `-S` no snapshot is missing; with `-s` a call is real exactly if there is no snapshot
of it among the stored ones. -/
theorem C50_complete (refresh complete : Bool) (stored : FnFiles T) (answers : Nat → Except T.E T.V)
    (test : Prog T) (hc : (refresh || complete) = true) :
    ∀ e ∈ (withFunctions refresh complete stored answers test).log, e.outcome ≠ .missing ∧
      (refresh = false → ∀ h, T.hash e.call = some h → (e.real = true ↔ ∀ v, ¬ Recorded stored h v)) := by
  have : ∀ (snaps : List (FnSnap T)) (p : Prog T) calls i, ∀ e ∈ (runProg true snaps answers p calls i).1,
      e.outcome ≠ .missing ∧ ∀ h, T.hash e.call = some h → (e.real = true ↔ findSnap snaps h = none) := by
    intro snaps p
    induction p with
    | done => intro calls i e he; simp [runProg] at he
    | call c k ih =>
      intro calls i e he
      simp only [runProg] at he
      rcases List.mem_cons.mp he with rfl | he
      · simp only [decide_eq_true_eq]
        unfold snapshotCall
        rcases hc : T.hash c with _ | h
        · exact ⟨(by intro h; cases h), by intro h h'; cases h'⟩
        · dsimp only
          rcases hf : findSnap snaps h with _ | s
          · simp only [Bool.not_true, Bool.false_eq_true, if_false]
            rcases answers i with _ | _
            · exact ⟨(by intro h; cases h), by intro h' hh; cases hh; simp [hf]⟩
            · exact ⟨(by intro h; cases h), by intro h' hh; cases hh; simp [hf]⟩
          · exact ⟨(by intro h; cases h), by intro h' hh; cases hh; simp [hf]⟩
      · exact ih _ _ _ e he
  intro e he
  simp only [withFunctions, hc] at he
  obtain ⟨h1, h2⟩ := this _ test [] 0 e he
  refine ⟨h1, ?_⟩
  rintro rfl h hh
  rw [h2 h hh, findSnap_none]
  simp only [Bool.false_eq_true, if_false, List.mem_map]
  constructor
  · rintro hs v ⟨p, hp, hp1, _⟩
    exact hs p.2 ⟨p, hp, rfl⟩ hp1
  · rintro hr s ⟨p, hp, rfl⟩ he
    exact hr p.2.result ⟨p, hp, he, rfl⟩

/-! ### C77: the listing in the test output -/

/-- **C77, partial**: if no call is repeated and every call returns a value, the listing is the calls in
the order they were made, in every mode; so the listing of a replay that takes the same course is the
listing of the capture run. -/
theorem C77_listing_partial (refresh complete : Bool) (stored : FnFiles T)
    (answers : Nat → Except T.E T.V) (test : Prog T)
    (hnd : ((withFunctions refresh complete stored answers test).log.filterMap
      (fun e => T.hash e.call)).Nodup)
    (hval : ∀ e ∈ (withFunctions refresh complete stored answers test).log, ∃ v, e.outcome = .val v) :
    (withFunctions refresh complete stored answers test).listing =
      (withFunctions refresh complete stored answers test).log.filterMap (fun e => T.hash e.call) := by
  have := calls_order (refresh || complete) (if refresh = true then [] else stored.map (·.2)) answers test
    [] 0 (by simpa [withFunctions] using hnd) (by simpa [withFunctions] using hval)
  simpa [withFunctions] using this

/-- **C77, partial**: if no call is repeated and every call returns a value that JSON keeps, the listing of
a replay of the captured snapshots, read in any order, is the listing of the capture run. -/
theorem C77_same_partial (refresh complete : Bool) (stored : FnFiles T)
    (answers answers' : Nat → Except T.E T.V) (test : Prog T)
    (hnd : ((withFunctions refresh complete stored answers test).log.filterMap
      (fun e => T.hash e.call)).Nodup)
    (hval : ∀ e ∈ (withFunctions refresh complete stored answers test).log,
      ∃ v, e.outcome = .val v ∧ T.json v = some v) :
    ∃ files, (withFunctions refresh complete stored answers test).files = some files ∧
      ∀ files', files.Perm files' →
        (withFunctions false false files' answers' test).listing =
          (withFunctions refresh complete stored answers test).listing := by
  have hdet : ∀ e ∈ (withFunctions refresh complete stored answers test).log,
      ∀ e' ∈ (withFunctions refresh complete stored answers test).log,
      T.hash e.call = T.hash e'.call → e.outcome = e'.outcome := by
    intro e he e' he' hee
    rcases hh : T.hash e.call with _ | h
    · obtain ⟨v, hv, -⟩ := hval e he
      have hbad := bad_args _ _ _ test [] 0 e he hh
      rw [hv] at hbad; cases hbad
    · rw [same_event hnd he he' hh (hee ▸ hh)]
  obtain ⟨files, hf, hr⟩ := C50_replay_partial refresh complete stored answers answers' test hval hdet
  refine ⟨files, hf, fun files' hp => ?_⟩
  obtain ⟨ho, -⟩ := hr files' hp
  have hash : ∀ log : List (FnEvent T), log.filterMap (fun e => T.hash e.call) =
      (observed log).filterMap (fun e => T.hash e.1) := by
    intro log; simp [observed, List.filterMap_map, Function.comp_def]
  have heq : (withFunctions false false files' answers' test).log.filterMap (fun e => T.hash e.call) =
      (withFunctions refresh complete stored answers test).log.filterMap (fun e => T.hash e.call) := by
    rw [hash, hash, ho]
  rw [C77_listing_partial refresh complete stored answers test hnd
    (fun e he => (hval e he).imp fun v hv => hv.1), ← heq]
  refine C77_listing_partial false false files' answers' test (by rw [heq]; exact hnd) ?_
  intro e he
  have hm : (e.call, e.outcome) ∈ observed (withFunctions refresh complete stored answers test).log := by
    rw [← ho]; exact List.mem_map.mpr ⟨e, he, rfl⟩
  obtain ⟨e', he', hx⟩ := List.mem_map.mp hm
  obtain ⟨v, hv, -⟩ := hval e' he'
  exact ⟨v, by rw [← (Prod.mk.inj hx).2, hv]⟩

example : ∃ files, (withFunctions (T := numT) true false [] (fun i => .ok i) (calling [1, 2])).files = some files ∧
    (withFunctions (T := numT) false false files (fun _ => .error ()) (calling [1, 2])).listing =
      (withFunctions (T := numT) true false [] (fun i => .ok i) (calling [1, 2])).listing :=
  (C77_same_partial (T := numT) true false [] (fun i => .ok i) (fun _ => .error ()) (calling [1, 2])
    (by decide) (by
      intro e he
      have : e ∈ [(⟨(1 : Nat), .val (0 : Nat), true⟩ : FnEvent numT), ⟨(2 : Nat), .val (1 : Nat), true⟩] := he
      rcases List.mem_cons.mp this with rfl | h
      · exact ⟨_, rfl, rfl⟩
      · rcases List.mem_cons.mp h with rfl | h
        · exact ⟨_, rfl, rfl⟩
        · cases h)).imp fun _ h => ⟨h.1, h.2 _ (List.Perm.refl _)⟩

/-- **C77, refuted**: after a capture run with the calls 1, 2, 1 the listing has call 1 last; in the
replay of the very same calls with the same values it is first.  So the accepted output of the capture
run differs from that of the next run. -/
theorem C77_listing_refuted : ∃ (answers : Nat → Except numT.E numT.V) (test : Prog numT) (files : FnFiles numT),
    (withFunctions true false [] answers test).files = some files ∧
    (∀ answers', observed (withFunctions false false files answers' test).log =
      observed (withFunctions true false [] answers test).log) ∧
    ∀ answers', (withFunctions false false files answers' test).listing ≠
      (withFunctions true false [] answers test).listing := by
  refine ⟨fun _ => .ok (5 : Nat), calling [1, 2, 1], [("xx.json".toList, ⟨(2 : Nat), ['x', 'x'], (5 : Nat)⟩),
    ("x.json".toList, ⟨(1 : Nat), ['x'], (5 : Nat)⟩)], rfl, ?_, ?_⟩
  · intro answers'
    rw [C49_independent _ answers' (fun _ => .ok (5 : Nat))]
    rfl
  · intro answers'
    rw [C49_independent _ answers' (fun _ => .ok (5 : Nat))]
    decide

/-! ### C56: patched functions -/

variable {O : FnObjects}

private theorem patchAll_ok (ps : List (O.F × O.F)) : ∀ (a : Attrs O),
    (∀ p ∈ ps, (O.loc p.1).isSome) →
    ∃ a1, patchAll a ps = (a1, false) ∧
      (∀ l, (∀ p ∈ ps, O.loc p.1 ≠ some l) → a1 l = a l) ∧
      (∀ l, (∃ p ∈ ps, O.loc p.1 = some l) → ∃ p ∈ ps, O.loc p.1 = some l ∧ a1 l = some p.2) := by
  induction ps with
  | nil => intro a _; exact ⟨a, rfl, fun _ _ => rfl, by simp⟩
  | cons p ps ih =>
    intro a hl
    obtain ⟨f, v⟩ := p
    obtain ⟨l0, hl0⟩ := Option.isSome_iff_exists.mp (hl (f, v) List.mem_cons_self)
    obtain ⟨a1, h1, h2, h3⟩ := ih (fun x => if x = l0 then some v else a x)
      (fun p hp => hl p (List.mem_cons_of_mem _ hp))
    refine ⟨a1, ?_, ?_, ?_⟩
    · simp only at hl0
      simp only [patchAll, setFunction, hl0]; exact h1
    · intro l hn
      rw [h2 l (fun p hp => hn p (List.mem_cons_of_mem _ hp))]
      have : l ≠ l0 := by
        rintro rfl; exact hn (f, v) List.mem_cons_self hl0
      simp [this]
    · intro l hx
      by_cases hps : ∃ p ∈ ps, O.loc p.1 = some l
      · obtain ⟨p, hp, hp2⟩ := h3 l hps
        exact ⟨p, List.mem_cons_of_mem _ hp, hp2⟩
      · have hps' : ∀ p ∈ ps, O.loc p.1 ≠ some l := fun p hp he => hps ⟨p, hp, he⟩
        obtain ⟨p, hp, he⟩ := hx
        rcases List.mem_cons.mp hp with rfl | hp
        · refine ⟨_, List.mem_cons_self, he, ?_⟩
          rw [h2 l hps']
          simp only at he hl0
          rw [hl0] at he; cases he
          simp
        · exact absurd he (hps' p hp)

/-- **C56, partial**: if every function is at its place when the block begins, then after the block each
of them is at its place again, whatever the test did - also nested blocks, also by raising - and the
block does not raise.  Places of other functions are as the test left them. -/
theorem C56_restored_partial (ps : List (O.F × O.F)) (test : Attrs O → Attrs O) (a : Attrs O)
    (hat : ∀ p ∈ ps, ∃ l, O.loc p.1 = some l ∧ a l = some p.1) :
    ∃ s, (withPatched ps test a).1 = some s ∧ (withPatched ps test a).2.2 = false ∧
      (∀ p ∈ ps, ∀ l, O.loc p.1 = some l → (withPatched ps test a).2.1 l = a l) ∧
      (∀ l, (∀ p ∈ ps, O.loc p.1 ≠ some l) → s l = a l ∧ (withPatched ps test a).2.1 l = test s l) ∧
      (∀ p ∈ ps, ∀ l, O.loc p.1 = some l → ∃ q ∈ ps, O.loc q.1 = some l ∧ s l = some q.2) := by
  obtain ⟨a1, h1, h2, h3⟩ := patchAll_ok ps a (fun p hp => by
    obtain ⟨l, hl, _⟩ := hat p hp; rw [hl]; rfl)
  obtain ⟨a2, g1, g2, g3⟩ := patchAll_ok ((ps.map (·.1)).map (fun f => (f, f))) (test a1) (by
    intro q hq
    simp only [List.map_map, List.mem_map, Function.comp_apply] at hq
    obtain ⟨p, hp, rfl⟩ := hq
    obtain ⟨l, hl, _⟩ := hat p hp; simp only; rw [hl]; rfl)
  have hrun : withPatched ps test a = (some a1, a2, false) := by
    unfold withPatched unpatchAll
    rw [h1]; dsimp only; rw [g1]
  rw [hrun]
  refine ⟨a1, rfl, rfl, ?_, ?_, ?_⟩
  · intro p hp l hl
    obtain ⟨q, hq, hq1, hq2⟩ := g3 l ⟨(p.1, p.1), by simpa using ⟨p.2, hp⟩, hl⟩
    simp only [List.map_map, List.mem_map, Function.comp_apply] at hq
    obtain ⟨p', hp', rfl⟩ := hq
    simp only at hq1 hq2
    obtain ⟨l', hl', hal'⟩ := hat p' hp'
    rw [hq1] at hl'; cases hl'
    dsimp only
    rw [hq2, hal']
  · intro l hn
    refine ⟨h2 l hn, g2 l ?_⟩
    intro q hq
    simp only [List.map_map, List.mem_map, Function.comp_apply] at hq
    obtain ⟨p, hp, rfl⟩ := hq
    exact hn p hp
  · intro p hp l hl
    exact h3 l ⟨p, hp, hl⟩

/-- In a block around functions at different places, the test finds the replacement of each. -/
theorem C56_patched (ps : List (O.F × O.F)) (test : Attrs O → Attrs O) (a : Attrs O)
    (hat : ∀ p ∈ ps, ∃ l, O.loc p.1 = some l ∧ a l = some p.1)
    (hdiff : ∀ p ∈ ps, ∀ q ∈ ps, O.loc p.1 = O.loc q.1 → p = q) :
    ∃ s, (withPatched ps test a).1 = some s ∧ ∀ p ∈ ps, ∀ l, O.loc p.1 = some l → s l = some p.2 := by
  obtain ⟨s, h1, _, _, _, h5⟩ := C56_restored_partial ps test a hat
  refine ⟨s, h1, ?_⟩
  intro p hp l hl
  obtain ⟨q, hq, hq1, hq2⟩ := h5 p hp l hl
  rw [hdiff p hp q hq (by rw [hl, hq1])]
  exact hq2

/-- **C56, refuted for nested blocks**: a block inside another one around the same function leaves the
function itself behind, not the replacement that was there when it began. -/
theorem C56_nested_refuted (f m w : O.F) (l : O.Loc) (hl : O.loc f = some l) (hm : m ≠ f)
    (a : Attrs O) (test : Attrs O → Attrs O) :
    ∃ s, (withPatched [(f, m)] (fun e => (withPatched [(f, w)] test e).2.1) a).1 = some s ∧
      s l = some m ∧ (withPatched [(f, w)] test s).2.1 l ≠ s l := by
  refine ⟨fun x => if x = l then some m else a x, ?_, by simp, ?_⟩
  · simp [withPatched, patchAll, setFunction, hl]
  · simp only [withPatched, patchAll, setFunction, hl, unpatchAll, List.map_cons, List.map_nil]
    simp [Ne.symm hm]

/-- Functions are numbers; number 0 has no name, the place of any other is its number. -/
def numO : FnObjects where
  F := Nat
  Loc := Nat
  loc := fun f : Nat => if f = 0 then none else some f
  wrap := fun f : Nat => f + 100

example : ∃ s, (withPatched (O := numO) (snapshotPatches numO [(1 : Nat), (2 : Nat)]) id
    (fun l : Nat => some l)).1 = some s ∧ s (1 : Nat) = some (101 : Nat) ∧ s (3 : Nat) = some (3 : Nat) :=
  ⟨_, rfl, rfl, rfl⟩

example : ∀ p ∈ snapshotPatches numO [(1 : Nat), (2 : Nat)], ∃ l, numO.loc p.1 = some l ∧
    (fun l : Nat => some l : Attrs numO) l = some p.1 := by
  intro p hp
  rcases List.mem_cons.mp hp with rfl | hp
  · exact ⟨(1 : Nat), rfl, rfl⟩
  · rcases List.mem_cons.mp hp with rfl | hp
    · exact ⟨(2 : Nat), rfl, rfl⟩
    · cases hp

/-- **C56, refuted**: if a later function of the list cannot be patched, the block raises and an earlier
one stays patched. -/
theorem C56_start_error_refuted : ∃ (ps : List (numO.F × numO.F)) (a : Attrs numO), ∀ test,
    (withPatched ps test a).1 = none ∧ (withPatched ps test a).2.2 = true ∧
    ∃ l, (withPatched ps test a).2.1 l ≠ a l :=
  ⟨[((1 : Nat), (101 : Nat)), ((0 : Nat), (100 : Nat))], fun l : Nat => some l, fun _ =>
    ⟨rfl, rfl, (1 : Nat), fun h => absurd (Option.some.inj h : (101 : Nat) = 1) (by decide)⟩⟩

/-- **C56, refuted**: for a function that is not at its place - for example one defined in a class, whose
place is taken to be the module - the block leaves it there, where nothing was before. -/
theorem C56_elsewhere_refuted (f v : O.F) (l : O.Loc) (hl : O.loc f = some l) (a : Attrs O)
    (ha : a l = none) (test : Attrs O → Attrs O) :
    (withPatched [(f, v)] test a).2.1 l ≠ a l := by
  simp [withPatched, patchAll, setFunction, hl, unpatchAll, ha]

end Verif.Props
