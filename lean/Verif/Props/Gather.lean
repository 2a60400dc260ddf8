import Verif.Lemmas.Gather
import Verif.Props.Requests

/-! # C109: concurrent requests are replayed, whatever the order -/

namespace Verif.Props
open Verif.Py Verif.Model Verif.Spec Verif.Lemmas

variable {T : RqTypes}

/-- **C109 (partial).** After a run in which all tasks came to their ends, every request was answered with a response
that can be stored and read back, and equal requests were made by the same task: whatever the event loop does in a
replay, each task sees there what it saw in the first run, as far as it has come, and everything if it has come to its
end; the server is not asked and no task waits; and if all tasks have come to their ends, the listing is the same. What
the event loop did in the first run does not matter either. The full property has no condition about equal requests
(see `C109_refuted`) and, as in C52, none about requests that raise. -/
theorem C109_replay_partial {W : Type} (view : T.V → W) (c c' : RqConfig) (hign : c'.ign = c.ign)
    (hth : c'.toHash = c.toHash) (hrefresh : c'.refresh = false)
    (legacy : List (StoredRq T)) (file : Dict (StoredRq T)) (tests : Nat → RqProg T)
    (htests : ∀ i, LooksThrough view (tests i)) (steps : List (RqStep T)) (run : GatherRun T)
    (hrun : withGather c legacy file tests steps = some run) (hdone : Finished run) (hval : Answered view run)
    (hsep : Separate c run) (hok : HashOK T c.ign c.toHash (requestedBy run) run.listing.length) :
    ∃ written, run.written = some written ∧ ∀ steps', ∃ run', withGather c' [] written tests steps' = some run' ∧
      (∀ i, seenBy view run' i <+: seenBy view run i) ∧
      (∀ i, (run'.tasks i).prog = .done → seenBy view run' i = seenBy view run i) ∧
      (∀ i, (run'.tasks i).waits = none ∧ ∀ e ∈ (run'.tasks i).log, e.real = false) ∧
      (Finished run' → run'.listing = run.listing) := by
  simp only [withGather, Option.map_eq_some_iff] at hrun
  obtain ⟨snaps, _, rfl⟩ := hrun
  dsimp only [Finished, Answered, Separate] at hdone hval hsep hok
  generalize hfinal : (RqLoop.start tests).steps c snaps steps = final at hdone hval hsep hok
  have hlen : (rqListing final.requests).length = final.requests.length := by
    rw [rqListing, (sortedBy_perm _ _).length_eq, List.length_map]
  rw [hlen] at hok
  generalize hSdef : requestedBy (T := T) _ = S at hok
  have hS : ∀ i, ∀ e ∈ (final.tasks i).log, S e.request := by
    intro i e he
    rw [← hSdef]
    exact ⟨i, e, he, rfl⟩
  obtain ⟨owns, inv⟩ := loopInv_steps hok tests snaps final hdone hS (Nat.le_refl _)
    (fun i e he => by obtain ⟨v, _, _, h, _⟩ := hval i e he; exact ⟨v, h⟩) hsep steps _ _
    (LoopInv.start c S _ tests) hfinal
  have hruns : ∀ i, Runs c [] (tests i) (final.tasks i).log (owns i) .done := fun i => by
    rw [← hdone i]; exact inv.runs i
  have hrt : ∀ s ∈ final.requests, ∃ x v', T.save s.response = some x ∧ T.load x = some v' ∧
      view v' = view s.response := by
    intro s hs
    obtain ⟨i, hi⟩ := (inv.mem s).mp hs
    obtain ⟨e, he, ho, _⟩ := ((hruns i).hashes hok (hS i) (by have := (inv.lens i).1; simp; omega) (HashesInv.nil _ _)).2.1 s hi
    obtain ⟨v, x, v', h1, h2⟩ := hval i e he
    rw [ho] at h1
    cases h1
    exact ⟨x, v', h2⟩
  obtain ⟨new, hst, hnew⟩ := storeAll_spec c.lose final.requests [] inv.hashes.nodup (by simp [Dict.keys])
    (by intro s hs; obtain ⟨x, _, h, _⟩ := hrt s hs; simp [h])
  rw [List.nil_append] at hst
  obtain ⟨snaps', hl1, hl2, hl3⟩ := load_stored view c c' _ new hnew hrt
  have hkeys := loaded_keys c c' final.requests new hnew snaps' hl1
  have hsnaps : ∀ i, ∀ s ∈ owns i, ∃ s', findRq snaps' s.key.hash = some s' ∧
      view s'.response = view s.response := by
    intro i s hs
    obtain ⟨s', g1, g2, g3, _⟩ := hl3 s ((inv.mem s).mpr ⟨i, hs⟩)
    refine ⟨s', ?_, g3⟩
    rw [← g2]
    exact findRq_of_mem (by rw [hl2]; exact inv.hashes.nodup) g1
  refine ⟨new, hst, fun steps' => ?_⟩
  have hloop : ∀ (steps' : List (RqStep T)) (st : RqLoop T) (log : Nat → List (RqEvent T))
      (own : Nat → List (RqSnap T)),
      ReplayInv c S final.requests.length view (fun i => (final.tasks i).log) owns snaps' st log own →
      ∃ log' own', ReplayInv c S final.requests.length view (fun i => (final.tasks i).log) owns snaps' (st.steps c' snaps' steps') log' own' := by
    intro steps'
    induction steps' with
    | nil => intro st log own h; exact ⟨log, own, h⟩
    | cons x steps' ih =>
      intro st log own h
      obtain ⟨log', own', h'⟩ := replay_step view hign hth hok tests _ owns hruns hsep hS (final.requests.map (·.key.hash))
        (by simp) (fun i s hs => List.mem_map.mpr ⟨s, (inv.mem s).mpr ⟨i, hs⟩, rfl⟩) inv.lens snaps' hsnaps st log own h x
      exact ih _ log' own' h'
  obtain ⟨log, own, rep⟩ := hloop steps' (RqLoop.start tests) (fun _ => []) (fun _ => []) {
    part := fun i => ⟨_, _, rfl, rfl, hruns i⟩
    seen := fun _ => rfl
    quiet := fun i => ⟨rfl, fun e he => by cases he⟩
    looks := htests
    mem := fun h => by simp [RqLoop.start]
    hashes := HashesInv.nil _ _
    loaded := fun s hs => by cases hs }
  have hwhole : ∀ i, (((RqLoop.start tests).steps c' snaps' steps').tasks i).prog = .done →
      (final.tasks i).log = log i ∧ owns i = own i := by
    intro i hd
    obtain ⟨l, o, h1, h2, h3⟩ := rep.part i
    rw [hd] at h3
    cases l with
    | nil =>
      cases o with
      | nil => exact ⟨by simpa using h1, by simpa using h2⟩
      | cons => exact h3.elim
    | cons e l =>
      cases o with
      | nil => exact h3.elim
      | cons s o => obtain ⟨k, hk, _⟩ := h3; cases hk
  refine ⟨⟨((RqLoop.start tests).steps c' snaps' steps').tasks,
    rqListing ((RqLoop.start tests).steps c' snaps' steps').requests,
    storeAll c'.lose ((RqLoop.start tests).steps c' snaps' steps').requests []⟩,
    by simp only [withGather, loadAll, hrefresh, List.nil_append, Bool.false_eq_true, if_false, hl1,
      Option.map_some], ?_, ?_, rep.quiet, ?_⟩
  · intro i
    obtain ⟨l, _, h1, _⟩ := rep.part i
    refine ⟨rqObserved view l, ?_⟩
    dsimp only [seenBy] at h1 ⊢
    rw [rep.seen i, h1]
    simp [rqObserved]
  · intro i hd
    dsimp only [seenBy]
    rw [rep.seen i, (hwhole i hd).1]
  · intro hd
    apply sortedBy_congr pairLe_trans pairLe_total pairLe_antisymm
    have nodup_of : ∀ l : List (RqSnap T), (l.map (·.key.hash)).Nodup →
        (l.map (fun s => (s.key.json.url, s.key.hash))).Nodup := by
      intro l hl
      have : l.map (·.key.hash) = (l.map (fun s => (s.key.json.url, s.key.hash))).map Prod.snd := by
        simp [List.map_map, Function.comp_def]
      rw [this] at hl
      exact (List.pairwise_map.mp hl).imp (fun h e => h (by rw [e]))
    rw [List.perm_ext_iff_of_nodup (nodup_of _ rep.hashes.nodup) (nodup_of _ inv.hashes.nodup)]
    intro a
    constructor
    · intro ha
      obtain ⟨s, hs, rfl⟩ := List.mem_map.mp ha
      rw [← hkeys]
      exact List.mem_map.mpr ⟨s, rep.loaded s hs, rfl⟩
    · intro ha
      obtain ⟨s, hs, rfl⟩ := List.mem_map.mp ha
      obtain ⟨i, hi⟩ := (inv.mem s).mp hs
      have hi' : s.key.hash ∈ (own i).map (·.key.hash) := by
        rw [← (hwhole i (hd i)).2]; exact List.mem_map.mpr ⟨s, hi, rfl⟩
      obtain ⟨s', h1, h2⟩ := List.mem_map.mp ((rep.mem _).mpr ⟨i, hi'⟩)
      have h4 : (s.key.json.url, s.key.hash) ∈ snaps'.map (fun s => (s.key.json.url, s.key.hash)) := by
        rw [hkeys]; exact List.mem_map.mpr ⟨s, hs, rfl⟩
      obtain ⟨s'', h5, h6⟩ := List.mem_map.mp h4
      simp only [Prod.mk.injEq] at h6
      have h7 : s' = s'' := rq_eq_of_hash (by rw [hl2]; exact inv.hashes.nodup) (rep.loaded s' h1) h5
        (by rw [h2, h6.2])
      exact List.mem_map.mpr ⟨s', h1, by rw [h7, h6.1, h6.2]⟩

/-- A replay gets on: in such a replay each turn of a task that is not at its end makes one more request. -/
theorem C109_progress (c : RqConfig) (snaps : List (RqSnap T)) (st : RqLoop T) (i : Nat) (r : Rq)
    (k : RqOutcome T → RqProg T) (hp : (st.tasks i).prog = .send r k) (hw : (st.tasks i).waits = none)
    (hc : c.refresh = false ∧ c.complete = false) :
    ∃ e, e.request = r ∧ ((st.step c snaps (.go i)).tasks i).log = (st.tasks i).log ++ [e] := by
  rcases ht : st.tasks i with ⟨p, w, log⟩
  rw [ht] at hp hw
  dsimp only at hp hw
  subst hp hw
  simp only [RqLoop.step, ht]
  rcases findRq snaps (markOrder st.requests (fromRequest T c.ign c.toHash r)).hash with _ | s
  · simp only [hc.1, hc.2, Bool.or_false, Bool.not_false, if_true]
    exact ⟨_, rfl, by rw [setTask_self]⟩
  · exact ⟨_, rfl, by rw [setTask_self]⟩

theorem steps_all (c : RqConfig) (snaps : List (RqSnap T)) (P : RqTask T → Prop)
    (hstep : ∀ st st' : RqLoop T, (∀ i, P (st.tasks i)) → Stepped c snaps st st' → (∃ x, st' = st.step c snaps x) →
      ∀ i, P (st'.tasks i))
    (steps : List (RqStep T)) (st : RqLoop T) (h : ∀ i, P (st.tasks i)) :
    ∀ i, P ((st.steps c snaps steps).tasks i) := by
  induction steps generalizing st with
  | nil => exact h
  | cons x steps ih => exact ih _ (hstep st _ h (stepped c snaps st x) ⟨x, rfl⟩)

/-- Steps of a task, without those that the settings exclude. -/
theorem step_captures (c : RqConfig) (snaps : List (RqSnap T)) (st : RqLoop T) (x : RqStep T) (i : Nat) :
    (∀ e ∈ ((st.step c snaps x).tasks i).log, e ∈ (st.tasks i).log ∨
      (e.outcome = .missing → (c.refresh || c.complete) = false)) ∧
    (((st.step c snaps x).tasks i).waits ≠ none → (st.tasks i).waits ≠ none ∨ (c.refresh || c.complete) = true) ∧
    (∀ e ∈ ((st.step c snaps x).tasks i).log, e ∈ (st.tasks i).log ∨ (e.real = true → (st.tasks i).waits ≠ none)) := by
  have same : ∀ st' : RqLoop T, st'.tasks i = st.tasks i →
      (∀ e ∈ (st'.tasks i).log, e ∈ (st.tasks i).log ∨ (e.outcome = .missing → (c.refresh || c.complete) = false)) ∧
      ((st'.tasks i).waits ≠ none → (st.tasks i).waits ≠ none ∨ (c.refresh || c.complete) = true) ∧
      (∀ e ∈ (st'.tasks i).log, e ∈ (st.tasks i).log ∨ (e.real = true → (st.tasks i).waits ≠ none)) :=
    fun st' h => by rw [h]; exact ⟨fun e he => .inl he, fun hw => .inl hw, fun e he => .inl he⟩
  have one : ∀ (base : RqLoop T) (j : Nat) (t : RqTask T), base.tasks = st.tasks →
      (j = i → (∀ e ∈ t.log, e ∈ (st.tasks i).log ∨ (e.outcome = .missing → (c.refresh || c.complete) = false)) ∧
        (t.waits ≠ none → (st.tasks i).waits ≠ none ∨ (c.refresh || c.complete) = true) ∧
        (∀ e ∈ t.log, e ∈ (st.tasks i).log ∨ (e.real = true → (st.tasks i).waits ≠ none))) →
      (∀ e ∈ ((base.setTask j t).tasks i).log,
        e ∈ (st.tasks i).log ∨ (e.outcome = .missing → (c.refresh || c.complete) = false)) ∧
      (((base.setTask j t).tasks i).waits ≠ none → (st.tasks i).waits ≠ none ∨ (c.refresh || c.complete) = true) ∧
      (∀ e ∈ ((base.setTask j t).tasks i).log, e ∈ (st.tasks i).log ∨ (e.real = true → (st.tasks i).waits ≠ none)) := by
    intro base j t hb h
    by_cases hj : i = j
    · subst hj
      rw [setTask_self]
      exact h rfl
    · exact same _ (by rw [setTask_other _ _ _ _ hj, hb])
  cases x with
  | go j =>
    simp only [RqLoop.step]
    rcases ht : st.tasks j with ⟨p, w, log⟩
    cases p with
    | done => exact same st rfl
    | send r k =>
      cases w with
      | some key => exact same st rfl
      | none =>
        dsimp only
        rcases hf : findRq snaps (markOrder st.requests (fromRequest T c.ign c.toHash r)).hash with _ | s
        · dsimp only
          by_cases hc : (c.refresh || c.complete) = true
          · rw [if_neg (by simp [hc])]
            refine one st j _ rfl (fun hj => ?_)
            subst hj
            rw [ht]
            exact ⟨fun e he => .inl he, fun _ => .inr hc, fun e he => .inl he⟩
          · have hc' : (c.refresh || c.complete) = false := by simpa using hc
            rw [if_pos (by simp [hc'])]
            refine one st j _ rfl (fun hj => ?_)
            subst hj
            rw [ht]
            refine ⟨fun e he => ?_, fun h => absurd rfl h, fun e he => ?_⟩
            · exact .inr (fun _ => hc')
            · rcases List.mem_append.mp he with he | he
              · exact .inl he
              · right; intro h; rw [List.mem_singleton.mp he] at h; cases h
        · dsimp only
          refine one _ j _ rfl (fun hj => ?_)
          subst hj
          rw [ht]
          refine ⟨fun e he => ?_, fun h => absurd rfl h, fun e he => ?_⟩
          · rcases List.mem_append.mp he with he | he
            · exact .inl he
            · right; intro h; rw [List.mem_singleton.mp he] at h; cases h
          · rcases List.mem_append.mp he with he | he
            · exact .inl he
            · right; intro h; rw [List.mem_singleton.mp he] at h; cases h
  | answer j a =>
    simp only [RqLoop.step]
    rcases ht : st.tasks j with ⟨p, w, log⟩
    cases p with
    | done => exact same st rfl
    | send r k =>
      cases w with
      | none => exact same st rfl
      | some key =>
        cases a with
        | error e0 =>
          refine one st j _ rfl (fun hj => ?_)
          subst hj
          rw [ht]
          refine ⟨fun e he => ?_, fun h => absurd rfl h, fun e he => .inr (fun _ => by simp)⟩
          rcases List.mem_append.mp he with he | he
          · exact .inl he
          · right; intro h; rw [List.mem_singleton.mp he] at h; cases h
        | ok v =>
          dsimp only
          refine one _ j _ rfl (fun hj => ?_)
          subst hj
          rw [ht]
          refine ⟨fun e he => ?_, fun h => absurd rfl h, fun e he => .inr (fun _ => by simp)⟩
          rcases List.mem_append.mp he with he | he
          · exact .inl he
          · right; intro h; rw [List.mem_singleton.mp he] at h; cases h

/-- **C109, capturing**: with `-s` or `-S` no request of a task is missing, whatever the snapshots are. -/
theorem C109_captures (c : RqConfig) (hc : (c.refresh || c.complete) = true) (legacy : List (StoredRq T))
    (file : Dict (StoredRq T)) (tests : Nat → RqProg T) (steps : List (RqStep T)) (run : GatherRun T)
    (hrun : withGather c legacy file tests steps = some run) :
    ∀ i, ∀ e ∈ (run.tasks i).log, e.outcome ≠ .missing := by
  simp only [withGather, Option.map_eq_some_iff] at hrun
  obtain ⟨snaps, _, rfl⟩ := hrun
  refine steps_all c snaps (fun t => ∀ e ∈ t.log, e.outcome ≠ .missing) ?_ steps _ (fun i e he => by cases he)
  rintro st _ h _ ⟨x, rfl⟩ i e he hm
  rcases (step_captures c snaps st x i).1 e he with he | hmc
  · exact h i e he hm
  · rw [hc] at hmc; exact absurd (hmc hm) (by simp)

/-- **C109, offline**: without them the server is not asked by any task, and no task waits. -/
theorem C109_offline (c : RqConfig) (hc : (c.refresh || c.complete) = false) (legacy : List (StoredRq T))
    (file : Dict (StoredRq T)) (tests : Nat → RqProg T) (steps : List (RqStep T)) (run : GatherRun T)
    (hrun : withGather c legacy file tests steps = some run) :
    ∀ i, (run.tasks i).waits = none ∧ ∀ e ∈ (run.tasks i).log, e.real = false := by
  simp only [withGather, Option.map_eq_some_iff] at hrun
  obtain ⟨snaps, _, rfl⟩ := hrun
  refine steps_all c snaps (fun t => t.waits = none ∧ ∀ e ∈ t.log, e.real = false) ?_ steps _
    (fun i => ⟨rfl, fun e he => by cases he⟩)
  rintro st _ h _ ⟨x, rfl⟩ i
  obtain ⟨_, h2, h3⟩ := step_captures c snaps st x i
  constructor
  · by_cases hw : ((st.step c snaps x).tasks i).waits = none
    · exact hw
    · rcases h2 hw with h' | h'
      · exact absurd (h i).1 h'
      · rw [hc] at h'; cases h'
  · intro e he
    rcases h3 e he with he | hr
    · exact (h i).2 e he
    · cases hreal : e.real with
      | false => rfl
      | true => exact absurd (h i).1 (hr hreal)

/-- Two tasks: one makes the same request twice, the other one makes another request. -/
def twoTasks : Nat → RqProg numR
  | 0 => sending [get "a".toList, get "a".toList]
  | 1 => sending [get "b".toList]
  | _ => .done

/-- The answers come in another order than the requests; the replay is in yet another order. -/
example : ∃ (run run' : GatherRun numR) (written : Dict (StoredRq numR)),
    withGather (T := numR) { refresh := true } [] [] twoTasks
      [.go 0, .go 1, .answer 1 (.ok (1 : Nat)), .answer 0 (.ok (2 : Nat)), .go 0, .answer 0 (.ok (3 : Nat))] = some run ∧
    Finished run ∧ Answered id run ∧ Separate { refresh := true } run ∧
    run.written = some written ∧ withGather (T := numR) {} [] written twoTasks [.go 0, .go 0, .go 1] = some run' ∧
    Finished run' ∧
    seenBy id run' 0 = [(get "a".toList, some (.inl (2 : Nat))), (get "a".toList, some (.inl (3 : Nat)))] ∧
    seenBy id run' 1 = [(get "b".toList, some (.inl (1 : Nat)))] := by
  refine ⟨_, _, _, rfl, ?_, ?_, ?_, rfl, rfl, ?_, rfl, rfl⟩
  · intro i
    match i with
    | 0 => rfl
    | 1 => rfl
    | i + 2 => rfl
  · intro i e he
    match i, he with
    | 0, he =>
      rcases List.mem_cons.mp he with rfl | he
      · exact ⟨_, _, _, rfl, rfl, rfl, rfl⟩
      · rcases List.mem_cons.mp he with rfl | he
        · exact ⟨_, _, _, rfl, rfl, rfl, rfl⟩
        · cases he
    | 1, he =>
      rcases List.mem_cons.mp he with rfl | he
      · exact ⟨_, _, _, rfl, rfl, rfl, rfl⟩
      · cases he
    | i + 2, he => cases he
  · intro i j e he e' he' heq
    match i, j, he, he' with
    | 0, 0, _, _ => rfl
    | 1, 1, _, _ => rfl
    | 0, 1, he, he' =>
      exfalso
      rcases List.mem_cons.mp he with rfl | he
      · rcases List.mem_cons.mp he' with rfl | he'
        · exact absurd heq (by decide)
        · cases he'
      · rcases List.mem_cons.mp he with rfl | he
        · rcases List.mem_cons.mp he' with rfl | he'
          · exact absurd heq (by decide)
          · cases he'
        · cases he
    | 1, 0, he, he' =>
      exfalso
      rcases List.mem_cons.mp he with rfl | he
      · rcases List.mem_cons.mp he' with rfl | he'
        · exact absurd heq (by decide)
        · rcases List.mem_cons.mp he' with rfl | he'
          · exact absurd heq (by decide)
          · cases he'
      · cases he
    | i + 2, _, he, _ => cases he
    | _, j + 2, _, he' => cases he'
  · intro i
    match i with
    | 0 => rfl
    | 1 => rfl
    | i + 2 => rfl

/-- Two tasks that make the same request. -/
def sameTasks : Nat → RqProg numR
  | 0 => sending [get "a".toList]
  | 1 => sending [get "a".toList]
  | _ => .done

/-- **C109, refuted for equal requests of different tasks.** Both requests are on their way before the first answer: both
get the same key, one answer is lost, and a replay in the same order gives one task the answer of the other one and
finds no snapshot for the other. -/
theorem C109_refuted : ∃ (run run' : GatherRun numR) (written : Dict (StoredRq numR)),
    withGather (T := numR) { refresh := true } [] [] sameTasks
      [.go 0, .go 1, .answer 0 (.ok (1 : Nat)), .answer 1 (.ok (2 : Nat))] = some run ∧
    Finished run ∧
    seenBy id run 0 = [(get "a".toList, some (.inl (1 : Nat)))] ∧
    seenBy id run 1 = [(get "a".toList, some (.inl (2 : Nat)))] ∧
    run.written = some written ∧ written.length = 1 ∧
    withGather (T := numR) {} [] written sameTasks [.go 0, .go 1] = some run' ∧
    seenBy id run' 0 = [(get "a".toList, some (.inl (2 : Nat)))] ∧
    seenBy id run' 1 = [(get "a".toList, none)] := by
  refine ⟨_, _, _, rfl, ?_, rfl, rfl, rfl, rfl, rfl, rfl, rfl⟩
  intro i
  match i with
  | 0 => rfl
  | 1 => rfl
  | i + 2 => rfl

/-- **C109, refuted for equal requests, even one after the other.** The first task is answered before the second one
asks; in a replay in which the second one comes first they get each other's answers. -/
theorem C109_order_refuted : ∃ (run run' : GatherRun numR) (written : Dict (StoredRq numR)),
    withGather (T := numR) { refresh := true } [] [] sameTasks
      [.go 0, .answer 0 (.ok (1 : Nat)), .go 1, .answer 1 (.ok (2 : Nat))] = some run ∧
    seenBy id run 0 = [(get "a".toList, some (.inl (1 : Nat)))] ∧
    run.written = some written ∧
    withGather (T := numR) {} [] written sameTasks [.go 1, .go 0] = some run' ∧
    seenBy id run' 0 = [(get "a".toList, some (.inl (2 : Nat)))] ∧
    seenBy id run' 1 = [(get "a".toList, some (.inl (1 : Nat)))] :=
  ⟨_, _, _, rfl, rfl, rfl, rfl, rfl, rfl⟩

end Verif.Props
