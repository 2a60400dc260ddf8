import Verif.Lemmas.Requests
import Verif.Model.Responses

/-! # Properties of request snapshots (C52–C55, C78) -/

namespace Verif.Props
open Verif.Py Verif.Model Verif.Spec Verif.Lemmas

variable {T : RqTypes}

/-! ### C52, C78: capture and replay -/

private theorem map_pair_eq {α β γ : Type} {f : α → β} {g : α → γ} {l l' : List α}
    (h1 : l.map f = l'.map f) (h2 : l.map g = l'.map g) :
    l.map (fun x => (f x, g x)) = l'.map (fun x => (f x, g x)) := by
  induction l generalizing l' with
  | nil => cases l' with
    | nil => rfl
    | cons => simp at h1
  | cons a l ih => cases l' with
    | nil => simp at h1
    | cons b l' =>
      simp only [List.map_cons, List.cons.injEq] at h1 h2 ⊢
      exact ⟨by rw [h1.1, h2.1], ih h1.2 h2.2⟩

/-- The hashes of the keys stored by a run are different. -/
private theorem requests_nodup {c : RqConfig} {S : Rq → Prop} {N : Nat} (hok : HashOK T c.ign c.toHash S N)
    (snaps : List (RqSnap T)) (answers : Nat → Except T.E T.V) (p : RqProg T)
    (hS : ∀ e ∈ (runRq c snaps answers p [] 0).1, S e.request) (hN : (runRq c snaps answers p [] 0).1.length ≤ N) :
    ((runRq c snaps answers p [] 0).2.map (·.key.hash)).Nodup :=
  (runRq_grows hok snaps answers p [] 0 hS (by simpa using hN) (HashesInv.nil _ _)).2.nodup

/-- Loading what was stored. -/
theorem load_stored {W : Type} (view : T.V → W) (c c' : RqConfig)
    (l : List (RqSnap T)) (new : Dict (StoredRq T))
    (hnew : List.map (fun p => (p.1, some p.2)) new = List.map (fun s => (s.key.hash, toStored c.lose s)) l)
    (hrt : ∀ s ∈ l, ∃ x v', T.save s.response = some x ∧ T.load x = some v' ∧ view v' = view s.response) :
    ∃ snaps', (new.map (·.2)).mapM (fromStored c'.ign c'.toHash) = some snaps' ∧
      snaps'.map (·.key.hash) = l.map (·.key.hash) ∧
      (∀ s ∈ l, ∃ s' ∈ snaps', s'.key.hash = s.key.hash ∧ view s'.response = view s.response ∧
        s'.key.json.url = s.key.json.url) := by
  induction l generalizing new with
  | nil =>
    cases new with
    | nil => exact ⟨[], rfl, rfl, by simp⟩
    | cons _ _ => simp at hnew
  | cons s l ih =>
    cases new with
    | nil => simp at hnew
    | cons q new =>
      obtain ⟨h, q⟩ := q
      simp only [List.map_cons, List.cons.injEq, Prod.mk.injEq] at hnew
      obtain ⟨⟨_, hq⟩, hrest⟩ := hnew
      obtain ⟨x, v', hx1, hx2, hx3⟩ := hrt s List.mem_cons_self
      obtain ⟨snaps', h1, h2, h3⟩ := ih new hrest (fun s' hs' => hrt s' (List.mem_cons_of_mem _ hs'))
      simp only [toStored, hx1, Option.map_some, Option.some.injEq] at hq
      have hload : fromStored c'.ign c'.toHash q =
          some ⟨mkKey T c'.ign c'.toHash q.request q.hash, v'⟩ := by
        subst hq
        simp only [fromStored, hx2, Option.map_some]
      refine ⟨⟨mkKey T c'.ign c'.toHash q.request q.hash, v'⟩ :: snaps', ?_, ?_, ?_⟩
      · simp only [List.map_cons, List.mapM_cons, hload, h1]
        rfl
      · simp only [List.map_cons, h2]
        congr 1
        subst hq
        rfl
      · intro s' hs'
        rcases List.mem_cons.mp hs' with rfl | hs'
        · refine ⟨_, List.mem_cons_self, ?_, hx3, ?_⟩
          · subst hq; rfl
          · subst hq
            simp only [mkKey]
            have : ∀ ign (j : RqJson), (dropHeaders T ign j).url = j.url := by
              intro ign j; unfold dropHeaders; split <;> rfl
            rw [this]
            split <;> rfl
        · obtain ⟨s2, g1, g2⟩ := h3 s' hs'
          exact ⟨s2, List.mem_cons_of_mem _ g1, g2⟩

/-- The URLs and hashes of what is loaded. -/
theorem loaded_keys (c c' : RqConfig) (l : List (RqSnap T)) (new : Dict (StoredRq T))
    (hnew : List.map (fun p => (p.1, some p.2)) new = List.map (fun s => (s.key.hash, toStored c.lose s)) l)
    (snaps' : List (RqSnap T)) (hload : (new.map (·.2)).mapM (fromStored c'.ign c'.toHash) = some snaps') :
    snaps'.map (fun s => (s.key.json.url, s.key.hash)) = l.map (fun s => (s.key.json.url, s.key.hash)) := by
  induction l generalizing new snaps' with
  | nil =>
    cases new with
    | nil => simp at hload; subst hload; rfl
    | cons _ _ => simp at hnew
  | cons s l ih =>
    cases new with
    | nil => simp at hnew
    | cons q new =>
      obtain ⟨h, q⟩ := q
      simp only [List.map_cons, List.cons.injEq, Prod.mk.injEq] at hnew
      obtain ⟨⟨_, hq⟩, hrest⟩ := hnew
      rw [List.map_cons, List.mapM_cons] at hload
      rcases hx : fromStored c'.ign c'.toHash q with _ | y
      · rw [hx] at hload; cases hload
      · rw [hx] at hload
        rcases hr : (new.map (·.2)).mapM (fromStored c'.ign c'.toHash) with _ | rest
        · rw [hr] at hload; cases hload
        · rw [hr] at hload
          change some (y :: rest) = some snaps' at hload
          cases hload
          rw [List.map_cons, List.map_cons, ih new hrest rest hr]
          congr 1
          simp only [fromStored, Option.map_eq_some_iff] at hx
          obtain ⟨v, _, rfl⟩ := hx
          simp only [toStored] at hq
          symm at hq
          rw [Option.map_eq_some_iff] at hq
          obtain ⟨x, _, rfl⟩ := hq
          have hurl : ∀ ign (j : RqJson), (dropHeaders T ign j).url = j.url := by
            intro ign j; unfold dropHeaders; split <;> rfl
          simp only [mkKey, hurl, Option.getD_some]
          split <;> rfl

/-- The responses stored are those seen by the test. -/
private theorem stored_seen {c : RqConfig} {S : Rq → Prop} {N : Nat} (hok : HashOK T c.ign c.toHash S N)
    (snaps : List (RqSnap T)) (answers : Nat → Except T.E T.V) (p : RqProg T) : ∀ requests i,
    (∀ e ∈ (runRq c snaps answers p requests i).1, S e.request) →
    requests.length + (runRq c snaps answers p requests i).1.length ≤ N →
    HashesInv T c.ign c.toHash S N (requests.map (·.key.hash)) →
    ∀ s ∈ (runRq c snaps answers p requests i).2, s ∈ requests ∨
      ∃ e ∈ (runRq c snaps answers p requests i).1, e.outcome = .val s.response := by
  induction p with
  | done => intro requests i _ _ _ s hs; exact .inl hs
  | send r k ih =>
    intro requests i hS hN h s hs
    simp only [runRq] at hS hN hs ⊢
    rw [List.length_cons] at hN
    have hS' := fun e he => hS e (List.mem_cons_of_mem _ he)
    rcases sendRq_spec hok snaps answers requests i r (hS _ List.mem_cons_self) (by omega) h with
      ⟨s', h1, h2, _, h4, _⟩ | ⟨h1, _⟩
    · rcases ih _ _ _ hS' (by rw [h1] at hN ⊢; simp; omega) (by rw [h1]; exact h4) s hs with g | ⟨e, he, g⟩
      · rw [h1] at g
        rcases List.mem_append.mp g with g | g
        · exact .inl g
        · simp only [List.mem_singleton] at g
          subst g
          exact .inr ⟨_, List.mem_cons_self, h2⟩
      · exact .inr ⟨e, List.mem_cons_of_mem _ he, g⟩
    · rcases ih _ _ _ hS' (by rw [h1] at hN ⊢; omega) (by rw [h1]; exact h) s hs with g | ⟨e, he, g⟩
      · rw [h1] at g; exact .inl g
      · exact .inr ⟨e, List.mem_cons_of_mem _ he, g⟩

/-- **C52, partial; C78, partial**: after a run in which every request was answered and every response
can be stored and read back, the stored file replays every test that sees responses only through what
is read back unchanged: it makes the same requests, sees the same answers (also when the server gave
different answers to the same request), the server is not contacted, and the block lists the same
snapshots. It holds for every mode of the first run, every earlier snapshot and, in the replay, every
server, every setting of `lose_request_details` and also `-s`; the header and hash settings are the
same. What is missing of the claim: requests that raised in the first run (`C52_retry_refuted`), and
responses that cannot be read back (`C52_binary_refuted`, `C52_httpx_binary_refuted`). -/
theorem C52_replay_partial {W : Type} (view : T.V → W) (c c' : RqConfig) (hign : c'.ign = c.ign)
    (hth : c'.toHash = c.toHash) (hrefresh : c'.refresh = false)
    (legacy : List (StoredRq T)) (file : Dict (StoredRq T)) (answers answers' : Nat → Except T.E T.V)
    (test : RqProg T) (htest : LooksThrough view test) (run : RqRun T)
    (hrun : withRequests c legacy file answers test = some run)
    (hok : HashOK T c.ign c.toHash (requestedIn run.log) run.log.length)
    (hval : ∀ e ∈ run.log, ∃ v x v', e.outcome = .val v ∧ T.save v = some x ∧ T.load x = some v' ∧
      view v' = view v) :
    ∃ written run', run.written = some written ∧
      withRequests c' [] written answers' test = some run' ∧
      rqObserved view run'.log = rqObserved view run.log ∧
      (∀ e ∈ run'.log, e.real = false) ∧
      run'.listing = run.listing := by
  simp only [withRequests, Option.map_eq_some_iff] at hrun
  obtain ⟨snaps, _, rfl⟩ := hrun
  dsimp only at hok hval ⊢
  have hS : ∀ e ∈ (runRq c snaps answers test [] 0).1, requestedIn (runRq c snaps answers test [] 0).1 e.request :=
    fun e he => ⟨e, he, rfl⟩
  have hN : ([] : List (RqSnap T)).length + (runRq c snaps answers test [] 0).1.length ≤
      (runRq c snaps answers test [] 0).1.length := by simp
  have hnd := requests_nodup hok snaps answers test hS (Nat.le_refl _)
  have hrt : ∀ s ∈ (runRq c snaps answers test [] 0).2, ∃ x v', T.save s.response = some x ∧
      T.load x = some v' ∧ view v' = view s.response := by
    intro s hs
    rcases stored_seen hok snaps answers test [] 0 hS hN (HashesInv.nil _ _) s hs with h | ⟨e, he, h⟩
    · cases h
    · obtain ⟨v, x, v', h1, h2⟩ := hval e he
      rw [h] at h1
      cases h1
      exact ⟨x, v', h2⟩
  obtain ⟨new, hst, hnew⟩ := storeAll_spec c.lose (runRq c snaps answers test [] 0).2 [] hnd
    (by simp [Dict.keys]) (by intro s hs; obtain ⟨x, _, h, _⟩ := hrt s hs; simp [h])
  rw [List.nil_append] at hst
  obtain ⟨snaps', hl1, hl2, hl3⟩ := load_stored view c c' _ new hnew hrt
  have hsim := replay_sim view hign hth hok snaps snaps' answers answers' test htest [] 0 [] 0 hS hN rfl
    (HashesInv.nil _ _) (fun e he => by obtain ⟨v, _, _, h, _⟩ := hval e he; exact ⟨v, h⟩)
    (by
      intro s hs
      obtain ⟨s', g1, g2, g3, g4⟩ := hl3 s hs
      refine ⟨s', ?_, g3, g4⟩
      rw [← g2]
      exact findRq_of_mem (by rw [hl2]; exact hnd) g1)
  obtain ⟨k1, k2, k3, k4⟩ := hsim
  refine ⟨new, ⟨(runRq c' snaps' answers' test [] 0).1, rqListing (runRq c' snaps' answers' test [] 0).2,
    storeAll c'.lose (runRq c' snaps' answers' test [] 0).2 []⟩, hst, ?_, k1, k2, ?_⟩
  · simp only [withRequests, loadAll, hrefresh, List.nil_append, Bool.false_eq_true, if_false, hl1,
      Option.map_some]
  · dsimp only [rqListing]
    rw [map_pair_eq (k4 rfl) k3]

/-- The default digest, which hashes the complete description of the request, is fine unless digests
collide. -/
theorem C52_default (ign : Ignore) (S : Rq → Prop) (N : Nat) (h : DigestOK T (RequestObjects T ign S N)) :
    HashOK T ign none S N := hashOK_of_digestOK h

/-! ### Concrete types for examples -/

/-- The strokes for the order of a request. -/
def orderStrokes : Option Nat → Str
  | none => []
  | some k => List.replicate (k + 1) '+'

/-- Responses are numbers, all of which can be stored; the digest of a request writes its order in
strokes before the URL. -/
def numR : RqTypes where
  V := Nat
  S := Nat
  E := Unit
  save := some
  load := some
  digest := fun j => orderStrokes j.order ++ j.url.map (fun c => if c = '+' then ' ' else c)
  lower := id

private theorem strokes_inj (n n' : Nat) (a b : Str) (ha : '+' ∉ a) (hb : '+' ∉ b)
    (h : List.replicate n '+' ++ a = List.replicate n' '+' ++ b) : n = n' ∧ a = b := by
  induction n generalizing n' with
  | zero =>
    cases n' with
    | zero => exact ⟨rfl, by simpa using h⟩
    | succ n' =>
      exfalso
      rw [List.replicate_succ, List.replicate_zero, List.nil_append] at h
      rw [h] at ha
      simp at ha
  | succ n ih =>
    cases n' with
    | zero =>
      exfalso
      rw [List.replicate_succ, List.replicate_zero, List.nil_append] at h
      rw [← h] at hb
      simp at hb
    | succ n' =>
      simp only [List.replicate_succ, List.cons_append, List.cons.injEq, true_and] at h
      obtain ⟨h1, h2⟩ := ih n' h
      exact ⟨by rw [h1], h2⟩

private theorem no_plus (s : Str) : '+' ∉ s.map (fun c => if c = '+' then ' ' else c) := by
  intro h
  obtain ⟨c, _, hc⟩ := List.mem_map.mp h
  split at hc
  · cases hc
  · contradiction

/-- The hypothesis on digests can be met. -/
theorem numR_ok (J : RqJson → Prop) : DigestOK numR J := by
  intro a b _ _ h
  have key : ∀ (o o' : Option Nat) (x y : Str), '+' ∉ x → '+' ∉ y →
      orderStrokes o ++ x = orderStrokes o' ++ y → o = o' ∧ x = y := by
    intro o o' x y hx hy h
    have hs : ∀ o, ∃ n, orderStrokes o = List.replicate n '+' ∧ (o = if n = 0 then none else some (n - 1)) := by
      intro o
      cases o with
      | none => exact ⟨0, rfl, rfl⟩
      | some k => exact ⟨k + 1, rfl, rfl⟩
    obtain ⟨n, h1, h2⟩ := hs o
    obtain ⟨n', h1', h2'⟩ := hs o'
    rw [h1, h1'] at h
    obtain ⟨h3, h4⟩ := strokes_inj _ _ _ _ hx hy h
    subst h3
    exact ⟨by rw [h2, h2'], h4⟩
  obtain ⟨h1, h2⟩ := key _ _ _ _ (no_plus _) (no_plus _) h
  refine ⟨h1, ?_⟩
  intro k _ _
  simp only [numR] at h2 ⊢
  rw [h2]

/-- A GET request without headers. -/
def get (url : Str) : Rq := ⟨url, "GET".toList, [], none⟩

/-- A test making the requests of a list one after the other. -/
def sending {T : RqTypes} : List Rq → RqProg T
  | [] => .done
  | r :: rs => .send r (fun _ => sending rs)

theorem sending_looks {T : RqTypes} {W : Type} (view : T.V → W) (rs : List Rq) :
    LooksThrough view (sending (T := T) rs) := by
  induction rs with
  | nil => exact .done
  | cons r rs ih => exact .send r _ (fun _ _ _ => rfl) (fun _ => ih)

/-- A server that counts: the same request is answered differently each time, and replayed so. -/
example : ∃ run : RqRun numR, withRequests (T := numR) { refresh := true } [] [] (fun i => .ok (10 + i : Nat))
      (sending [get "a".toList, get "b".toList, get "a".toList]) = some run ∧
    rqObserved id run.log = [(get "a".toList, some (.inl (10 : Nat))), (get "b".toList, some (.inl (11 : Nat))),
      (get "a".toList, some (.inl (12 : Nat)))] ∧
    run.listing = [("a".toList, "++a".toList), ("a".toList, "a".toList), ("b".toList, "b".toList)] :=
  ⟨_, rfl, rfl, by decide⟩

/-- A test that repeats a request until it is answered. -/
def retrying : RqProg numR :=
  .send (get "a".toList) (fun o => match o with
    | .val _ => .done
    | _ => .send (get "a".toList) (fun _ => .done))

/-- **C52, refuted for requests that raise**: the test above, on a server that fails once, makes two
requests in the first run and one in the replay. -/
theorem C52_retry_refuted : ∃ (run run' : RqRun numR) (written : Dict (StoredRq numR)),
    withRequests (T := numR) { refresh := true } [] [] (fun i => if i = 0 then .error () else .ok (7 : Nat))
      retrying = some run ∧ run.written = some written ∧
    withRequests {} [] written (fun _ => .error ()) retrying = some run' ∧
    rqObserved id run.log = [(get "a".toList, some (.inr ())), (get "a".toList, some (.inl (7 : Nat)))] ∧
    rqObserved id run'.log = [(get "a".toList, some (.inl (7 : Nat)))] :=
  ⟨_, _, _, rfl, rfl, rfl, rfl, rfl⟩

/-! ### Replays in general -/

/-- **C52, second part**: without capturing (neither `-s` nor `-S`) the server is never contacted and
nothing depends on it. -/
theorem C52_offline (c : RqConfig) (hc : c.refresh = false ∧ c.complete = false) (legacy : List (StoredRq T))
    (file : Dict (StoredRq T)) (answers answers' : Nat → Except T.E T.V) (test : RqProg T) :
    withRequests c legacy file answers test = withRequests c legacy file answers' test ∧
    ∀ run, withRequests c legacy file answers test = some run → ∀ e ∈ run.log, e.real = false ∧
      ((∃ v, e.outcome = .val v) ∨ e.outcome = .missing) := by
  have hsend : ∀ snaps requests i r, sendRq c snaps answers requests i r = sendRq (T := T) c snaps answers' requests i r ∧
      (sendRq c snaps answers requests i r).2.2 = i ∧
      ((∃ v, (sendRq c snaps answers requests i r).1 = .val v) ∨
        (sendRq c snaps answers requests i r).1 = .missing) := by
    intro snaps requests i r
    unfold sendRq
    dsimp only
    rcases findRq snaps (markOrder requests (fromRequest T c.ign c.toHash r)).hash with _ | s
    · simp [hc.1, hc.2]
    · exact ⟨rfl, rfl, .inl ⟨_, rfl⟩⟩
  have hrun : ∀ (p : RqProg T) snaps requests i,
      runRq c snaps answers p requests i = runRq c snaps answers' p requests i ∧
      ∀ e ∈ (runRq c snaps answers p requests i).1, e.real = false ∧
        ((∃ v, e.outcome = .val v) ∨ e.outcome = .missing) := by
    intro p
    induction p with
    | done => intro snaps requests i; exact ⟨rfl, by simp [runRq]⟩
    | send r k ih =>
      intro snaps requests i
      obtain ⟨h1, h2, h3⟩ := hsend snaps requests i r
      simp only [runRq]
      rw [← h1]
      obtain ⟨g1, g2⟩ := ih (sendRq c snaps answers requests i r).1 snaps
        (sendRq c snaps answers requests i r).2.1 (sendRq c snaps answers requests i r).2.2
      rw [← g1]
      refine ⟨rfl, ?_⟩
      intro e he
      rcases List.mem_cons.mp he with rfl | he
      · exact ⟨by simp [h2], h3⟩
      · exact g2 e he
  constructor
  · unfold withRequests
    congr 1
    funext snaps
    rw [(hrun test snaps [] 0).1]
  · intro run h
    simp only [withRequests, Option.map_eq_some_iff] at h
    obtain ⟨snaps, _, rfl⟩ := h
    exact (hrun test snaps [] 0).2

/-- With `-S` the stored snapshots have no influence, and every request is real. -/
theorem C52_refresh (c : RqConfig) (hc : c.refresh = true) (legacy legacy' : List (StoredRq T))
    (file file' : Dict (StoredRq T)) (answers : Nat → Except T.E T.V) (test : RqProg T) :
    withRequests c legacy file answers test = withRequests c legacy' file' answers test ∧
    ∃ run, withRequests c legacy file answers test = some run ∧ ∀ e ∈ run.log, e.real = true := by
  have hl : ∀ legacy file, loadAll (T := T) c legacy file = some [] := by
    intro legacy file; simp [loadAll, hc]
  have hr : ∀ (p : RqProg T) requests i, ∀ e ∈ (runRq c [] answers p requests i).1, e.real = true := by
    intro p
    induction p with
    | done => intro requests i e he; simp [runRq] at he
    | send r k ih =>
      intro requests i e he
      simp only [runRq] at he
      rcases List.mem_cons.mp he with rfl | he
      · simp only [decide_eq_true_eq]
        have hnone : ∀ h, findRq ([] : List (RqSnap T)) h = none := fun _ => rfl
        unfold sendRq
        simp only [hnone, hc, Bool.true_or, Bool.not_true, Bool.false_eq_true, if_false]
        rcases answers i with _ | _ <;> simp
      · exact ih _ _ _ e he
  constructor
  · simp only [withRequests, hl]
  · refine ⟨⟨(runRq c [] answers test [] 0).1, rqListing (runRq c [] answers test [] 0).2,
      storeAll c.lose (runRq c [] answers test [] 0).2 []⟩, ?_, hr test [] 0⟩
    simp only [withRequests, hl, Option.map_some]

/-- With `-s` or `-S` no snapshot is missing. -/
theorem C52_complete (c : RqConfig) (hc : (c.refresh || c.complete) = true) (legacy : List (StoredRq T))
    (file : Dict (StoredRq T)) (answers : Nat → Except T.E T.V) (test : RqProg T) (run : RqRun T)
    (h : withRequests c legacy file answers test = some run) : ∀ e ∈ run.log, e.outcome ≠ .missing := by
  have hr : ∀ (p : RqProg T) snaps requests i, ∀ e ∈ (runRq c snaps answers p requests i).1,
      e.outcome ≠ .missing := by
    intro p
    induction p with
    | done => intro snaps requests i e he; simp [runRq] at he
    | send r k ih =>
      intro snaps requests i e he
      simp only [runRq] at he
      rcases List.mem_cons.mp he with rfl | he
      · unfold sendRq
        dsimp only
        rcases findRq snaps (markOrder requests (fromRequest T c.ign c.toHash r)).hash with _ | s
        · simp only [hc, Bool.not_true, Bool.false_eq_true, if_false]
          rcases answers i with _ | _ <;> (intro h; cases h)
        · intro h; cases h
      · exact ih _ _ _ _ e he
  simp only [withRequests, Option.map_eq_some_iff] at h
  obtain ⟨snaps, _, rfl⟩ := h
  exact hr test snaps [] 0

private theorem runRq_congr (c : RqConfig) (snaps snaps' : List (RqSnap T))
    (h : ∀ x, findRq snaps x = findRq snaps' x) (answers : Nat → Except T.E T.V) (p : RqProg T) :
    ∀ requests i, runRq c snaps answers p requests i = runRq c snaps' answers p requests i := by
  induction p with
  | done => intros; rfl
  | send r k ih =>
    intro requests i
    have hs : sendRq c snaps answers requests i r = sendRq c snaps' answers requests i r := by
      unfold sendRq; simp only [h]
    simp only [runRq, hs, ih]

/-- The snapshot file has priority over the files of the old directory: those whose request is in the
file have no influence. -/
theorem C52_legacy (c : RqConfig) (legacy : List (StoredRq T)) (file : Dict (StoredRq T))
    (hload : ∀ x ∈ legacy, (T.load x.response).isSome)
    (hhash : ∀ x ∈ legacy, ∃ h, x.hash = some h ∧ ∃ p ∈ file, p.2.hash = some h)
    (answers : Nat → Except T.E T.V) (test : RqProg T) :
    withRequests c legacy file answers test = withRequests c [] file answers test := by
  unfold withRequests loadAll
  split
  · rfl
  · have hm : ∀ l : List (StoredRq T), (∀ x ∈ l, (T.load x.response).isSome) →
        ∃ ss, l.mapM (fromStored c.ign c.toHash) = some ss ∧
          ∀ s ∈ ss, ∃ x ∈ l, s.key.hash = (mkKey T c.ign c.toHash x.request x.hash).hash := by
      intro l
      induction l with
      | nil => intro _; exact ⟨[], rfl, by simp⟩
      | cons x l ih =>
        intro hl
        obtain ⟨ss, h1, h2⟩ := ih (fun y hy => hl y (List.mem_cons_of_mem _ hy))
        obtain ⟨v, hv⟩ := Option.isSome_iff_exists.mp (hl x List.mem_cons_self)
        refine ⟨⟨mkKey T c.ign c.toHash x.request x.hash, v⟩ :: ss, ?_, ?_⟩
        · rw [List.mapM_cons, h1]
          simp only [fromStored, hv, Option.map_some]
          rfl
        · intro s hs
          rcases List.mem_cons.mp hs with rfl | hs
          · exact ⟨x, List.mem_cons_self, rfl⟩
          · obtain ⟨y, g1, g2⟩ := h2 s hs
            exact ⟨y, List.mem_cons_of_mem _ g1, g2⟩
    obtain ⟨ls, hls1, hls2⟩ := hm legacy hload
    rw [List.mapM_append, hls1, List.nil_append]
    rcases hfs : (file.map (·.2)).mapM (fromStored c.ign c.toHash) with _ | fs
    · rw [hfs]; rfl
    · have hmem : ∀ (l : List (StoredRq T)) fs, l.mapM (fromStored c.ign c.toHash) = some fs → ∀ x ∈ l,
          ∃ s ∈ fs, s.key.hash = (mkKey T c.ign c.toHash x.request x.hash).hash := by
        intro l
        induction l with
        | nil => intro fs _ x hx; cases hx
        | cons y l ih =>
          intro fs h x hx
          rw [List.mapM_cons] at h
          rcases hy : fromStored c.ign c.toHash y with _ | s
          · rw [hy] at h; cases h
          · rw [hy] at h
            rcases hr : l.mapM (fromStored c.ign c.toHash) with _ | rest
            · rw [hr] at h; cases h
            · rw [hr] at h
              change some (s :: rest) = some fs at h
              cases h
              rcases List.mem_cons.mp hx with rfl | hx
              · simp only [fromStored, Option.map_eq_some_iff] at hy
                obtain ⟨v, _, rfl⟩ := hy
                exact ⟨_, List.mem_cons_self, rfl⟩
              · obtain ⟨s', g1, g2⟩ := ih rest hr x hx
                exact ⟨s', List.mem_cons_of_mem _ g1, g2⟩
      rw [hfs]
      change Option.map _ (some (ls ++ fs)) = Option.map _ (some fs)
      simp only [Option.map_some]
      have hfind : ∀ x, findRq (ls ++ fs) x = findRq fs x := by
        intro x
        unfold findRq
        rw [List.reverse_append, List.find?_append]
        rcases hf : fs.reverse.find? (fun s => s.key.hash == x) with _ | s
        · rw [hf, Option.none_or]
          rw [List.find?_eq_none] at hf ⊢
          intro s hs
          rw [List.mem_reverse] at hs
          obtain ⟨y, hy, hsy⟩ := hls2 s hs
          obtain ⟨h, hh, p, hp, hph⟩ := hhash y hy
          obtain ⟨s', hs', hs''⟩ := hmem _ fs hfs p.2 (List.mem_map.mpr ⟨p, hp, rfl⟩)
          have := hf s' (List.mem_reverse.mpr hs')
          simp only [mkKey, hh, hph, Option.getD_some] at hsy hs''
          rw [hsy, ← hs'']
          exact this
        · rw [hf]; rfl
      rw [runRq_congr c _ _ hfind]

/-- A file that overrides an old one. -/
example : (withRequests (T := numR) {} [⟨⟨"a".toList, "GET".toList, none, none, none⟩, some "a".toList, (1 : Nat)⟩]
      [("a".toList, ⟨⟨"a".toList, "GET".toList, none, none, none⟩, some "a".toList, (2 : Nat)⟩)]
      (fun _ => .error ()) (sending [get "a".toList])).map (fun r => r.log.map (fun e => viewOutcome id e.outcome)) =
    some [some (.inl (2 : Nat))] := rfl

/-! ### C78: the listing -/

/-- **C78**: after a run whose responses can be stored and read back, with requests that may have
raised, a replay that makes the same requests lists the same snapshots. -/
theorem C78_listing (c c' : RqConfig) (hign : c'.ign = c.ign) (hth : c'.toHash = c.toHash)
    (hc' : c'.refresh = false ∧ c'.complete = false)
    (legacy : List (StoredRq T)) (file written : Dict (StoredRq T))
    (answers answers' : Nat → Except T.E T.V) (test test' : RqProg T) (run run' : RqRun T)
    (hrun : withRequests c legacy file answers test = some run)
    (hok : HashOK T c.ign c.toHash (requestedIn run.log) run.log.length) (hw : run.written = some written)
    (hrun' : withRequests c' [] written answers' test' = some run')
    (hreq : run'.log.map (·.request) = run.log.map (·.request)) :
    run'.listing = run.listing := by
  simp only [withRequests, Option.map_eq_some_iff] at hrun hrun'
  obtain ⟨snaps, _, rfl⟩ := hrun
  obtain ⟨snaps', hload, rfl⟩ := hrun'
  dsimp only at hok hw hreq ⊢
  have hS : ∀ e ∈ (runRq c snaps answers test [] 0).1, requestedIn (runRq c snaps answers test [] 0).1 e.request :=
    fun e he => ⟨e, he, rfl⟩
  have hN : ([] : List (RqSnap T)).length + (runRq c snaps answers test [] 0).1.length ≤
      (runRq c snaps answers test [] 0).1.length := by simp
  have hnd := requests_nodup hok snaps answers test hS (Nat.le_refl _)
  have hsave : ∀ s ∈ (runRq c snaps answers test [] 0).2, (T.save s.response).isSome := by
    intro s hs
    rcases h : T.save s.response with _ | x
    · rw [storeAll_none c.lose _ [] ⟨s, hs, h⟩] at hw; cases hw
    · rfl
  obtain ⟨new, hst, hnew⟩ := storeAll_spec c.lose (runRq c snaps answers test [] 0).2 [] hnd
    (by simp [Dict.keys]) hsave
  rw [hst, List.nil_append] at hw
  cases hw
  simp only [loadAll, hc'.1, Bool.false_eq_true, if_false, List.nil_append] at hload
  have hkeys := loaded_keys c c' (runRq c snaps answers test [] 0).2 written hnew snaps' hload
  have hsub := replay_listing hign hth hok snaps snaps' answers answers' test test' [] 0 [] 0 hS hN hN
    (HashesInv.nil _ _) (HashesInv.nil _ _) (by simp) hreq (by
      intro s hs
      have : (s.key.json.url, s.key.hash) ∈ snaps'.map (fun s => (s.key.json.url, s.key.hash)) := by
        rw [hkeys]; exact List.mem_map.mpr ⟨s, hs, rfl⟩
      obtain ⟨s', h1, h2⟩ := List.mem_map.mp this
      simp only [Prod.mk.injEq] at h2
      exact List.mem_map.mpr ⟨s', h1, h2.2⟩)
  have hok' : HashOK T c'.ign c'.toHash (requestedIn (runRq c snaps answers test [] 0).1)
      (runRq c snaps answers test [] 0).1.length := by rw [hign, hth]; exact hok
  have hnd' := requests_nodup hok' snaps' answers' test' (by
      intro e he
      have : e.request ∈ (runRq c snaps answers test [] 0).1.map (·.request) := by
        rw [← hreq]; exact List.mem_map.mpr ⟨e, he, rfl⟩
      obtain ⟨e', h1, h2⟩ := List.mem_map.mp this
      exact ⟨e', h1, h2⟩)
    (by have := congrArg List.length hreq; simp only [List.length_map] at this; omega)
  have hfrom := replay_from_snaps hc' snaps' answers' test' [] 0
  have hsnd : (snaps'.map (·.key.hash)).Nodup := by
    have := congrArg (List.map Prod.snd) hkeys
    simp only [List.map_map, Function.comp_def] at this
    rw [this]
    exact hnd
  apply sortedBy_congr pairLe_trans pairLe_total pairLe_antisymm
  have nodup_of : ∀ l : List (RqSnap T), (l.map (·.key.hash)).Nodup →
      (l.map (fun s => (s.key.json.url, s.key.hash))).Nodup := by
    intro l hl
    have : l.map (·.key.hash) = (l.map (fun s => (s.key.json.url, s.key.hash))).map Prod.snd := by
      simp [List.map_map, Function.comp_def]
    rw [this] at hl
    exact (List.pairwise_map.mp hl).imp (fun h e => h (by rw [e]))
  rw [List.perm_ext_iff_of_nodup (nodup_of _ hnd') (nodup_of _ hnd)]
  intro a
  constructor
  · intro ha
    obtain ⟨s, hs, rfl⟩ := List.mem_map.mp ha
    rcases hfrom s hs with h | h
    · cases h
    · rw [← hkeys]
      exact List.mem_map.mpr ⟨s, h, rfl⟩
  · intro ha
    obtain ⟨s, hs, rfl⟩ := List.mem_map.mp ha
    obtain ⟨s', h1, h2⟩ := List.mem_map.mp (hsub s.key.hash (List.mem_map.mpr ⟨s, hs, rfl⟩))
    have h3 : s' ∈ snaps' := by rcases hfrom s' h1 with h | h; (cases h); exact h
    have h4 : (s.key.json.url, s.key.hash) ∈ snaps'.map (fun s => (s.key.json.url, s.key.hash)) := by
      rw [hkeys]; exact List.mem_map.mpr ⟨s, hs, rfl⟩
    obtain ⟨s'', h5, h6⟩ := List.mem_map.mp h4
    simp only [Prod.mk.injEq] at h6
    have h7 : s' = s'' := rq_eq_of_hash hsnd h3 h5 (by rw [h2, h6.2])
    exact List.mem_map.mpr ⟨s', h1, by rw [h7, h6.1, h6.2]⟩

/-- A test that makes the same requests in capture and replay though one of them raised: the third one
is missing in the replay, and the listing is the same. -/
example : ∃ (run run' : RqRun numR) (written : Dict (StoredRq numR)),
    withRequests (T := numR) { refresh := true } [] [] (fun i => if i = 0 then .error () else .ok (7 : Nat))
      (sending [get "a".toList, get "b".toList, get "a".toList, get "a".toList]) = some run ∧
    run.written = some written ∧
    withRequests {} [] written (fun _ => .error ())
      (sending [get "a".toList, get "b".toList, get "a".toList, get "a".toList]) = some run' ∧
    run'.log.map (·.request) = run.log.map (·.request) ∧
    run.log.map (fun e => viewOutcome id e.outcome) =
      [some (.inr ()), some (.inl (7 : Nat)), some (.inl (7 : Nat)), some (.inl (7 : Nat))] ∧
    run'.log.map (fun e => viewOutcome id e.outcome) =
      [some (.inl (7 : Nat)), some (.inl (7 : Nat)), some (.inl (7 : Nat)), none] ∧
    run'.listing = run.listing :=
  ⟨_, _, _, rfl, rfl, rfl, rfl, rfl, rfl, rfl⟩

/-! ### The two libraries -/

/-- **C52 for `requests`, partial**: if all responses are UTF-8 texts, every test that does not look at
whether header names are matched caselessly sees the same in the replay. -/
theorem C52_requests_partial (E : Type) (digest : RqJson → Str) (lower : Str → Str)
    (c c' : RqConfig) (hign : c'.ign = c.ign)
    (hth : c.toHash = none ∧ c'.toHash = none) (hrefresh : c'.refresh = false)
    (legacy : List (StoredRq (requestsT E digest lower))) (file : Dict (StoredRq (requestsT E digest lower)))
    (answers answers' : Nat → Except E RequestsResponse) (test : RqProg (requestsT E digest lower))
    (htest : LooksThrough (T := requestsT E digest lower)
      (fun v : RequestsResponse => (v.headers, v.status, v.encoding, v.content)) test)
    (run : RqRun (requestsT E digest lower))
    (hrun : withRequests c legacy file answers test = some run)
    (hd : DigestOK (requestsT E digest lower) (RequestObjects (requestsT E digest lower) c.ign (requestedIn run.log) run.log.length))
    (hval : ∀ e ∈ run.log, ∃ (v : RequestsResponse) (text : Str), e.outcome = .val v ∧ v.content = encode text) :
    ∃ written run', run.written = some written ∧
      withRequests c' [] written answers' test = some run' ∧
      rqObserved (T := requestsT E digest lower) (fun v : RequestsResponse => (v.headers, v.status, v.encoding, v.content))
          run'.log =
        rqObserved (T := requestsT E digest lower) (fun v : RequestsResponse => (v.headers, v.status, v.encoding, v.content))
          run.log ∧
      (∀ e ∈ run'.log, e.real = false) ∧ run'.listing = run.listing := by
  apply C52_replay_partial (T := requestsT E digest lower)
    (fun v : RequestsResponse => (v.headers, v.status, v.encoding, v.content)) c c' hign
    (by rw [hth.1, hth.2]) hrefresh legacy file answers answers'
    test htest run hrun (by rw [hth.1]; exact hashOK_of_digestOK hd)
  intro e he
  obtain ⟨v, text, h1, h2⟩ := hval e he
  refine ⟨v, ⟨v.headers, v.status, v.encoding, text⟩, ⟨v.headers, false, v.status, v.encoding, encode text⟩, h1,
    ?_, rfl, ?_⟩
  · simp only [requestsT, requestsSave, h2, decode_encode, Option.map_some]
  · simp [h2]

/-- **C52 for `httpx`, partial**: the same, for tests that do not look at the header
`content-encoding`. -/
theorem C52_httpx_partial (E : Type) (digest : RqJson → Str) (lower : Str → Str)
    (c c' : RqConfig) (hign : c'.ign = c.ign)
    (hth : c.toHash = none ∧ c'.toHash = none) (hrefresh : c'.refresh = false)
    (legacy : List (StoredRq (httpxT E digest lower))) (file : Dict (StoredRq (httpxT E digest lower)))
    (answers answers' : Nat → Except E HttpxResponse) (test : RqProg (httpxT E digest lower))
    (htest : LooksThrough (T := httpxT E digest lower)
      (fun v : HttpxResponse => (v.headers.filter (fun p => p.1 != "content-encoding".toList), v.status, v.content)) test)
    (run : RqRun (httpxT E digest lower))
    (hrun : withRequests c legacy file answers test = some run)
    (hd : DigestOK (httpxT E digest lower) (RequestObjects (httpxT E digest lower) c.ign (requestedIn run.log) run.log.length))
    (hval : ∀ e ∈ run.log, ∃ (v : HttpxResponse) (text : Str), e.outcome = .val v ∧ v.content = encode text) :
    ∃ written run', run.written = some written ∧
      withRequests c' [] written answers' test = some run' ∧
      rqObserved (T := httpxT E digest lower) (fun v : HttpxResponse => (v.headers.filter (fun p => p.1 != "content-encoding".toList), v.status, v.content))
          run'.log =
        rqObserved (T := httpxT E digest lower) (fun v : HttpxResponse => (v.headers.filter (fun p => p.1 != "content-encoding".toList), v.status, v.content))
          run.log ∧
      (∀ e ∈ run'.log, e.real = false) ∧ run'.listing = run.listing := by
  apply C52_replay_partial (T := httpxT E digest lower)
    (fun v : HttpxResponse => (v.headers.filter (fun p => p.1 != "content-encoding".toList), v.status, v.content)) c c' hign
    (by rw [hth.1, hth.2]) hrefresh legacy file answers answers'
    test htest run hrun (by rw [hth.1]; exact hashOK_of_digestOK hd)
  intro e he
  obtain ⟨v, text, h1, h2⟩ := hval e he
  refine ⟨v, ⟨v.headers.filter (fun p => p.1 != "content-encoding".toList), v.status, v.content⟩,
    ⟨v.headers.filter (fun p => p.1 != "content-encoding".toList), v.status, v.content⟩, h1, rfl, ?_, ?_⟩
  · simp only [httpxT, httpxLoad, h2, decode_encode, Option.map_some]
  · simp [List.filter_filter]

/-- **C52 for `requests`, refuted for binary responses**: if a response is not UTF-8, the snapshots of
the run are not written: `stop` raises. -/
theorem C52_binary_refuted (E : Type) (digest : RqJson → Str) (lower : Str → Str) (c : RqConfig)
    (hc : c.refresh = true) (legacy : List (StoredRq (requestsT E digest lower)))
    (file : Dict (StoredRq (requestsT E digest lower))) (answers : Nat → Except E RequestsResponse) (r : Rq)
    (v : RequestsResponse) (ha : answers 0 = .ok v) (hv : decode v.content = none) :
    ∃ run, withRequests (T := requestsT E digest lower) c legacy file answers (sending [r]) = some run ∧
      run.written = none := by
  refine ⟨_, by simp only [withRequests, loadAll, hc, if_true, Option.map_some]; rfl, ?_⟩
  simp [sending, runRq, sendRq, markOrder, findRq, hc, ha, storeAll, toStored, requestsT, requestsSave, hv]

private theorem mapM_none {α β : Type} (f : α → Option β) (l : List α) (x : α) (hx : x ∈ l)
    (h : f x = none) : l.mapM f = none := by
  induction l with
  | nil => cases hx
  | cons a l ih =>
    rw [List.mapM_cons]
    rcases List.mem_cons.mp hx with rfl | hx
    · rw [h]; rfl
    · rw [ih hx]
      cases f a <;> rfl

/-- **C52 for `httpx`, refuted for binary responses**: if a response is not UTF-8, the snapshots are
written but every later run, of any test, raises when they are loaded. -/
theorem C52_httpx_binary_refuted (E : Type) (digest : RqJson → Str) (lower : Str → Str) (c c' : RqConfig)
    (hc : c.refresh = true) (hc' : c'.refresh = false) (legacy legacy' : List (StoredRq (httpxT E digest lower)))
    (file : Dict (StoredRq (httpxT E digest lower))) (answers answers' : Nat → Except E HttpxResponse) (r : Rq)
    (v : HttpxResponse) (ha : answers 0 = .ok v) (hv : decode v.content = none)
    (test : RqProg (httpxT E digest lower)) :
    ∃ run written, withRequests (T := httpxT E digest lower) c legacy file answers (sending [r]) = some run ∧
      run.written = some written ∧ withRequests c' legacy' written answers' test = none := by
  refine ⟨_, [((fromRequest (httpxT E digest lower) c.ign c.toHash r).hash,
      ⟨if c.lose then { (fromRequest (httpxT E digest lower) c.ign c.toHash r).json with headers := none, body := none }
        else (fromRequest (httpxT E digest lower) c.ign c.toHash r).json,
        some (fromRequest (httpxT E digest lower) c.ign c.toHash r).hash,
        { v with headers := v.headers.filter (fun p => p.1 != "content-encoding".toList) }⟩)],
    by simp only [withRequests, loadAll, hc, if_true, Option.map_some]; rfl, ?_, ?_⟩
  · simp [sending, runRq, sendRq, markOrder, findRq, hc, ha, storeAll, toStored, httpxT, httpxSave, Dict.set]
  · simp only [withRequests, loadAll, hc', Bool.false_eq_true, if_false, Option.map_eq_none_iff]
    apply mapM_none _ _ _ (List.mem_append.mpr (.inr (List.mem_map.mpr ⟨_, List.mem_cons_self, rfl⟩)))
    simp [fromStored, httpxT, httpxLoad, hv]

/-- There are such contents. -/
example : decode [255] = none := by decide

/-- **C52 for `requests`, refuted for header lookups**: the header `Content-Type` of a response of the
library is found under `content-type`, but not in the replayed response. -/
theorem C52_header_refuted : ∃ (v v' : RequestsResponse) (x : RequestsStored), v.caseless = true ∧
    requestsSave v = some x ∧ requestsLoad x = some v' ∧
    v.header (·.map Char.toLower) "content-type".toList = some "text/html".toList ∧
    v'.header (·.map Char.toLower) "content-type".toList = none := by
  refine ⟨⟨[("Content-Type".toList, "text/html".toList)], true, 200, none, encode []⟩, _, _, rfl, rfl, rfl, ?_, ?_⟩
  · decide
  · decide

/-! ### C53: no secrets -/

/-- **C53**: with `lose_request_details` no stored request has headers or a body. -/
theorem C53_stored (c : RqConfig) (hl : c.lose = true) (legacy : List (StoredRq T)) (file written : Dict (StoredRq T))
    (answers : Nat → Except T.E T.V) (test : RqProg T) (run : RqRun T)
    (hrun : withRequests c legacy file answers test = some run) (hw : run.written = some written) :
    ∀ p ∈ written, p.2.request.headers = none ∧ p.2.request.body = none := by
  simp only [withRequests, Option.map_eq_some_iff] at hrun
  obtain ⟨snaps, _, rfl⟩ := hrun
  dsimp only at hw
  intro p hp
  rcases storeAll_mem c.lose _ [] written hw p hp with h | ⟨s, _, _, h⟩
  · cases h
  · rw [hl] at h
    simp only [toStored, if_true, Option.map_eq_some_iff] at h
    obtain ⟨x, _, h⟩ := h
    rw [← h]
    exact ⟨rfl, rfl⟩

/-- With the default `ignore_headers=True` the headers have no influence on anything: tests that differ
in the headers of their requests see the same outcomes, make the same real requests, write the same
file and list the same snapshots. -/
theorem C53_headers (c : RqConfig) (hi : c.ign = .everything) (legacy : List (StoredRq T))
    (file : Dict (StoredRq T)) (answers : Nat → Except T.E T.V) (test test' : RqProg T)
    (hs : SameUpTo DifferInHeaders test test') :
    (withRequests c legacy file answers test).map (fun r => (r.listing, r.written, r.log.map (fun e => (e.outcome, e.real)))) =
    (withRequests c legacy file answers test').map (fun r => (r.listing, r.written, r.log.map (fun e => (e.outcome, e.real)))) := by
  have hR : ∀ r r', DifferInHeaders r r' → fromRequest T c.ign c.toHash r = fromRequest T c.ign c.toHash r' := by
    rintro r r' ⟨h1, h2, h3⟩
    simp only [fromRequest, mkKey, hi, dropHeaders, h1, h2, h3]
  unfold withRequests
  rcases loadAll c legacy file with _ | snaps
  · rfl
  · obtain ⟨h1, h2⟩ := runRq_sameUpTo hR snaps answers hs [] 0
    simp only [Option.map_some, h1, h2]

/-- These are the default settings, and tests can differ in headers. -/
example : ({} : RqConfig).lose = true ∧ ({} : RqConfig).ign = .everything ∧
    SameUpTo (T := numR) DifferInHeaders
      (.send ⟨"a".toList, "GET".toList, [("Authorization".toList, "secret".toList)], none⟩ (fun _ => .done))
      (.send (get "a".toList) (fun _ => .done)) :=
  ⟨rfl, rfl, .send _ _ _ _ ⟨rfl, rfl, rfl⟩ (fun _ => .done)⟩

/-! ### C54: ignored headers -/

private theorem keeps_filter (names : List Str) (l hs : Dict Str) :
    DifferInNamed.Keeps T.lower names l hs ↔
      hs = l.filter (fun p => !(names.map T.lower).contains (T.lower p.1)) := by
  induction l generalizing hs with
  | nil => exact Iff.rfl
  | cons p l ih =>
    have hn : Named T.lower names p.1 ↔ (names.map T.lower).contains (T.lower p.1) = true := by
      simp [Named]
    unfold DifferInNamed.Keeps
    rw [List.filter_cons, hn]
    rcases h : (names.map T.lower).contains (T.lower p.1) with _ | _
    · simp only [Bool.false_eq_true, false_and, not_false_eq_true, true_and, false_or, Bool.not_false, if_true]
      constructor
      · rintro ⟨hs', h1, h2⟩; rw [h1, (ih _).mp h2]
      · intro h1; exact ⟨_, h1, (ih _).mpr rfl⟩
    · simp only [true_and, not_true_eq_false, false_and, or_false, Bool.not_true, Bool.false_eq_true, if_false]
      exact ih hs

/-- **C54**: with a list of ignored headers, tests that differ only in these headers, in any letter
case, see the same outcomes, make the same real requests, write the same file and list the same
snapshots. -/
theorem C54_headers (c : RqConfig) (names : List Str) (hi : c.ign = .these names) (legacy : List (StoredRq T))
    (file : Dict (StoredRq T)) (answers : Nat → Except T.E T.V) (test test' : RqProg T)
    (hs : SameUpTo (DifferInNamed T.lower names) test test') :
    (withRequests c legacy file answers test).map (fun r => (r.listing, r.written, r.log.map (fun e => (e.outcome, e.real)))) =
    (withRequests c legacy file answers test').map (fun r => (r.listing, r.written, r.log.map (fun e => (e.outcome, e.real)))) := by
  have hR : ∀ r r', DifferInNamed T.lower names r r' →
      fromRequest T c.ign c.toHash r = fromRequest T c.ign c.toHash r' := by
    rintro r r' ⟨⟨h1, h2, h3⟩, hs, h4, h5⟩
    rw [keeps_filter] at h4 h5
    simp only [fromRequest, mkKey, hi, dropHeaders, h1, h2, h3, ← h4, ← h5]
  unfold withRequests
  rcases loadAll c legacy file with _ | snaps
  · rfl
  · obtain ⟨h1, h2⟩ := runRq_sameUpTo hR snaps answers hs [] 0
    simp only [Option.map_some, h1, h2]

/-- The other headers do count: requests with the same key have the same other headers (so, unless
digests collide, requests with different other headers are different requests). -/
theorem C54_others (c : RqConfig) (names : List Str) (hi : c.ign = .these names) (r r' : Rq)
    (h : fromRequest T c.ign c.toHash r = fromRequest T c.ign c.toHash r') :
    DifferInNamed T.lower names r r' := by
  have hj := congrArg RqKey.json h
  simp only [fromRequest, mkKey, hi, dropHeaders, RqJson.mk.injEq, Option.some.injEq] at hj
  obtain ⟨h1, h2, h3, h4, _⟩ := hj
  refine ⟨⟨h1, h2, h4⟩, _, (keeps_filter _ _ _).mpr rfl, ?_⟩
  rw [h3]
  exact (keeps_filter _ _ _).mpr rfl

/-- The ignored headers are not stored, in any mode and whatever was stored before. -/
theorem C54_stored (c : RqConfig) (names : List Str) (hi : c.ign = .these names) (legacy : List (StoredRq T))
    (file written : Dict (StoredRq T)) (answers : Nat → Except T.E T.V) (test : RqProg T) (run : RqRun T)
    (hrun : withRequests c legacy file answers test = some run) (hw : run.written = some written) :
    ∀ p ∈ written, ∀ hs, p.2.request.headers = some hs → ∀ q ∈ hs, ¬ Named T.lower names q.1 := by
  simp only [withRequests, Option.map_eq_some_iff] at hrun
  obtain ⟨snaps, hl, rfl⟩ := hrun
  dsimp only at hw
  intro p hp hs hhs q hq
  have hdrop : ∀ j : RqJson, ∀ hs, (dropHeaders T (.these names) j).headers = some hs → ∀ q ∈ hs,
      ¬ Named T.lower names q.1 := by
    intro j hs h q hq
    unfold dropHeaders at h
    rcases hj : j.headers with _ | l
    · rw [hj] at h; dsimp only at h; rw [hj] at h; cases h
    · rw [hj] at h
      simp only [Option.some.injEq] at h
      subst h
      have := (List.mem_filter.mp hq).2
      simp only [Bool.not_eq_true', List.contains_eq_mem, decide_eq_false_iff_not, List.mem_map] at this
      exact this
  rcases storeAll_mem c.lose _ [] written hw p hp with h | ⟨s, hsm, _, h⟩
  · cases h
  · have hkey : s.key.json.headers = some hs := by
      simp only [toStored, Option.map_eq_some_iff] at h
      obtain ⟨x, _, h⟩ := h
      rw [← h] at hhs
      dsimp only at hhs
      split at hhs
      · cases hhs
      · exact hhs
    rcases runRq_keys snaps answers test [] 0 s hsm with h1 | h1 | ⟨e, _, m, h1, _⟩
    · cases h1
    · unfold loadAll at hl
      split at hl
      · cases hl; cases h1
      · have : ∀ (l : List (StoredRq T)) (snaps : List (RqSnap T)),
            l.mapM (fromStored c.ign c.toHash) = some snaps → ∀ s ∈ snaps,
            ∃ x ∈ l, fromStored c.ign c.toHash x = some s := by
          intro l
          induction l with
          | nil => intro snaps h s hs; simp at h; subst h; cases hs
          | cons x l ih =>
            intro snaps h s hs
            rw [List.mapM_cons] at h
            rcases hx : fromStored c.ign c.toHash x with _ | y
            · rw [hx] at h; cases h
            · rw [hx] at h
              rcases hr : l.mapM (fromStored c.ign c.toHash) with _ | rest
              · rw [hr] at h; cases h
              · rw [hr] at h
                change some (y :: rest) = some snaps at h
                cases h
                rcases List.mem_cons.mp hs with rfl | hs
                · exact ⟨x, List.mem_cons_self, hx⟩
                · obtain ⟨x', g1, g2⟩ := ih rest hr s hs
                  exact ⟨x', List.mem_cons_of_mem _ g1, g2⟩
        obtain ⟨x, _, hx⟩ := this _ _ hl s h1
        simp only [fromStored, Option.map_eq_some_iff] at hx
        obtain ⟨v, _, hx⟩ := hx
        rw [← hx, hi] at hkey
        exact hdrop _ _ hkey q hq
    · rw [h1, nthKey_json] at hkey
      simp only [fromRequest, mkKey, hi] at hkey
      exact hdrop _ _ hkey q hq

/-- Headers in another letter case are ignored, others are stored. -/
example : (withRequests (T := { numR with lower := fun s => s.map Char.toLower })
      { refresh := true, lose := false, ign := .these ["authorization".toList] } [] [] (fun _ => .ok (1 : Nat))
      (sending [⟨"a".toList, "GET".toList, [("Authorization".toList, "secret".toList), ("Accept".toList, "*".toList)],
        none⟩])).map (fun r => r.written.map (fun w => w.map (fun p => p.2.request.headers))) =
    some (some [some [("Accept".toList, "*".toList)]]) := rfl

/-! ### C55: custom hashes -/

/-- **C55, partial**: a custom hash that does not produce digests of later requests, and does not
distinguish requests the digest identifies, can be used like the default one (`C52_replay_partial`,
`C78_listing`): the same sequence of requests is replayed. What is missing of the claim: requests that
only the custom hash identifies, see `C55_refuted`. -/
theorem C55_same_partial (f : RqJson → Str) (ign : Ignore) (S : Rq → Prop) (N : Nat)
    (h : DigestOK T (RequestObjects T ign S N))
    (h1 : ∀ a b : RqJson, RequestObjects T ign S N a → RequestObjects T ign S N b → b.order ≠ none → f a ≠ T.digest b)
    (h2 : ∀ a b : RqJson, RequestObjects T ign S N a → RequestObjects T ign S N b → T.digest a = T.digest b →
      f a = f b) : HashOK T ign (some f) S N := by
  have e : ∀ r : Rq, nthHash T ign (some f) r 0 =
      f { (fromRequest T ign (some f) r).json with order := none } := by
    intro r
    have horder : (fromRequest T ign (some f) r).json.order = none := by
      simp only [fromRequest, mkKey]; rw [dropHeaders_order]
    have : ({ (fromRequest T ign (some f) r).json with order := none } : RqJson) =
        (fromRequest T ign (some f) r).json := by rw [← horder]
    rw [this]
    rfl
  constructor
  · intro r r' n hr hr' hn he
    rw [nthHash_succ, e] at he
    exact h1 _ _ (requestObjects hr none (by simp)) (requestObjects hr' (some (n + 1)) (by simp; omega)) (by simp) he
  · intro r r' n n' hr hr' hn hn' he
    rw [nthHash_succ, nthHash_succ] at he
    obtain ⟨g1, g2⟩ := h _ _ (requestObjects hr (some (n + 1)) (by simp; omega))
      (requestObjects hr' (some (n' + 1)) (by simp; omega)) he
    simp only [Option.some.injEq, Nat.add_right_cancel_iff] at g1
    refine ⟨g1, ?_⟩
    intro k hk
    cases k with
    | zero =>
      have a := requestObjects (T := T) (ign := ign) (N := N) hr none (by simp)
      have b := requestObjects (T := T) (ign := ign) (N := N) hr' none (by simp)
      rw [e, e]
      exact h2 _ _ a b (g2 none a b)
    | succ k =>
      rw [nthHash_succ, nthHash_succ]
      exact g2 (some (k + 1)) (requestObjects hr _ (by simp; omega)) (requestObjects hr' _ (by simp; omega))

/-- A custom hash for which this holds: it looks at the URL up to a question mark. -/
def upToMark (j : RqJson) : Str :=
  '?' :: (j.url.map (fun c => if c = '+' then ' ' else c)).takeWhile (· ≠ '?')

example : ∀ a b : RqJson, b.order ≠ none → upToMark a ≠ numR.digest b := by
  intro a b hb h
  rcases ho : b.order with _ | k
  · exact hb ho
  · simp only [upToMark, numR, ho, orderStrokes, List.replicate_succ, List.cons_append, List.cons.injEq] at h
    exact absurd h.1 (by decide)

/-- **C55, refuted**: with this hash, which identifies requests that differ after the question mark
(such as time stamps), two requests are captured; in the replay the first one, with another time stamp,
is found and the second one is missing, since repeated requests are hashed with the default digest. -/
theorem C55_refuted : ∃ (run run' : RqRun numR) (written : Dict (StoredRq numR)),
    withRequests (T := numR) { refresh := true, toHash := some upToMark } [] [] (fun i => .ok (i : Nat))
      (sending [get "a?1".toList, get "a?2".toList]) = some run ∧ run.written = some written ∧
    withRequests { toHash := some upToMark } [] written (fun _ => .error ())
      (sending [get "a?3".toList, get "a?4".toList]) = some run' ∧
    run.log.map (fun e => viewOutcome id e.outcome) = [some (.inl (0 : Nat)), some (.inl (1 : Nat))] ∧
    run'.log.map (fun e => viewOutcome id e.outcome) = [some (.inl (0 : Nat)), none] :=
  ⟨_, _, _, rfl, rfl, rfl, rfl, rfl⟩

end Verif.Props
