import Verif.Spec.Requests
import Verif.Lemmas.Env

/-! # Lemmas on request snapshots -/

namespace Verif.Lemmas
open Verif.Py Verif.Model Verif.Spec

variable {T : RqTypes}

theorem findRq_some {snaps : List (RqSnap T)} {h : Str} {s : RqSnap T} (hf : findRq snaps h = some s) :
    s ∈ snaps ∧ s.key.hash = h := by
  unfold findRq at hf
  have h1 := List.mem_of_find?_eq_some hf
  have h2 := List.find?_some hf
  exact ⟨List.mem_reverse.mp h1, by simpa using h2⟩

theorem findRq_none {snaps : List (RqSnap T)} {h : Str} :
    findRq snaps h = none ↔ ∀ s ∈ snaps, s.key.hash ≠ h := by
  unfold findRq
  rw [List.find?_eq_none]
  simp

theorem rq_eq_of_hash {snaps : List (RqSnap T)} (hnd : (snaps.map (·.key.hash)).Nodup) {s s' : RqSnap T}
    (h1 : s ∈ snaps) (h2 : s' ∈ snaps) (h : s.key.hash = s'.key.hash) : s = s' := by
  induction snaps with
  | nil => cases h1
  | cons x snaps ih =>
    simp only [List.map_cons, List.nodup_cons] at hnd
    rcases List.mem_cons.mp h1 with e1 | e1 <;> rcases List.mem_cons.mp h2 with e2 | e2
    · rw [e1, e2]
    · subst e1; exact absurd (List.mem_map.mpr ⟨s', e2, h.symm⟩) hnd.1
    · subst e2; exact absurd (List.mem_map.mpr ⟨s, e1, h⟩) hnd.1
    · exact ih hnd.2 e1 e2

theorem findRq_of_mem {snaps : List (RqSnap T)} (hnd : (snaps.map (·.key.hash)).Nodup) {s : RqSnap T}
    (hs : s ∈ snaps) : findRq snaps s.key.hash = some s := by
  rcases hf : findRq snaps s.key.hash with _ | s'
  · exact absurd rfl (findRq_none.mp hf s hs)
  · obtain ⟨h1, h2⟩ := findRq_some hf
    rw [rq_eq_of_hash hnd h1 hs h2]

/-! ### Hashes -/

theorem dropHeaders_order (ign : Ignore) (j : RqJson) : (dropHeaders T ign j).order = j.order := by
  unfold dropHeaders
  split <;> rfl

theorem nthKey_json (ign : Ignore) (toHash : Option (RqJson → Str)) (r : Rq) (n : Nat) :
    (nthKey T ign toHash r n).json =
      { (fromRequest T ign toHash r).json with order := if n = 0 then none else some n } := by
  induction n with
  | zero =>
    have : (fromRequest T ign toHash r).json.order = none := by
      simp only [fromRequest, mkKey]; rw [dropHeaders_order]
    simp only [nthKey, if_true]
    rw [← this]
  | succ n ih =>
    simp only [nthKey, increaseOrder, mkKey, dropHeaders, ih]
    cases n <;> simp

theorem nthHash_succ (ign : Ignore) (toHash : Option (RqJson → Str)) (r : Rq) (n : Nat) :
    nthHash T ign toHash r (n + 1) =
      T.digest { (fromRequest T ign toHash r).json with order := some (n + 1) } := by
  simp only [nthHash, nthKey, increaseOrder, mkKey, dropHeaders, nthKey_json, Option.getD_none]
  cases n <;> simp

theorem nthHash_zero (ign : Ignore) (r : Rq) :
    nthHash T ign none r 0 = T.digest { (fromRequest T ign none r).json with order := none } := by
  have : (fromRequest T ign none r).json.order = none := by
    simp only [fromRequest, mkKey]; rw [dropHeaders_order]
  have h2 : ({ (fromRequest T ign none r).json with order := none } : RqJson) = (fromRequest T ign none r).json := by
    rw [← this]
  rw [h2]
  rfl

theorem requestObjects {ign : Ignore} {S : Rq → Prop} {N : Nat} {r : Rq} (hr : S r) (k : Option Nat)
    (hk : ∀ n, k = some n → n ≤ N) :
    RequestObjects T ign S N { (fromRequest T ign none r).json with order := k } := ⟨r, k, hr, hk, rfl⟩

theorem hashOK_of_digestOK {ign : Ignore} {S : Rq → Prop} {N : Nat} (h : DigestOK T (RequestObjects T ign S N)) :
    HashOK T ign none S N where
  first := by
    intro r r' n hr hr' hn he
    rw [nthHash_zero, nthHash_succ] at he
    have := (h _ _ (requestObjects hr none (by simp)) (requestObjects hr' (some (n + 1)) (by simp; omega)) he).1
    cases this
  later := by
    intro r r' n n' hr hr' hn hn' he
    rw [nthHash_succ, nthHash_succ] at he
    obtain ⟨h1, h2⟩ := h _ _ (requestObjects hr (some (n + 1)) (by simp; omega))
      (requestObjects hr' (some (n' + 1)) (by simp; omega)) he
    simp only [Option.some.injEq, Nat.add_right_cancel_iff] at h1
    refine ⟨h1, ?_⟩
    intro k hk
    cases k with
    | zero =>
      rw [nthHash_zero, nthHash_zero]
      exact h2 none (requestObjects hr none (by simp)) (requestObjects hr' none (by simp))
    | succ k =>
      rw [nthHash_succ, nthHash_succ]
      exact h2 (some (k + 1)) (requestObjects hr _ (by simp; omega)) (requestObjects hr' _ (by simp; omega))

/-! ### `mark_order` -/

variable {S : Rq → Prop} {N : Nat}

/-- The hashes of the requests made so far: without repetition, and each later hash of a row of equal
requests comes after the one before it. -/
structure HashesInv (T : RqTypes) (ign : Ignore) (toHash : Option (RqJson → Str)) (S : Rq → Prop) (N : Nat)
    (l : List Str) : Prop where
  nodup : l.Nodup
  ordered : ∀ r n pre post, S r → n < N → l = pre ++ nthHash T ign toHash r (n + 1) :: post →
    nthHash T ign toHash r n ∈ pre

theorem HashesInv.nil (ign : Ignore) (toHash : Option (RqJson → Str)) : HashesInv T ign toHash S N [] where
  nodup := by simp
  ordered := by intro r n pre post _ _ h; simp at h

theorem HashesInv.prefix {ign : Ignore} {toHash : Option (RqJson → Str)} {a b : List Str}
    (h : HashesInv T ign toHash S N (a ++ b)) : HashesInv T ign toHash S N a where
  nodup := (List.nodup_append.mp h.nodup).1
  ordered := by
    intro r n pre post hr hn he
    exact h.ordered r n pre (post ++ b) hr hn (by rw [he]; simp)

/-- The walk of `mark_order`, on hashes. -/
theorem markOrder_walk {ign : Ignore} {toHash : Option (RqJson → Str)} (hok : HashOK T ign toHash S N) (r : Rq)
    (hr : S r) (suf : List (RqSnap T)) : ∀ (pre : List Str) (i : Nat), i + suf.length ≤ N →
    HashesInv T ign toHash S N (pre ++ suf.map (·.key.hash)) →
    (∀ k, k < i → nthHash T ign toHash r k ∈ pre) → nthHash T ign toHash r i ∉ pre →
    ∃ m, m ≤ N ∧ markOrder suf (nthKey T ign toHash r i) = nthKey T ign toHash r m ∧
      (∀ k, k < m → nthHash T ign toHash r k ∈ pre ++ suf.map (·.key.hash)) ∧
      nthHash T ign toHash r m ∉ pre ++ suf.map (·.key.hash) := by
  induction suf with
  | nil => intro pre i hN _ h1 h2; exact ⟨i, by simpa using hN, rfl, by simpa using h1, by simpa using h2⟩
  | cons s suf ih =>
    intro pre i hN hinv h1 h2
    rw [List.length_cons] at hN
    simp only [List.map_cons] at hinv ⊢
    have hsplit : pre ++ s.key.hash :: suf.map (·.key.hash) =
        (pre ++ [s.key.hash]) ++ suf.map (·.key.hash) := by simp
    rw [hsplit] at hinv ⊢
    have hstep : markOrder (s :: suf) (nthKey T ign toHash r i) =
        markOrder suf (if nthHash T ign toHash r i = s.key.hash then nthKey T ign toHash r (i + 1)
          else nthKey T ign toHash r i) := rfl
    rw [hstep]
    by_cases he : nthHash T ign toHash r i = s.key.hash
    · rw [if_pos he]
      apply ih (pre ++ [s.key.hash]) (i + 1) (by omega) hinv
      · intro k hk
        rw [List.mem_append]
        rcases Nat.lt_succ_iff_lt_or_eq.mp hk with hk | hk
        · exact .inl (h1 k hk)
        · right; subst hk; simp [he]
      · rw [List.mem_append, not_or]
        constructor
        · intro hm
          obtain ⟨a, b, hab⟩ := List.append_of_mem hm
          have := (hinv.prefix.prefix).ordered r i a b hr (by omega) hab
          exact h2 (by rw [hab]; exact List.mem_append.mpr (.inl this))
        · simp only [List.mem_singleton]
          intro hm
          rw [← he] at hm
          cases i with
          | zero => exact hok.first r r 0 hr hr (by omega) hm.symm
          | succ i => have := (hok.later r r _ _ hr hr (by omega) (by omega) hm).1; omega
    · rw [if_neg he]
      apply ih (pre ++ [s.key.hash]) i (by omega) hinv
      · intro k hk; rw [List.mem_append]; exact .inl (h1 k hk)
      · rw [List.mem_append, not_or]; exact ⟨h2, by simpa using he⟩

/-- The key a request gets: the first of its row that has not been used. -/
theorem markOrder_spec {ign : Ignore} {toHash : Option (RqJson → Str)} (hok : HashOK T ign toHash S N) (r : Rq)
    (hr : S r) (requests : List (RqSnap T)) (hN : requests.length ≤ N)
    (hinv : HashesInv T ign toHash S N (requests.map (·.key.hash))) :
    ∃ m, m ≤ N ∧ markOrder requests (fromRequest T ign toHash r) = nthKey T ign toHash r m ∧
      (∀ k, k < m → nthHash T ign toHash r k ∈ requests.map (·.key.hash)) ∧
      nthHash T ign toHash r m ∉ requests.map (·.key.hash) := by
  have := markOrder_walk hok r hr requests [] 0 (by omega) (by simpa using hinv) (by simp) (by simp)
  simpa [nthKey] using this

/-- Adding the key of a request keeps the invariant. -/
theorem HashesInv.add {ign : Ignore} {toHash : Option (RqJson → Str)} (hok : HashOK T ign toHash S N)
    {l : List Str} (hinv : HashesInv T ign toHash S N l) (r : Rq) (hr : S r) (m : Nat) (hmN : m ≤ N)
    (h1 : ∀ k, k < m → nthHash T ign toHash r k ∈ l) (h2 : nthHash T ign toHash r m ∉ l) :
    HashesInv T ign toHash S N (l ++ [nthHash T ign toHash r m]) where
  nodup := by
    rw [List.nodup_append]
    refine ⟨hinv.nodup, by simp, ?_⟩
    intro a ha b hb hab
    simp at hb
    rw [hab, hb] at ha
    exact h2 ha
  ordered := by
    intro r' n pre post hr' hn he
    rcases List.eq_nil_or_concat post with rfl | ⟨post', x, rfl⟩
    · have hlast := List.append_inj' he (by simp)
      obtain ⟨e1, e2⟩ := hlast
      simp only [List.cons.injEq, and_true] at e2
      subst e1
      cases m with
      | zero => exact absurd e2 (hok.first r r' n hr hr' hn)
      | succ m =>
        obtain ⟨e3, e4⟩ := hok.later r r' m n hr hr' (by omega) hn e2
        subst e3
        rw [← e4 m (by omega)]
        exact h1 m (by omega)
    · rw [List.concat_eq_append] at he
      have he' : l ++ [nthHash T ign toHash r m] = (pre ++ nthHash T ign toHash r' (n + 1) :: post') ++ [x] := by
        rw [he]; simp
      obtain ⟨e1, _⟩ := List.append_inj' he' (by simp)
      exact hinv.ordered r' n pre post' hr' hn e1

/-! ### Runs -/

/-- What one request does to the list of requests: the outcome is a value and the list grows by the key
given to the request, or the list stays. -/
theorem sendRq_spec {c : RqConfig} (hok : HashOK T c.ign c.toHash S N) (snaps : List (RqSnap T))
    (answers : Nat → Except T.E T.V) (requests : List (RqSnap T)) (i : Nat) (r : Rq) (hr : S r)
    (hN : requests.length ≤ N)
    (hinv : HashesInv T c.ign c.toHash S N (requests.map (·.key.hash))) :
    ((∃ s, (sendRq c snaps answers requests i r).2.1 = requests ++ [s] ∧
        (sendRq c snaps answers requests i r).1 = .val s.response ∧
        s.key.hash = (markOrder requests (fromRequest T c.ign c.toHash r)).hash ∧
        HashesInv T c.ign c.toHash S N ((requests ++ [s]).map (·.key.hash)) ∧
        (s ∈ snaps ∨ s.key = markOrder requests (fromRequest T c.ign c.toHash r))) ∨
      ((sendRq c snaps answers requests i r).2.1 = requests ∧
        ∀ v, (sendRq c snaps answers requests i r).1 ≠ .val v)) := by
  obtain ⟨m, hmN, hm, h1, h2⟩ := markOrder_spec hok r hr requests hN hinv
  have hadd := hinv.add hok r hr m hmN h1 h2
  have hh : (markOrder requests (fromRequest T c.ign c.toHash r)).hash = nthHash T c.ign c.toHash r m := by
    rw [hm]; rfl
  unfold sendRq
  dsimp only
  rcases hf : findRq snaps (markOrder requests (fromRequest T c.ign c.toHash r)).hash with _ | s
  · dsimp only
    split
    · exact .inr ⟨rfl, by intro v h; cases h⟩
    · rcases ha : answers i with e | v
      · exact .inr ⟨rfl, by intro v h; cases h⟩
      · refine .inl ⟨⟨_, v⟩, rfl, rfl, rfl, ?_, .inr rfl⟩
        rw [List.map_append]; simp only [List.map_cons, List.map_nil]; rw [hh]; exact hadd
  · dsimp only
    obtain ⟨hs1, hs2⟩ := findRq_some hf
    refine .inl ⟨s, ?_, rfl, hs2, ?_, .inl hs1⟩
    · unfold addRq
      rw [if_neg]
      simp only [List.any_eq_true, beq_iff_eq, not_exists, not_and]
      intro x hx he
      apply h2
      rw [← hh, ← hs2, ← he]
      exact List.mem_map.mpr ⟨x, hx, rfl⟩
    · rw [List.map_append]; simp only [List.map_cons, List.map_nil]; rw [hs2, hh]; exact hadd

/-- `self.requests` only grows, and keeps the invariant. -/
theorem runRq_grows {c : RqConfig} (hok : HashOK T c.ign c.toHash S N) (snaps : List (RqSnap T))
    (answers : Nat → Except T.E T.V) (p : RqProg T) : ∀ requests i,
    (∀ e ∈ (runRq c snaps answers p requests i).1, S e.request) →
    requests.length + (runRq c snaps answers p requests i).1.length ≤ N →
    HashesInv T c.ign c.toHash S N (requests.map (·.key.hash)) →
    (∃ new, (runRq c snaps answers p requests i).2 = requests ++ new) ∧
    HashesInv T c.ign c.toHash S N ((runRq c snaps answers p requests i).2.map (·.key.hash)) := by
  induction p with
  | done => intro requests i _ _ h; exact ⟨⟨[], by simp [runRq]⟩, h⟩
  | send r k ih =>
    intro requests i hS hN h
    simp only [runRq] at hS hN ⊢
    rw [List.length_cons] at hN
    rcases sendRq_spec hok snaps answers requests i r (hS _ List.mem_cons_self) (by omega) h with ⟨s, h1, _, _, h4, _⟩ | ⟨h1, _⟩
    · have := ih (sendRq c snaps answers requests i r).1 (sendRq c snaps answers requests i r).2.1
        (sendRq c snaps answers requests i r).2.2
        (fun e he => hS e (List.mem_cons_of_mem _ he)) (by rw [h1] at hN ⊢; simp; omega)
        (by rw [h1]; exact h4)
      obtain ⟨⟨new, hn⟩, hi⟩ := this
      refine ⟨⟨s :: new, ?_⟩, hi⟩
      rw [hn, h1]; simp
    · have := ih (sendRq c snaps answers requests i r).1 (sendRq c snaps answers requests i r).2.1
        (sendRq c snaps answers requests i r).2.2
        (fun e he => hS e (List.mem_cons_of_mem _ he)) (by rw [h1] at hN ⊢; omega)
        (by rw [h1]; exact h)
      obtain ⟨⟨new, hn⟩, hi⟩ := this
      refine ⟨⟨new, ?_⟩, hi⟩
      rw [hn, h1]

theorem markOrder_congr {a b : List (RqSnap T)} (h : a.map (·.key.hash) = b.map (·.key.hash)) (key : RqKey) :
    markOrder a key = markOrder b key := by
  induction a generalizing b key with
  | nil => cases b with
    | nil => rfl
    | cons y b => simp at h
  | cons x a ih => cases b with
    | nil => simp at h
    | cons y b =>
      simp only [List.map_cons, List.cons.injEq] at h
      unfold markOrder
      simp only [List.foldl_cons, h.1]
      exact ih h.2 _

/-- The simulation: a run in which every request got a value, and a replay from snapshots that have
these values. -/
theorem replay_sim {W : Type} (view : T.V → W) {c c' : RqConfig} (hign : c'.ign = c.ign)
    (hth : c'.toHash = c.toHash) (hok : HashOK T c.ign c.toHash S N)
    (snaps snaps' : List (RqSnap T)) (answers answers' : Nat → Except T.E T.V)
    (p : RqProg T) (hp : LooksThrough view p) : ∀ requests i requests' i',
    (∀ e ∈ (runRq c snaps answers p requests i).1, S e.request) →
    requests.length + (runRq c snaps answers p requests i).1.length ≤ N →
    requests'.map (·.key.hash) = requests.map (·.key.hash) →
    HashesInv T c.ign c.toHash S N (requests.map (·.key.hash)) →
    (∀ e ∈ (runRq c snaps answers p requests i).1, ∃ v, e.outcome = .val v) →
    (∀ s ∈ (runRq c snaps answers p requests i).2, ∃ s', findRq snaps' s.key.hash = some s' ∧
      view s'.response = view s.response ∧ s'.key.json.url = s.key.json.url) →
    rqObserved view (runRq c' snaps' answers' p requests' i').1 =
      rqObserved view (runRq c snaps answers p requests i).1 ∧
    (∀ e ∈ (runRq c' snaps' answers' p requests' i').1, e.real = false) ∧
    (runRq c' snaps' answers' p requests' i').2.map (·.key.hash) =
      (runRq c snaps answers p requests i).2.map (·.key.hash) ∧
    (requests'.map (fun s => s.key.json.url) = requests.map (fun s => s.key.json.url) →
      (runRq c' snaps' answers' p requests' i').2.map (fun s => s.key.json.url) =
      (runRq c snaps answers p requests i).2.map (fun s => s.key.json.url)) := by
  induction hp with
  | done =>
    intro requests i requests' i' _ _ hh _ _ _
    exact ⟨rfl, by simp [runRq], hh, fun hu => hu⟩
  | send r k same _ ih =>
    intro requests i requests' i' hS hN hh hinv hval hsnaps
    simp only [runRq] at hS hN hval hsnaps ⊢
    rw [List.length_cons] at hN
    rcases sendRq_spec hok snaps answers requests i r (hS _ List.mem_cons_self) (by omega) hinv with
      ⟨s, h1, h2, h3, h4, _⟩ | ⟨_, hno⟩
    · have hS' := fun e he => hS e (List.mem_cons_of_mem _ he)
      have hN' : (sendRq c snaps answers requests i r).2.1.length + (runRq c snaps answers
          (k (sendRq c snaps answers requests i r).1) (sendRq c snaps answers requests i r).2.1
          (sendRq c snaps answers requests i r).2.2).1.length ≤ N := by rw [h1] at hN ⊢; simp; omega
      have hmem : s ∈ (runRq c snaps answers (k (sendRq c snaps answers requests i r).1)
          (sendRq c snaps answers requests i r).2.1 (sendRq c snaps answers requests i r).2.2).2 := by
        obtain ⟨⟨new, hn⟩, _⟩ := runRq_grows hok snaps answers (k (sendRq c snaps answers requests i r).1)
          (sendRq c snaps answers requests i r).2.1 (sendRq c snaps answers requests i r).2.2
          hS' hN' (by rw [h1]; exact h4)
        rw [hn, h1]; simp
      obtain ⟨s', hs1, hs2, hs3⟩ := hsnaps s hmem
      have hkey : markOrder requests' (fromRequest T c'.ign c'.toHash r) =
          markOrder requests (fromRequest T c.ign c.toHash r) := by
        rw [hign, hth]; exact markOrder_congr hh _
      obtain ⟨hs4, hs5⟩ := findRq_some hs1
      have hinv' : HashesInv T c'.ign c'.toHash S N (requests'.map (·.key.hash)) := by
        rw [hign, hth, hh]; exact hinv
      have hsend : sendRq c' snaps' answers' requests' i' r = (.val s'.response, requests' ++ [s'], i') := by
        have hfind : findRq snaps' (markOrder requests' (fromRequest T c'.ign c'.toHash r)).hash = some s' := by
          rw [hkey, ← h3]; exact hs1
        unfold sendRq
        dsimp only
        rw [hfind]
        dsimp only
        have hnew : ∀ x ∈ requests', x.key.hash ≠ s'.key.hash := by
          intro x hx he
          have hx' : x.key.hash ∈ requests.map (·.key.hash) := by
            rw [← hh]; exact List.mem_map.mpr ⟨x, hx, rfl⟩
          have := h4.nodup
          rw [List.map_append, List.nodup_append] at this
          exact this.2.2 _ hx' s.key.hash (by simp) (by rw [he, hs5])
        unfold addRq
        rw [if_neg]
        simp only [List.any_eq_true, beq_iff_eq, not_exists, not_and]
        exact hnew
      rw [hsend]
      dsimp only
      have hk : k (.val s'.response) = k (sendRq c snaps answers requests i r).1 := by
        apply same
        rw [h2]
        simp [viewOutcome, hs2]
      have hrec := ih (sendRq c snaps answers requests i r).1 (sendRq c snaps answers requests i r).2.1
        (sendRq c snaps answers requests i r).2.2 (requests' ++ [s']) i' hS' hN'
        (by rw [h1, List.map_append, List.map_append, hh]; simp [hs5])
        (by rw [h1]; exact h4)
        (fun e he => hval e (List.mem_cons_of_mem _ he)) hsnaps
      rw [hk]
      obtain ⟨g1, g2, g3, g4⟩ := hrec
      refine ⟨?_, ?_, g3, ?_⟩
      · simp only [rqObserved, List.map_cons] at g1 ⊢
        rw [g1, h2]
        simp [viewOutcome, hs2]
      · intro e he
        rcases List.mem_cons.mp he with rfl | he
        · simp
        · exact g2 e he
      · intro hu
        apply g4
        rw [h1, List.map_append, List.map_append, hu]
        simp [hs3]
    · obtain ⟨v, hv⟩ := hval _ List.mem_cons_self
      exact absurd hv (hno v)

/-! ### Storing and loading -/

theorem storeAll_spec (lose : Bool) (l : List (RqSnap T)) : ∀ (d : Dict (StoredRq T)),
    (l.map (·.key.hash)).Nodup → (∀ s ∈ l, s.key.hash ∉ d.keys) → (∀ s ∈ l, (T.save s.response).isSome) →
    ∃ new : Dict (StoredRq T), storeAll lose l d = some (d ++ new) ∧
      List.map (fun p => (p.1, some p.2)) new = List.map (fun s => (s.key.hash, toStored lose s)) l := by
  induction l with
  | nil => intro d _ _ _; exact ⟨[], by simp [storeAll], rfl⟩
  | cons s l ih =>
    intro d hnd hnew hs
    simp only [List.map_cons, List.nodup_cons] at hnd
    obtain ⟨x, hx⟩ := Option.isSome_iff_exists.mp (hs s List.mem_cons_self)
    have hst : ∃ y, toStored lose s = some y := by simp [toStored, hx]
    obtain ⟨y, hy⟩ := hst
    simp only [storeAll, hy]
    rw [dict_set_new _ _ _ (hnew s List.mem_cons_self)]
    obtain ⟨new, h1, h2⟩ := ih (d ++ [(s.key.hash, y)]) hnd.2 (by
      intro s' hs'
      rw [keys_append, List.mem_append, not_or]
      refine ⟨hnew s' (List.mem_cons_of_mem _ hs'), ?_⟩
      simp only [Dict.keys, List.map_cons, List.map_nil, List.mem_singleton]
      intro he
      exact hnd.1 (List.mem_map.mpr ⟨s', hs', he⟩))
      (fun s' hs' => hs s' (List.mem_cons_of_mem _ hs'))
    exact ⟨(s.key.hash, y) :: new, by rw [h1, List.append_assoc]; rfl, by rw [List.map_cons, List.map_cons, h2, hy]⟩

theorem storeAll_mem (lose : Bool) (l : List (RqSnap T)) : ∀ (d out : Dict (StoredRq T)),
    storeAll lose l d = some out → ∀ p ∈ out, p ∈ d ∨ ∃ s ∈ l, p.1 = s.key.hash ∧ toStored lose s = some p.2 := by
  induction l with
  | nil => intro d out h p hp; simp only [storeAll, Option.some.injEq] at h; subst h; exact .inl hp
  | cons s l ih =>
    intro d out h p hp
    simp only [storeAll] at h
    rcases hy : toStored lose s with _ | y
    · rw [hy] at h; cases h
    · rw [hy] at h
      rcases ih _ _ h p hp with h1 | ⟨s', h1, h2⟩
      · have hset : ∀ (d : Dict (StoredRq T)) k v, ∀ q ∈ d.set k v, q ∈ d ∨ q = (k, v) := by
          intro d k v
          induction d with
          | nil => intro q hq; simp only [Dict.set, List.mem_singleton] at hq; exact .inr hq
          | cons a d ihd =>
            obtain ⟨k', v'⟩ := a
            intro q hq
            simp only [Dict.set] at hq
            split at hq
            · rcases List.mem_cons.mp hq with h | h
              · exact .inr h
              · exact .inl (List.mem_cons_of_mem _ h)
            · rcases List.mem_cons.mp hq with h | h
              · exact .inl (by rw [h]; exact List.mem_cons_self)
              · rcases ihd q h with h | h
                · exact .inl (List.mem_cons_of_mem _ h)
                · exact .inr h
        rcases hset _ _ _ p h1 with h | h
        · exact .inl h
        · subst h; exact .inr ⟨s, List.mem_cons_self, rfl, hy⟩
      · exact .inr ⟨s', List.mem_cons_of_mem _ h1, h2⟩

theorem storeAll_none (lose : Bool) (l : List (RqSnap T)) : ∀ (d : Dict (StoredRq T)),
    (∃ s ∈ l, T.save s.response = none) → storeAll lose l d = none := by
  induction l with
  | nil => intro d h; obtain ⟨s, h, _⟩ := h; cases h
  | cons s l ih =>
    intro d h
    simp only [storeAll]
    rcases hj : toStored lose s with _ | v
    · rfl
    · apply ih
      obtain ⟨s', h1, h2⟩ := h
      rcases List.mem_cons.mp h1 with rfl | h1
      · simp [toStored, h2] at hj
      · exact ⟨s', h1, h2⟩

/-! ### Keys without hash assumptions -/

/-- `mark_order` only ever increases the order. -/
theorem markOrder_nth (ign : Ignore) (toHash : Option (RqJson → Str)) (r : Rq) (requests : List (RqSnap T)) :
    ∃ m, markOrder requests (fromRequest T ign toHash r) = nthKey T ign toHash r m := by
  have : ∀ (requests : List (RqSnap T)) i, ∃ m, markOrder requests (nthKey T ign toHash r i) = nthKey T ign toHash r m := by
    intro requests
    induction requests with
    | nil => intro i; exact ⟨i, rfl⟩
    | cons s requests ih =>
      intro i
      have hstep : markOrder (s :: requests) (nthKey T ign toHash r i) =
          markOrder requests (if nthHash T ign toHash r i = s.key.hash then nthKey T ign toHash r (i + 1)
            else nthKey T ign toHash r i) := rfl
      rw [hstep]
      split
      · exact ih (i + 1)
      · exact ih i
  exact this requests 0

/-- Where the stored keys come from. -/
theorem runRq_keys {c : RqConfig} (snaps : List (RqSnap T)) (answers : Nat → Except T.E T.V) (p : RqProg T) :
    ∀ requests i, ∀ s ∈ (runRq c snaps answers p requests i).2, s ∈ requests ∨ s ∈ snaps ∨
      ∃ e ∈ (runRq c snaps answers p requests i).1, ∃ m, s.key = nthKey T c.ign c.toHash e.request m ∧
        e.outcome = .val s.response ∧ e.real = true := by
  induction p with
  | done => intro requests i s hs; exact .inl hs
  | send r k ih =>
    intro requests i s hs
    simp only [runRq] at hs ⊢
    rcases ih _ _ _ s hs with h | h | ⟨e, he, h⟩
    · have : s ∈ requests ∨ s ∈ snaps ∨ ((∃ m, s.key = nthKey T c.ign c.toHash r m) ∧
          (sendRq c snaps answers requests i r).1 = .val s.response ∧
          (sendRq c snaps answers requests i r).2.2 ≠ i) := by
        obtain ⟨m, hm⟩ := markOrder_nth c.ign c.toHash r requests
        unfold sendRq at h ⊢
        dsimp only at h ⊢
        rcases hf : findRq snaps (markOrder requests (fromRequest T c.ign c.toHash r)).hash with _ | s'
        · rw [hf] at h
          dsimp only at h ⊢
          split at h
          · exact .inl h
          · rename_i hc
            rw [if_neg hc]
            rcases ha : answers i with e | v
            · rw [ha] at h; exact .inl h
            · rw [ha] at h
              rcases List.mem_append.mp h with h | h
              · exact .inl h
              · simp only [List.mem_singleton] at h
                subst h
                exact .inr (.inr ⟨⟨m, hm⟩, rfl, by dsimp only; omega⟩)
        · rw [hf] at h
          dsimp only at h
          unfold addRq at h
          split at h
          · exact .inl h
          · rcases List.mem_append.mp h with h | h
            · exact .inl h
            · simp only [List.mem_singleton] at h
              subst h
              exact .inr (.inl (findRq_some hf).1)
      rcases this with h | h | ⟨⟨m, h1⟩, h2, h3⟩
      · exact .inl h
      · exact .inr (.inl h)
      · exact .inr (.inr ⟨_, List.mem_cons_self, m, h1, h2, by simpa using h3⟩)
    · exact .inr (.inl h)
    · exact .inr (.inr ⟨e, List.mem_cons_of_mem _ he, h⟩)

/-- Requests with the same key are treated the same. -/
theorem runRq_sameUpTo {c : RqConfig} {R : Rq → Rq → Prop}
    (hR : ∀ r r', R r r' → fromRequest T c.ign c.toHash r = fromRequest T c.ign c.toHash r')
    (snaps : List (RqSnap T)) (answers : Nat → Except T.E T.V) {p p' : RqProg T} (h : SameUpTo R p p') :
    ∀ requests i, (runRq c snaps answers p requests i).2 = (runRq c snaps answers p' requests i).2 ∧
      (runRq c snaps answers p requests i).1.map (fun e => (e.outcome, e.real)) =
      (runRq c snaps answers p' requests i).1.map (fun e => (e.outcome, e.real)) := by
  induction h with
  | done => intro requests i; exact ⟨rfl, rfl⟩
  | send r r' k k' same _ ih =>
    intro requests i
    have hs : sendRq c snaps answers requests i r = sendRq c snaps answers requests i r' := by
      unfold sendRq; rw [hR r r' same]
    simp only [runRq, List.map_cons]
    rw [hs]
    obtain ⟨h1, h2⟩ := ih (sendRq c snaps answers requests i r').1 (sendRq c snaps answers requests i r').2.1
      (sendRq c snaps answers requests i r').2.2
    exact ⟨h1, by rw [h2]⟩

/-- Two runs with the same requests, the second one from snapshots that have everything the first one
stored: the second one uses all of them. -/
theorem replay_listing {c c' : RqConfig} (hign : c'.ign = c.ign) (hth : c'.toHash = c.toHash)
    (hok : HashOK T c.ign c.toHash S N) (snaps snaps' : List (RqSnap T)) (answers answers' : Nat → Except T.E T.V)
    (p : RqProg T) : ∀ (p' : RqProg T) requests i requests' i',
    (∀ e ∈ (runRq c snaps answers p requests i).1, S e.request) →
    requests.length + (runRq c snaps answers p requests i).1.length ≤ N →
    requests'.length + (runRq c snaps answers p requests i).1.length ≤ N →
    HashesInv T c.ign c.toHash S N (requests.map (·.key.hash)) →
    HashesInv T c'.ign c'.toHash S N (requests'.map (·.key.hash)) →
    (∀ h ∈ requests.map (·.key.hash), h ∈ requests'.map (·.key.hash)) →
    (runRq c' snaps' answers' p' requests' i').1.map (·.request) =
      (runRq c snaps answers p requests i).1.map (·.request) →
    (∀ s ∈ (runRq c snaps answers p requests i).2, s.key.hash ∈ snaps'.map (·.key.hash)) →
    ∀ h ∈ (runRq c snaps answers p requests i).2.map (·.key.hash),
      h ∈ (runRq c' snaps' answers' p' requests' i').2.map (·.key.hash) := by
  induction p with
  | done =>
    intro p' requests i requests' i' _ _ _ _ _ hsub hreq _
    cases p' with
    | done => exact hsub
    | send r' k' => simp [runRq] at hreq
  | send r k ih =>
    intro p' requests i requests' i' hS hN hN' hinv hinv' hsub hreq hsnaps
    cases p' with
    | done => simp [runRq] at hreq
    | send r' k' =>
      simp only [runRq, List.map_cons, List.cons.injEq, List.length_cons] at hS hN hN' hreq hsnaps ⊢
      obtain ⟨rfl, hreq⟩ := hreq
      have hr' : S r' := hS _ List.mem_cons_self
      have hS' := fun e he => hS e (List.mem_cons_of_mem _ he)
      have hok' : HashOK T c'.ign c'.toHash S N := by rw [hign, hth]; exact hok
      have hgrow' : HashesInv T c'.ign c'.toHash S N
          ((sendRq c' snaps' answers' requests' i' r').2.1.map (·.key.hash)) ∧
          (∀ h ∈ requests'.map (·.key.hash), h ∈ (sendRq c' snaps' answers' requests' i' r').2.1.map (·.key.hash)) ∧
          (sendRq c' snaps' answers' requests' i' r').2.1.length ≤ requests'.length + 1 := by
        rcases sendRq_spec hok' snaps' answers' requests' i' r' hr' (by omega) hinv' with ⟨s, h1, _, _, h4, _⟩ | ⟨h1, _⟩
        · rw [h1]
          exact ⟨h4, by intro h hh; rw [List.map_append]; exact List.mem_append.mpr (.inl hh), by simp⟩
        · rw [h1]; exact ⟨hinv', fun h hh => hh, by omega⟩
      have hlen' := hgrow'.2.2
      rcases sendRq_spec hok snaps answers requests i r' hr' (by omega) hinv with ⟨s, h1, h2, h3, h4, _⟩ | ⟨h1, _⟩
      · have hN2 : (sendRq c snaps answers requests i r').2.1.length + (runRq c snaps answers
            (k (sendRq c snaps answers requests i r').1) (sendRq c snaps answers requests i r').2.1
            (sendRq c snaps answers requests i r').2.2).1.length ≤ N := by rw [h1] at hN ⊢; simp; omega
        apply ih _ _ _ _ _ _ hS' hN2 (by omega) (by rw [h1]; exact h4) hgrow'.1 ?_ hreq hsnaps
        rw [h1, List.map_append]
        intro h hh
        rcases List.mem_append.mp hh with hh | hh
        · exact hgrow'.2.1 h (hsub h hh)
        · simp only [List.map_cons, List.map_nil, List.mem_singleton] at hh
          subst hh
          obtain ⟨m, _, hm, hlt, hnot⟩ := markOrder_spec hok r' hr' requests (by omega) hinv
          obtain ⟨m', _, hm', hlt', hnot'⟩ := markOrder_spec hok' r' hr' requests' (by omega) hinv'
          rw [h3, hm]
          change nthHash T c.ign c.toHash r' m ∈ _
          rcases Nat.lt_trichotomy m m' with hl | rfl | hl
          · apply hgrow'.2.1
            have := hlt' m hl
            rw [hign, hth] at this
            exact this
          · have hmem : s ∈ (runRq c snaps answers (k (sendRq c snaps answers requests i r').1)
                (sendRq c snaps answers requests i r').2.1 (sendRq c snaps answers requests i r').2.2).2 := by
              obtain ⟨⟨new, hn⟩, _⟩ := runRq_grows hok snaps answers (k (sendRq c snaps answers requests i r').1)
                (sendRq c snaps answers requests i r').2.1 (sendRq c snaps answers requests i r').2.2
                hS' hN2 (by rw [h1]; exact h4)
              rw [hn, h1]; simp
            have hin := hsnaps s hmem
            rcases sendRq_spec hok' snaps' answers' requests' i' r' hr' (by omega) hinv' with ⟨s', g1, _, g3, _, _⟩ | ⟨_, hno⟩
            · rw [g1, List.map_append]
              apply List.mem_append.mpr
              right
              rw [List.map_cons, List.map_nil, List.mem_singleton, g3, hm', hign, hth]
              rfl
            · exfalso
              have hk : (markOrder requests' (fromRequest T c'.ign c'.toHash r')).hash = s.key.hash := by
                rw [hm', h3, hm, hign, hth]
              unfold sendRq at hno
              dsimp only at hno
              rcases hf : findRq snaps' (markOrder requests' (fromRequest T c'.ign c'.toHash r')).hash with _ | s'
              · rw [hk] at hf
                obtain ⟨x, hx, hxe⟩ := List.mem_map.mp hin
                exact findRq_none.mp hf x hx hxe
              · rw [hf] at hno
                exact hno _ rfl
          · have := hlt m' hl
            rw [hign, hth] at hnot'
            exact absurd (hsub _ this) hnot'
      · apply ih _ _ _ _ _ _ hS' (by rw [h1] at hN ⊢; omega) (by omega) (by rw [h1]; exact hinv) hgrow'.1 ?_ hreq hsnaps
        rw [h1]
        intro h hh
        exact hgrow'.2.1 h (hsub h hh)

/-- Without capturing, all entries are snapshots. -/
theorem replay_from_snaps {c : RqConfig} (hc : c.refresh = false ∧ c.complete = false) (snaps : List (RqSnap T))
    (answers : Nat → Except T.E T.V) (p : RqProg T) (requests : List (RqSnap T)) (i : Nat) :
    ∀ s ∈ (runRq c snaps answers p requests i).2, s ∈ requests ∨ s ∈ snaps := by
  induction p generalizing requests i with
  | done => intro s hs; exact .inl hs
  | send r k ih =>
    intro s hs
    simp only [runRq] at hs
    rcases ih _ _ _ s hs with h | h
    · unfold sendRq at h
      dsimp only at h
      rcases hf : findRq snaps (markOrder requests (fromRequest T c.ign c.toHash r)).hash with _ | s'
      · rw [hf] at h
        simp only [hc.1, hc.2, Bool.or_self, Bool.not_false, if_true] at h
        exact .inl h
      · rw [hf] at h
        dsimp only at h
        unfold addRq at h
        split at h
        · exact .inl h
        · rcases List.mem_append.mp h with h | h
          · exact .inl h
          · simp only [List.mem_singleton] at h
            subst h
            exact .inr (findRq_some hf).1
    · exact .inr h

end Verif.Lemmas
