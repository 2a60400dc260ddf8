import Verif.Spec.Cache
import Verif.Lemmas.Parallel

/-! # Lemmas about caches and stored results -/

namespace Verif.Lemmas
open Verif.Py Verif.Model Verif.Spec

variable {V : Type}

/-! ### Ordered dictionaries -/

theorem odGet_cons {d : ODict V} {k key : Option Str} {v : V} :
    odGet ((k, v) :: d) key = if k = key then some v else odGet d key := rfl

theorem odSet_cons {d : ODict V} {k key : Option Str} {v x : V} :
    odSet ((k, v) :: d) key x = if k = key then (key, x) :: d else (k, v) :: odSet d key x := rfl

theorem odGet_isSome {d : ODict V} {key : Option Str} :
    (odGet d key).isSome = true ↔ key ∈ d.map (·.1) := by
  induction d with
  | nil => simp [odGet]
  | cons e es ih =>
    obtain ⟨k, v⟩ := e
    rw [odGet_cons]
    by_cases h : k = key
    · simp [h]
    · simp only [if_neg h, ih, List.map_cons, List.mem_cons]
      exact ⟨Or.inr, fun h' => h'.resolve_left (fun e => h e.symm)⟩

theorem odGet_append {d d' : ODict V} {key : Option Str} :
    odGet (d ++ d') key = (odGet d key).or (odGet d' key) := by
  induction d with
  | nil => simp [odGet]
  | cons e es ih =>
    obtain ⟨k, v⟩ := e
    rw [List.cons_append, odGet_cons, odGet_cons]
    split
    · simp
    · exact ih

theorem odGet_del {d : ODict V} {key k : Option Str} :
    odGet (odDel d key) k = if k = key then none else odGet d k := by
  induction d with
  | nil => simp [odDel, odGet]
  | cons e es ih =>
    obtain ⟨x, v⟩ := e
    unfold odDel at ih ⊢
    rw [List.filter_cons]
    by_cases h : x = key
    · rw [if_neg (by simp [h]), ih, odGet_cons]
      by_cases hk : k = key
      · simp [hk]
      · rw [if_neg hk, if_neg hk, if_neg (fun h' : x = k => hk (h'.symm.trans h))]
    · rw [if_pos (by simp [h]), odGet_cons, odGet_cons, ih]
      by_cases hk : k = key
      · rw [if_pos hk, if_neg (fun h' => h (h'.trans hk)), if_pos hk]
      · simp only [if_neg hk]

theorem odGet_set {d : ODict V} {key k : Option Str} {v : V} :
    odGet (odSet d key v) k = if k = key then some v else odGet d k := by
  induction d with
  | nil =>
    show (if key = k then some v else none) = _
    by_cases h : k = key
    · simp [h]
    · rw [if_neg h, if_neg (fun e => h e.symm)]; rfl
  | cons e es ih =>
    obtain ⟨x, y⟩ := e
    rw [odSet_cons]
    by_cases hx : x = key
    · rw [if_pos hx, odGet_cons, odGet_cons]
      by_cases h : k = key
      · simp [h]
      · rw [if_neg h, if_neg (fun e => h e.symm), if_neg (fun e : x = k => h (e.symm.trans hx))]
    · rw [if_neg hx, odGet_cons, odGet_cons, ih]
      by_cases h : k = key
      · rw [if_pos h, if_pos h, if_neg (fun e => hx (e.trans h))]
      · rw [if_neg h]; simp [h]

theorem odGet_move {d : ODict V} {key k : Option Str} : odGet (odMoveToEnd d key) k = odGet d k := by
  unfold odMoveToEnd
  cases h : odGet d key with
  | none => rfl
  | some v =>
    dsimp only
    rw [odGet_append, odGet_del]
    by_cases hk : k = key
    · rw [if_pos hk, hk, h, odGet_cons]; simp
    · rw [if_neg hk, odGet_cons, if_neg (fun e => hk e.symm)]
      simp [odGet]

theorem odDel_set {d : ODict V} {key : Option Str} {v : V} :
    odDel (odSet d key v) key = odDel d key := by
  induction d with
  | nil => simp [odSet, odDel]
  | cons e es ih =>
    obtain ⟨x, y⟩ := e
    rw [odSet_cons]
    unfold odDel at ih ⊢
    by_cases hx : x = key
    · rw [if_pos hx, List.filter_cons, List.filter_cons, if_neg (by simp), if_neg (by simp [hx])]
    · rw [if_neg hx, List.filter_cons, List.filter_cons, if_pos (by simp [hx]), if_pos (by simp [hx]), ih]

theorem odMove_set {d : ODict V} {key : Option Str} {v : V} :
    odMoveToEnd (odSet d key v) key = odDel d key ++ [(key, v)] := by
  unfold odMoveToEnd
  rw [odGet_set, if_pos rfl]
  dsimp only
  rw [odDel_set]

theorem keys_del {d : ODict V} (hd : (d.map (·.1)).Nodup) {key : Option Str} :
    (odDel d key).map (·.1) = (d.map (·.1)).erase key := by
  induction d with
  | nil => simp [odDel]
  | cons e es ih =>
    obtain ⟨x, y⟩ := e
    rw [List.map_cons, List.nodup_cons] at hd
    unfold odDel at ih ⊢
    by_cases hx : x = key
    · subst hx
      rw [List.filter_cons, if_neg (by simp), List.map_cons, List.erase_cons_head,
        List.filter_eq_self.mpr]
      intro e he
      have : e.1 ≠ x := fun h => hd.1 (h ▸ List.mem_map.mpr ⟨e, he, rfl⟩)
      simpa using this
    · rw [List.filter_cons, if_pos (by simp [hx]), List.map_cons, List.map_cons, List.erase_cons_tail,
        ih hd.2]
      simp [hx]

theorem nodup_rev {α : Type} {l : List α} : l.reverse.Nodup ↔ l.Nodup := (List.reverse_perm l).nodup_iff

theorem nodup_map_some {l : List Str} (h : l.Nodup) : (l.map some).Nodup := by
  induction l with
  | nil => exact List.nodup_nil
  | cons x xs ih =>
    rw [List.nodup_cons] at h
    rw [List.map_cons, List.nodup_cons]
    exact ⟨by simpa using h.1, ih h.2⟩

/-! ### LRU caches -/

/-- The cache after a history of uses (latest use first). -/
def lruRun (n : Nat) : List (CacheOp V) → ODict (Option V)
  | [] => []
  | .set k v :: ops => lruSet n (lruRun n ops) (some k) v
  | .get k :: ops => (lruGet (lruRun n ops) (some k)).2

theorem nodup_erase_cons {l : List Str} (h : l.Nodup) (k : Str) : (k :: l.erase k).Nodup := by
  rw [List.nodup_cons]
  exact ⟨fun hk => (List.Nodup.mem_erase_iff h).mp hk |>.1 rfl, h.erase k⟩

theorem recency_nodup (n : Nat) (ops : List (CacheOp V)) : (recency n ops).Nodup := by
  induction ops with
  | nil => exact List.nodup_nil
  | cons o ops ih =>
    cases o with
    | set k v => exact nodup_erase_cons ih k
    | get k =>
      unfold recency
      split
      · exact nodup_erase_cons ih k
      · exact ih

theorem take_erase (R : List Str) (k : Str) (m : Nat) :
    ((R.take (m + 1)).erase k).take m = (R.erase k).take m := by
  induction R generalizing m with
  | nil => simp
  | cons x xs ih =>
    by_cases hx : x = k
    · subst hx
      simp [List.take_take]
    · rw [List.take_succ_cons, List.erase_cons_tail (by simpa using hx), List.erase_cons_tail (by simpa using hx)]
      cases m with
      | zero => rfl
      | succ m => rw [List.take_succ_cons, List.take_succ_cons, ih]

theorem map_some_erase (l : List Str) (k : Str) : (l.map some).erase (some k) = (l.erase k).map some := by
  induction l with
  | nil => rfl
  | cons x xs ih =>
    by_cases hx : x = k
    · subst hx; simp
    · rw [List.map_cons, List.erase_cons_tail (by simpa using hx), List.erase_cons_tail (by simpa using hx), ih,
        List.map_cons]

theorem erase_reverse {l : List (Option Str)} (h : l.Nodup) (k : Option Str) :
    (l.erase k).reverse = l.reverse.erase k := by
  rw [List.Nodup.erase_eq_filter h, List.Nodup.erase_eq_filter ((nodup_rev).mpr h),
    List.filter_reverse]

/-- The cache holds the most recent keys, in order of their last use. -/
theorem lru_keys (n : Nat) (ops : List (CacheOp V)) :
    (lruRun n ops).map (·.1) = (((recency n ops).take n).map some).reverse := by
  induction ops with
  | nil => simp [lruRun, recency]
  | cons o ops ih =>
    have hnd := recency_nodup n ops
    have hkd : ((lruRun n ops).map (·.1)).Nodup := by
      rw [ih, nodup_rev]
      exact nodup_map_some (hnd.sublist (List.take_sublist _ _))
    -- moving a key to the end
    have hmove : ∀ (k : Str) (v : Option V), (odDel (lruRun n ops) (some k) ++ [(some k, v)]).map (·.1) =
        ((k :: ((recency n ops).take n).erase k).map some).reverse := by
      intro k v
      rw [List.map_append, keys_del hkd, ih, List.map_cons, List.map_cons, List.reverse_cons]
      congr 1
      rw [← map_some_erase, ← erase_reverse]
      exact nodup_map_some (hnd.sublist (List.take_sublist _ _))
    cases o with
    | set k v =>
      show (lruSet n (lruRun n ops) (some k) v).map (·.1) =
        (((k :: (recency n ops).erase k).take n).map some).reverse
      unfold lruSet
      rw [if_neg (by simp), odMove_set]
      dsimp only
      have hm := hmove k v
      have hlen : (odDel (lruRun n ops) (some k) ++ [(some k, v)]).length =
          (((recency n ops).take n).erase k).length + 1 := by
        have := congrArg List.length hm
        simpa using this
      have hle : (((recency n ops).take n).erase k).length ≤ n :=
        Nat.le_trans (List.length_erase_le) (List.length_take_le _ _)
      have htake : (k :: (recency n ops).erase k).take n = (k :: ((recency n ops).take n).erase k).take n := by
        cases n with
        | zero => rfl
        | succ m => rw [List.take_succ_cons, List.take_succ_cons, take_erase]
      rw [htake]
      split
      · rename_i hgt
        rw [hlen] at hgt
        have he : (((recency n ops).take n).erase k).length = n := by omega
        rw [List.map_drop, hm, List.drop_reverse]
        congr 1
        rw [← List.map_take]
        have e : (List.map some (k :: ((recency n ops).take n).erase k)).length - 1 = n := by
          simp [he]
        rw [e, List.map_take]
      · rename_i hgt
        rw [hlen] at hgt
        rw [hm, List.take_of_length_le (l := k :: ((recency n ops).take n).erase k)]
        simp only [List.length_cons]
        omega
    | get k =>
      show (lruGet (lruRun n ops) (some k)).2.map (·.1) = ((List.take n (if k ∈ (recency n ops).take n then
        k :: (recency n ops).erase k else recency n ops)).map some).reverse
      have hmem : (odGet (lruRun n ops) (some k)).isSome = true ↔ k ∈ (recency n ops).take n := by
        rw [odGet_isSome, ih, List.mem_reverse, List.mem_map]
        constructor
        · rintro ⟨x, hx, he⟩; cases he; exact hx
        · exact fun h => ⟨k, h, rfl⟩
      unfold lruGet
      cases hg : odGet (lruRun n ops) (some k) with
      | none =>
        rw [hg] at hmem
        rw [if_neg (fun h => by cases hmem.mpr h)]
        exact ih
      | some v =>
        rw [hg] at hmem
        have hk := hmem.mp rfl
        rw [if_pos hk]
        dsimp only
        unfold odMoveToEnd
        rw [hg]
        dsimp only
        rw [hmove k v]
        congr 2
        cases n with
        | zero => simp at hk
        | succ m =>
          rw [List.take_succ_cons, ← take_erase, List.take_of_length_le (l := ((recency (m + 1) ops).take (m + 1)).erase k)]
          rw [List.length_erase_of_mem hk]
          have := List.length_take_le (m + 1) (recency (m + 1) ops)
          omega

theorem lru_length (n : Nat) (ops : List (CacheOp V)) : (lruRun n ops).length ≤ n := by
  have := congrArg List.length (lru_keys n ops)
  simp only [List.length_map, List.length_reverse, List.length_take] at this
  omega

theorem odGet_drop_one {d : ODict V} (hd : (d.map (·.1)).Nodup) {k : Option Str} :
    odGet (d.drop 1) k = none ∨ odGet (d.drop 1) k = odGet d k := by
  cases d with
  | nil => exact Or.inl rfl
  | cons e es =>
    obtain ⟨x, y⟩ := e
    rw [List.drop_succ_cons, List.drop_zero, odGet_cons]
    by_cases hx : x = k
    · left
      rw [List.map_cons, List.nodup_cons] at hd
      cases h : odGet es k with
      | none => rfl
      | some v =>
        exact absurd (odGet_isSome.mp (by rw [h]; rfl)) (hx ▸ hd.1)
    · right; rw [if_neg hx]

/-- The values are the ones stored last. -/
theorem lru_values (n : Nat) (ops : List (CacheOp V)) (k : Str) {v : Option V}
    (h : odGet (lruRun n ops) (some k) = some v) : lastSet k ops = some v := by
  induction ops generalizing v with
  | nil => cases h
  | cons o ops ih =>
    cases o with
    | get x =>
      have : odGet (lruRun n (.get x :: ops)) (some k) = odGet (lruRun n ops) (some k) := by
        show odGet (lruGet (lruRun n ops) (some x)).2 (some k) = _
        unfold lruGet
        split
        · rfl
        · rw [odGet_move]
      rw [this] at h
      exact ih h
    | set x y =>
      have hnd : ((odDel (lruRun n ops) (some x) ++ [(some x, y)]).map (·.1)).Nodup := by
        have hkd : ((lruRun n ops).map (·.1)).Nodup := by
          rw [lru_keys, nodup_rev]
          exact nodup_map_some ((recency_nodup n ops).sublist (List.take_sublist _ _))
        rw [List.map_append, keys_del hkd, List.map_cons, List.map_nil]
        rw [List.nodup_append]
        refine ⟨hkd.erase _, by simp, ?_⟩
        intro a ha b hb
        rw [List.mem_singleton] at hb
        subst hb
        intro he
        subst he
        exact (List.Nodup.mem_erase_iff hkd).mp ha |>.1 rfl
      have hcases : odGet (odDel (lruRun n ops) (some x) ++ [(some x, y)]) (some k) = some v := by
        have h1 : odGet (lruSet n (lruRun n ops) (some x) y) (some k) = some v := h
        unfold lruSet at h1
        rw [if_neg (by simp), odMove_set] at h1
        dsimp only at h1
        split at h1
        · rcases odGet_drop_one hnd (k := some k) with h2 | h2
          · rw [h2] at h1; cases h1
          · rw [h2] at h1; exact h1
        · exact h1
      rw [odGet_append, odGet_del, odGet_cons] at hcases
      show (if x = k then some y else lastSet k ops) = some v
      by_cases hx : x = k
      · rw [if_pos hx]
        rw [if_pos (by rw [hx]), if_pos (by rw [hx])] at hcases
        simpa using hcases
      · rw [if_neg hx]
        rw [if_neg (by simpa using fun e : k = x => hx e.symm), if_neg (by simpa using hx)] at hcases
        refine ih ?_
        simpa [odGet] using hcases

theorem lru_present (n : Nat) (ops : List (CacheOp V)) (k : Str) :
    (odGet (lruRun n ops) (some k)).isSome = true ↔ k ∈ (recency n ops).take n := by
  rw [odGet_isSome, lru_keys, List.mem_reverse, List.mem_map]
  constructor
  · rintro ⟨x, hx, he⟩; cases he; exact hx
  · exact fun h => ⟨k, h, rfl⟩

/-! ### Any cache -/

/-- What a cache holds. -/
def held (c : Cache V) (key : Str) : Option (Option V) :=
  match c with
  | .dict d => odGet d (some key)
  | .lru _ d => odGet d (some key)
  | .noCache => none

/-- The keys of a cache are distinct. -/
def Sound : Cache V → Prop
  | .dict _ => True
  | .lru _ d => (d.map (·.1)).Nodup
  | .noCache => True

/-- The cache can hold something. -/
def Holds : Cache V → Prop
  | .dict _ => True
  | .lru n _ => 0 < n
  | .noCache => False

theorem nodup_move {d : ODict V} (hd : (d.map (·.1)).Nodup) (key : Option Str) (v : V) :
    ((odDel d key ++ [(key, v)]).map (·.1)).Nodup := by
  rw [List.map_append, keys_del hd, List.map_cons, List.map_nil, List.nodup_append]
  refine ⟨hd.erase _, by simp, ?_⟩
  intro a ha b hb
  rw [List.mem_singleton] at hb
  subst hb
  intro he
  subst he
  exact (List.Nodup.mem_erase_iff hd).mp ha |>.1 rfl

theorem set_sound {c : Cache V} (h : Sound c) (key : Str) (v : Option V) : Sound (c.set key v) := by
  cases c with
  | dict d => trivial
  | noCache => trivial
  | lru n d =>
    show ((lruSet n d (some key) v).map (·.1)).Nodup
    unfold lruSet
    rw [if_neg (by simp), odMove_set]
    dsimp only
    split
    · rw [List.map_drop]
      exact (nodup_move h _ v).sublist (List.drop_sublist _ _)
    · exact nodup_move h _ v

theorem get_sound {c : Cache V} (h : Sound c) (key : Str) : Sound (c.get key).2 := by
  cases c with
  | dict d => trivial
  | noCache => trivial
  | lru n d =>
    show ((lruGet d (some key)).2.map (·.1)).Nodup
    unfold lruGet
    split
    · exact h
    · rename_i v hg
      unfold odMoveToEnd
      rw [hg]
      exact nodup_move h _ v

theorem held_set {c : Cache V} (h : Sound c) {key k : Str} {v x : Option V}
    (hx : held (c.set key v) k = some x) : (k = key ∧ x = v) ∨ (k ≠ key ∧ held c k = some x) := by
  cases c with
  | dict d =>
    have hx : odGet (odSet d (some key) v) (some k) = some x := hx
    rw [odGet_set] at hx
    by_cases hk : k = key
    · rw [if_pos (by rw [hk])] at hx; cases hx; exact Or.inl ⟨hk, rfl⟩
    · rw [if_neg (by simpa using hk)] at hx; exact Or.inr ⟨hk, hx⟩
  | noCache => cases hx
  | lru n d =>
    have hx : odGet (lruSet n d (some key) v) (some k) = some x := hx
    have hfull : odGet (odDel d (some key) ++ [(some key, v)]) (some k) = some x := by
      unfold lruSet at hx
      rw [if_neg (by simp), odMove_set] at hx
      dsimp only at hx
      split at hx
      · rcases odGet_drop_one (nodup_move h (some key) v) (k := some k) with h2 | h2
        · rw [h2] at hx; cases hx
        · rw [h2] at hx; exact hx
      · exact hx
    rw [odGet_append, odGet_del, odGet_cons] at hfull
    by_cases hk : k = key
    · rw [if_pos (by rw [hk]), if_pos (by rw [hk])] at hfull
      left
      refine ⟨hk, ?_⟩
      simpa using hfull.symm
    · rw [if_neg (by simpa using hk), if_neg (by simpa using fun e : key = k => hk e.symm)] at hfull
      right
      refine ⟨hk, ?_⟩
      simpa [odGet, held] using hfull

theorem held_set_self {c : Cache V} (hc : Holds c) (key : Str) (v : Option V) :
    held (c.set key v) key = some v := by
  cases c with
  | dict d => show odGet (odSet d (some key) v) (some key) = _; rw [odGet_set, if_pos rfl]
  | noCache => exact hc.elim
  | lru n d =>
    show odGet (lruSet n d (some key) v) (some key) = _
    unfold lruSet
    rw [if_neg (by simp), odMove_set]
    dsimp only
    have hpos : 0 < n := hc
    have key' : ∀ d' : ODict (Option V), (∀ k, odGet d' (some key) ≠ some k) →
        odGet (d' ++ [(some key, v)]) (some key) = some v := by
      intro d' h
      rw [odGet_append, odGet_cons, if_pos rfl]
      cases hg : odGet d' (some key) with
      | none => rfl
      | some x => exact absurd hg (h x)
    split
    · rename_i hlen
      rw [List.length_append, List.length_cons, List.length_nil] at hlen
      rw [List.drop_append_of_le_length (by omega)]
      refine key' _ ?_
      intro x hx
      have h1 := odGet_isSome.mp (show (odGet (List.drop 1 (odDel d (some key))) (some key)).isSome = true by
        rw [hx]; rfl)
      rw [List.map_drop] at h1
      have h2 := (List.drop_sublist _ _).subset h1
      have h3 := odGet_isSome.mpr h2
      rw [odGet_del, if_pos rfl] at h3
      cases h3
    · refine key' _ ?_
      intro x hx
      rw [odGet_del, if_pos rfl] at hx
      cases hx

theorem set_holds {c : Cache V} (hc : Holds c) (key : Str) (v : Option V) : Holds (c.set key v) := by
  cases c <;> exact hc

theorem get_holds {c : Cache V} (hc : Holds c) (key : Str) : Holds (c.get key).2 := by
  cases c <;> exact hc

theorem held_get {c : Cache V} {key k : Str} : held (c.get key).2 k = held c k := by
  cases c with
  | dict d => rfl
  | noCache => rfl
  | lru n d =>
    show odGet (lruGet d (some key)).2 (some k) = odGet d (some k)
    unfold lruGet
    split
    · rfl
    · exact odGet_move

theorem get_value {c : Cache V} {key : Str} {v : Option V} (h : held c key = some v) :
    (c.get key).1 = some v := by
  cases c with
  | dict d => exact h
  | noCache => cases h
  | lru n d =>
    show some (lruGet d (some key)).1 = _
    unfold lruGet
    rw [show odGet d (some key) = some v from h]

theorem contains_eq {c : Cache V} (hc : Holds c) (key : Str) :
    c.contains key = some (held c key).isSome := by
  cases c with
  | dict d => rfl
  | noCache => exact hc.elim
  | lru n d => rfl

/-- Reading a result from a cache that agrees with the current values. -/
theorem load_spec {c : Cache V} {st : Store V} {key : Str} (hc : Holds c) (hs : Sound c)
    (hagree : ∀ k v, held c k = some v → v = st k) :
    ((loadResult c st key).1 = .value (st key) ∨ (st key = none ∧ (loadResult c st key).1 = .missing)) ∧
    Holds (loadResult c st key).2 ∧ Sound (loadResult c st key).2 ∧
    (∀ k v, held (loadResult c st key).2 k = some v → v = st k) ∧
    (∀ k, k ≠ key → held (loadResult c st key).2 k ≠ none → held c k ≠ none) := by
  unfold loadResult
  rw [contains_eq hc]
  cases hh : held c key with
  | some v =>
    dsimp only [Option.isSome]
    have hg := get_value hh
    cases hcg : c.get key with
    | mk a b =>
      rw [hcg] at hg
      dsimp only at hg
      subst hg
      have e : b = (c.get key).2 := by rw [hcg]
      dsimp only
      rw [e]
      refine ⟨Or.inl (by rw [hagree key v hh]), get_holds hc key, get_sound hs key, ?_, ?_⟩
      · intro k x hx; rw [held_get] at hx; exact hagree k x hx
      · intro k _ hx; rw [held_get] at hx; exact hx
  | none =>
    dsimp only [Option.isSome]
    cases hst : st key with
    | none =>
      dsimp only
      exact ⟨Or.inr ⟨rfl, rfl⟩, hc, hs, hagree, fun k _ h => h⟩
    | some v =>
      dsimp only
      have hg := get_value (held_set_self hc key (some v))
      cases hcg : (c.set key (some v)).get key with
      | mk a b =>
        rw [hcg] at hg
        dsimp only at hg
        subst hg
        have e : b = ((c.set key (some v)).get key).2 := by rw [hcg]
        dsimp only
        rw [e]
        refine ⟨Or.inl rfl, get_holds (set_holds hc _ _) key, get_sound (set_sound hs _ _) key, ?_, ?_⟩
        · intro k x hx
          rw [held_get] at hx
          rcases held_set hs hx with ⟨rfl, rfl⟩ | ⟨_, hx⟩
          · exact hst.symm
          · exact hagree k x hx
        · intro k hk hx
          rw [held_get] at hx
          rcases Option.ne_none_iff_exists'.mp hx with ⟨x, hx⟩
          rcases held_set hs hx with ⟨h, _⟩ | ⟨_, hx⟩
          · exact absurd h hk
          · rw [hx]; simp

end Verif.Lemmas
