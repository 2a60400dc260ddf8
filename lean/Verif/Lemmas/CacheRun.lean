import Verif.Lemmas.Cache

/-! # Results during sequential and parallel runs -/

namespace Verif.Lemmas
open Verif.Py Verif.Model Verif.Spec

variable {V : Type} {fl : Durations}

theorem current_snoc (st : Store V) (key : Str) (h : List (MemEv V)) (e : MemEv V) :
    current st key (h ++ [e]) = match e with
      | .save _ k v => if k = key then v else current st key h
      | .load _ _ _ => current st key h := by
  unfold current
  rw [List.foldl_append]
  cases e <;> rfl

theorem foldl_nosave (key : Str) {l : List (MemEv V)} (hl : ∀ w v, MemEv.save w key v ∉ l)
    (x : Option V) : l.foldl (afterEv key) x = x := by
  induction l generalizing x with
  | nil => rfl
  | cons e es ih =>
    rw [List.foldl_cons, ih (fun w v h => hl w v (List.mem_cons_of_mem _ h))]
    cases e with
    | save w k y =>
      show (if k = key then y else x) = x
      rw [if_neg]
      intro hk
      subst hk
      exact hl w y List.mem_cons_self
    | load w k y => rfl

/-- All caches agree with the files. -/
structure Agrees (m : Mem V) : Prop where
  holds : ∀ w, Holds (m.cache w)
  sound : ∀ w, Sound (m.cache w)
  held : ∀ w k v, held (m.cache w) k = some v → v = m.store k

theorem agrees_load {m : Mem V} (h : Agrees m) (w : Nat) (key : Str) : Agrees (m.load w key) := by
  have hl := load_spec (key := key) (h.holds w) (h.sound w) (h.held w)
  refine ⟨fun x => ?_, fun x => ?_, fun x k v => ?_⟩ <;> dsimp only [Mem.load] <;> by_cases hx : x = w
  · rw [if_pos hx]; exact hl.2.1
  · rw [if_neg hx]; exact h.holds x
  · rw [if_pos hx]; exact hl.2.2.1
  · rw [if_neg hx]; exact h.sound x
  · rw [if_pos hx]; exact hl.2.2.2.1 k v
  · rw [if_neg hx]; exact h.held x k v

theorem agrees_save {m : Mem V} (h : Agrees m) (w : Nat) (key : Str) (v : Option V)
    (hothers : ∀ x, x ≠ w → held (m.cache x) key = none) : Agrees (m.save w key v) := by
  refine ⟨fun x => ?_, fun x => ?_, fun x k y => ?_⟩ <;>
    dsimp only [Mem.save, saveResult] <;> by_cases hx : x = w
  · rw [if_pos hx]; exact set_holds (h.holds w) _ _
  · rw [if_neg hx]; exact h.holds x
  · rw [if_pos hx]; exact set_sound (h.sound w) _ _
  · rw [if_neg hx]; exact h.sound x
  · rw [if_pos hx]
    intro hy
    rcases held_set (h.sound w) hy with ⟨rfl, rfl⟩ | ⟨hk, hy⟩
    · simp [Store.set]
    · simp only [Store.set, if_neg hk]; exact h.held w k y hy
  · rw [if_neg hx]
    intro hy
    have hk : k ≠ key := by
      intro hk; subst hk; rw [hothers x hx] at hy; cases hy
    simp only [Store.set, if_neg hk]
    exact h.held x k y hy

/-- What loading returns when the caches agree with the files. -/
theorem agrees_value {m : Mem V} (h : Agrees m) (w : Nat) (key : Str) :
    (loadResult (m.cache w) m.store key).1 = .value (m.store key) ∨
    (m.store key = none ∧ (loadResult (m.cache w) m.store key).1 = .missing) :=
  (load_spec (key := key) (h.holds w) (h.sound w) (h.held w)).1

/-- Histories of a single process. -/
def Single (h : List (MemEv V)) : Prop := ∀ e ∈ h, match e with
  | .save w _ _ => w = 0
  | .load w _ _ => w = 0

theorem single_run {m0 m : Mem V} {h : List (MemEv V)} (hr : MemRun m0 h m) (hs : Single h)
    (hc : Holds (m0.cache 0)) (hsd : Sound (m0.cache 0)) (he : ∀ k, held (m0.cache 0) k = none) :
    (Holds (m.cache 0) ∧ Sound (m.cache 0) ∧ ∀ k v, held (m.cache 0) k = some v → v = m.store k) ∧
    ∀ key, m.store key = current m0.store key h := by
  induction hr with
  | nil => exact ⟨⟨hc, hsd, fun k v hv => by rw [he k] at hv; cases hv⟩, fun _ => rfl⟩
  | @snoc m' m'' h' e hr hstep ih =>
    obtain ⟨⟨i1, i2, i3⟩, i4⟩ := ih (fun e he => hs e (by simp [he])) 
    have hse := hs e (by simp)
    cases hstep with
    | save w key v =>
      have hw : w = 0 := hse
      subst hw
      refine ⟨⟨set_holds i1 _ _, set_sound i2 _ _, ?_⟩, ?_⟩
      · intro k y hy
        rcases held_set i2 hy with ⟨rfl, rfl⟩ | ⟨hk, hy⟩
        · simp [Mem.save, saveResult, Store.set]
        · simp only [Mem.save, saveResult, Store.set, if_neg hk]; exact i3 k y hy
      · intro k
        rw [current_snoc]
        simp only [Mem.save, saveResult, Store.set]
        by_cases hk : k = key
        · simp [hk]
        · rw [if_neg hk, if_neg (fun e => hk e.symm), i4]
    | load w key =>
      have hw : w = 0 := hse
      subst hw
      have hl := load_spec (key := key) i1 i2 i3
      refine ⟨⟨hl.2.1, hl.2.2.1, hl.2.2.2.1⟩, ?_⟩
      intro k
      rw [current_snoc]
      exact i4 k

/-! ### Parallel runs -/

/-- The invariant of the results in a parallel run. -/
structure MemInv (c : PConf fl) (st : Store V) (s : MSt fl V) : Prop where
  reach : PReach c s.run
  agrees : Agrees s.mem
  store : ∀ key, s.mem.store key = current st key s.hist
  /-- Only results that were accessed are in the caches. -/
  accessed : ∀ w key, held (s.mem.cache w) key ≠ none →
    (∃ w r, MemEv.load w key r ∈ s.hist) ∨ (∃ w v, MemEv.save w key v ∈ s.hist)
  /-- Results are loaded after their test has finished. -/
  loaded : ∀ w key r, MemEv.load w key r ∈ s.hist → key ∈ s.run.ready ∨ key ∉ c.todo
  saved : ∀ w key v, MemEv.save w key v ∈ s.hist → key ∈ s.run.started
  /-- Each load returned what its test had left. -/
  value : ∀ h1 h2 w key r, s.hist = h1 ++ .load w key r :: h2 →
    (r = .value (current st key h1) ∨ (current st key h1 = none ∧ r = .missing)) ∧
    ∀ w v, MemEv.save w key v ∉ h2
  once : ∀ h1 h2 w key v, s.hist = h1 ++ .save w key v :: h2 →
    ∀ w v, MemEv.save w key v ∉ h1 ∧ MemEv.save w key v ∉ h2

theorem ready_step {c : PConf fl} {s t : PSt fl} (h : PStep c s t) {n : Str} (hn : n ∈ s.ready) :
    n ∈ t.ready := by
  cases h <;> first | exact hn | exact List.mem_append.mpr (Or.inl hn)

theorem started_step {c : PConf fl} {s t : PSt fl} (h : PStep c s t) {n : Str} (hn : n ∈ s.started) :
    n ∈ t.started := by
  cases h <;> first | exact hn | exact List.mem_append.mpr (Or.inl hn)

theorem append_eq_snoc {α : Type} {l h1 h2 : List α} {x e : α} (h : l ++ [e] = h1 ++ x :: h2) :
    (h2 = [] ∧ x = e ∧ h1 = l) ∨ ∃ h2', h2 = h2' ++ [e] ∧ l = h1 ++ x :: h2' := by
  rcases List.eq_nil_or_concat h2 with rfl | ⟨h2', y, rfl⟩
  · left
    have := List.append_inj' h rfl
    exact ⟨rfl, by simpa using this.2.symm, this.1.symm⟩
  · right
    rw [List.concat_eq_append] at h ⊢
    rw [← List.cons_append, ← List.append_assoc] at h
    have := List.append_inj' h rfl
    have he : e = y := by simpa using this.2
    exact ⟨h2', by rw [he], this.1⟩

theorem meminv_reach {c : PConf fl} (ht : c.todo.Nodup) {size : Nat} (hsz : 0 < size) {st : Store V}
    {s : MSt fl V} (h : MReach c size st s) : MemInv c st s := by
  induction h with
  | init =>
    refine ⟨.init, ⟨fun _ => hsz, fun _ => List.nodup_nil, fun _ _ _ h => (nomatch h)⟩, fun _ => rfl,
      fun _ _ h => absurd rfl h, ?_, ?_, ?_, ?_⟩
    · intro _ _ _ h; cases h
    · intro _ _ _ h; cases h
    · intro h1 h2 _ _ _ h; simp at h
    · intro h1 h2 _ _ _ h; simp at h
  | @step s t hr hs ih =>
    cases hs with
    | run t hp =>
      exact ⟨ih.reach.step hp, ih.agrees, ih.store, ih.accessed,
        fun w key r h => (ih.loaded w key r h).imp (ready_step hp) id,
        fun w key v h => started_step hp (ih.saved w key v h), ih.value, ih.once⟩
    | load n w key hn hr hd =>
      have hi := inv_reach ht ih.reach
      have hl := load_spec (key := key) (ih.agrees.holds w) (ih.agrees.sound w) (ih.agrees.held w)
      refine ⟨ih.reach, agrees_load ih.agrees w key, ?_, ?_, ?_, ?_, ?_, ?_⟩
      · intro k; rw [current_snoc]; exact ih.store k
      · intro x k hk
        by_cases hkk : k = key
        · left; exact ⟨w, _, by rw [hkk]; exact List.mem_append.mpr (Or.inr List.mem_cons_self)⟩
        · have : held (s.mem.cache x) k ≠ none := by
            dsimp only [Mem.load] at hk
            by_cases hx : x = w
            · rw [if_pos hx] at hk
              rw [hx]
              exact hl.2.2.2.2 k hkk hk
            · rw [if_neg hx] at hk; exact hk
          rcases ih.accessed x k this with ⟨w', r, h⟩ | ⟨w', v, h⟩
          · exact Or.inl ⟨w', r, List.mem_append.mpr (Or.inl h)⟩
          · exact Or.inr ⟨w', v, List.mem_append.mpr (Or.inl h)⟩
      · intro w' k r h
        rcases List.mem_append.mp h with h | h
        · exact ih.loaded w' k r h
        · rw [List.mem_singleton] at h
          cases h
          rcases hd with hd | hd
          · by_cases hkt : key ∈ c.todo
            · exact Or.inl (hi.doneReady _ (hi.deps n hn key hd hkt))
            · exact Or.inr hkt
          · exact Or.inr hd
      · intro w' k v h
        rcases List.mem_append.mp h with h | h
        · exact ih.saved w' k v h
        · rw [List.mem_singleton] at h; cases h
      · intro h1 h2 w' k r he
        rcases append_eq_snoc he with ⟨rfl, hx, rfl⟩ | ⟨h2', rfl, he'⟩
        · cases hx
          refine ⟨?_, fun _ _ h => by cases h⟩
          rw [← ih.store]
          exact agrees_value ih.agrees w key
        · obtain ⟨hv1, hv2⟩ := ih.value h1 h2' w' k r he'
          refine ⟨hv1, fun w v h => ?_⟩
          rcases List.mem_append.mp h with h | h
          · exact hv2 w v h
          · rw [List.mem_singleton] at h; cases h
      · intro h1 h2 w' k v he
        rcases append_eq_snoc he with ⟨rfl, hx, rfl⟩ | ⟨h2', rfl, he'⟩
        · cases hx
        · intro x y
          refine ⟨(ih.once h1 h2' w' k v he' x y).1, fun h => ?_⟩
          rcases List.mem_append.mp h with h | h
          · exact (ih.once h1 h2' w' k v he' x y).2 h
          · rw [List.mem_singleton] at h; cases h
    | save n w v hn hr hsv =>
      have hi := inv_reach ht ih.reach
      have hnl : ∀ w r, MemEv.load w n r ∉ s.hist := by
        intro w r h
        rcases ih.loaded w n r h with h | h
        · exact hr h
        · exact h (hi.sub n hn)
      have hfree : ∀ x, held (s.mem.cache x) n = none := by
        intro x
        refine Classical.byContradiction fun h => ?_
        rcases ih.accessed x n h with ⟨w', r, h⟩ | ⟨w', v, h⟩
        · exact hnl w' r h
        · exact hsv w' v h
      refine ⟨ih.reach, agrees_save ih.agrees w n v (fun x _ => hfree x), ?_, ?_, ?_, ?_, ?_, ?_⟩
      · intro k
        rw [current_snoc]
        simp only [Mem.save, saveResult, Store.set]
        by_cases hk : k = n
        · simp [hk]
        · rw [if_neg hk, if_neg (fun e => hk e.symm)]; exact ih.store k
      · intro x k hk
        by_cases hkk : k = n
        · right; exact ⟨w, v, by rw [hkk]; exact List.mem_append.mpr (Or.inr List.mem_cons_self)⟩
        · have : held (s.mem.cache x) k ≠ none := by
            dsimp only [Mem.save, saveResult] at hk
            by_cases hx : x = w
            · rw [if_pos hx] at hk
              obtain ⟨y, hy⟩ := Option.ne_none_iff_exists'.mp hk
              rcases held_set (ih.agrees.sound w) hy with ⟨h, _⟩ | ⟨_, hy⟩
              · exact absurd h hkk
              · rw [hx, hy]; simp
            · rw [if_neg hx] at hk; exact hk
          rcases ih.accessed x k this with ⟨w', r, h⟩ | ⟨w', v, h⟩
          · exact Or.inl ⟨w', r, List.mem_append.mpr (Or.inl h)⟩
          · exact Or.inr ⟨w', v, List.mem_append.mpr (Or.inl h)⟩
      · intro w' k r h
        rcases List.mem_append.mp h with h | h
        · exact ih.loaded w' k r h
        · rw [List.mem_singleton] at h; cases h
      · intro w' k v' h
        rcases List.mem_append.mp h with h | h
        · exact ih.saved w' k v' h
        · rw [List.mem_singleton] at h; cases h; exact hn
      · intro h1 h2 w' k r he
        rcases append_eq_snoc he with ⟨rfl, hx, rfl⟩ | ⟨h2', rfl, he'⟩
        · cases hx
        · obtain ⟨hv1, hv2⟩ := ih.value h1 h2' w' k r he'
          refine ⟨hv1, fun w v h => ?_⟩
          rcases List.mem_append.mp h with h | h
          · exact hv2 w v h
          · rw [List.mem_singleton] at h
            cases h
            exact hnl w' r (by rw [he']; simp)
      · intro h1 h2 w' k v' he
        rcases append_eq_snoc he with ⟨rfl, hx, rfl⟩ | ⟨h2', rfl, he'⟩
        · cases hx
          exact fun x y => ⟨hsv x y, fun h => by cases h⟩
        · intro x y
          refine ⟨(ih.once h1 h2' w' k v' he' x y).1, fun h => ?_⟩
          rcases List.mem_append.mp h with h | h
          · exact (ih.once h1 h2' w' k v' he' x y).2 h
          · rw [List.mem_singleton] at h
            cases h
            exact hsv w' v' (by rw [he']; simp)

end Verif.Lemmas
