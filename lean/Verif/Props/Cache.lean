import Verif.Lemmas.CacheRun
import Verif.Props.Parallel

/-! # C42–C44: caches and the values of dependencies -/

namespace Verif.Props
open Verif.Py Verif.Model Verif.Spec Verif.Lemmas

variable {V : Type} {fl : Durations}

/-! ### C43 -/

/-- After every history of uses, an `LruCache(n)` holds exactly the `n` most recently used keys, each
with the value stored last under it.  (Histories are lists with the latest use first.) -/
theorem C43_lru (n : Nat) (ops : List (CacheOp V)) :
    (lruRun n ops).length = min n (recency n ops).length ∧ (recency n ops).Nodup ∧
    ∀ k, odGet (lruRun n ops) (some k) =
      if k ∈ (recency n ops).take n then lastSet k ops else none := by
  refine ⟨?_, recency_nodup n ops, fun k => ?_⟩
  · have := congrArg List.length (lru_keys n ops)
    simpa using this
  · have hp := lru_present n ops k
    split
    · rename_i h
      obtain ⟨v, hv⟩ := Option.isSome_iff_exists.mp (hp.mpr h)
      rw [hv, lru_values n ops k hv]
    · rename_i h
      cases hg : odGet (lruRun n ops) (some k) with
      | none => rfl
      | some v => exact absurd (hp.mp (by rw [hg]; rfl)) h

/-- It never holds more than `n` entries. -/
theorem C43_bounded (n : Nat) (ops : List (CacheOp V)) : (lruRun n ops).length ≤ n := lru_length n ops

/-- Asking for a key gives the value stored last, or `None` if it was dropped. -/
theorem C43_get (n : Nat) (ops : List (CacheOp V)) (k : Str) :
    (lruGet (lruRun n ops) (some k)).1 =
      if k ∈ (recency n ops).take n then (lastSet k ops).getD none else none := by
  unfold lruGet
  rw [(C43_lru n ops).2.2 k]
  split
  · rename_i h
    split at h
    · rename_i hk; rw [if_pos hk, h]; rfl
    · rename_i hk; rw [if_neg hk]
  · rename_i v h
    split at h
    · rename_i hk; rw [if_pos hk, h]; rfl
    · cases h

/-- Three keys in a cache of size 2: asking for `a` keeps it, `b` is dropped. -/
example : recency (V := Nat) 2 [.set "c".toList (some 3), .get "a".toList, .set "b".toList (some 2),
    .set "a".toList (some 1)] = ["c".toList, "a".toList, "b".toList] := by decide

/-! ### C42 -/

/-- In a sequential run with a cache that can hold something (a dictionary, or an `LruCache` with
positive size), the value handed to a dependent test is the one its dependency saved last, whatever
was cached, dropped or loaded in between; if that is `None`, or if there is nothing, the dependent
test gets `None` or the exception for a missing dependency. -/
theorem C42_value_partial {m0 m : Mem V} {h : List (MemEv V)} (hr : MemRun m0 h m) (hs : Single h)
    (hc : Holds (m0.cache 0)) (hsd : Sound (m0.cache 0)) (he : ∀ k, held (m0.cache 0) k = none)
    (key : Str) :
    (∀ v, current m0.store key h = some v →
      (loadResult (m.cache 0) m.store key).1 = .value (some v)) ∧
    (current m0.store key h = none → (loadResult (m.cache 0) m.store key).1 = .value none ∨
      (loadResult (m.cache 0) m.store key).1 = .missing) := by
  obtain ⟨⟨i1, i2, i3⟩, i4⟩ := single_run hr hs hc hsd he
  have := (load_spec (key := key) i1 i2 i3).1
  rw [i4 key] at this
  constructor
  · intro v hv
    rw [hv] at this
    rcases this with h | ⟨h, _⟩
    · exact h
    · cases h
  · intro hv
    rw [hv] at this
    exact this.imp id (·.2)

example : Holds (V := Nat) (.lru 8 []) ∧ Sound (V := Nat) (.lru 8 []) ∧
    ∀ k, held (V := Nat) (.lru 8 []) k = none :=
  ⟨by unfold Holds; omega, List.nodup_nil, fun _ => rfl⟩

/-- A dependency that returned `None` is lost once it drops out of the cache: the dependent test
raises. -/
theorem C42_none_refuted : ∃ (m : Mem Nat) (h : List (MemEv Nat)),
    MemRun ⟨fun _ => .lru 1 [], fun _ => none⟩ h m ∧ Single h ∧
    MemEv.save 0 "a".toList none ∈ h ∧ (loadResult (m.cache 0) m.store "a".toList).1 = .missing :=
  ⟨_, [] ++ [.save 0 "a".toList none] ++ [.save 0 "b".toList (some 1)],
    .snoc (.snoc (.nil _) (.save _ 0 _ _)) (.save _ 0 _ _),
    by intro e he; simp at he; rcases he with rfl | rfl <;> rfl, by simp, rfl⟩

/-- With `LruCache(0)` every dependency arrives as `None`. -/
theorem C42_size_zero_refuted (st : Store V) (key : Str) (v : V) (h : st key = some v) :
    (loadResult (.lru 0 []) st key).1 = .value none := by
  unfold loadResult
  simp [Cache.contains, odGet, h, Cache.set, lruSet, odMove_set, odDel, Cache.get, lruGet]

/-- With `NoCache` asking for a dependency never returns. -/
theorem C42_no_cache_refuted (st : Store V) (key : Str) :
    (loadResult .noCache st key).1 = .hangs := rfl

/-- A dependent test that changes the object it received changes what the next one receives, with each of
the two caches that keep objects. -/
theorem C42_mutated_refuted : ∃ (st : Store Nat) (key : Str) (v : Nat) (f : Nat → Nat),
    st key = some v ∧ f v ≠ v ∧ ∀ c : Cache Nat, c = .lru 8 [] ∨ c = .dict [] →
    (loadResult c st key).1 = .value (some v) ∧
    (loadResult ((loadResult c st key).2.mutate key f) st key).1 = .value (some (f v)) := by
  refine ⟨fun _ => some 1, "a".toList, 1, (· + 1), rfl, by decide, ?_⟩
  rintro c (rfl | rfl) <;> exact ⟨rfl, rfl⟩

/-! ### C44 -/

/-- In every parallel run, in whichever processes the tests are executed: if the dependency saved a
result in this run, every dependent test got this result (or, for `None`, `None` or the exception for a
missing dependency). -/
theorem C44_this_run_partial {c : PConf fl} (ht : c.todo.Nodup) {size : Nat} (hsz : 0 < size) {st : Store V}
    {s : MSt fl V} (h : MReach c size st s) {w w' : Nat} {key : Str} {v : Option V} {r : Loaded V}
    (hs : MemEv.save w key v ∈ s.hist) (hl : MemEv.load w' key r ∈ s.hist) :
    r = .value v ∨ (v = none ∧ r = .missing) := by
  have hm := meminv_reach ht hsz h
  obtain ⟨h1, h2, he⟩ := List.append_of_mem hl
  obtain ⟨hv, hno⟩ := hm.value h1 h2 w' key r he
  -- the save was before the load
  have hs1 : MemEv.save w key v ∈ h1 := by
    rw [he] at hs
    rcases List.mem_append.mp hs with hs | hs
    · exact hs
    · rcases List.mem_cons.mp hs with hs | hs
      · cases hs
      · exact absurd hs (hno w v)
  obtain ⟨a, b, hab⟩ := List.append_of_mem hs1
  have honce := hm.once a (b ++ .load w' key r :: h2) w key v (by rw [he, hab]; simp)
  have hcur : current st key h1 = v := by
    rw [hab]
    unfold current
    rw [List.foldl_append, List.foldl_cons]
    rw [show afterEv key _ (.save w key v) = v from if_pos rfl]
    exact foldl_nosave key (fun x y hx => (honce x y).2 (List.mem_append.mpr (Or.inl hx))) v
  rw [hcur] at hv
  exact hv

/-- If no result was saved for the dependency in this run, every dependent test got the result that
was stored before the run. -/
theorem C44_earlier_run_partial {c : PConf fl} (ht : c.todo.Nodup) {size : Nat} (hsz : 0 < size) {st : Store V}
    {s : MSt fl V} (h : MReach c size st s) {w' : Nat} {key : Str} {r : Loaded V}
    (hs : ∀ w v, MemEv.save w key v ∉ s.hist) (hl : MemEv.load w' key r ∈ s.hist) :
    r = .value (st key) ∨ (st key = none ∧ r = .missing) := by
  have hm := meminv_reach ht hsz h
  obtain ⟨h1, h2, he⟩ := List.append_of_mem hl
  obtain ⟨hv, _⟩ := hm.value h1 h2 w' key r he
  have hcur : current st key h1 = st key := by
    have hno : ∀ w v, MemEv.save w key v ∉ h1 := fun w v hx => hs w v (by rw [he]; simp [hx])
    exact foldl_nosave key hno _
  rw [hcur] at hv
  exact hv

/-- Two tests, the second of which depends on the first. -/
def twoInParallel : PConf strokes :=
  { fourTests with todo := ["t/a".toList, "t/b".toList] }

/-- The first test is running. -/
def firstRunning : PSt strokes :=
  { PSt.init twoInParallel with
    spc := .starting []
    scheduled := ["t/a".toList]
    reserved := [7]
    started := ["t/a".toList] }

private theorem mreach_steps {c : PConf fl} {size : Nat} {st : Store V} {s t : PSt fl} {mem : Mem V}
    {hist : List (MemEv V)} (hs : PSteps c s t) (h : MReach c size st ⟨s, mem, hist⟩) :
    MReach c size st ⟨t, mem, hist⟩ := by
  induction hs with
  | refl => exact h
  | step h1 _ ih => exact ih (h.step (.run _ _ h1))

private theorem first_steps : PSteps twoInParallel (PSt.init twoInParallel) firstRunning :=
  .step (.planned _ ["t/a".toList, "t/b".toList] ["t/a".toList] rfl (by decide) rfl (by decide)
    (by decide)) (.step (.start _ "t/a".toList [] rfl (by decide)) (.refl _))

private theorem first_reach (st : Store Nat) :
    MReach twoInParallel 8 st ⟨firstRunning, ⟨fun _ => .lru 8 [], st⟩, []⟩ :=
  mreach_steps first_steps .init

/-- When the first test has ended with some result, the second one is started. -/
private theorem second_steps (res : Result) : ∃ t, PSteps twoInParallel firstRunning t ∧
    ("t/a".toList, Raw.res res, (0 : Nat)) ∈ t.queue ∧ t.abort = false ∧ "t/b".toList ∈ t.started ∧
    "t/b".toList ∉ t.ready := by
  let a := "t/a".toList
  have hc : ∀ res, collectOne twoInParallel a (some (encode (toText strokes [(a, res, (0 : Nat))]))) =
      some (a, .res res, (0 : Nat)) := by
    intro res
    unfold collectOne
    dsimp only
    have hn : CleanName a := by unfold CleanName; decide
    rw [C23_round_trip _ _ _ (by
      intro r hr
      rw [List.mem_singleton] at hr
      subst hr
      exact hn)]
    rfl
  have main : ∀ b, b = some (encode (toText strokes [(a, res, (0 : Nat))])) →
      ∃ t, PSteps twoInParallel firstRunning t ∧
        ("t/a".toList, Raw.res res, (0 : Nat)) ∈ t.queue ∧ t.abort = false ∧ "t/b".toList ∈ t.started ∧
        "t/b".toList ∉ t.ready := by
    intro b hb
    refine ⟨_, .step (.startedAll _ rfl) (.step (.finish _ a b (by simp [firstRunning, a])
      (by simp [firstRunning, PSt.init]) ⟨res, (0 : Nat), hb⟩) (.step (.again _ rfl rfl)
      (.step (.seeReady _ a [] [] rfl (by simp [firstRunning, PSt.init])) (.step (.swept _ [a] rfl)
      (.step (.leave _ [a] rfl (Or.inl (by simp))) (.step (.collected _ [a] [a]
        [(a, .res res, (0 : Nat))] rfl (List.Perm.refl _) (by
          have e : (if batchName a = batchName a then b else none) = b := if_pos rfl
          show [a].mapM (fun m => collectOne twoInParallel m
            (if batchName m = batchName a then b else none)) = _
          rw [List.mapM_cons, List.mapM_nil, e, hb, hc]
          rfl))
      (.step (.publish _ _ rfl) (.step (.planned _ ["t/b".toList] ["t/b".toList] rfl
        (show (1 : Nat) < 2 by decide) rfl
        (show ["t/b".toList].Perm (remaining twoInParallel
          { PSt.init twoInParallel with done := [a] }) by decide)
        (show ["t/b".toList].Perm (plan twoInParallel [a] ["t/b".toList] []) by decide))
      (.step (.start _ "t/b".toList [] rfl
        (show "t/b".toList ∉ [a] ∧ "t/b".toList ∉ [] by decide)) (.refl _)))))))))), ?_, rfl, ?_, ?_⟩
    · exact List.mem_append.mpr (Or.inr List.mem_cons_self)
    · exact List.mem_append.mpr (Or.inr List.mem_cons_self)
    · show "t/b".toList ∉ [] ++ [a]
      decide
  exact main _ rfl

private theorem second_loads {st : Store Nat} {mem : Mem Nat} {hist : List (MemEv Nat)} (res : Result)
    (h : MReach twoInParallel 8 st ⟨firstRunning, mem, hist⟩) :
    ∃ s, MReach twoInParallel 8 st s ∧ ("t/a".toList, Raw.res res, (0 : Nat)) ∈ s.run.queue ∧
      s.run.abort = false ∧ s.hist = hist ++ [MemEv.load 0 "t/a".toList
        (loadResult (mem.cache 0) mem.store "t/a".toList).1] := by
  obtain ⟨t, h1, h2, h3, h4, h5⟩ := second_steps res
  have h6 := (mreach_steps h1 h).step (.load _ "t/b".toList 0 "t/a".toList h4 h5 (Or.inl (by decide)))
  exact ⟨_, h6, h2, h3, rfl⟩

/-- A run in which process 1 saves a result, which process 0 then loads. -/
example : ∃ s : MSt strokes Nat, MReach twoInParallel 8 (fun _ => none) s ∧
    MemEv.save 1 "t/a".toList (some 5) ∈ s.hist ∧
    MemEv.load 0 "t/a".toList (.value (some 5)) ∈ s.hist := by
  have h := (first_reach (fun _ => none)).step
    (.save _ "t/a".toList 1 (some 5) (by decide) (by decide) (by intro w v h; cases h))
  obtain ⟨s, h1, _, _, h2⟩ := second_loads .OK h
  refine ⟨s, h1, ?_, ?_⟩ <;> rw [h2]
  · exact List.mem_append.mpr (Or.inl (List.mem_append.mpr (Or.inr List.mem_cons_self)))
  · exact List.mem_append.mpr (Or.inr List.mem_cons_self)

/-- If the dependency fails, its dependents run nevertheless, with the value of an earlier run. -/
theorem C44_failed_refuted : ∃ (st : Store Nat) (s : MSt strokes Nat), MReach twoInParallel 8 st s ∧
    ("t/a".toList, Raw.res .FAIL, (0 : Nat)) ∈ s.run.queue ∧ s.run.abort = false ∧
    MemEv.load 0 "t/a".toList (.value (some 1)) ∈ s.hist := by
  obtain ⟨s, h1, h2, h3, h4⟩ := second_loads .FAIL
    (first_reach (fun k => if k = "t/a".toList then some 1 else none))
  refine ⟨_, s, h1, h2, h3, ?_⟩
  rw [h4]
  exact List.mem_append.mpr (Or.inr List.mem_cons_self)

end Verif.Props
