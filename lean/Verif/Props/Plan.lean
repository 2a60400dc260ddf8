import Verif.Spec.Plan
import Verif.Props.Parallel
import Verif.Model.Console
import Verif.Lemmas.Config

/-! # C91, C92: the order and the number of workers of parallel runs -/

namespace Verif.Props
open Verif.Py Verif.Model Verif.Spec Verif.Lemmas

variable {fl : Durations}

/-! ### C91 -/

private theorem durations_get (old : List (Rec fl)) (n : Str) : ∀ d : Dict fl.D,
    (old.foldl (fun d r => d.set r.1 r.2.2) d).get n =
      ((old.filter (fun r => r.1 = n)).getLast?).elim (d.get n) (fun r => some r.2.2) := by
  induction old with
  | nil => intro d; rfl
  | cons r old ih =>
    intro d
    rw [List.foldl_cons, ih, Dict.get_set]
    by_cases h : r.1 = n
    · rw [if_pos h, List.filter_cons_of_pos (by simpa using h), List.getLast?_cons]
      cases (old.filter (fun r => r.1 = n)).getLast? <;> rfl
    · rw [if_neg h, List.filter_cons_of_neg (by simpa using h)]

private theorem duration_eq (value : fl.D → Int) (old : List (Rec fl)) (n : Str) :
    caseDuration value old n = tookBefore value old n := by
  unfold caseDuration tookBefore caseDurations
  rw [durations_get]
  cases (old.filter (fun r => r.1 = n)).getLast? <;> rfl

private theorem planLe_iff (f : Str → Int) (a b : Str) :
    planLe f a b = true ↔ f b < f a ∨ (f a = f b ∧ strLe a b = true) := by
  unfold planLe
  simp only [Bool.or_eq_true, Bool.and_eq_true, decide_eq_true_eq]
  constructor
  · rintro (h | ⟨h, h'⟩)
    · exact Or.inl (by omega)
    · exact Or.inr ⟨by omega, h'⟩
  · rintro (h | ⟨h, h'⟩)
    · exact Or.inl (by omega)
    · exact Or.inr ⟨by omega, h'⟩

private theorem planLe_trans (f : Str → Int) (a b c : Str) (h1 : planLe f a b) (h2 : planLe f b c) :
    planLe f a c := by
  rw [planLe_iff] at *
  rcases h1 with h1 | ⟨h1, k1⟩ <;> rcases h2 with h2 | ⟨h2, k2⟩
  · exact Or.inl (by omega)
  · exact Or.inl (by omega)
  · exact Or.inl (by omega)
  · exact Or.inr ⟨by omega, strLe_trans _ _ _ k1 k2⟩

private theorem planLe_total (f : Str → Int) (a b : Str) : planLe f a b ∨ planLe f b a := by
  rw [planLe_iff, planLe_iff]
  rcases Int.lt_trichotomy (f a) (f b) with h | h | h
  · exact Or.inr (Or.inl h)
  · rcases strLe_total a b with k | k
    · exact Or.inl (Or.inr ⟨h, k⟩)
    · exact Or.inr (Or.inr ⟨h.symm, k⟩)
  · exact Or.inl (Or.inl h)

private theorem planLe_antisymm (f : Str → Int) (a b : Str) (h1 : planLe f a b) (h2 : planLe f b a) :
    a = b := by
  rw [planLe_iff] at *
  rcases h1 with h1 | ⟨h1, k1⟩ <;> rcases h2 with h2 | ⟨h2, k2⟩
  · omega
  · omega
  · omega
  · exact strLe_antisymm _ _ k1 k2

/-- The tests of one plan are handed to the workers in the order of the time they took before, the
slowest first; tests that took the same time, and tests without a record (which count as 0), go by
name. -/
theorem C91_slowest_first (c : PConf fl) (value : fl.D → Int) (old : List (Rec fl))
    (done order : List Str) (reserved : List Nat) :
    (sortedPlan c value old done order reserved).Pairwise (fun a b =>
      tookBefore value old b < tookBefore value old a ∨
      (tookBefore value old a = tookBefore value old b ∧ strLe a b = true)) := by
  refine (sortedBy_sorted (planLe_trans _) (planLe_total _) _).imp ?_
  intro a b h
  rw [planLe_iff, duration_eq, duration_eq] at h
  exact h

/-- Planning in this way is a step of the transition system, so that everything said about all its
executions (C35–C40, C73, C90) holds for the scheduler with this order. -/
theorem C91_step (c : PConf fl) (value : fl.D → Int) (old : List (Rec fl)) (s : PSt fl)
    (h : s.spc = .head) (hd : s.done.length < c.todo.length) (ha : s.abort = false) (order : List Str)
    (ho : order.Perm (remaining c s)) :
    PStep c s { s with spc := .starting (sortedPlan c value old s.done order s.reserved) } :=
  .planned s order _ h hd ha ho (sortedBy_perm _ _)

private theorem plan_filter (c : PConf fl) (done order : List Str) (reserved : List Nat)
    (hc : NoConflict c.res order) :
    plan c done order reserved = order.filter (fun n =>
      runnable c done n && (c.res n).all (fun r => !reserved.contains r)) := by
  induction order generalizing reserved with
  | nil => rfl
  | cons n ns ih =>
    obtain ⟨h1, h2⟩ := List.pairwise_cons.mp hc
    unfold plan
    split
    · rename_i hn
      rw [List.filter_cons, if_pos hn, ih _ h2]
      congr 1
      refine List.filter_congr fun m hm => ?_
      congr 1
      rw [Bool.eq_iff_iff, List.all_eq_true, List.all_eq_true]
      constructor
      · intro hall r hr
        have := hall r hr
        simp only [List.contains_append, Bool.not_or, Bool.and_eq_true] at this
        exact this.1
      · intro hall r hr
        simp only [List.contains_append, Bool.not_or, Bool.and_eq_true]
        refine ⟨hall r hr, ?_⟩
        simp only [Bool.not_eq_true', List.contains_eq_mem, decide_eq_false_iff_not]
        exact fun hx => h1 m hm r hx hr
    · rename_i hn
      rw [List.filter_cons, if_neg hn, ih _ h2]

/-- If no two of the remaining tests share a resource, the plan does not depend on the order in which
Python enumerates the set, and consists of all tests whose dependencies are done and whose resources
are free. -/
theorem C91_deterministic_partial (c : PConf fl) (value : fl.D → Int) (old : List (Rec fl))
    (done order order' : List Str) (reserved : List Nat) (hp : order.Perm order')
    (hc : NoConflict c.res order) :
    sortedPlan c value old done order reserved = sortedPlan c value old done order' reserved ∧
    ∀ n, n ∈ sortedPlan c value old done order reserved ↔ n ∈ order ∧
      (∀ d ∈ c.deps n, d ∈ c.todo → d ∈ done) ∧ ∀ r ∈ c.res n, r ∉ reserved := by
  have hc' : NoConflict c.res order' := by
    unfold NoConflict at *
    refine (hp.pairwise_iff ?_).mp hc
    intro a b h r hr hr'
    exact h r hr' hr
  constructor
  · refine sortedBy_congr (planLe_trans _) (planLe_total _) (planLe_antisymm _) ?_
    rw [plan_filter c done order reserved hc, plan_filter c done order' reserved hc']
    exact hp.filter _
  · intro n
    unfold sortedPlan
    rw [(sortedBy_perm _ _).mem_iff, plan_filter c done order reserved hc, List.mem_filter]
    refine and_congr_right fun _ => ?_
    unfold runnable
    simp only [Bool.and_eq_true, List.all_eq_true, Bool.or_eq_true, Bool.not_eq_true',
      List.contains_eq_mem, decide_eq_true_eq, decide_eq_false_iff_not]
    refine and_congr_left fun _ => forall_congr' fun d => forall_congr' fun _ => ?_
    constructor
    · rintro (h | h) hd
      · exact absurd hd h
      · exact h
    · intro h
      by_cases hd : d ∈ c.todo
      · exact Or.inr (h hd)
      · exact Or.inl hd

/-- An old report: `t/d` took 1, `t/b` took 3, and `t/a` took 5 and then 2. -/
def oldTimes : List (Rec strokes) :=
  [("t/a".toList, .OK, (5 : Nat)), ("t/d".toList, .OK, (1 : Nat)), ("t/b".toList, .DIFF, (3 : Nat)),
    ("t/a".toList, .OK, (2 : Nat))]

example : sortedPlan { fourTests with res := fun _ => [] } (fun d : Nat => (d : Int)) oldTimes
    ["t/a".toList] ["t/c".toList, "t/d".toList, "t/b".toList] [] =
    ["t/b".toList, "t/d".toList, "t/c".toList] := by decide

example : NoConflict (fun _ => []) ["t/c".toList, "t/d".toList, "t/b".toList] := by
  unfold NoConflict; decide

/-- If tests share a resource, which of them is planned depends on the order in which Python enumerates
the set of tests (which is different in every process), and it may be the faster one. -/
theorem C91_resource_refuted : ∃ (c : PConf strokes) (order order' : List Str), order.Perm order' ∧
    sortedPlan c (fun d : Nat => (d : Int)) oldTimes [] order [] = ["t/a".toList] ∧
    sortedPlan c (fun d : Nat => (d : Int)) oldTimes [] order' [] = ["t/c".toList] ∧
    tookBefore (fl := strokes) (fun d : Nat => (d : Int)) oldTimes "t/c".toList <
      tookBefore (fl := strokes) (fun d : Nat => (d : Int)) oldTimes "t/a".toList := by
  refine ⟨{ fourTests with todo := ["t/a".toList, "t/c".toList] }, ["t/a".toList, "t/c".toList],
    ["t/c".toList, "t/a".toList], ?_, ?_, ?_, ?_⟩ <;> decide

/-! ### C92 -/

private theorem says_parallel {a : Args} {k : Str} {v : CVal} (h : FlagSays a k v)
    (hk : k = "parallel".toList) : v = a.p := by
  cases h with
  | p x h => exact h.symm
  | _ => exact absurd hk (by decide)

private theorem parallel_get (u : Unicode) (global : Option (Dict CVal)) (w : ConfigWorld)
    (extra config : Dict CVal) (a : Args) (h : execConfig u global w extra a = some config)
    (hp : a.p ≠ .bool false ∧ a.p ≠ .int 0 ∧ a.p ≠ .str []) :
    config.get "parallel".toList = some a.p := by
  obtain ⟨d, -, rfl⟩ := Option.map_eq_some_iff.mp h
  rcases setFlags_get a "parallel".toList (setAll d extra) with ⟨v, h1, h2⟩ | ⟨h1, -⟩
  · rw [h2, says_parallel h1 rfl]
  · exact absurd (FlagSays.p a.p rfl hp.1 hp.2.1 hp.2.2) (h1 _)

private theorem natText_ne_nil (n : Nat) : natText n ≠ [] := by
  unfold natText
  intro h
  have := Nat.length_toDigits_pos (b := 10) (n := n)
  rw [h] at this
  cases this

private theorem natText_ne_true (n : Nat) : natText n ≠ "True".toList := by
  intro h
  have h1 : 'T' ∈ natText n := by rw [h]; decide
  have := Nat.isDigit_of_mem_toDigits (b := 10) (by decide) (by decide) h1
  exact absurd this (by decide)

private theorem number_inj {int : Str → Option Int} (hint : ∀ n : Nat, int (natText n) = some (n : Int))
    {m n : Nat} (h : natText m = natText n) : m = n := by
  have h1 := hint m
  rw [h, hint n] at h1
  injection h1 with h1
  omega

private theorem workers_str (int : Str → Option Int) (cpuCount : Nat) {s : Str} (h1 : s ≠ [])
    (h2 : s ≠ "True".toList) {n : Nat} (h : int s = some (n : Int)) :
    workers int cpuCount (some (.str s)) = if n = 0 then none else some n := by
  have ht : (CVal.str s).truthy = true := by
    cases s with
    | nil => exact absurd rfl h1
    | cons => rfl
  unfold workers
  rw [Option.getD_some, if_pos ht]
  unfold processCount
  dsimp only
  rw [if_neg h2, h]
  dsimp only
  by_cases h0 : n = 0
  · rw [if_pos (by omega), if_pos h0]
  · rw [if_neg (by omega), if_neg h0, Int.toNat_natCast]

/-- The options: `-p` gives as many workers as there are CPUs, `-pN` and `--parallel-count N` give `N`
workers, whatever the settings are; a negative number is an error. -/
theorem C92_options (int : Str → Option Int) (hint : ∀ n : Nat, int (natText n) = some (n : Int))
    (cpuCount : Nat) (hcpu : 0 < cpuCount) (u : Unicode) (global : Option (Dict CVal)) (w : ConfigWorld)
    (extra config : Dict CVal) (a : Args) (h : execConfig u global w extra a = some config) :
    (a.p = .bool true → workers int cpuCount (config.get "parallel".toList) = some cpuCount) ∧
    (∀ n : Nat, 0 < n → a.p = .int n → workers int cpuCount (config.get "parallel".toList) = some n) ∧
    (∀ n : Nat, a.p = .str (natText n) → workers int cpuCount (config.get "parallel".toList) =
      if n = 0 then none else some n) ∧
    (∀ n : Int, n < 0 → a.p = .int n → workers int cpuCount (config.get "parallel".toList) = none) := by
  refine ⟨?_, ?_, ?_, ?_⟩
  · intro hp
    rw [parallel_get u global w extra config a h (by rw [hp]; exact ⟨by simp, by simp, by simp⟩), hp]
    have : ¬ ((cpuCount : Int) < 1) := by omega
    simp [workers, processCount, CVal.truthy, this]
  · intro n hn hp
    have h0 : (n : Int) ≠ 0 := by omega
    rw [parallel_get u global w extra config a h (by
      rw [hp]; exact ⟨by simp, fun he => h0 (by injection he), by simp⟩), hp]
    have : ¬ ((n : Int) < 1) := by omega
    have h0' : n ≠ 0 := by omega
    simp [workers, processCount, CVal.truthy, this, h0']
  · intro n hp
    rw [parallel_get u global w extra config a h (by
      rw [hp]; exact ⟨by simp, by simp, fun he => natText_ne_nil n (by injection he)⟩), hp]
    exact workers_str int cpuCount (natText_ne_nil n) (natText_ne_true n) (hint n)
  · intro n hn hp
    have h0 : n ≠ 0 := by omega
    rw [parallel_get u global w extra config a h (by
      rw [hp]; exact ⟨by simp, fun he => h0 (by injection he), by simp⟩), hp]
    have : n < 1 := by omega
    simp [workers, processCount, CVal.truthy, this, h0]

/-- The settings in files and in the environment: the text of a number `N ≥ 2` gives `N` workers, `True`
gives as many as there are CPUs, and `0` or nothing no parallel run. What is missing: the number 1, see
`C92_one_refuted`. -/
theorem C92_settings_partial (int : Str → Option Int) (hint : ∀ n : Nat, int (natText n) = some (n : Int))
    (cpuCount : Nat) (hcpu : 0 < cpuCount) (s : Str) (v : CVal) (hm : Means s v) :
    (∀ n : Nat, 2 ≤ n → s = natText n → workers int cpuCount (some v) = some n) ∧
    (s = "True".toList → workers int cpuCount (some v) = some cpuCount) ∧
    (s = natText 0 ∨ s = [] → workers int cpuCount (some v) = some 0) ∧
    workers int cpuCount none = some 0 := by
  refine ⟨?_, ?_, ?_, rfl⟩
  · intro n hn hs
    cases hm with
    | one => exact absurd (number_inj hint (hs.symm.trans (by decide : "1".toList = natText 1))) (by omega)
    | zero => exact absurd (number_inj hint (hs.symm.trans (by decide : "0".toList = natText 0))) (by omega)
    | other h1 h2 =>
      subst hs
      rw [workers_str int cpuCount (natText_ne_nil n) (natText_ne_true n) (hint n), if_neg (by omega)]
  · intro hs
    cases hm with
    | one => exact absurd hs (by decide)
    | zero => exact absurd hs (by decide)
    | other h1 h2 =>
      subst hs
      have : ¬ ((cpuCount : Int) < 1) := by omega
      simp [workers, processCount, CVal.truthy, this]
  · rintro (hs | hs)
    · cases hm with
      | one => exact absurd hs (by decide)
      | zero => rfl
      | other _ h2 h3 => exact absurd hs h3
    · cases hm with
      | one => exact absurd hs (by decide)
      | zero => exact absurd hs (by decide)
      | other h1 h2 => subst hs; rfl

/-- `parallel=1` in a file or in the environment does not give one worker, but one for each CPU (while
the option `-p1` gives one). -/
theorem C92_one_refuted (int : Str → Option Int) : ∃ v, Means (natText 1) v ∧
    workers int 8 (some v) = some 8 ∧ workers int 8 (some (.int 1)) = some 1 :=
  ⟨.bool true, .one, rfl, rfl⟩

example : natText 16 = "16".toList ∧ ∃ v, Means (natText 4) v := ⟨by decide, _, .other _ (by decide) (by decide)⟩

example : (execConfig ascii none ⟨fun _ => none, [("BOOKTEST_PARALLEL".toList, "4".toList)], []⟩ []
    { p := .str (natText 16) }).map (fun c => c.get "parallel".toList) = some (some (.str "16".toList)) := by
  rfl

end Verif.Props
