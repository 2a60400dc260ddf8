import Verif.Spec.Setup

/-! # Setup and teardown (C57) -/

namespace Verif.Props
open Verif.Model Verif.Spec

variable {S E V : Type}

/-- The log does not change what the generator does. -/
theorem C57_log (noYield : E) (gen : Gen S E) (body : Body S E V) (i : Nat) (s : S) (l : List Mark) :
    ((withSetup noYield (loggedGen i gen) (loggedTest body) (s, l)).1.1,
      (withSetup noYield (loggedGen i gen) (loggedTest body) (s, l)).2) =
    withSetup noYield gen body s := by
  unfold withSetup loggedGen loggedTest
  dsimp only
  rcases gen.next gen.start s with ⟨s1, g | _ | e⟩
  · dsimp only
    rcases body s1 with ⟨s2, r⟩
    dsimp only
    rcases gen.next g s2 with ⟨s3, g' | _ | e⟩ <;> rfl
  · rfl
  · rfl

/-- **C57**: if the setup reaches its `yield`, the setup, the test and the teardown are run once each,
in that order, whatever the test does (return or raise), and nothing else of the generator is run. -/
theorem C57_once (noYield : E) (gen : Gen S E) (body : Body S E V) (i : Nat) (s : S) (h : SetupOK gen s) :
    (withSetup noYield (loggedGen i gen) (loggedTest body) (s, [])).1.2 = [.part i 0, .test, .part i 1] := by
  obtain ⟨s1, g, h⟩ := h
  unfold withSetup loggedGen loggedTest
  simp only [h, List.nil_append]
  rcases body s1 with ⟨s2, r⟩
  dsimp only
  rcases gen.next g s2 with ⟨s3, g' | _ | e⟩ <;> rfl

/-- **C57**: if the setup does not reach a `yield`, the test is not run, nor the teardown, and the block
raises. -/
theorem C57_no_setup (noYield : E) (gen : Gen S E) (body : Body S E V) (i : Nat) (s : S) (h : ¬ SetupOK gen s) :
    (withSetup noYield (loggedGen i gen) (loggedTest body) (s, [])).1.2 = [.part i 0] ∧
    ∃ e, (withSetup noYield gen body s).2 = .error e := by
  unfold withSetup loggedGen loggedTest
  dsimp only
  rcases hn : gen.next gen.start s with ⟨s1, g | _ | e⟩
  · exact absurd ⟨s1, g, hn⟩ h
  · exact ⟨rfl, _, rfl⟩
  · exact ⟨rfl, _, rfl⟩

/-- **C57**: a test's result or exception is what the block gives, unless the teardown raises; then it
is the teardown's exception. The test sees the world as the setup left it, and the teardown as the
test left it. -/
theorem C57_result (noYield : E) (gen : Gen S E) (body : Body S E V) (s s1 s2 s3 : S) (g : gen.G)
    (r : Except E V) (k : Next gen.G E) (h1 : gen.next gen.start s = (s1, .yielded g)) (h2 : body s1 = (s2, r))
    (h3 : gen.next g s2 = (s3, k)) :
    (withSetup noYield gen body s).1 = s3 ∧
    ((∀ e, k ≠ .raised e) → (withSetup noYield gen body s).2 = r) ∧
    ∀ e, k = .raised e → (withSetup noYield gen body s).2 = .error e := by
  unfold withSetup
  simp only [h1, h2, h3]
  rcases k with _ | _ | e
  · exact ⟨rfl, fun _ => rfl, by intro e h; cases h⟩
  · exact ⟨rfl, fun _ => rfl, by intro e h; cases h⟩
  · refine ⟨rfl, fun h => absurd rfl (h e), ?_⟩
    intro e' h
    cases h
    rfl

/-- A generator that counts: it adds 1, yields, and adds 10 (after a second `yield` it would add 100). -/
private def adding (yields : Nat) : Gen Nat Unit where
  G := Nat
  start := 0
  next := fun n s => (s + 10 ^ n, if n < yields then .yielded (n + 1) else .stopped)

example : SetupOK (adding 1) 5 ∧
    withSetup () (adding 1) (V := Nat) (fun s => (s + 1000, .error ())) 5 = (1016, .error ()) ∧
    withSetup () (adding 1) (fun s => (s + 1000, .ok 7)) 5 = (1016, .ok 7) ∧
    ¬ SetupOK (adding 0) 5 ∧
    withSetup () (adding 0) (fun s => (s + 1000, .ok 7)) 5 = (6, .error ()) := by
  refine ⟨⟨6, (1 : Nat), rfl⟩, rfl, rfl, ?_, rfl⟩
  rintro ⟨s', g, h⟩
  cases h

/-- What follows a second `yield` is never run, and nothing is reported. -/
theorem C57_second_yield (noYield : E) (gen : Gen S E) (body : Body S E V) (i n : Nat) (s : S) (hn : 2 ≤ n) :
    Mark.part i n ∉ (withSetup noYield (loggedGen i gen) (loggedTest body) (s, [])).1.2 := by
  by_cases h : SetupOK gen s
  · rw [C57_once noYield gen body i s h]
    simp only [List.mem_cons, List.not_mem_nil, or_false, Mark.part.injEq, true_and, reduceCtorEq, false_or]
    omega
  · rw [(C57_no_setup noYield gen body i s h).1]
    simp only [List.mem_cons, List.not_mem_nil, or_false, Mark.part.injEq, true_and]
    omega

example : withSetup () (adding 2) (fun s => (s + 1000, .ok 7)) 5 = (1016, .ok 7) := rfl

private theorem stacked_from (noYield : E) (gens : List (Gen S E)) : ∀ (i : Nat)
    (f : Body (S × List Mark) E V) (inner : List Mark → List Mark → Prop)
    (_ : ∀ s l, ∃ m, (f (s, l)).1.2 = l ++ m ∧ inner [] m) (s : S) (l : List Mark),
    ∃ m, (combineDecorators (decorators noYield i gens) f (s, l)).1.2 = l ++ m ∧
      ((∃ x, inner [] x ∧ m = setups i gens.length ++ x ++ teardowns i gens.length) ∨
       ∃ k < gens.length, m = setups (i + k) (gens.length - k) ++ teardowns (i + k + 1) (gens.length - (k + 1))) := by
  induction gens with
  | nil =>
    intro i f inner h s l
    obtain ⟨m, h1, h2⟩ := h s l
    exact ⟨m, h1, .inl ⟨m, h2, by simp [setups, teardowns]⟩⟩
  | cons gen gens ih =>
    intro i f inner h s l
    have hstep : ∀ s l, ∃ m, (withSetup noYield (loggedGen i gen) f (s, l)).1.2 = l ++ m ∧
        ((∃ x, inner [] x ∧ m = [Mark.part i 0] ++ x ++ [.part i 1]) ∨ m = [.part i 0]) := by
      intro s l
      unfold withSetup loggedGen
      dsimp only
      rcases gen.next gen.start s with ⟨s1, g | _ | e⟩
      · dsimp only
        obtain ⟨x, hx1, hx2⟩ := h s1 (l ++ [.part i 0])
        generalize f (s1, l ++ [.part i 0]) = y at hx1 ⊢
        rcases y with ⟨⟨s2, l2⟩, r⟩
        simp only at hx1
        subst hx1
        dsimp only
        rcases gen.next g s2 with ⟨s3, g' | _ | e⟩ <;>
          exact ⟨[Mark.part i 0] ++ x ++ [.part i 1], by simp, .inl ⟨x, hx2, rfl⟩⟩
      · exact ⟨_, rfl, .inr rfl⟩
      · exact ⟨_, rfl, .inr rfl⟩
    obtain ⟨m, hm1, hm2⟩ := ih (i + 1) (withSetup noYield (loggedGen i gen) f)
      (fun _ m => (∃ x, inner [] x ∧ m = [Mark.part i 0] ++ x ++ [.part i 1]) ∨ m = [.part i 0]) hstep s l
    refine ⟨m, hm1, ?_⟩
    have hset : setups i (gens.length + 1) = setups (i + 1) gens.length ++ [.part i 0] := by
      simp [setups, List.range'_succ]
    have htear : teardowns i (gens.length + 1) = .part i 1 :: teardowns (i + 1) gens.length := by
      simp [teardowns, List.range'_succ]
    rcases hm2 with ⟨y, ⟨x, hx, rfl⟩ | rfl, rfl⟩ | ⟨k, hk, rfl⟩
    · left
      refine ⟨x, hx, ?_⟩
      rw [List.length_cons, hset, htear]
      simp
    · right
      refine ⟨0, Nat.zero_lt_succ _, ?_⟩
      simp only [List.length_cons, Nat.add_zero, Nat.sub_zero, hset, Nat.zero_add, Nat.add_sub_cancel]
    · right
      refine ⟨k + 1, Nat.succ_lt_succ hk, ?_⟩
      simp only [List.length_cons, Nat.add_sub_add_right]
      rw [show i + (k + 1) = i + 1 + k by omega]

/-- **C57**, for any number of setups around a test (`combine_decorators`, or decorators written above
each other): either the test is run once, after all setups and before all teardowns, which are run in
opposite orders; or one of the setups fails, the test is not run, and exactly the teardowns of the
setups that succeeded (those outside of it) are run, in the opposite order. -/
theorem C57_stacked (noYield : E) (gens : List (Gen S E)) (test : Body S E V) (s : S) :
    (combineDecorators (decorators noYield 0 gens) (loggedTest test) (s, [])).1.2 =
      setups 0 gens.length ++ [.test] ++ teardowns 0 gens.length ∨
    ∃ k < gens.length, (combineDecorators (decorators noYield 0 gens) (loggedTest test) (s, [])).1.2 =
      setups k (gens.length - k) ++ teardowns (k + 1) (gens.length - (k + 1)) := by
  obtain ⟨m, h1, h2⟩ := stacked_from noYield gens 0 (loggedTest test) (fun _ m => m = [.test])
    (by
      intro s l
      refine ⟨[.test], ?_, rfl⟩
      unfold loggedTest
      rfl) s []
  rw [h1, List.nil_append]
  rcases h2 with ⟨x, rfl, h⟩ | ⟨k, hk, h⟩
  · exact .inl h
  · exact .inr ⟨k, hk, by rw [h, Nat.zero_add]⟩

/-- If all setups reach their `yield` whatever the state, it is the former. -/
theorem C57_stacked_ok (noYield : E) (gens : List (Gen S E)) (test : Body S E V) (s : S)
    (h : ∀ gen ∈ gens, ∀ s, SetupOK gen s) :
    (combineDecorators (decorators noYield 0 gens) (loggedTest test) (s, [])).1.2 =
      setups 0 gens.length ++ [.test] ++ teardowns 0 gens.length := by
  have : ∀ (gens : List (Gen S E)) (i : Nat) (f : Body (S × List Mark) E V) (x : List Mark),
      (∀ gen ∈ gens, ∀ s, SetupOK gen s) → (∀ s l, (f (s, l)).1.2 = l ++ x) → ∀ s l,
      (combineDecorators (decorators noYield i gens) f (s, l)).1.2 =
        l ++ setups i gens.length ++ x ++ teardowns i gens.length := by
    intro gens
    induction gens with
    | nil => intro i f x _ h s l; simp [combineDecorators, decorators, setups, teardowns, h]
    | cons gen gens ih =>
      intro i f x hok h s l
      have hstep : ∀ s l, (withSetup noYield (loggedGen i gen) f (s, l)).1.2 =
          l ++ ([Mark.part i 0] ++ x ++ [.part i 1]) := by
        intro s l
        obtain ⟨s1, g, hs⟩ := hok gen List.mem_cons_self s
        unfold withSetup loggedGen
        simp only [hs]
        have hx := h s1 (l ++ [.part i 0])
        generalize f (s1, l ++ [.part i 0]) = y at hx ⊢
        rcases y with ⟨⟨s2, l2⟩, r⟩
        simp only at hx
        subst hx
        dsimp only
        rcases gen.next g s2 with ⟨s3, g' | _ | e⟩ <;> simp
      have := ih (i + 1) _ _ (fun g hg => hok g (List.mem_cons_of_mem _ hg)) hstep s l
      change (combineDecorators (decorators noYield (i + 1) gens) (withSetup noYield (loggedGen i gen) f) (s, l)).1.2 = _
      rw [this, List.length_cons]
      simp [setups, teardowns, List.range'_succ]
  have h0 := this gens 0 (loggedTest test) [.test] h (fun s l => rfl) s []
  simpa using h0

example : (combineDecorators (decorators () 0 [adding 1, adding 3, adding 1])
      (loggedTest (V := Nat) (fun s => (s, .error ()))) (0, [])).1.2 =
    [.part 2 0, .part 1 0, .part 0 0, .test, .part 0 1, .part 1 1, .part 2 1] := by rfl

/-- The middle one does not yield. -/
example : (combineDecorators (decorators () 0 [adding 1, adding 0, adding 1])
      (loggedTest (fun s => (s, .ok s))) (0, [])).1.2 = [.part 2 0, .part 1 0, .part 2 1] := by rfl

/-- **C57**: without a `process_setup_teardown` nothing is added to a run. -/
theorem C57_default (noYield : E) (run : Body S E V) : withProcessSetup noYield none run = run := by
  funext s
  rfl

/-- **C57**: a `process_setup_teardown` is called once around the whole run of the tests. -/
theorem C57_process (noYield : E) (gen : Gen S E) (run : Body S E V) (i : Nat) (s : S) (h : SetupOK gen s) :
    (withProcessSetup noYield (some (loggedGen i gen)) (loggedTest run) (s, [])).1.2 =
      [.part i 0, .test, .part i 1] :=
  C57_once noYield gen run i s h

end Verif.Props
