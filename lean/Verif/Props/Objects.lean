import Verif.Spec.Objects
import Verif.Props.CaseRun

/-! # Assertions about objects (C112) -/

namespace Verif.Props
open Verif.Py Verif.Model Verif.Spec Verif.Lemmas

variable {O : Type}

/-- There is only one object with a number. -/
theorem isObject_unique {steps : List (ItStep O)} {i : Nat} {t t' : Str} {o o' : O} (h : IsObject steps i t o)
    (h' : IsObject steps i t' o') : t = t' ∧ o = o' := by
  induction h generalizing t' o' with
  | it h1 =>
    cases h' with
    | it h2 => rw [h1] at h2; injection h2 with h2; injection h2 with a b; exact ⟨a, b⟩
    | member h2 _ _ _ => rw [h1] at h2; injection h2 with h2; cases h2
  | member h1 hj ho hs ih =>
    cases h' with
    | it h2 => rw [h1] at h2; injection h2 with h2; cases h2
    | member h2 hj' ho' hs' =>
      rw [h1] at h2; injection h2 with h2; injection h2 with a b c
      subst a b c
      obtain ⟨e1, e2⟩ := ih ho'
      subst e1 e2
      rw [hs] at hs'
      injection hs' with hs'
      exact ⟨rfl, hs'⟩

theorem nextObject_at {all pre steps : List (ItStep O)} (h : all = pre ++ steps) :
    nextObject all pre.length = (pre.filter creates).length := by
  rw [nextObject, h, List.take_left]

theorem step_at {all pre steps : List (ItStep O)} {x : ItStep O} (h : all = pre ++ x :: steps) :
    all[pre.length]? = some x := by
  rw [h, List.getElem?_append_right (Nat.le_refl _), Nat.sub_self]; rfl

theorem creates_at {all pre steps : List (ItStep O)} {x : ItStep O} (h : all = pre ++ x :: steps)
    (hx : creates x = true) : (all.filter creates)[(pre.filter creates).length]? = some x := by
  rw [h, List.filter_append, List.filter_cons_of_pos hx,
    List.getElem?_append_right (Nat.le_refl _), Nat.sub_self]; rfl

/-- What the steps after `pre` come down to. -/
def CallsOf (all : List (ItStep O)) (p : Nat) (x : List Op × Option Raised) (len : Nat) : Prop :=
  ∃ ops extra, x.1 = ops ++ extra ∧ ops.length ≤ len ∧
    (∀ k < ops.length, ∃ op, ops[k]? = some op ∧ Becomes all (p + k) op) ∧
    ((x.2 = none ∧ ops.length = len ∧ extra = []) ∨ ∃ r, x.2 = some r ∧ ops.length < len ∧ Stops all (p + ops.length) r extra)

theorem CallsOf.cons {all : List (ItStep O)} {p : Nat} {x : List Op × Option Raised} {len : Nat} {op : Op}
    (hb : Becomes all p op) (h : CallsOf all (p + 1) x len) : CallsOf all p (op :: x.1, x.2) (len + 1) := by
  obtain ⟨ops, extra, h1, h2, h3, h4⟩ := h
  refine ⟨op :: ops, extra, by simp [h1], by simp; omega, ?_, ?_⟩
  · intro k hk
    cases k with
    | zero => exact ⟨op, rfl, hb⟩
    | succ k =>
      obtain ⟨op', e1, e2⟩ := h3 k (by simpa using hk)
      exact ⟨op', e1, by rw [Nat.add_right_comm] at e2; exact e2⟩
  · rcases h4 with ⟨a, b, c⟩ | ⟨r, a, b, c⟩
    · exact Or.inl ⟨a, by simp [b], c⟩
    · exact Or.inr ⟨r, a, by simpa using b, by
        rw [Nat.add_right_comm] at c; exact c⟩

theorem CallsOf.stop {all : List (ItStep O)} {p : Nat} {r : Raised} {extra : List Op} {len : Nat}
    (h : Stops all p r extra) : CallsOf all p (extra, some r) (len + 1) :=
  ⟨[], extra, rfl, Nat.zero_le _, fun _ hk => absurd hk (Nat.not_lt_zero _), Or.inr ⟨r, rfl, Nat.succ_pos _, h⟩⟩

theorem itCalls_spec (all : List (ItStep O)) (steps pre : List (ItStep O)) (its : List (Str × O))
    (ha : all = pre ++ steps) (hl : its.length = (pre.filter creates).length)
    (hi : ∀ i t o, its[i]? = some (t, o) → IsObject all i t o) :
    CallsOf all pre.length (itCalls its steps) steps.length := by
  induction steps generalizing pre its with
  | nil => exact ⟨[], [], rfl, Nat.le_refl _, fun _ hk => absurd hk (Nat.not_lt_zero _), Or.inl ⟨rfl, rfl, rfl⟩⟩
  | cons x steps ih =>
    have hat := step_at ha
    have hnext := nextObject_at ha
    have hpl : (pre ++ [x]).length = pre.length + 1 := by simp
    have ha' : all = (pre ++ [x]) ++ steps := by simp [ha]
    have hnew : ∀ (t : Str) (o : O), IsObject all its.length t o →
        ∀ i t' o', (its ++ [(t, o)])[i]? = some (t', o') → IsObject all i t' o' := by
      intro t o hto i t' o' h
      rcases Nat.lt_trichotomy i its.length with hlt | heq | hgt
      · rw [List.getElem?_append_left hlt] at h; exact hi i t' o' h
      · subst heq
        rw [List.getElem?_append_right (Nat.le_refl _), Nat.sub_self] at h
        injection h with h; injection h with h1 h2
        subst h1 h2; exact hto
      · rw [List.getElem?_eq_none (by simp; omega)] at h; cases h
    cases x with
    | it title o =>
      have hob : IsObject all its.length title o := .it (by rw [hl]; exact creates_at ha rfl)
      have := ih (pre ++ [.it title o]) (its ++ [(title, o)]) ha' (by rw [List.filter_append, List.length_append, List.length_append, hl]; rfl) (hnew _ _ hob)
      rw [hpl] at this
      exact CallsOf.cons (Becomes.it hat) this
    | must i title cond msg =>
      simp only [itCalls]
      cases hx : its[i]? with
      | none =>
        exact CallsOf.stop (Stops.unknownMust hat (by
          rw [hnext, ← hl]; exact List.getElem?_eq_none_iff.1 hx))
      | some to =>
        obtain ⟨t, o⟩ := to
        have hob := hi i t o hx
        have hlt : i < nextObject all pre.length := by
          rw [hnext, ← hl]; exact (List.getElem?_eq_some_iff.1 hx).1
        simp only
        cases hc : cond o with
        | error r => exact CallsOf.stop (Stops.cond hat hob hc)
        | ok b =>
          have := ih (pre ++ [.must i title cond msg]) its ha' (by simp [hl, creates]) hi
          rw [hpl] at this
          exact CallsOf.cons (Becomes.must hat hlt hob hc) this
    | member i title sel =>
      simp only [itCalls]
      cases hx : its[i]? with
      | none =>
        exact CallsOf.stop (Stops.unknownMember hat (by
          rw [hnext, ← hl]; exact List.getElem?_eq_none_iff.1 hx))
      | some to =>
        obtain ⟨t, o⟩ := to
        have hob := hi i t o hx
        have hlt0 := (List.getElem?_eq_some_iff.1 hx).1
        have hlt : i < nextObject all pre.length := by rw [hnext, ← hl]; exact hlt0
        simp only
        cases hc : sel o with
        | error r => exact CallsOf.stop (Stops.select hat hob hc)
        | ok o' =>
          have hob' : IsObject all its.length (t ++ ".".toList ++ title) o' :=
            .member (by rw [hl]; exact creates_at ha rfl) hlt0 hob hc
          have := ih (pre ++ [.member i title sel]) (its ++ [(t ++ ".".toList ++ title, o')]) ha'
            (by rw [List.filter_append, List.length_append, List.length_append, hl]; rfl) (hnew _ _ hob')
          rw [hpl] at this
          exact CallsOf.cons (Becomes.member hat hlt (by rw [hnext, ← hl]; exact hob')) this
    | call o =>
      have := ih (pre ++ [.call o]) its ha' (by simp [hl, creates]) hi
      rw [hpl] at this
      exact CallsOf.cons (Becomes.call hat) this

/-- C112: a test about objects comes down to one call per step that runs: a header with the name of each new
object (a member is named after its parent), an assertion whose condition has been evaluated on the right
object, or the call itself; a step that raises ends the test, and if it was a condition the beginning of its
line is printed. -/
theorem C112_calls (steps : List (ItStep O)) :
    ∃ ops extra, (itTest steps).ops = ops ++ extra ∧ ops.length ≤ steps.length ∧
      (∀ k < ops.length, ∃ op, ops[k]? = some op ∧ Becomes steps k op) ∧
      (((itTest steps).raises = none ∧ ops.length = steps.length ∧ extra = []) ∨
        ∃ r, (itTest steps).raises = some r ∧ ops.length < steps.length ∧ Stops steps ops.length r extra) := by
  have := itCalls_spec steps steps [] [] rfl rfl (fun i t o h => by simp at h)
  simpa [CallsOf, itTest] using this

theorem becomes_well {steps : List (ItStep O)} {k : Nat} {op : Op} (h : Becomes steps k op) :
    marksError op = false → GoesWell steps k := by
  intro hm
  cases h with
  | it h1 => exact .it h1
  | must h1 h2 h3 h4 =>
    rename_i b
    cases b with
    | true => exact .must h1 h2 h3 h4
    | false => cases hm
  | member h1 h2 h3 =>
    cases h3 with
    | it h4 =>
      exfalso
      have := creates_at (all := steps) (pre := steps.take k) (steps := steps.drop (k + 1)) (x := _)
        (by
          obtain ⟨hk, hx⟩ := List.getElem?_eq_some_iff.1 h1
          conv => lhs; rw [← List.take_append_drop k steps, List.drop_eq_getElem_cons hk, hx]) rfl
      rw [nextObject, this] at h4
      cases h4
    | member h4 h5 h6 h7 =>
      have := creates_at (all := steps) (pre := steps.take k) (steps := steps.drop (k + 1)) (x := _)
        (by
          obtain ⟨hk, hx⟩ := List.getElem?_eq_some_iff.1 h1
          conv => lhs; rw [← List.take_append_drop k steps, List.drop_eq_getElem_cons hk, hx]) rfl
      rw [nextObject, this] at h4
      injection h4 with h4; injection h4 with a b c
      subst a b c
      exact .member h1 h2 h6 h7
  | call h1 => exact .call h1 hm

theorem well_becomes {steps : List (ItStep O)} {k : Nat} {op : Op} (h : Becomes steps k op)
    (hw : GoesWell steps k) : marksError op = false := by
  cases h with
  | it h1 => rfl
  | must h1 h2 h3 h4 =>
    cases hw with
    | must g1 g2 g3 g4 =>
      rw [h1] at g1; injection g1 with g1; injection g1 with a b c d
      subst a b c d
      obtain ⟨-, e⟩ := isObject_unique h3 g3
      subst e
      rw [h4] at g4; injection g4 with g4; subst g4; rfl
    | it g1 => rw [h1] at g1; injection g1 with g1; cases g1
    | member g1 => rw [h1] at g1; injection g1 with g1; cases g1
    | call g1 => rw [h1] at g1; injection g1 with g1; cases g1
  | member h1 h2 h3 => rfl
  | call h1 =>
    cases hw with
    | call g1 g2 => rw [h1] at g1; injection g1 with g1; injection g1 with a; subst a; exact g2
    | it g1 => rw [h1] at g1; injection g1 with g1; cases g1
    | member g1 => rw [h1] at g1; injection g1 with g1; cases g1
    | must g1 => rw [h1] at g1; injection g1 with g1; cases g1

theorem stops_not_well {steps : List (ItStep O)} {k : Nat} {r : Raised} {extra : List Op}
    (h : Stops steps k r extra) : ¬ GoesWell steps k := by
  intro hw
  cases hw with
  | it g1 =>
    cases h with
    | select h1 => rw [h1] at g1; injection g1 with g1; cases g1
    | unknownMember h1 => rw [h1] at g1; injection g1 with g1; cases g1
    | cond h1 => rw [h1] at g1; injection g1 with g1; cases g1
    | unknownMust h1 => rw [h1] at g1; injection g1 with g1; cases g1
  | must g1 g2 g3 g4 =>
    cases h with
    | cond h1 h2 h3 =>
      rw [h1] at g1; injection g1 with g1; injection g1 with a b c d
      subst a b c d
      obtain ⟨-, e⟩ := isObject_unique h2 g3
      subst e
      rw [h3] at g4; cases g4
    | unknownMust h1 h2 =>
      rw [h1] at g1; injection g1 with g1; injection g1 with a b c d
      subst a
      omega
    | select h1 => rw [h1] at g1; injection g1 with g1; cases g1
    | unknownMember h1 => rw [h1] at g1; injection g1 with g1; cases g1
  | member g1 g2 g3 g4 =>
    cases h with
    | select h1 h2 h3 =>
      rw [h1] at g1; injection g1 with g1; injection g1 with a b c
      subst a b c
      obtain ⟨-, e⟩ := isObject_unique h2 g3
      subst e
      rw [h3] at g4; cases g4
    | unknownMember h1 h2 =>
      rw [h1] at g1; injection g1 with g1; injection g1 with a b c
      subst a
      omega
    | cond h1 => rw [h1] at g1; injection g1 with g1; cases g1
    | unknownMust h1 => rw [h1] at g1; injection g1 with g1; cases g1
  | call g1 =>
    cases h with
    | select h1 => rw [h1] at g1; injection g1 with g1; cases g1
    | unknownMember h1 => rw [h1] at g1; injection g1 with g1; cases g1
    | cond h1 => rw [h1] at g1; injection g1 with g1; cases g1
    | unknownMust h1 => rw [h1] at g1; injection g1 with g1; cases g1

/-- A run that raises ends as FAIL. -/
theorem raised_fails (e : Env) {ops : List Op} {r : Raised} {s : St} (h : runTest e ⟨ops, some r⟩ = some s) :
    verdict e s = .FAIL := by
  obtain ⟨msg, tb⟩ := r
  simp only [runTest, handler, bind, Option.bind_eq_some_iff] at h
  obtain ⟨s0, -, s1, -, s2, h2, h3⟩ := h
  have e2 := fail_then_iln e h2
  have e3 := (keepsErrors_iln e h3).1
  have : s.errors ≠ 0 := by omega
  simp [verdict, this]

/-- C112: a test about objects fails exactly if some step does not go well: a condition does not hold for its
object or raises, a selection raises, an object is missing, or another call marks an error. -/
theorem C112_fails_iff (e : Env) (steps : List (ItStep O)) (hf : ItStep.call .fail ∉ steps) {s : St}
    (h : runTest e (itTest steps) = some s) :
    verdict e s = .FAIL ↔ ∃ k < steps.length, ¬ GoesWell steps k := by
  obtain ⟨ops, extra, h1, h2, h3, h4⟩ := C112_calls steps
  have hx : itTest steps = ⟨ops ++ extra, (itTest steps).raises⟩ := by rw [← h1]
  rw [hx] at h
  rcases h4 with ⟨g1, g2, g3⟩ | ⟨r, g1, g2, g3⟩
  · rw [g1, g3, List.append_nil] at h
    constructor
    · intro hv
      apply Classical.byContradiction
      intro hn
      refine C11_no_cause e ops ?_ h hv
      intro o ho
      obtain ⟨k, hk, hko⟩ := List.mem_iff_getElem.1 ho
      obtain ⟨op, e1, e2⟩ := h3 k hk
      rw [List.getElem?_eq_getElem hk, hko] at e1
      injection e1 with e1; subst e1
      apply well_becomes e2
      apply Classical.byContradiction
      intro hw
      exact hn ⟨k, by omega, hw⟩
    · rintro ⟨k, hk, hw⟩
      obtain ⟨op, e1, e2⟩ := h3 k (by omega)
      have hm : marksError op = true := by
        cases hm : marksError op with
        | true => rfl
        | false => exact absurd (becomes_well e2 hm) hw
      have hne : op ≠ .fail := by
        rintro rfl
        cases e2 with
        | call q => exact hf (List.mem_of_getElem? q)
      obtain ⟨a, b, hab⟩ := List.append_of_mem (List.mem_of_getElem? e1)
      simp only [runTest, bind, Option.bind_eq_some_iff] at h
      obtain ⟨s0, q0, q1⟩ := h
      simp only [Option.some.injEq] at q1
      subst q1
      rw [hab] at q0
      exact C09_assert e a b op hm hne q0
  · rw [g1] at h
    exact ⟨fun _ => ⟨ops.length, g2, stops_not_well g3⟩, fun _ => raised_fails e h⟩

/-- What an assertion prints. -/
theorem becomes_must {u : Unicode} {steps : List (ItStep O)} {k i : Nat} {title t : Str} {op : Op}
    {cond : O → Except Raised Bool} {msg : O → Option Str} {o : O} (hk : steps[k]? = some (.must i title cond msg))
    (ho : IsObject steps i t o) (h : Becomes steps k op) :
    ∃ b, cond o = .ok b ∧ printed u op = printed u (.must title b (msg o)) := by
  cases h with
  | must g1 g2 g3 g4 =>
    rw [hk] at g1; injection g1 with g1; injection g1 with a b c d
    subst a b c d
    obtain ⟨-, e⟩ := isObject_unique ho g3
    subst e
    exact ⟨_, g4, rfl⟩
  | it g1 => rw [hk] at g1; injection g1 with g1; cases g1
  | member g1 => rw [hk] at g1; injection g1 with g1; cases g1
  | call g1 => rw [hk] at g1; injection g1 with g1; cases g1

/-- C112: `must_be_a` prints the expected type, and the actual type if it is another one. -/
theorem C112_be_a (u : Unicode) {steps : List (ItStep O)} {k i : Nat} {shown t : Str} {op : Op} {isA : O → Bool}
    {shownType : O → Str} {o : O} (hk : steps[k]? = some (.mustBeA i shown isA shownType))
    (ho : IsObject steps i t o) (h : Becomes steps k op) :
    printed u op = " * MUST be a ".toList ++ shown ++
      (if isA o then "...ok\n".toList else "...was ".toList ++ shownType o ++ ['\n']) := by
  obtain ⟨b, hb, hp⟩ := becomes_must (u := u) hk ho h
  injection hb with hb
  rw [hp, hb]
  cases b with
  | true => rw [printed_must_true, if_pos rfl]; rfl
  | false =>
    rw [if_neg (by decide)]
    change printed u (.must _ false (some ('w' :: ("as ".toList ++ shownType o)))) = _
    rw [printed_must_some]
    simp only [List.append_assoc]
    rfl

/-- C112: `must_contain` and `must_equal` print what is expected and whether it is so. -/
theorem C112_contain_equal (u : Unicode) {steps : List (ItStep O)} {k i : Nat} {shown t : Str} {op : Op}
    {cond : O → Except Raised Bool} {o : O} (ho : IsObject steps i t o) (h : Becomes steps k op) :
    (steps[k]? = some (.mustContain i shown cond) → ∃ b, cond o = .ok b ∧ printed u op =
      " * MUST have ".toList ++ shown ++ (if b then "...ok\n".toList else "...FAILED\n".toList)) ∧
    (steps[k]? = some (.mustEqual i shown cond) → ∃ b, cond o = .ok b ∧ printed u op =
      " * MUST equal ".toList ++ shown ++ (if b then "...ok\n".toList else "...FAILED\n".toList)) := by
  constructor <;> intro hk <;> obtain ⟨b, hb, hp⟩ := becomes_must (u := u) hk ho h <;> refine ⟨b, hb, ?_⟩ <;>
    rw [hp] <;> cases b
  · rw [printed_must_none, if_neg (by decide)]; rfl
  · rw [printed_must_true, if_pos rfl]; rfl
  · rw [printed_must_none, if_neg (by decide)]; rfl
  · rw [printed_must_true, if_pos rfl]; rfl

/-- A test about a pair with a member. -/
def pairSteps : List (ItStep (Nat × Nat)) :=
  [.it "pair".toList (1, 2),
   .mustEqual 0 "(1, 2)".toList (fun o => .ok (o == (1, 2))),
   .member 0 "swap".toList (fun o => .ok (o.2, o.1)),
   .mustEqual 1 "(2, 1)".toList (fun o => .ok (o == (2, 1))),
   .call (.tln "done".toList),
   .mustEqual 1 "(1, 2)".toList (fun o => .ok (o == (1, 2)))]

set_option maxRecDepth 100000 in
example : ItStep.call .fail ∉ pairSteps ∧ ∃ s, runTest exampleEnv (itTest pairSteps) = some s ∧
    s.out = ("## pair..\n\n * MUST equal (1, 2)...ok\n\n## pair.swap..\n\n * MUST equal (2, 1)...ok\ndone\n" ++
      " * MUST equal (1, 2)...FAILED\n").toList ∧ verdict exampleEnv s = .FAIL := by
  refine ⟨by simp [pairSteps, ItStep.mustEqual], _, rfl, ?_⟩
  decide +kernel

end Verif.Props
