import Mathlib.Data.List.Forall2
import Verif.Model.ReviewAll
import Verif.Props.Reports
import Verif.Props.Review

/-! # Properties of `booktest --review` (C66) -/

namespace Verif.Props
open Verif.Py Verif.Model Verif.Spec Verif.Lemmas

/-- A review of a result ends with a result: the same one, or OK after an acceptance. -/
theorem caseReview_done {cfg : Config} {exp out : Path} {n : Str} {res : Result}
    {answers answers' : List Str} {fs fs' : FS} {rv : Raw} {q : Request}
    (h : caseReview cfg exp out n (.res res) answers fs = (fs', .done rv q, answers')) :
    ∃ r, rv = .res r ∧ ((r = res ∧ fs' = fs) ∨
      (r = .OK ∧ res ≠ .FAIL ∧ (q = .FREEZE ∨ (res = .OK ∧ cfg.update = true) ∨
        (res = .DIFF ∧ cfg.accept = true)))) := by
  have hx := h
  unfold caseReview at h
  dsimp only at h
  split at h
  · cases h
  · split at h
    · rename_i hc
      split at h
      · cases h
      · cases h
        refine ⟨.OK, rfl, ?_⟩
        by_cases hf : res = .FAIL
        · subst hf
          obtain ⟨-, h2⟩ := C17_fail_not_accepted _ _ _ _ _ _ _ _ _ hx
          rcases h2 with h2 | ⟨q', -, h2⟩ <;> cases h2
        · exact Or.inr ⟨rfl, hf, by simpa using hc⟩
    · cases h
      exact ⟨res, rfl, Or.inl ⟨rfl, rfl⟩⟩

/-- The tests that a review looks at: those selected on the command line (all, without arguments), except
with `-c` those known to have passed. -/
def UpForReview (cfg : Config) (pass : List Str) (cases : Option (List Str)) (n : Str) : Prop :=
  (∀ cs, cases = some cs → n ∈ cs) ∧ (cfg.cont = true → n ∉ pass)

instance (cfg : Config) (pass : List Str) (cases : Option (List Str)) (n : Str) :
    Decidable (UpForReview cfg pass cases n) := by
  unfold UpForReview
  cases cases with
  | none =>
    exact decidable_of_iff (cfg.cont = true → n ∉ pass) (by simp)
  | some cs => exact decidable_of_iff (n ∈ cs ∧ (cfg.cont = true → n ∉ pass)) (by simp)

private theorem isReviewed_eq (cfg : Config) (pass : List Str) (cases : Option (List Str)) :
    isReviewed cfg pass cases = fun n => decide (UpForReview cfg pass cases n) := by
  funext n
  rw [Bool.eq_iff_iff, decide_eq_true_iff]
  simp only [isReviewed, UpForReview]
  cases cases <;> cases cfg.cont <;> simp

/-- Everything that can be said about the loop. -/
private theorem reviewLoop_spec (fl : Durations) (cfg : Config) (exp out : Path) (pass : List Str)
    (cases : Option (List Str)) (records : List (Rec fl)) (abort : Bool) (fs : FS)
    (answers : List Str) :
    (∀ reviews, (reviewLoop fl cfg exp out pass cases records abort fs answers).2.1 = some reviews →
      ∃ rs : List (Rec fl), reviews = rs.map (fun r => (r.1, .res r.2.1, r.2.2)) ∧
        List.Forall₂ (fun (a b : Rec fl) => b.1 = a.1 ∧ b.2.2 = a.2.2 ∧
          (b.2.1 = a.2.1 ∨ (b.2.1 = .OK ∧ a.2.1 = .DIFF ∧ isReviewed cfg pass cases a.1 = true))) records rs) ∧
    (∀ e ∈ (reviewLoop fl cfg exp out pass cases records abort fs answers).2.2.dropLast,
      e.2.2 ≠ .ABORT ∧ (cfg.failFast = true → e.2.1 = .res .OK)) ∧
    ((reviewLoop fl cfg exp out pass cases records abort fs answers).2.2.map (·.1) <+:
      (records.map (·.1)).filter (isReviewed cfg pass cases)) ∧
    (abort = true → (reviewLoop fl cfg exp out pass cases records abort fs answers).2.2 = []) ∧
    (abort = false → (reviewLoop fl cfg exp out pass cases records abort fs answers).2.1 ≠ none →
      (∀ e ∈ (reviewLoop fl cfg exp out pass cases records abort fs answers).2.2,
        e.2.2 ≠ .ABORT ∧ (cfg.failFast = true → e.2.1 = .res .OK)) →
      (reviewLoop fl cfg exp out pass cases records abort fs answers).2.2.map (·.1) =
      (records.map (·.1)).filter (isReviewed cfg pass cases)) := by
  induction records generalizing abort fs answers with
  | nil =>
    refine ⟨?_, ?_, ?_, ?_, ?_⟩
    · intro reviews h
      simp only [reviewLoop, Option.some.injEq] at h
      exact ⟨[], by simp [← h], List.Forall₂.nil⟩
    · simp [reviewLoop]
    · simp [reviewLoop]
    · simp [reviewLoop]
    · simp [reviewLoop]
  | cons x rest ih =>
    obtain ⟨n, res, d⟩ := x
    by_cases hc : (!abort && isReviewed cfg pass cases n) = true
    · have hrev : isReviewed cfg pass cases n = true := by
        simp only [Bool.and_eq_true] at hc; exact hc.2
      have hab : abort = false := by
        simp only [Bool.and_eq_true, Bool.not_eq_true'] at hc; exact hc.1
      subst hab
      unfold reviewLoop
      rw [if_pos hc]
      rcases hcr : caseReview cfg exp out n (.res res) answers fs with ⟨fs', e, answers'⟩
      cases e with
      | done rv request =>
        dsimp only
        obtain ⟨i1, i2, i3, i4, i5⟩ := ih (decide (request = .ABORT) ||
          (cfg.failFast && decide (rv ≠ .res .OK))) fs' answers'
        generalize hr : reviewLoop fl cfg exp out pass cases rest (decide (request = .ABORT) ||
          (cfg.failFast && decide (rv ≠ .res .OK))) fs' answers' = r at i1 i2 i3 i4 i5 ⊢
        obtain ⟨rr, hrr, hcase⟩ := caseReview_done hcr
        refine ⟨?_, ?_, ?_, by simp, ?_⟩
        · intro reviews h
          simp only [Option.map_eq_some_iff] at h
          obtain ⟨rs0, h1, rfl⟩ := h
          obtain ⟨rs, rfl, h2⟩ := i1 rs0 h1
          refine ⟨(n, rr, d) :: rs, by simp [hrr], List.Forall₂.cons ⟨rfl, rfl, ?_⟩ h2⟩
          rcases hcase with ⟨h3, -⟩ | ⟨h3, h4, -⟩
          · exact Or.inl h3
          · cases res with
            | OK => exact Or.inl h3
            | FAIL => exact absurd rfl h4
            | DIFF => exact Or.inr ⟨h3, rfl, hrev⟩
        · intro e he
          cases hl : r.2.2 with
          | nil => rw [hl] at he; cases he
          | cons y ys =>
            rw [hl, List.dropLast_cons_of_ne_nil (by simp)] at he
            rcases List.mem_cons.mp he with rfl | he
            · have hna : ¬ ((decide (request = .ABORT) || (cfg.failFast && decide (rv ≠ .res .OK))) = true) := by
                intro h0
                have := i4 h0
                rw [hl] at this
                cases this
              simp only [Bool.or_eq_true, decide_eq_true_eq, Bool.and_eq_true, not_or, not_and,
                Decidable.not_not] at hna
              exact hna
            · exact i2 e (by rw [hl]; exact he)
        · rw [List.map_cons, List.map_cons, List.filter_cons, if_pos hrev]
          exact List.cons_prefix_cons.mpr ⟨rfl, i3⟩
        · intro _ hn hall
          rw [List.map_cons, List.map_cons, List.filter_cons, if_pos hrev]
          have h0 := hall _ List.mem_cons_self
          have hna : (decide (request = .ABORT) || (cfg.failFast && decide (rv ≠ .res .OK))) = false := by
            rw [Bool.eq_false_iff]
            simp only [ne_eq, Bool.or_eq_true, decide_eq_true_eq, Bool.and_eq_true, not_or, not_and,
              Decidable.not_not]
            exact h0
          rw [i5 hna (by intro hh; rw [hh] at hn; exact hn rfl)
            (fun e he => hall e (List.mem_cons_of_mem _ he))]
      | eof => simp
      | error x => simp
    · unfold reviewLoop
      rw [if_neg hc]
      dsimp only
      obtain ⟨i1, i2, i3, i4, i5⟩ := ih abort fs answers
      refine ⟨?_, i2, ?_, i4, ?_⟩
      · intro reviews h
        simp only [Option.map_eq_some_iff] at h
        obtain ⟨rs0, h1, rfl⟩ := h
        obtain ⟨rs, rfl, h2⟩ := i1 rs0 h1
        exact ⟨(n, res, d) :: rs, by simp, List.Forall₂.cons ⟨rfl, rfl, Or.inl rfl⟩ h2⟩
      · cases ha : abort with
        | true =>
          rw [ha] at i4
          rw [i4 rfl]
          simp
        | false =>
          rw [ha] at hc i3
          have hrev : isReviewed cfg pass cases n = false := by simpa using hc
          rw [List.map_cons, List.filter_cons, hrev]
          simpa using i3
      · intro ha hn hall
        subst ha
        have hrev : isReviewed cfg pass cases n = false := by simpa using hc
        rw [List.map_cons, List.filter_cons, hrev]
        simpa using i5 rfl (by intro hh; rw [hh] at hn; exact hn rfl) hall

theorem mapM_rawRec {fl : Durations} (rs : List (Rec fl)) :
    (rs.map (fun r : Rec fl => ((r.1, Raw.res r.2.1, r.2.2) : Str × Raw × fl.D))).mapM rawRec = some rs := by
  induction rs with
  | nil => rfl
  | cons r rs ih =>
    rw [List.map_cons, List.mapM_cons]
    simp only [rawRec]
    rw [ih]
    rfl

/-- If the review comes to its end, the records keep their names, order and durations; a result
changes only from DIFF to OK, and only for a test that was up for review; the return value is 0 iff
all records are OK. -/
theorem C66_keeps_records (fl : Durations) (cfg : Config) (exp out : Path)
    (passed? cases : Option (List Str)) (records rs : List (Rec fl)) (answers : List Str) (fs : FS)
    (code : Int)
    (h : (review fl cfg exp out passed? cases records answers fs).2.1 = some (rs, code)) :
    List.Forall₂ (fun (a b : Rec fl) => b.1 = a.1 ∧ b.2.2 = a.2.2 ∧
      (b.2.1 = a.2.1 ∨ (b.2.1 = .OK ∧ a.2.1 = .DIFF ∧
        UpForReview cfg (passed?.getD (passed records)) cases a.1))) records rs ∧
    (code = 0 ↔ ∀ r ∈ rs, r.2.1 = .OK) := by
  unfold review at h
  dsimp only at h
  obtain ⟨i1, -⟩ := reviewLoop_spec fl cfg exp out (passed?.getD (passed records)) cases records
    false fs answers
  split at h
  · cases h
  · rename_i reviews hr
    obtain ⟨rs', rfl, h2⟩ := i1 reviews hr
    rw [mapM_rawRec] at h
    simp only [Option.map_some, Option.some.injEq, Prod.mk.injEq] at h
    obtain ⟨rfl, h3⟩ := h
    refine ⟨h2.imp (fun a b hab => ?_), ?_⟩
    · simpa only [isReviewed_eq, decide_eq_true_eq] using hab
    · rw [← h3]
      simp

/-- After the user aborts, or after a result that is not OK with fail fast, nothing more is reviewed;
before that, the reviewed tests are the ones up for review, in order. -/
theorem C66_abort (fl : Durations) (cfg : Config) (exp out : Path)
    (passed? cases : Option (List Str)) (records : List (Rec fl)) (answers : List Str) (fs : FS) :
    (∀ e ∈ (review fl cfg exp out passed? cases records answers fs).2.2.dropLast,
      e.2.2 ≠ .ABORT ∧ (cfg.failFast = true → e.2.1 = .res .OK)) ∧
    ((review fl cfg exp out passed? cases records answers fs).2.2.map (·.1) <+:
      (records.map (·.1)).filter (fun n => UpForReview cfg (passed?.getD (passed records)) cases n)) := by
  obtain ⟨-, i2, i3, -⟩ := reviewLoop_spec fl cfg exp out (passed?.getD (passed records)) cases
    records false fs answers
  have : (review fl cfg exp out passed? cases records answers fs).2.2 =
      (reviewLoop fl cfg exp out (passed?.getD (passed records)) cases records false fs answers).2.2 := by
    unfold review
    dsimp only
    split <;> rfl
  rw [this]
  rw [isReviewed_eq] at i3
  exact ⟨i2, i3⟩

/-- If no review ends in an abort (nor, with fail fast, in a result that is not OK), every test that is
up for review is reviewed. -/
theorem C66_reviews_all (fl : Durations) (cfg : Config) (exp out : Path)
    (passed? cases : Option (List Str)) (records : List (Rec fl)) (answers : List Str) (fs : FS)
    (hdone : (review fl cfg exp out passed? cases records answers fs).2.1 ≠ none)
    (hgo : ∀ e ∈ (review fl cfg exp out passed? cases records answers fs).2.2,
      e.2.2 ≠ .ABORT ∧ (cfg.failFast = true → e.2.1 = .res .OK)) :
    (review fl cfg exp out passed? cases records answers fs).2.2.map (·.1) =
      (records.map (·.1)).filter (fun n => UpForReview cfg (passed?.getD (passed records)) cases n) := by
  obtain ⟨-, -, -, -, i5⟩ := reviewLoop_spec fl cfg exp out (passed?.getD (passed records)) cases
    records false fs answers
  have heq : (review fl cfg exp out passed? cases records answers fs).2.2 =
      (reviewLoop fl cfg exp out (passed?.getD (passed records)) cases records false fs answers).2.2 := by
    unfold review
    dsimp only
    split <;> rfl
  rw [heq] at hgo ⊢
  rw [isReviewed_eq] at i5
  refine i5 rfl ?_ hgo
  intro hh
  apply hdone
  unfold review
  dsimp only
  rw [hh]

/-- Known to have passed, unless told otherwise: the tests with an OK record. -/
theorem C66_passed (fl : Durations) (records : List (Rec fl)) (n : Str) :
    n ∈ passed records ↔ ∃ r ∈ records, r.1 = n ∧ r.2.1 = .OK := by
  unfold passed
  simp [List.mem_map, List.mem_filter, and_comm, and_left_comm]

/-- A review without questions and without `-u` and `-a` changes nothing: no record and no file. -/
theorem C66_read_only (fl : Durations) (cfg : Config) (exp out : Path)
    (passed? cases : Option (List Str)) (records : List (Rec fl)) (answers : List Str) (fs : FS)
    (h1 : cfg.alwaysInteractive = false) (h2 : cfg.interactive = false) (h3 : cfg.update = false)
    (h4 : cfg.accept = false) :
    ∃ code, (review fl cfg exp out passed? cases records answers fs).1 = fs ∧
      (review fl cfg exp out passed? cases records answers fs).2.1 = some (records, code) := by
  have key : ∀ (pass : List Str) (rs : List (Rec fl)) (abort : Bool),
      (reviewLoop fl cfg exp out pass cases rs abort fs answers).1 = fs ∧
      (reviewLoop fl cfg exp out pass cases rs abort fs answers).2.1 =
        some (rs.map (fun r => (r.1, .res r.2.1, r.2.2))) := by
    intro pass rs
    induction rs with
    | nil => intro abort; exact ⟨rfl, rfl⟩
    | cons x rest ih =>
      intro abort
      obtain ⟨n, res, d⟩ := x
      unfold reviewLoop
      split
      · have hcr : caseReview cfg exp out n (.res res) answers fs = (fs, .done (.res res) .NONE, answers) := by
          simp [caseReview, h1, h2, h3, h4]
        rw [hcr]
        dsimp only
        obtain ⟨a, b⟩ := ih (decide (Request.NONE = .ABORT) ||
          (cfg.failFast && decide (Raw.res res ≠ .res .OK)))
        rw [a, b]
        exact ⟨rfl, rfl⟩
      · dsimp only
        obtain ⟨a, b⟩ := ih abort
        rw [a, b]
        exact ⟨rfl, rfl⟩
  obtain ⟨a, b⟩ := key (passed?.getD (passed records)) records false
  unfold review
  dsimp only
  rw [a, b]
  dsimp only
  rw [mapM_rawRec]
  exact ⟨_, rfl, rfl⟩

/-- Accepting the difference of the first of two tests interactively, then quitting. -/
example : (review strokes { interactive := true } ["books".toList] ["books".toList, ".out".toList]
      none none [("a".toList, .DIFF, (0 : Nat)), ("b".toList, .DIFF, (1 : Nat)),
        ("c".toList, .DIFF, (2 : Nat))]
      ["a".toList, "q".toList] [([], .dir), (["books".toList], .dir),
        (["books".toList, ".out".toList], .dir),
        (["books".toList, ".out".toList, "a.md".toList], .file "new".toList)]).2.1 =
    some ([("a".toList, .OK, (0 : Nat)), ("b".toList, .DIFF, (1 : Nat)),
      ("c".toList, .DIFF, (2 : Nat))], -1) := by
  rfl

end Verif.Props
