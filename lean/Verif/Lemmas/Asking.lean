import Verif.Spec.Asking
import Verif.Lemmas.ProjectRun
import Verif.Lemmas.Run

/-! # Lemmas about runs in which the user is asked (C133) -/

namespace Verif.Lemmas
open Verif.Py Verif.Model Verif.Spec

variable {P : Project} {cfg : Config} {ns : List Str} {fs : FS} {n : Str}

/-- The questions. -/
theorem interact_reply (v : Result) (lines : List Str) : interact (.res v) lines = reply v lines := by
  induction lines with
  | nil => rfl
  | cons a as ih =>
    unfold interact reply
    rw [List.dropWhile_cons]
    by_cases h1 : a = "a".toList ∧ v ≠ .FAIL
    · have hd : Decides v a := Or.inl h1
      rw [if_pos ⟨h1.1, by intro h; cases h; exact h1.2 rfl⟩, if_neg (by simp [hd])]
      dsimp only
      rw [meant, if_pos h1.1]
    · rw [if_neg (fun h => h1 ⟨h.1, fun e => h.2 (by rw [e])⟩)]
      by_cases h2 : a = "c".toList
      · have hd : Decides v a := Or.inr (Or.inl h2)
        rw [if_pos h2, if_neg (by simp [hd])]
        dsimp only
        rw [meant, h2]
        rfl
      · rw [if_neg h2]
        by_cases h3 : a = "q".toList
        · have hd : Decides v a := Or.inr (Or.inr h3)
          rw [if_pos h3, if_neg (by simp [hd])]
          dsimp only
          rw [meant, h3]
          rfl
        · have hd : ¬ Decides v a := by
            rintro (h | h | h)
            · exact h1 h
            · exact h2 h
            · exact h3 h
          rw [if_neg h3, if_pos (by simp [hd]), ih]
          rfl

/-- A configuration that does without questions what the answers say. -/
def silent (cfg : Config) (b : Bool) : Config :=
  { cfg with alwaysInteractive := false, interactive := false, update := b, accept := b }

theorem silent_not (cfg : Config) (b : Bool) : NotAsking (silent cfg b) := ⟨rfl, rfl⟩

theorem silent_accepts {v : Result} {b : Bool} (h : v = .FAIL → b = false) : AutoAccepted (silent cfg b) v ↔ b = true := by
  unfold AutoAccepted silent
  cases v <;> cases b <;> simp_all

/-- A test that has failed is not accepted. -/
theorem interact_freeze {v : Result} {lines rest : List Str} (h : interact (.res v) lines = some (.FREEZE, rest)) : v ≠ .FAIL := by
  induction lines with
  | nil => cases h
  | cons a as ih =>
    unfold interact at h
    by_cases h1 : a = "a".toList ∧ Raw.res v ≠ .res .FAIL
    · intro e; exact h1.2 (by rw [e])
    · rw [if_neg h1] at h
      by_cases h2 : a = "c".toList
      · rw [if_pos h2] at h; cases h
      · rw [if_neg h2] at h
        by_cases h3 : a = "q".toList
        · rw [if_pos h3] at h; cases h
        · rw [if_neg h3] at h; exact ih h

theorem silent_fail {v : Result} {lines rest : List Str} {q : Request}
    (hr : (if IsAsked cfg v then reply v lines else some (.NONE, lines)) = some (q, rest)) (hv : v = .FAIL) :
    decide (q = .FREEZE ∨ AutoAccepted cfg v) = false := by
  rw [decide_eq_false_iff_not]
  rintro (h | h)
  · subst h
    split at hr
    · rw [← interact_reply] at hr
      exact interact_freeze hr hv
    · cases hr
  · subst hv
    rcases h with h | h
    · cases h.1
    · cases h.1

/-- The review does what it does without questions if the options say what the user says. -/
theorem endCase_silent (v : Result) (lines : List Str) (q : Request) (rest : List Str)
    (hr : (if IsAsked cfg v then reply v lines else some (.NONE, lines)) = some (q, rest)) (fs : FS) :
    endCase P cfg n v lines fs =
      (((endCase P (silent cfg (decide (q = .FREEZE ∨ AutoAccepted cfg v))) n v lines fs).1.1, rest),
        match (endCase P (silent cfg (decide (q = .FREEZE ∨ AutoAccepted cfg v))) n v lines fs).2 with
        | .done r _ => .done r q
        | x => x) := by
  have hfail := silent_fail hr
  have key : caseReview cfg P.root P.out n (.res v) lines fs =
      if q = .FREEZE ∨ AutoAccepted cfg v then
        match freezeCase P.root P.out n fs with
        | (fs', some x) => (fs', .error x, rest)
        | (fs', none) => (fs', .done (.res .OK) q, rest)
      else (fs, .done (.res v) q, rest) := by
    unfold caseReview
    dsimp only
    have e1 : (if (cfg.alwaysInteractive || (decide (Raw.res v ≠ .res .OK) && cfg.interactive)) = true then
        interact (.res v) lines else some (.NONE, lines)) = some (q, rest) := by
      rw [interact_reply, ← hr]
      have : ((cfg.alwaysInteractive || (decide (Raw.res v ≠ .res .OK) && cfg.interactive)) = true) ↔ IsAsked cfg v := by
        unfold IsAsked
        simp
      by_cases h : IsAsked cfg v
      · rw [if_pos h, if_pos (this.mpr h)]
      · rw [if_neg h, if_neg (fun x => h (this.mp x))]
    rw [e1]
    dsimp only
    have e : (q = .FREEZE ∨ (Raw.res v = .res .OK ∧ cfg.update = true) ∨ (Raw.res v = .res .DIFF ∧ cfg.accept = true)) ↔
        (q = .FREEZE ∨ AutoAccepted cfg v) := by
      unfold AutoAccepted
      simp
    by_cases h : q = .FREEZE ∨ AutoAccepted cfg v
    · rw [if_pos h, if_pos (e.mpr h)]
      rcases freezeCase P.root P.out n fs with ⟨f, _ | x⟩ <;> rfl
    · rw [if_neg h, if_neg (fun x => h (e.mp x))]
  unfold endCase
  rw [key, caseReview_auto (silent_not _ _)]
  by_cases h : q = .FREEZE ∨ AutoAccepted cfg v
  · rw [if_pos h, if_pos ((silent_accepts hfail).mpr (by simpa using h))]
    rcases freezeCase P.root P.out n fs with ⟨f, _ | x⟩
    · dsimp only
      rw [if_pos (Or.inl rfl)]
      rcases saveValue P.out n (P.tests n).returns f with _ | _ <;> rfl
    · rfl
  · rw [if_neg h, if_neg (fun x => h (by simpa using (silent_accepts hfail).mp x))]
    dsimp only
    by_cases hv : v = .OK ∨ v = .DIFF
    · simp only [if_pos hv]
      rcases saveValue P.out n (P.tests n).returns fs with _ | _ <;> rfl
    · simp only [if_neg hv]

/-- The snapshot as the test sees it. -/
theorem sees_snapshot (hp : PlainNames ns) (hn : n ∈ ns) (h : SoundTree P.root ns fs) :
    snapshotText (makeDirs P n fs) (filePath P.root n ".md".toList) = snapshot P.root fs n := by
  obtain ⟨-, g0⟩ := makeDirs_ok hp hn h
  have s0 : (makeDirs P n fs).get (slot P.root false n ".md".toList) = fs.get (slot P.root false n ".md".toList) := by
    rw [g0, if_neg]
    rintro (hc' | hc')
    · exact slot_not_above hp hn hn (Or.inr mem_md) hc' List.prefix_rfl
    · exact slot_not_above hp hn hn (Or.inr mem_md) hc' List.prefix_rfl
  rw [show filePath P.root n ".md".toList = slot P.root false n ".md".toList from rfl, snapshotText, s0, snapshot]
  rcases fs.get (slot P.root false n ".md".toList) with _ | _ | _ <;> rfl

/-- One test. -/
theorem runCase_asked (hp : PlainNames ns) (hn : n ∈ ns) (h : SoundTree P.root ns fs) {lines rest : List Str} {r : Result}
    {q : Request} {t : Option Str} (hc : caseAsked P cfg n (snapshot P.root fs n) lines = some ((r, q), t, rest)) :
    ∃ fs', runCase P cfg n (fs, lines) = ((fs', rest), .done r q) ∧ SoundTree P.root ns fs' ∧
      snapshot P.root fs' n = t ∧
      ∀ p, (∀ o x, (x = [] ∨ x ∈ endings) → ¬ slot P.root o n x <+: p) → fs'.get p = (makeDirs P n fs).get p := by
  unfold caseAsked at hc
  cases ht : runTest (P.env (snapshot P.root fs n)) (P.tests n).body with
  | none => rw [ht] at hc; cases hc
  | some s =>
    rw [ht] at hc
    dsimp only at hc
    generalize hv : verdict (P.env (snapshot P.root fs n)) s = v at hc
    cases hr : (if IsAsked cfg v then reply v lines else some (.NONE, lines)) with
    | none => rw [hr] at hc; cases hc
    | some z =>
      obtain ⟨q', rest'⟩ := z
      rw [hr] at hc
      dsimp only at hc
      obtain ⟨fs', e, hS, hsn, hfr, -⟩ := runCase_ok (P := P) (silent_not cfg (decide (q' = .FREEZE ∨ AutoAccepted cfg v))) hp hn h lines
      have hspec : caseSpec P (silent cfg (decide (q' = .FREEZE ∨ AutoAccepted cfg v))) n (snapshot P.root fs n) =
          (.done r .NONE, t) ∧ q' = q ∧ rest' = rest := by
        unfold caseSpec
        rw [ht]
        dsimp only
        rw [hv]
        by_cases ha : q' = .FREEZE ∨ AutoAccepted cfg v
        · rw [if_pos ha] at hc
          rw [if_pos ((silent_accepts (silent_fail hr)).mpr (by simpa using ha))]
          cases hc
          exact ⟨rfl, rfl, rfl⟩
        · rw [if_neg ha] at hc
          rw [if_neg (fun x => ha (by simpa using (silent_accepts (silent_fail hr)).mp x))]
          cases hc
          exact ⟨rfl, rfl, rfl⟩
      obtain ⟨hspec, rfl, rfl⟩ := hspec
      rw [hspec] at e hsn
      refine ⟨fs', ?_, hS, hsn, hfr⟩
      have hsee := sees_snapshot hp hn h
      unfold runCase at e ⊢
      dsimp only at e ⊢
      rw [hsee, ht] at e ⊢
      cases h1 : purge P.out n (makeDirs P n fs) with
      | error x => rw [h1] at e; cases e
      | ok f1 =>
        rw [h1] at e
        dsimp only at e ⊢
        cases h2 : writeOutputs P.out n [] [] [] f1 with
        | error x => rw [h2] at e; cases e
        | ok f2 =>
          rw [h2] at e
          dsimp only at e ⊢
          split at e
          · cases e
          · rename_i hd
            rw [if_neg hd]
            cases h3 : writeFiles P.out n (P.tests n).files f2 with
            | error x => rw [h3] at e; cases e
            | ok f3 =>
              rw [h3] at e
              dsimp only at e ⊢
              cases h4 : writeOutputs P.out n s.out (s.rep.map (· ++ "\n".toList)).flatten (P.tests n).log f3 with
              | error x => rw [h4] at e; cases e
              | ok f4 =>
                rw [h4] at e
                dsimp only at e ⊢
                rw [hv] at e ⊢
                rw [endCase_silent v lines q' rest' hr, e]

/-- The results of the loop. -/
theorem fold_worst (rs : List Result) : ∀ rv, rs.foldl nextRv rv = worst (rv :: rs) := by
  induction rs with
  | nil => intro rv; cases rv <;> rfl
  | cons r rs ih =>
    intro rv
    rw [List.foldl_cons, ih]
    cases rv <;> cases r <;> simp [worst, nextRv]

theorem worst_ok (rs : List Result) : worst (.OK :: rs) = worst rs := by
  have h1 : .FAIL ∈ Result.OK :: rs ↔ .FAIL ∈ rs := by simp
  have h2 : .DIFF ∈ Result.OK :: rs ↔ .DIFF ∈ rs := by simp
  unfold worst
  by_cases a : Result.FAIL ∈ rs
  · rw [if_pos a, if_pos (h1.mpr a)]
  · rw [if_neg a, if_neg (fun h => a (h1.mp h))]
    by_cases b : Result.DIFF ∈ rs
    · rw [if_pos b, if_pos (h2.mpr b)]
    · rw [if_neg b, if_neg (fun h => b (h2.mp h))]

/-- The loop over the tests. -/
theorem loop_dialogue {fl : Durations} (dur : Str → fl.D) {fs0 : FS} {lines0 : List Str} (hp : PlainNames ns) :
    ∀ (todo ex : List Str) (g : FS) (lines : List Str) (snaps : Str → Option Str) (rv : Result) (fails : Nat) (d : Dialogue),
    (∀ n ∈ todo, n ∈ ns) → runCases P cfg ex (fs0, lines0) = (g, lines) → SoundTree P.root ns g →
    (∀ m ∈ ns, snapshot P.root g m = snaps m) → (cfg.failFast = true → fails = 0) →
    dialogue P cfg todo snaps lines = some d →
    ∃ g' evs, runLoop fl cfg (projectOutcome P cfg dur (fs0, lines0)) ex rv fails todo =
        (evs, some ((d.ends.map (·.2)).foldl nextRv rv)) ∧
      executed evs = d.ends.map (·.1) ∧ execs evs = d.ends ∧
      runCases P cfg (ex ++ d.ends.map (·.1)) (fs0, lines0) = (g', d.rest) ∧ SoundTree P.root ns g' ∧
      (∀ m ∈ ns, snapshot P.root g' m = d.snaps m) ∧ (g.get P.root = some .dir → g'.get P.root = some .dir) := by
  intro todo
  induction todo with
  | nil =>
    intro ex g lines snaps rv fails d _ hex hS hsn _ hd
    cases hd
    exact ⟨g, [], rfl, rfl, rfl, by simpa using hex, hS, hsn, fun h => h⟩
  | cons n todo ih =>
    intro ex g lines snaps rv fails d hsub hex hS hsn hff hd
    have hn : n ∈ ns := hsub n (by simp)
    unfold dialogue at hd
    cases hc : caseAsked P cfg n (snaps n) lines with
    | none => rw [hc] at hd; cases hd
    | some z =>
      obtain ⟨⟨r, q⟩, t, rest⟩ := z
      rw [hc] at hd
      dsimp only at hd
      rw [← hsn n hn] at hc
      obtain ⟨g1, e1, h1, s1, fr1⟩ := runCase_asked hp hn hS hc
      have hsn1 : ∀ m ∈ ns, snapshot P.root g1 m = putSnap snaps n t m := by
        intro m hm
        unfold putSnap
        by_cases hmn : m = n
        · rw [if_pos hmn, hmn, s1]
        · rw [if_neg hmn, snapshot_other hp hn hS fr1 hm hmn, hsn m hm]
      have hroot : g.get P.root = some .dir → g1.get P.root = some .dir := by
        intro hr
        rw [fr1, (makeDirs_ok hp hn hS).2]
        · split
          · rfl
          · exact hr
        · intro o x hx
          exact slot_not_root (hp.1 n hn) hx (List.prefix_append _ _)
      have hout : projectOutcome P cfg dur (fs0, lines0) ex n = some (r, q, dur n) := by
        unfold projectOutcome
        rw [hex, e1]
      have hruns : runCases P cfg (ex ++ [n]) (fs0, lines0) = (g1, rest) := by
        unfold runCases at hex ⊢
        rw [List.foldl_append, hex, List.foldl_cons, List.foldl_nil, e1]
      have hstop : (q = .ABORT ∨ (cfg.failFast = true ∧ nextFails fails r > 0)) ↔
          (q = .ABORT ∨ (cfg.failFast = true ∧ r ≠ .OK)) := by
        constructor
        · rintro (h | ⟨h, h'⟩)
          · exact Or.inl h
          · refine Or.inr ⟨h, ?_⟩
            rintro rfl
            rw [hff h] at h'
            exact absurd h' (by decide)
        · rintro (h | ⟨h, h'⟩)
          · exact Or.inl h
          · refine Or.inr ⟨h, ?_⟩
            cases r with
            | OK => exact absurd rfl h'
            | DIFF => unfold nextFails; rw [if_pos (Or.inl rfl)]; omega
            | FAIL => unfold nextFails; rw [if_pos (Or.inr rfl)]; omega
      unfold runLoop
      rw [hout]
      dsimp only
      by_cases hst : q = .ABORT ∨ (cfg.failFast = true ∧ r ≠ .OK)
      · rw [if_pos hst] at hd
        cases hd
        rw [if_pos (hstop.mpr hst)]
        exact ⟨g1, _, rfl, rfl, rfl, hruns, h1, hsn1, hroot⟩
      · rw [if_neg hst] at hd
        rw [if_neg (fun h => hst (hstop.mp h))]
        cases hd' : dialogue P cfg todo (putSnap snaps n t) rest with
        | none => rw [hd'] at hd; cases hd
        | some d' =>
          rw [hd'] at hd
          cases hd
          obtain ⟨g2, evs, k1, k2, k3, k4, k5, k6, k7⟩ := ih (ex ++ [n]) g1 rest (putSnap snaps n t) (nextRv rv r) (nextFails fails r) d'
            (fun m hm => hsub m (by simp [hm])) hruns h1 hsn1 (by
              intro h
              rw [hff h]
              cases r with
              | OK => rfl
              | DIFF => exact absurd (Or.inr ⟨h, by decide⟩) hst
              | FAIL => exact absurd (Or.inr ⟨h, by decide⟩) hst) hd'
          refine ⟨g2, _, by rw [k1]; rfl, ?_, ?_, ?_, k5, k6, fun h => k7 (hroot h)⟩
          · rw [executed_append, k2]; rfl
          · rw [execs_append, k3]; rfl
          · rw [← k4, List.append_assoc]; rfl

/-- Without an answer there is no result. -/
theorem review_none {v : Result} {lines : List Str}
    (hr : (if IsAsked cfg v then reply v lines else some (.NONE, lines)) = none) (fs : FS) :
    (endCase P cfg n v lines fs).2 = .eof := by
  have key : caseReview cfg P.root P.out n (.res v) lines fs = (fs, .eof, []) := by
    unfold caseReview
    dsimp only
    have e1 : (if (cfg.alwaysInteractive || (decide (Raw.res v ≠ .res .OK) && cfg.interactive)) = true then
        interact (.res v) lines else some (.NONE, lines)) = none := by
      rw [interact_reply, ← hr]
      have : ((cfg.alwaysInteractive || (decide (Raw.res v ≠ .res .OK) && cfg.interactive)) = true) ↔ IsAsked cfg v := by
        unfold IsAsked
        simp
      by_cases h : IsAsked cfg v
      · rw [if_pos h, if_pos (this.mpr h)]
      · rw [if_neg h, if_neg (fun x => h (this.mp x))]
    rw [e1]
  unfold endCase
  rw [key]

theorem case_none (hp : PlainNames ns) (hn : n ∈ ns) (h : SoundTree P.root ns fs) {lines : List Str}
    (hc : caseAsked P cfg n (snapshot P.root fs n) lines = none) (r : Result) (q : Request) :
    (runCase P cfg n (fs, lines)).2 ≠ .done r q := by
  have hsee := sees_snapshot hp hn h
  unfold caseAsked at hc
  unfold runCase
  dsimp only
  rw [hsee]
  cases purge P.out n (makeDirs P n fs) with
  | error x => simp
  | ok f1 =>
    dsimp only
    cases writeOutputs P.out n [] [] [] f1 with
    | error x => simp
    | ok f2 =>
      dsimp only
      split
      · simp
      · cases ht : runTest (P.env (snapshot P.root fs n)) (P.tests n).body with
        | none => simp
        | some s =>
          rw [ht] at hc
          dsimp only at hc ⊢
          cases writeFiles P.out n (P.tests n).files f2 with
          | error x => simp
          | ok f3 =>
            dsimp only
            cases writeOutputs P.out n s.out (s.rep.map (· ++ "\n".toList)).flatten (P.tests n).log f3 with
            | error x => simp
            | ok f4 =>
              dsimp only
              rw [review_none]
              · simp
              · cases hr : (if IsAsked cfg (verdict (P.env (snapshot P.root fs n)) s) then
                  reply (verdict (P.env (snapshot P.root fs n)) s) lines else some (.NONE, lines)) with
                | none => rfl
                | some z =>
                  rw [hr] at hc
                  dsimp only at hc
                  split at hc <;> cases hc

/-- The loop is left. -/
theorem loop_left {fl : Durations} (dur : Str → fl.D) {fs0 : FS} {lines0 : List Str} (hp : PlainNames ns) :
    ∀ (todo ex : List Str) (g : FS) (lines : List Str) (snaps : Str → Option Str) (rv : Result) (fails : Nat),
    (∀ n ∈ todo, n ∈ ns) → runCases P cfg ex (fs0, lines0) = (g, lines) → SoundTree P.root ns g →
    (∀ m ∈ ns, snapshot P.root g m = snaps m) → (cfg.failFast = true → fails = 0) →
    dialogue P cfg todo snaps lines = none →
    (runLoop fl cfg (projectOutcome P cfg dur (fs0, lines0)) ex rv fails todo).2 = none := by
  intro todo
  induction todo with
  | nil => intro ex g lines snaps rv fails _ _ _ _ _ hd; cases hd
  | cons n todo ih =>
    intro ex g lines snaps rv fails hsub hex hS hsn hff hd
    have hn : n ∈ ns := hsub n (by simp)
    unfold dialogue at hd
    cases hc : caseAsked P cfg n (snaps n) lines with
    | none =>
      rw [← hsn n hn] at hc
      have := case_none hp hn hS hc
      have hout : projectOutcome P cfg dur (fs0, lines0) ex n = none := by
        unfold projectOutcome
        rw [hex]
        cases he : (runCase P cfg n (g, lines)).2 with
        | done r q => exact absurd he (this r q)
        | _ => rfl
      unfold runLoop
      rw [hout]
    | some z =>
      obtain ⟨⟨r, q⟩, t, rest⟩ := z
      rw [hc] at hd
      dsimp only at hd
      rw [← hsn n hn] at hc
      obtain ⟨g1, e1, h1, s1, fr1⟩ := runCase_asked hp hn hS hc
      have hsn1 : ∀ m ∈ ns, snapshot P.root g1 m = putSnap snaps n t m := by
        intro m hm
        unfold putSnap
        by_cases hmn : m = n
        · rw [if_pos hmn, hmn, s1]
        · rw [if_neg hmn, snapshot_other hp hn hS fr1 hm hmn, hsn m hm]
      have hout : projectOutcome P cfg dur (fs0, lines0) ex n = some (r, q, dur n) := by
        unfold projectOutcome
        rw [hex, e1]
      have hruns : runCases P cfg (ex ++ [n]) (fs0, lines0) = (g1, rest) := by
        unfold runCases at hex ⊢
        rw [List.foldl_append, hex, List.foldl_cons, List.foldl_nil, e1]
      by_cases hst : q = .ABORT ∨ (cfg.failFast = true ∧ r ≠ .OK)
      · rw [if_pos hst] at hd; cases hd
      · rw [if_neg hst] at hd
        have hd' : dialogue P cfg todo (putSnap snaps n t) rest = none := by
          cases hd' : dialogue P cfg todo (putSnap snaps n t) rest with
          | none => rfl
          | some d => rw [hd'] at hd; cases hd
        have hok : cfg.failFast = true → r = .OK := by
          intro h
          cases r with
          | OK => rfl
          | DIFF => exact absurd (Or.inr ⟨h, by decide⟩) hst
          | FAIL => exact absurd (Or.inr ⟨h, by decide⟩) hst
        unfold runLoop
        rw [hout]
        dsimp only
        rw [if_neg]
        · exact ih (ex ++ [n]) g1 rest (putSnap snaps n t) _ _ (fun m hm => hsub m (by simp [hm])) hruns h1 hsn1
            (fun h => by rw [hff h, hok h]; rfl) hd'
        · rintro (h | ⟨h, h'⟩)
          · exact hst (Or.inl h)
          · rw [hff h, hok h] at h'
            exact absurd h' (by decide)

end Verif.Lemmas
