import Verif.Spec.Afterwards
import Verif.Lemmas.Asking

/-! # Lemmas about runs that are reviewed afterwards (C134) -/

namespace Verif.Lemmas
open Verif.Py Verif.Model Verif.Spec

variable {P : Project} {cfg : Config} {ns : List Str} {fs : FS} {n : Str}

/-- The review of one test. -/
theorem caseReview_asked {v : Result} {lines : List Str} {q : Request} {rest : List Str}
    (hr : (if IsAsked cfg v then reply v lines else some (.NONE, lines)) = some (q, rest)) (fs : FS) :
    caseReview cfg P.root P.out n (.res v) lines fs =
      if q = .FREEZE ∨ AutoAccepted cfg v then
        match freezeCase P.root P.out n fs with
        | (fs', some x) => (fs', .error x, rest)
        | (fs', none) => (fs', .done (.res .OK) q, rest)
      else (fs, .done (.res v) q, rest) := by
  unfold caseReview
  dsimp only
  have e1 : (if (cfg.alwaysInteractive || (decide (Raw.res v ≠ .res .OK) && cfg.interactive)) = true then
      interact (.res v) lines else some (.NONE, lines)) = some (q, rest) := by
    rw [interact_reply, ← hr]
    have : ((cfg.alwaysInteractive || (decide (Raw.res v ≠ .res .OK) && cfg.interactive)) = true) ↔ IsAsked cfg v := by
      unfold IsAsked
      simp
    by_cases h : IsAsked cfg v
    · rw [if_pos h, if_pos (this.mpr h)]
    · rw [if_neg h, if_neg (fun x => h (this.mp x))]
  rw [e1]
  dsimp only
  have e : (q = .FREEZE ∨ (Raw.res v = .res .OK ∧ cfg.update = true) ∨ (Raw.res v = .res .DIFF ∧ cfg.accept = true)) ↔
      (q = .FREEZE ∨ AutoAccepted cfg v) := by
    unfold AutoAccepted
    simp
  by_cases h : q = .FREEZE ∨ AutoAccepted cfg v
  · rw [if_pos h, if_pos (e.mpr h)]
    rcases freezeCase P.root P.out n fs with ⟨f, _ | x⟩ <;> rfl
  · rw [if_neg h, if_neg (fun x => h (e.mp x))]

/-- The output of the test is there, to be reviewed. -/
structure Waits (root : Path) (n : Str) (t : Str) (fs : FS) : Prop where
  dir : ∀ o, fs.get (slotDir root o n) = some .dir
  out : fs.get (slot root true n ".md".toList) = some (.file t)

theorem Waits.live {t : Str} (h : Waits P.root n t fs) (hn : n ∈ ns) (hS : SoundTree P.root ns fs) : Live P.root n fs :=
  ⟨hS.wf, h.dir, hS.files n hn, hS.dirs n hn⟩

/-- Other tests do not matter. -/
theorem Waits.other {t m : Str} (h : Waits P.root n t fs) (hp : PlainNames ns) (hn : n ∈ ns) (hm : m ∈ ns) (hne : n ≠ m)
    (hS : SoundTree P.root ns fs) {fs' : FS}
    (hf : ∀ p, (∀ o x, (x = [] ∨ x ∈ endings) → ¬ slot P.root o m x <+: p) → fs'.get p = (makeDirs P m fs).get p) :
    Waits P.root n t fs' := by
  obtain ⟨-, g⟩ := makeDirs_ok hp hm hS
  constructor
  · intro o
    rw [hf, g]
    · split
      · rfl
      · exact h.dir o
    · intro o' x hx
      exact slot_not_above hp hm hn hx List.prefix_rfl
  · rw [hf, g, if_neg]
    · exact h.out
    · rintro (hc | hc)
      · exact slot_not_above hp hn hm (Or.inr mem_md) hc List.prefix_rfl
      · exact slot_not_above hp hn hm (Or.inr mem_md) hc List.prefix_rfl
    · intro o x hx hc
      exact hne (slot_sep hp hm hn hx (Or.inr mem_md) hc List.prefix_rfl).1.symm

/-- What is above a directory is a directory. -/
theorem above_dir {fs : FS} (hw : fs.WellFormed) : ∀ (q p : Path), fs.get (p ++ q) = some .dir → fs.get p = some .dir := by
  intro q
  induction q with
  | nil => intro p h; simpa using h
  | cons c q ih =>
    intro p h
    have := ih (p ++ [c]) (by simpa using h)
    exact hw p c (by rw [this]; simp)

/-- The directories are there. -/
theorem makeDirs_there {t : Str} (h : Waits P.root n t fs) (hp : PlainNames ns) (hn : n ∈ ns) (hS : SoundTree P.root ns fs) (p : Path) :
    (makeDirs P n fs).get p = fs.get p := by
  rw [(makeDirs_ok hp hn hS).2]
  split
  · rename_i hc
    rcases hc with ⟨q, hq⟩ | ⟨q, hq⟩
    · exact (above_dir hS.wf q p (by rw [hq]; exact h.dir false)).symm
    · exact (above_dir hS.wf q p (by rw [hq]; exact h.dir true)).symm
  · rfl

/-- A test that is not accepted leaves its output. -/
theorem runCase_left (hc : NotAsking cfg) (hp : PlainNames ns) (hn : n ∈ ns) (h : SoundTree P.root ns fs) (ans : List Str)
    {s : St} (ht : runTest (P.env (snapshot P.root fs n)) (P.tests n).body = some s)
    (ha : ¬ AutoAccepted cfg (verdict (P.env (snapshot P.root fs n)) s)) :
    ∃ fs', runCase P cfg n (fs, ans) = ((fs', ans), .done (verdict (P.env (snapshot P.root fs n)) s) .NONE) ∧
      SoundTree P.root ns fs' ∧ snapshot P.root fs' n = snapshot P.root fs n ∧
      (∀ p, (∀ o x, (x = [] ∨ x ∈ endings) → ¬ slot P.root o n x <+: p) → fs'.get p = (makeDirs P n fs).get p) ∧
      Waits P.root n s.out fs' := by
  have hpl := hp.1 n hn
  obtain ⟨fs', e, hS, hsn, hfr, -⟩ := runCase_ok (P := P) hc hp hn h ans
  have hspec : caseSpec P cfg n (snapshot P.root fs n) =
      (.done (verdict (P.env (snapshot P.root fs n)) s) .NONE, snapshot P.root fs n) := by
    unfold caseSpec
    rw [ht]
    dsimp only
    rw [if_neg ha]
  rw [hspec] at e hsn
  obtain ⟨l0, g0⟩ := makeDirs_ok hp hn h
  refine ⟨fs', e, hS, hsn, hfr, ?_, ?_⟩
  · intro o
    rw [hfr _ (fun o' x hx => slot_not_above hp hn hn hx List.prefix_rfl)]
    exact l0.dir o
  · have hsee := sees_snapshot hp hn h
    unfold runCase at e
    dsimp only at e
    rw [hsee, ht] at e
    obtain ⟨f1, e1, l1, n1, g1⟩ := purge_live P hpl l0
    obtain ⟨f2, e2, l2, m2, g2⟩ := writeOutputs_live P hpl l1 [] [] []
    have hroot : f2.get (slot P.root true n []) = none := by
      have sep : ∀ {y : Str}, y ∈ endings → ([] : Str) ≠ y → slot P.root true n [] ≠ slot P.root true n y := by
        intro y hy hne hc'
        exact hne (own_sep hpl (Or.inl rfl) (Or.inr hy) (List.prefix_refl _) (by rw [hc']; exact List.prefix_rfl)).2
      rw [g2 _ (sep mem_md (by decide)) (sep mem_txt (by decide)) (sep mem_log (by decide)), n1]
    obtain ⟨f3, e3, l3, g3, c3⟩ := writeFiles_live P hpl (P.tests n).files l2
      (fun c => by rw [get_below_none l2.wf hroot]; simp)
    obtain ⟨f4, e4, l4, m4, g4⟩ := writeOutputs_live P hpl l3 s.out (s.rep.map (· ++ "\n".toList)).flatten (P.tests n).log
    rw [e1] at e
    dsimp only at e
    rw [e2] at e
    dsimp only at e
    split at e
    · cases e
    · rw [e3] at e
      dsimp only at e
      rw [e4] at e
      dsimp only at e
      unfold endCase at e
      rw [caseReview_auto hc, if_neg ha] at e
      dsimp only at e
      split at e
      · obtain ⟨f5, e5, l5, g5⟩ := saveValue_live P hpl l4 (P.tests n).returns
        rw [e5] at e
        cases e
        rw [g5, m4]
        intro hc'
        exact absurd (own_sep (o := true) (o' := true) hpl (Or.inr mem_md) (Or.inr mem_bin) (List.prefix_refl _)
          (by rw [hc']; exact List.prefix_rfl)).2 (by decide)
      · cases e
        exact m4

/-- All tests of a plain run leave their outputs and change no snapshot. -/
theorem runCases_left (hc : PlainRun cfg) (hp : PlainNames ns) (ans : List Str) : ∀ (todo : List Str) (fs : FS), todo.Nodup →
    (∀ n ∈ todo, n ∈ ns) → SoundTree P.root ns fs →
    (∀ n ∈ todo, resultOf P (snapshot P.root fs n) n ≠ none) →
    ∃ g, runCases P cfg todo (fs, ans) = (g, ans) ∧ SoundTree P.root ns g ∧
      (∀ m ∈ ns, snapshot P.root g m = snapshot P.root fs m) ∧
      (∀ m ∈ ns, m ∉ todo → ∀ t, Waits P.root m t fs → Waits P.root m t g) ∧
      ∀ n ∈ todo, ∀ s, runTest (P.env (snapshot P.root fs n)) (P.tests n).body = some s → Waits P.root n s.out g := by
  intro todo
  induction todo with
  | nil => intro fs _ _ hS _; exact ⟨fs, rfl, hS, fun _ _ => rfl, fun _ _ _ _ h => h, fun _ h => absurd h (by simp)⟩
  | cons n todo ih =>
    intro fs hnd hsub hS hend
    rw [List.nodup_cons] at hnd
    have hn := hsub n (by simp)
    cases ht : runTest (P.env (snapshot P.root fs n)) (P.tests n).body with
    | none => exact absurd (by unfold resultOf; rw [ht]; rfl) (hend n (by simp))
    | some s =>
      obtain ⟨f1, e1, h1, s1, fr1, w1⟩ := runCase_left hc.asks hp hn hS ans ht (by
        unfold AutoAccepted
        rw [hc.update, hc.accept]
        simp)
      have hsn : ∀ m ∈ ns, snapshot P.root f1 m = snapshot P.root fs m := by
        intro m hm
        by_cases hmn : m = n
        · rw [hmn, s1]
        · exact snapshot_other hp hn hS fr1 hm hmn
      obtain ⟨g, k1, k2, k3, k4, k5⟩ := ih f1 hnd.2 (fun m hm => hsub m (by simp [hm])) h1
        (fun m hm => by rw [hsn m (hsub m (by simp [hm]))]; exact hend m (by simp [hm]))
      refine ⟨g, ?_, k2, fun m hm => (k3 m hm).trans (hsn m hm), ?_, ?_⟩
      · unfold runCases at k1 ⊢
        rw [List.foldl_cons, e1]
        exact k1
      · intro m hm hmt t hw
        rw [List.mem_cons, not_or] at hmt
        exact k4 m hm hmt.2 t (hw.other hp hm hn hmt.1 hS fr1)
      · intro m hm s' hs'
        rcases List.mem_cons.mp hm with rfl | hm
        · rw [ht] at hs'
          cases hs'
          exact k4 m hn hnd.1 _ w1
        · exact k5 m hm s' (by rw [hsn m (hsub m (by simp [hm]))]; exact hs')

/-- What a plain run says, in the words of the dialogue. -/
theorem dialogue_plain (hc : PlainRun cfg) (lines : List Str) (snaps : Str → Option Str) : ∀ todo : List Str,
    (∀ n ∈ todo, resultOf P (snaps n) n ≠ none) →
    ∃ es, dialogue P cfg todo snaps lines = some ⟨es, snaps, lines, true⟩ ∧ es.map (·.1) = todo ∧
      ∀ e ∈ es, resultOf P (snaps e.1) e.1 = some e.2 := by
  intro todo
  induction todo with
  | nil => intro _; exact ⟨[], rfl, rfl, fun _ h => absurd h (by simp)⟩
  | cons n todo ih =>
    intro hend
    obtain ⟨es, k1, k2, k3⟩ := ih (fun m hm => hend m (by simp [hm]))
    cases ht : runTest (P.env (snaps n)) (P.tests n).body with
    | none => exact absurd (by unfold resultOf; rw [ht]; rfl) (hend n (by simp))
    | some s =>
      refine ⟨(n, verdict (P.env (snaps n)) s) :: es, ?_, by rw [List.map_cons, k2], ?_⟩
      · have hcase : caseAsked P cfg n (snaps n) lines = some ((verdict (P.env (snaps n)) s, .NONE), snaps n, lines) := by
          unfold caseAsked
          rw [ht]
          dsimp only
          rw [if_neg (by unfold IsAsked; rw [hc.asks.1, hc.asks.2]; simp)]
          dsimp only
          rw [if_neg (by unfold AutoAccepted; rw [hc.update, hc.accept]; simp)]
        have hput : putSnap snaps n (snaps n) = snaps := by
          funext m
          unfold putSnap
          split
          · rename_i h; rw [h]
          · rfl
        unfold dialogue
        rw [hcase]
        dsimp only
        rw [if_neg (by rw [hc.fast]; simp), hput, k1]
        rfl
      · intro e he
        rcases List.mem_cons.mp he with rfl | he
        · unfold resultOf
          dsimp only
          rw [ht]
          rfl
        · exact k3 e he

/-- The tests of a dialogue are the first ones. -/
theorem dialogue_names : ∀ (todo : List Str) (snaps : Str → Option Str) (lines : List Str) (d : Dialogue),
    dialogue P cfg todo snaps lines = some d → d.ends.map (·.1) <+: todo := by
  intro todo
  induction todo with
  | nil => intro snaps lines d h; cases h; exact List.prefix_rfl
  | cons n todo ih =>
    intro snaps lines d h
    unfold dialogue at h
    cases hc : caseAsked P cfg n (snaps n) lines with
    | none => rw [hc] at h; cases h
    | some z =>
      obtain ⟨⟨r, q⟩, t, rest⟩ := z
      rw [hc] at h
      dsimp only at h
      split at h
      · cases h
        simp
      · cases hd : dialogue P cfg todo (putSnap snaps n t) rest with
        | none => rw [hd] at h; cases h
        | some d' =>
          rw [hd] at h
          cases h
          have := ih _ _ _ hd
          simpa using this

/-- Records that are not looked at are kept. -/
theorem reviewLoop_skip {fl : Durations} (exp out : Path) (passed : List Str) (cases : Option (List Str)) (kept recs : List (Rec fl))
    (hk : ∀ x ∈ kept, isReviewed cfg passed cases x.1 = false) (b : Bool) (fs : FS) (lines : List Str) :
    reviewLoop fl cfg exp out passed cases (kept ++ recs) b fs lines =
      ((reviewLoop fl cfg exp out passed cases recs b fs lines).1,
        (reviewLoop fl cfg exp out passed cases recs b fs lines).2.1.map
          ((kept.map (fun x => (x.1, .res x.2.1, x.2.2))) ++ ·),
        (reviewLoop fl cfg exp out passed cases recs b fs lines).2.2) := by
  induction kept with
  | nil => simp
  | cons x xs ih =>
    obtain ⟨n, r, d⟩ := x
    rw [List.cons_append, reviewLoop]
    rw [if_neg (by rw [hk (n, r, d) (by simp)]; simp), ih (fun y hy => hk y (by simp [hy]))]
    simp only [Option.map_map]
    rfl

/-- After the review has been left, all records are kept. -/
theorem reviewLoop_over {fl : Durations} (exp out : Path) (passed : List Str) (cases : Option (List Str)) (recs : List (Rec fl))
    (fs : FS) (lines : List Str) :
    reviewLoop fl cfg exp out passed cases recs true fs lines = (fs, some (recs.map (fun x => (x.1, .res x.2.1, x.2.2))), []) := by
  induction recs with
  | nil => rfl
  | cons x xs ih =>
    obtain ⟨n, r, d⟩ := x
    unfold reviewLoop
    rw [if_neg (by simp), ih]
    rfl

theorem caseReview_none {v : Result} {lines : List Str}
    (hr : (if IsAsked cfg v then reply v lines else some (.NONE, lines)) = none) (fs : FS) :
    caseReview cfg P.root P.out n (.res v) lines fs = (fs, .eof, []) := by
  unfold caseReview
  dsimp only
  have e1 : (if (cfg.alwaysInteractive || (decide (Raw.res v ≠ .res .OK) && cfg.interactive)) = true then
      interact (.res v) lines else some (.NONE, lines)) = none := by
    rw [interact_reply, ← hr]
    have : ((cfg.alwaysInteractive || (decide (Raw.res v ≠ .res .OK) && cfg.interactive)) = true) ↔ IsAsked cfg v := by
      unfold IsAsked
      simp
    by_cases h : IsAsked cfg v
    · rw [if_pos h, if_pos (this.mpr h)]
    · rw [if_neg h, if_neg (fun x => h (this.mp x))]
  rw [e1]

/-- The review of one test. -/
theorem caseReview_dialogue (hp : PlainNames ns) {n : Str} {v r : Result} {q : Request} {snaps : Str → Option Str} {t : Option Str}
    {lines rest : List Str} {s : St} (hn : n ∈ ns) (hS : SoundTree P.root ns fs)
    (hsn : ∀ m ∈ ns, snapshot P.root fs m = snaps m)
    (ht : runTest (P.env (snaps n)) (P.tests n).body = some s) (hv : v = verdict (P.env (snaps n)) s)
    (hwait : Waits P.root n s.out fs) (hc : caseAsked P cfg n (snaps n) lines = some ((r, q), t, rest)) :
    ∃ f1, caseReview cfg P.root P.out n (.res v) lines fs = (f1, .done (.res r) q, rest) ∧ SoundTree P.root ns f1 ∧
      (∀ m ∈ ns, snapshot P.root f1 m = putSnap snaps n t m) ∧
      ∀ p, (∀ o x, (x = [] ∨ x ∈ endings) → ¬ slot P.root o n x <+: p) → f1.get p = (makeDirs P n fs).get p := by
  unfold caseAsked at hc
  rw [ht] at hc
  dsimp only at hc
  rw [← hv] at hc
  cases hr : (if IsAsked cfg v then reply v lines else some (.NONE, lines)) with
  | none => rw [hr] at hc; cases hc
  | some z =>
    obtain ⟨q', rest'⟩ := z
    rw [hr] at hc
    dsimp only at hc
    rw [caseReview_asked hr]
    by_cases ha : q' = .FREEZE ∨ AutoAccepted cfg v
    · rw [if_pos ha] at hc ⊢
      cases hc
      obtain ⟨f1, e1, l1, t1, -, g1⟩ := freeze_live P (hp.1 n hn) (hwait.live hn hS) hwait.out
      rw [e1]
      have fr : ∀ p, (∀ o x, (x = [] ∨ x ∈ endings) → ¬ slot P.root o n x <+: p) → f1.get p = (makeDirs P n fs).get p := by
        intro p hp'
        rw [makeDirs_there hwait hp hn hS, g1]
        intro o x hx
        rcases hx with rfl | rfl
        · exact hp' o _ (Or.inl rfl)
        · exact hp' o _ (Or.inr mem_md)
      refine ⟨f1, rfl, sound_of_live hp hn hS l1 fr, ?_, fr⟩
      intro m hm
      unfold putSnap
      by_cases hmn : m = n
      · rw [if_pos hmn, hmn]
        simp only [snapshot, t1]
      · rw [if_neg hmn, snapshot_other hp hn hS fr hm hmn, hsn m hm]
    · rw [if_neg ha] at hc ⊢
      cases hc
      refine ⟨fs, rfl, hS, ?_, fun p _ => (makeDirs_there hwait hp hn hS p).symm⟩
      intro m hm
      unfold putSnap
      by_cases hmn : m = n
      · rw [if_pos hmn, hmn, hsn n hn]
      · rw [if_neg hmn, hsn m hm]

/-- The review of the tests, one after the other. -/
theorem reviewLoop_dialogue {fl : Durations} (hp : PlainNames ns) (passed : List Str) (cases : Option (List Str)) :
    ∀ (recs : List (Rec fl)) (fs : FS) (lines : List Str) (snaps : Str → Option Str) (d : Dialogue),
    (recs.map (·.1)).Nodup → (∀ x ∈ recs, x.1 ∈ ns ∧ isReviewed cfg passed cases x.1 = true) → SoundTree P.root ns fs →
    (∀ m ∈ ns, snapshot P.root fs m = snaps m) →
    (∀ x ∈ recs, ∃ s, runTest (P.env (snaps x.1)) (P.tests x.1).body = some s ∧ x.2.1 = verdict (P.env (snaps x.1)) s ∧
      Waits P.root x.1 s.out fs) →
    dialogue P cfg (recs.map (·.1)) snaps lines = some d →
    ∃ fs' log, reviewLoop fl cfg P.root P.out passed cases recs false fs lines =
        (fs', some (((d.ends ++ (recs.drop d.ends.length).map key).zip (recs.map (·.2.2))).map
          (fun x => (x.1.1, .res x.1.2, x.2))), log) ∧
      (∀ m ∈ ns, snapshot P.root fs' m = d.snaps m) ∧ SoundTree P.root ns fs' := by
  intro recs
  induction recs with
  | nil =>
    intro fs lines snaps d _ _ hS hsn _ hd
    cases hd
    exact ⟨fs, [], rfl, hsn, hS⟩
  | cons x recs ih =>
    obtain ⟨n, v, du⟩ := x
    intro fs lines snaps d hnd hin hS hsn hw hd
    rw [List.map_cons, List.nodup_cons] at hnd
    obtain ⟨hn, hrev⟩ := hin (n, v, du) (by simp)
    dsimp only at hn hrev
    obtain ⟨s, ht, hv, hwait⟩ := hw (n, v, du) (by simp)
    dsimp only at ht hv hwait
    rw [List.map_cons] at hd
    unfold dialogue at hd
    cases hc : caseAsked P cfg n (snaps n) lines with
    | none => rw [hc] at hd; cases hd
    | some z =>
      obtain ⟨⟨r, q⟩, t, rest⟩ := z
      rw [hc] at hd
      dsimp only at hd
      have hstep := caseReview_dialogue hp hn hS hsn ht hv hwait hc
      obtain ⟨f1, e1, h1, s1, fr1⟩ := hstep
      unfold reviewLoop
      rw [if_pos (by rw [hrev]; rfl), e1]
      dsimp only
      by_cases hst : q = .ABORT ∨ (cfg.failFast = true ∧ r ≠ .OK)
      · rw [if_pos hst] at hd
        cases hd
        have hb : (decide (q = .ABORT) || (cfg.failFast && decide (Raw.res r ≠ .res .OK))) = true := by
          rcases hst with h | ⟨h, h'⟩
          · simp [h]
          · simp [h, h']
        rw [hb, reviewLoop_over]
        refine ⟨f1, [(n, .res r, q)], ?_, s1, h1⟩
        simp only [Option.map_some, List.length_singleton, List.drop_succ_cons, List.drop_zero, List.map_cons,
          List.cons_append, List.nil_append, List.zip_cons_cons]
        rw [List.zip_map', List.map_map]
        rfl
      · rw [if_neg hst] at hd
        have hb : (decide (q = .ABORT) || (cfg.failFast && decide (Raw.res r ≠ .res .OK))) = false := by
          rw [not_or] at hst
          rw [Bool.or_eq_false_iff]
          refine ⟨by simp [hst.1], ?_⟩
          cases hf : cfg.failFast with
          | false => rfl
          | true =>
            have : r = .OK := Decidable.of_not_not (fun h => hst.2 ⟨hf, h⟩)
            simp [this]
        rw [hb]
        cases hd' : dialogue P cfg (recs.map (·.1)) (putSnap snaps n t) rest with
        | none => rw [hd'] at hd; cases hd
        | some d' =>
          rw [hd'] at hd
          cases hd
          have hne : ∀ y ∈ recs, y.1 ≠ n := fun y hy e => hnd.1 (List.mem_map.mpr ⟨y, hy, e⟩)
          obtain ⟨f2, log, k1, k2, k3⟩ := ih f1 rest (putSnap snaps n t) d' hnd.2 (fun y hy => hin y (by simp [hy])) h1 s1 (by
            intro y hy
            obtain ⟨s', a1, a2, a3⟩ := hw y (by simp [hy])
            have hp' : putSnap snaps n t y.1 = snaps y.1 := by unfold putSnap; rw [if_neg (hne y hy)]
            rw [hp']
            exact ⟨s', a1, a2, a3.other hp (hin y (by simp [hy])).1 hn (hne y hy) hS fr1⟩) hd'
          rw [k1]
          refine ⟨f2, (n, .res r, q) :: log, ?_, k2, k3⟩
          rfl

/-- The user gives no answer. -/
theorem reviewLoop_no_dialogue {fl : Durations} (hp : PlainNames ns) (passed : List Str) (cases : Option (List Str)) :
    ∀ (recs : List (Rec fl)) (fs : FS) (lines : List Str) (snaps : Str → Option Str),
    (recs.map (·.1)).Nodup → (∀ x ∈ recs, x.1 ∈ ns ∧ isReviewed cfg passed cases x.1 = true) → SoundTree P.root ns fs →
    (∀ m ∈ ns, snapshot P.root fs m = snaps m) →
    (∀ x ∈ recs, ∃ s, runTest (P.env (snaps x.1)) (P.tests x.1).body = some s ∧ x.2.1 = verdict (P.env (snaps x.1)) s ∧
      Waits P.root x.1 s.out fs) →
    dialogue P cfg (recs.map (·.1)) snaps lines = none →
    (reviewLoop fl cfg P.root P.out passed cases recs false fs lines).2.1 = none := by
  intro recs
  induction recs with
  | nil => intro fs lines snaps _ _ _ _ _ hd; cases hd
  | cons x recs ih =>
    obtain ⟨n, v, du⟩ := x
    intro fs lines snaps hnd hin hS hsn hw hd
    rw [List.map_cons, List.nodup_cons] at hnd
    obtain ⟨hn, hrev⟩ := hin (n, v, du) (by simp)
    dsimp only at hn hrev
    obtain ⟨s, ht, hv, hwait⟩ := hw (n, v, du) (by simp)
    dsimp only at ht hv hwait
    rw [List.map_cons] at hd
    unfold dialogue at hd
    unfold reviewLoop
    rw [if_pos (by rw [hrev]; rfl)]
    cases hc : caseAsked P cfg n (snaps n) lines with
    | none =>
      have hr : (if IsAsked cfg v then reply v lines else some (.NONE, lines)) = none := by
        unfold caseAsked at hc
        rw [ht] at hc
        dsimp only at hc
        rw [← hv] at hc
        cases hr : (if IsAsked cfg v then reply v lines else some (.NONE, lines)) with
        | none => rfl
        | some z =>
          rw [hr] at hc
          dsimp only at hc
          split at hc <;> cases hc
      rw [caseReview_none hr]
    | some z =>
      obtain ⟨⟨r, q⟩, t, rest⟩ := z
      rw [hc] at hd
      dsimp only at hd
      obtain ⟨f1, e1, h1, s1, fr1⟩ := caseReview_dialogue hp hn hS hsn ht hv hwait hc
      rw [e1]
      dsimp only
      by_cases hst : q = .ABORT ∨ (cfg.failFast = true ∧ r ≠ .OK)
      · rw [if_pos hst] at hd
        cases hd
      · rw [if_neg hst] at hd
        have hb : (decide (q = .ABORT) || (cfg.failFast && decide (Raw.res r ≠ .res .OK))) = false := by
          rw [not_or] at hst
          rw [Bool.or_eq_false_iff]
          refine ⟨by simp [hst.1], ?_⟩
          cases hf : cfg.failFast with
          | false => rfl
          | true =>
            have : r = .OK := Decidable.of_not_not (fun h => hst.2 ⟨hf, h⟩)
            simp [this]
        rw [hb]
        have hne : ∀ y ∈ recs, y.1 ≠ n := fun y hy e => hnd.1 (List.mem_map.mpr ⟨y, hy, e⟩)
        rw [ih f1 rest (putSnap snaps n t) hnd.2 (fun y hy => hin y (by simp [hy])) h1 s1 (by
          intro y hy
          obtain ⟨s', a1, a2, a3⟩ := hw y (by simp [hy])
          have hp' : putSnap snaps n t y.1 = snaps y.1 := by unfold putSnap; rw [if_neg (hne y hy)]
          rw [hp']
          exact ⟨s', a1, a2, a3.other hp (hin y (by simp [hy])).1 hn (hne y hy) hS fr1⟩) (Option.map_eq_none_iff.mp hd)]
        rfl

end Verif.Lemmas
