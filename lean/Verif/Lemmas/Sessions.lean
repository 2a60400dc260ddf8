import Verif.Spec.Sessions
import Verif.Lemmas.Story
import Verif.Lemmas.Whole
import Verif.Lemmas.Selection

/-! # Lemmas about sessions -/

namespace Verif.Lemmas
open Verif.Py Verif.Model Verif.Spec

variable {P : Project} {ns : List Str} {n : Str}

/-! ### No file is in the way -/

theorem caseReview_eq (cfg : Config) (exp out : Path) (name : Str) (v : Result) (ans : List Str) (fs : FS) :
    caseReview cfg exp out name (.res v) ans fs =
    match reviewed cfg ans v with
    | none => (fs, .eof, [])
    | some (q, rest) =>
      if q = .FREEZE ∨ (v = .OK ∧ cfg.update = true) ∨ (v = .DIFF ∧ cfg.accept = true) then
        match freezeCase exp out name fs with
        | (fs', some x) => (fs', .error x, rest)
        | (fs', none) => (fs', .done (.res .OK) q, rest)
      else (fs, .done (.res v) q, rest) := by
  unfold caseReview
  dsimp only
  have e0 : decide (Raw.res v ≠ Raw.res .OK) = decide (v ≠ .OK) := by
    by_cases h : v = .OK <;> simp [h]
  rw [e0]
  change (match reviewed cfg ans v with | none => _ | some (request, rest) => _) = _
  cases reviewed cfg ans v with
  | none => rfl
  | some d =>
    obtain ⟨q, rest⟩ := d
    dsimp only
    have e1 : (q = .FREEZE ∨ (Raw.res v = .res .OK ∧ cfg.update = true) ∨
        (Raw.res v = .res .DIFF ∧ cfg.accept = true)) ↔
        (q = .FREEZE ∨ (v = .OK ∧ cfg.update = true) ∨ (v = .DIFF ∧ cfg.accept = true)) := by
      simp only [Raw.res.injEq]
    by_cases h : q = .FREEZE ∨ (v = .OK ∧ cfg.update = true) ∨ (v = .DIFF ∧ cfg.accept = true)
    · rw [if_pos h, if_pos (e1.mpr h)]
      rcases freezeCase exp out name fs with ⟨f, _ | x⟩ <;> rfl
    · rw [if_neg h, if_neg (fun hc => h (e1.mp hc))]

/-- If the end of a test fails, it also does so if nobody is asked. -/
theorem endCase_error {cfg : Config} {v : Result} {ans : List Str} {fs : FS} {x : FsErr}
    (h : (endCase P cfg n v ans fs).2 = .error x) :
    ∃ cfg', NotAsking cfg' ∧ ∃ y, (endCase P cfg' n v [] fs).2 = .error y := by
  unfold endCase at h
  rw [caseReview_eq] at h
  cases hr : reviewed cfg ans v with
  | none => rw [hr] at h; cases h
  | some d =>
    obtain ⟨q, rest⟩ := d
    rw [hr] at h
    dsimp only at h
    by_cases hf : q = .FREEZE ∨ (v = .OK ∧ cfg.update = true) ∨ (v = .DIFF ∧ cfg.accept = true)
    · rw [if_pos hf] at h
      have hv := accepts_not_fail (reviewed_accepts hr hf)
      refine ⟨{ update := true, accept := true }, ⟨rfl, rfl⟩, ?_⟩
      unfold endCase
      rw [caseReview_auto ⟨rfl, rfl⟩, if_pos (by
        unfold AutoAccepted; cases v with
        | OK => exact .inl ⟨rfl, rfl⟩
        | DIFF => exact .inr ⟨rfl, rfl⟩
        | FAIL => exact absurd rfl hv)]
      rcases hz : freezeCase P.root P.out n fs with ⟨g, _ | y⟩
      · rw [hz] at h
        simp only [true_or, if_true] at h ⊢
        cases hs : saveValue P.out n (P.tests n).returns g with
        | error y => exact ⟨y, rfl⟩
        | ok g' => rw [hs] at h; cases h
      · exact ⟨y, rfl⟩
    · rw [if_neg hf] at h
      refine ⟨{}, ⟨rfl, rfl⟩, ?_⟩
      unfold endCase
      rw [caseReview_auto ⟨rfl, rfl⟩, if_neg (by
        unfold AutoAccepted; rintro (⟨-, hc⟩ | ⟨-, hc⟩) <;> cases hc)]
      dsimp only at h ⊢
      by_cases hv : v = .OK ∨ v = .DIFF
      · rw [if_pos hv] at h ⊢
        cases hs : saveValue P.out n (P.tests n).returns fs with
        | error y => exact ⟨y, rfl⟩
        | ok g' => rw [hs] at h; cases h
      · rw [if_neg hv] at h; cases h

/-- No operation of a test fails in a directory without oddities. -/
theorem runCase_no_error (hp : PlainNames ns) (hn : n ∈ ns) {fs : FS} (h : SoundTree P.root ns fs) (cfg : Config)
    (ans : List Str) (x : FsErr) : (runCase P cfg n (fs, ans)).2 ≠ .error x := by
  intro he
  suffices hs : ∃ cfg', NotAsking cfg' ∧ ∃ y, (runCase P cfg' n (fs, [])).2 = .error y by
    obtain ⟨cfg', hc, y, hy⟩ := hs
    obtain ⟨fs', e, -⟩ := runCase_ok hc hp hn h []
    rw [e] at hy
    dsimp only at hy
    unfold caseSpec at hy
    split at hy
    · cases hy
    · dsimp only at hy
      split at hy <;> cases hy
  unfold runCase at he ⊢
  dsimp only at he ⊢
  generalize makeDirs P n fs = f0 at he ⊢
  cases h1 : purge P.out n f0 with
  | error y => exact ⟨{}, ⟨rfl, rfl⟩, y, rfl⟩
  | ok f1 =>
    rw [h1] at he
    dsimp only at he ⊢
    cases h2 : writeOutputs P.out n [] [] [] f1 with
    | error y => exact ⟨{}, ⟨rfl, rfl⟩, y, rfl⟩
    | ok f2 =>
      rw [h2] at he
      dsimp only at he ⊢
      by_cases hd : f0.isDir (filePath P.root n ".md".toList) = true
      · simp only [if_pos hd]
        exact ⟨{}, ⟨rfl, rfl⟩, _, rfl⟩
      · rw [if_neg hd] at he
        simp only [if_neg hd]
        cases hrt : runTest (P.env (snapshotText f0 (filePath P.root n ".md".toList))) (P.tests n).body with
        | none => rw [hrt] at he; cases he
        | some s =>
          rw [hrt] at he
          dsimp only at he ⊢
          cases h3 : writeFiles P.out n (P.tests n).files f2 with
          | error y => exact ⟨{}, ⟨rfl, rfl⟩, y, rfl⟩
          | ok f3 =>
            rw [h3] at he
            dsimp only at he ⊢
            cases h4 : writeOutputs P.out n s.out (s.rep.map (· ++ "\n".toList)).flatten (P.tests n).log f3 with
            | error y => exact ⟨{}, ⟨rfl, rfl⟩, y, rfl⟩
            | ok f4 =>
              rw [h4] at he
              exact endCase_error he

/-- The operations of a test, up to its end or until it is left by an exception or hangs. -/
theorem case_steps (hp : PlainNames ns) (hn : n ∈ ns) (cfg : Config) {st : FS × List Str}
    (h : SoundTree P.root ns st.1) :
    ∃ k t, stepsOf k (st.1, caseTask P cfg n st.2 (fun r q _ => .done (.done r q))) =
      some ((runCase P cfg n st).1.1, t) := by
  have e := run_case P cfg n st.2 st.1 (fun r q _ => .done (.done r q)) h.cwd
  have hx := fun x => runCase_no_error (P := P) hp hn h cfg st.2 x
  change runTask _ _ = goOn _ (runCase P cfg n st) at e
  change ∀ x, (runCase P cfg n st).2 ≠ _ at hx
  unfold goOn at e
  cases hc : (runCase P cfg n st).2 with
  | error x => exact absurd hc (hx x)
  | done r q =>
    rw [hc] at e
    obtain ⟨k, hk⟩ := run_steps _ e
    exact ⟨k, _, hk⟩
  | eof =>
    rw [hc] at e
    obtain ⟨k, hk⟩ := run_steps _ e
    exact ⟨k, _, hk⟩
  | hangs =>
    rw [hc] at e
    obtain ⟨k, hk⟩ := run_steps _ e
    exact ⟨k, _, hk⟩

/-! ### Runs, whatever they end with -/

/-- The books directory stays. -/
theorem runs_root {root : Path} (hp : PlainNames ns) {A A' : FS} {t t' : Task} (h : All (RunsOp root ns) t)
    (hA : A.get root = some .dir) (hs : t.step A = some (A', t')) : A'.get root = some .dir := by
  cases h with
  | done e => cases hs
  | act o k h1 h2 =>
    obtain ⟨m, hm, hc⟩ := h1
    simp only [Task.step] at hs
    cases hr : o.run A with
    | error y => rw [hr] at hs; cases hs; exact hA
    | ok r =>
      obtain ⟨B, a⟩ := r
      rw [hr] at hs
      cases hs
      have hno : ∀ o x, x = [] ∨ x ∈ endings → ¬ slot root o m x <+: root := fun o x hx =>
        slot_not_root (hp.1 m hm) hx (by rw [booksDir, if_pos rfl]; exact List.prefix_append _ _)
      have hne : ∀ o x, x = [] ∨ x ∈ endings → slot root o m x ≠ root := fun o x hx e =>
        hno o x hx (by rw [e]; exact List.prefix_rfl)
      have hav : OpAvoids root o → A'.get root = some .dir := fun h => (avoids_run h hr).trans hA
      rcases hc with (h | ⟨t, rfl⟩) | rfl
      · cases o with
        | look p => exact hav trivial
        | makeDir p =>
          simp only [FsOp.run] at hr
          split at hr
          · cases hr; exact hA
          · split at hr
            · cases hr
              rw [get_cons]
              split
              · rfl
              · exact hA
            · cases hr
        | mkdir p => exact hav (by change p ≠ root; rw [show p = _ from h]; exact hne _ _ (Or.inl rfl))
        | rmtree p =>
          obtain ⟨o, x, hx, rfl⟩ := h
          exact hav (hno _ _ (dirEnd hx))
        | write p text =>
          refine hav ?_
          rcases h with ⟨x, hx, -, -, rfl⟩ | ⟨c, rfl⟩ | rfl
          · exact hne _ _ (Or.inr hx)
          · intro e
            exact hno true [] (Or.inl rfl) ⟨[c], e⟩
          · intro e
            have := congrArg List.length e
            simp [indexFile] at this
        | rename a b =>
          obtain ⟨rfl, rfl⟩ := h
          exact hav ⟨hno _ _ (Or.inl rfl), hno _ _ (Or.inl rfl)⟩
        | remove p => exact hav (by change p ≠ root; rw [show p = _ from h]; exact hne _ _ (Or.inr (by decide)))
      · exact hav (hne _ _ (Or.inr mem_md))
      · exact hav ⟨hno _ _ (Or.inr mem_md), hno _ _ (Or.inr mem_md)⟩

/-- Tests leave a sound tree, whatever they end with. -/
theorem runCases_inv (hp : PlainNames ns) (cfg : Config) : ∀ (ex : List Str) (st : FS × List Str), (∀ m ∈ ex, m ∈ ns) →
    SoundTree P.root ns st.1 ∧ st.1.get P.root = some .dir →
    SoundTree P.root ns (runCases P cfg ex st).1 ∧ (runCases P cfg ex st).1.get P.root = some .dir := by
  intro ex
  induction ex with
  | nil => intro st _ h; exact h
  | cons m ex ih =>
    intro st hsub h
    have hm := hsub m (by simp)
    obtain ⟨k, t, hk⟩ := case_steps (P := P) hp hm cfg h.1
    have hall : All (RunsOp P.root ns) (caseTask P cfg m st.2 (fun r q _ => .done (.done r q))) :=
      closed_case (closed_all (fun _ h => ⟨m, hm, Or.inl h⟩)) (fun k hk => .act _ k ⟨m, hm, Or.inr rfl⟩ hk) _ _
        (fun _ _ _ _ => .done _)
    have := steps_inv (I := fun A t => (SoundTree P.root ns A ∧ A.get P.root = some .dir) ∧ All (RunsOp P.root ns) t)
      (fun A t A' t' hi hst => ⟨⟨runs_sound hp hi.2 hi.1.1 hst, runs_root hp hi.2 hi.1.2 hst⟩, all_step hi.2 hst⟩) k _
      ⟨h, hall⟩ hk
    exact ih _ (fun a ha => hsub a (by simp [ha])) this.1

/-- Tests leave the snapshots of other tests alone. -/
theorem runCases_other (hp : PlainNames ns) (cfg : Config) (hn : n ∈ ns) : ∀ (ex : List Str) (st : FS × List Str),
    (∀ m ∈ ex, m ∈ ns) → SoundTree P.root ns st.1 ∧ st.1.get P.root = some .dir → n ∉ ex →
    (runCases P cfg ex st).1.get (slot P.root false n ".md".toList) =
      st.1.get (slot P.root false n ".md".toList) := by
  intro ex
  induction ex with
  | nil => intro st _ _ _; rfl
  | cons m ex ih =>
    intro st hsub h hnot
    have hm := hsub m (by simp)
    have hmn : m ≠ n := fun e => hnot (by simp [e])
    obtain ⟨k, t, hk⟩ := case_steps (P := P) hp hm cfg h.1
    have hall : All (OpAvoids (slot P.root false n ".md".toList))
        (caseTask P cfg m st.2 (fun r q _ => .done (.done r q))) :=
      closed_case (closed_others_all hp hn hm hmn)
        (fun k hk => .act _ k (other_avoids hp hm hn hmn (Or.inr rfl) (own_slot _ (Or.inr mem_md))) hk) _ _
        (fun _ _ _ _ => .done _)
    have e := steps_inv (I := fun A t => A.get (slot P.root false n ".md".toList) =
        st.1.get (slot P.root false n ".md".toList) ∧ All (OpAvoids (slot P.root false n ".md".toList)) t)
      (fun A t A' t' hi hst => ⟨(kept_step hi.2 hst).trans hi.1, all_step hi.2 hst⟩) k _ ⟨rfl, hall⟩ hk
    have hi := runCases_inv (P := P) hp cfg [m] st (fun a ha => by
      rw [List.mem_singleton] at ha; rw [ha]; exact hm) h
    exact (ih _ (fun a ha => hsub a (by simp [ha])) hi (fun hc => hnot (by simp [hc]))).trans e.1

/-- The loop over the tests, if it is left by an exception or does not come to its end. -/
theorem run_loop_stop {fl : Durations} (hp : PlainNames ns) (cfg : Config) (dur : Str → fl.D) (all : List Str)
    (st0 : FS × List Str) : ∀ (todo before : List Str) (rv : Result) (fails : Nat), (∀ m ∈ todo, m ∈ ns) →
      SoundTree P.root ns (runCases P cfg before st0).1 →
      (runLoop fl cfg (projectOutcome P cfg dur st0) before rv fails todo).2 = none →
      ∃ e, runTask (runCases P cfg before st0).1
          (loopTask P cfg all rv fails todo (runCases P cfg before st0).2) =
        .ok ((runCases P cfg (before ++ ranNames
            (runLoop fl cfg (projectOutcome P cfg dur st0) before rv fails todo).1) st0).1, e) := by
  intro todo
  induction todo with
  | nil => intro before rv fails _ _ hr; cases hr
  | cons n todo ih =>
    intro before rv fails hsub hst hr
    have hn := hsub n (by simp)
    have hsub' : ∀ m ∈ todo, m ∈ ns := fun a ha => hsub a (by simp [ha])
    have hnext : runCases P cfg (before ++ [n]) st0 = (runCase P cfg n (runCases P cfg before st0)).1 := by
      unfold runCases; rw [List.foldl_append]; rfl
    have hx := fun x => runCase_no_error (P := P) hp hn hst cfg (runCases P cfg before st0).2 x
    rw [loopTask, run_case P cfg n _ _ _ hst.cwd]
    change ∃ e, goOn _ (runCase P cfg n (runCases P cfg before st0)) = _
    change ∀ x, (runCase P cfg n (runCases P cfg before st0)).2 ≠ _ at hx
    rw [runLoop] at hr ⊢
    unfold projectOutcome at hr ⊢
    cases hc : runCase P cfg n (runCases P cfg before st0) with
    | mk st e =>
      rw [hc] at hnext hx
      cases e with
      | error x => exact absurd rfl (hx x)
      | eof =>
        dsimp only
        simp only [ranNames, List.filterMap_cons, List.filterMap_nil]
        rw [hnext]
        exact ⟨.eof, rfl⟩
      | hangs =>
        dsimp only
        simp only [ranNames, List.filterMap_cons, List.filterMap_nil]
        rw [hnext]
        exact ⟨.hangs, rfl⟩
      | done r q =>
        rw [hc] at hr
        have hs1 : SoundTree P.root ns st.1 := runCase_sound (ans := (runCases P cfg before st0).2) hp hn cfg hst hc
        dsimp only at hr ⊢
        change ∃ e, runTask st.1 (if q = .ABORT ∨ (cfg.failFast = true ∧ nextFails fails r > 0) then _ else _) = _
        by_cases hstop : q = .ABORT ∨ (cfg.failFast = true ∧ nextFails fails r > 0)
        · rw [if_pos hstop] at hr; cases hr
        · rw [if_neg hstop] at hr ⊢
          rw [if_neg hstop]
          have := ih (before ++ [n]) (nextRv rv r) (nextFails fails r) hsub' (by rw [hnext]; exact hs1) hr
          rw [hnext] at this
          dsimp only at this
          obtain ⟨e, hq⟩ := this
          refine ⟨e, ?_⟩
          rw [hq]
          simp only [ranNames, List.filterMap_append, List.filterMap_cons, List.filterMap_nil, List.append_assoc]
          rfl

/-! ### Reviews that fail -/

/-- What a process does that is alone, also if an operation fails. -/
def runAll (fs : FS) : Task → FS × CaseEnd
  | .done e => (fs, e)
  | .act o k =>
    match o.run fs with
    | .error x => (fs, .error x)
    | .ok (fs', a) => runAll fs' (k a)

theorem runAll_steps (t : Task) : ∀ fs, ∃ k, stepsOf k (fs, t) = some ((runAll fs t).1, .done (runAll fs t).2) := by
  induction t with
  | done e => intro fs; exact ⟨0, rfl⟩
  | act o k ih =>
    intro fs
    cases hr : o.run fs with
    | error x => exact ⟨1, by simp only [stepsOf, Task.step, runAll, hr]⟩
    | ok r =>
      obtain ⟨j, hj⟩ := ih r.2 r.1
      exact ⟨j + 1, by simp only [stepsOf, Task.step, runAll, hr]; exact hj⟩

theorem runAll_act (fs : FS) (o : FsOp) (k : Option Node → Task) :
    runAll fs (.act o k) = match o.run fs with
      | .error x => (fs, .error x)
      | .ok r => runAll r.1 (k r.2) := by
  conv => lhs; unfold runAll
  cases o.run fs <;> rfl

theorem runAll_remove (d : Path) (fs : FS) (k : Task) :
    runAll fs (removeTask d k) = match removeIfThere d fs with
      | .error x => (fs, .error x)
      | .ok g => runAll g k := by
  rw [removeTask, runAll_act]
  simp only [FsOp.run, removeIfThere]
  by_cases h : fs.exists_ d = true
  · rw [if_pos h, if_pos (show Option.isSome _ = true from h), runAll_act]
    simp only [FsOp.run]
    cases fs.rmtree d <;> rfl
  · rw [if_neg h, if_neg (show ¬ Option.isSome _ = true from h)]

theorem runAll_freeze (exp out : Path) (name : Str) (fs : FS) (k : Task) :
    runAll fs (freezeTask exp out name k) =
      match freezeCase exp out name fs with
      | (g, some x) => (g, .error x)
      | (g, none) => runAll g k := by
  rw [freezeTask, runAll_remove, freezeCase]
  have e1 : freezeRemove exp name fs = removeIfThere (dirPath exp name) fs := rfl
  rw [e1]
  cases removeIfThere (dirPath exp name) fs with
  | error x => rfl
  | ok f1 =>
    dsimp only
    rw [runAll_act]
    simp only [FsOp.run, freezeFile]
    cases f1.rename (mdPath out name) (mdPath exp name) with
    | error x => rfl
    | ok f2 =>
      simp only [Except.map]
      rw [runAll_act]
      simp only [FsOp.run, freezeDir]
      by_cases h : f2.exists_ (dirPath out name) = true
      · rw [if_pos h, if_pos (show Option.isSome _ = true from h), runAll_act]
        simp only [FsOp.run]
        cases f2.rename (dirPath out name) (dirPath exp name) <;> rfl
      · rw [if_neg h, if_neg (show ¬ Option.isSome _ = true from h)]

/-- The operations of a review do what `reviewLoop` does, also if it fails. -/
theorem runAll_reviews {fl : Durations} (cfg : Config) (pass : List Str) (cases : Option (List Str)) :
    ∀ (records : List (Rec fl)) (abort : Bool) (fs : FS) (ans : List Str),
      (runAll fs (reviewsTask P cfg pass cases records abort ans)).1 =
        (reviewLoop fl cfg P.root P.out pass cases records abort fs ans).1 := by
  intro records
  induction records with
  | nil => intro abort fs ans; rfl
  | cons w rest ih =>
    obtain ⟨m, res, d⟩ := w
    intro abort fs ans
    rw [reviewLoop, reviewsTask]
    by_cases hc : (!abort && isReviewed cfg pass cases m) = true
    · rw [if_pos hc, if_pos hc, reviewTask_eq, caseReview_eq]
      cases reviewed cfg ans res with
      | none => rfl
      | some e =>
        obtain ⟨q, l⟩ := e
        dsimp only
        by_cases hf : q = .FREEZE ∨ (res = .OK ∧ cfg.update = true) ∨ (res = .DIFF ∧ cfg.accept = true)
        · rw [if_pos hf, if_pos hf, runAll_freeze]
          rcases freezeCase P.root P.out m fs with ⟨g, _ | x⟩
          · dsimp only
            rw [ih]
            simp
          · rfl
        · rw [if_neg hf, if_neg hf]
          dsimp only
          rw [ih]
          simp
    · rw [if_neg hc, if_neg hc]
      dsimp only
      exact ih _ _ _

/-! ### Selected tests -/

theorem selected_names {s : Suite} {sel : List Str} {stored : Option (Str → Bool)} {fuel : Nat} {r : List Str}
    (h : selectedNames s sel stored fuel = some r) : r.Nodup ∧ ∀ a ∈ r, a ∈ s.cases.map (·.1) := by
  obtain ⟨h1, -, h3⟩ := selectedNames_spec h
  refine ⟨h1.1, fun a ha => ?_⟩
  rcases h3 a ha with ⟨-, m, hm⟩ | ⟨-, b, -, hb⟩
  · exact List.mem_map.mpr ⟨_, hm, rfl⟩
  · have key : ∀ a b, DependsOn s a b → b ∈ s.cases.map (·.1) := by
      rintro a b ⟨m, -, k⟩
      obtain ⟨ds, d', -, -, hc⟩ := k
      obtain ⟨m', hm', -⟩ := caseByMethod_mem hc
      exact List.mem_map.mpr ⟨_, hm', rfl⟩
    induction hb with
    | one h => exact key _ _ h
    | more _ _ ih => exact ih ha

/-! ### Snapshots that change while tests are executed -/

theorem endCase_rest (cfg : Config) (v : Result) (ans : List Str) (fs : FS) :
    (endCase P cfg n v ans fs).1.2 <:+ ans := by
  unfold endCase
  rw [caseReview_eq]
  cases hr : reviewed cfg ans v with
  | none => exact List.nil_suffix
  | some d =>
    obtain ⟨q, rest⟩ := d
    have hs := reviewed_suffix hr
    dsimp only
    by_cases hf : q = .FREEZE ∨ (v = .OK ∧ cfg.update = true) ∨ (v = .DIFF ∧ cfg.accept = true)
    · rw [if_pos hf]
      rcases freezeCase P.root P.out n fs with ⟨g, _ | y⟩
      · dsimp only
        split
        · split <;> exact hs
        · exact hs
      · exact hs
    · rw [if_neg hf]
      dsimp only
      split
      · split <;> exact hs
      · exact hs

theorem runCase_rest (cfg : Config) (st : FS × List Str) : (runCase P cfg n st).1.2 <:+ st.2 := by
  unfold runCase
  dsimp only
  split
  · exact List.suffix_rfl
  · split
    · exact List.suffix_rfl
    · split
      · exact List.suffix_rfl
      · split
        · exact List.suffix_rfl
        · split
          · exact List.suffix_rfl
          · split
            · exact List.suffix_rfl
            · exact endCase_rest _ _ _ _

theorem runCases_rest (cfg : Config) : ∀ (ex : List Str) (st : FS × List Str), (runCases P cfg ex st).2 <:+ st.2 := by
  intro ex
  induction ex with
  | nil => intro st; exact List.suffix_rfl
  | cons m ex ih => intro st; exact (ih _).trans (runCase_rest cfg st)

theorem accepted_more {cfg : Config} {snap : Option Str} {ans ans' : List Str} {text : Str} (hl : ans <:+ ans')
    (h : Accepted P cfg n snap ans text) : Accepted P cfg n snap ans' text := by
  obtain ⟨s, l, h1, h2⟩ := h
  exact ⟨s, l, h1.trans hl, h2⟩

/-- A test, at any moment of its execution. -/
theorem case_change (hp : PlainNames ns) (hn : n ∈ ns) (cfg : Config) {fs g : FS} (ans : List Str) {k : Nat} {t : Task}
    (hk : stepsOf k (fs, caseTask P cfg n ans (fun r q _ => .done (.done r q))) = some (g, t)) :
    snapshot P.root g n = snapshot P.root fs n ∨
      ∃ text, Accepted P cfg n (snapshot P.root fs n) ans text ∧ snapshot P.root g n = some text := by
  have ht := steps_inv (I := fun A t => Traced (slot P.root false n ".md".toList)
      (slot P.root true n ".md".toList) (fs.get (slot P.root false n ".md".toList))
      (Accepted P cfg n (textOf (fs.get (slot P.root false n ".md".toList))) ans) A t)
    (fun A t A' t' hi hst => hi.step hst) k _
    (Or.inl ⟨rfl, writes_case (hp.1 n hn) cfg ans ans List.suffix_rfl (fun _ _ _ => .done _) _⟩) hk
  unfold snapshot
  rcases ht.kept with h | ⟨text, hg, h⟩
  · rw [h]; exact Or.inl rfl
  · rw [h]; exact Or.inr ⟨text, hg, rfl⟩

/-- Tests that are executed one after the other. -/
theorem cases_change (hp : PlainNames ns) (hn : n ∈ ns) (cfg : Config) : ∀ (ex : List Str) (st : FS × List Str),
    (∀ m ∈ ex, m ∈ ns) → ex.Nodup → SoundTree P.root ns st.1 ∧ st.1.get P.root = some .dir →
    snapshot P.root (runCases P cfg ex st).1 n = snapshot P.root st.1 n ∨
      (n ∈ ex ∧ ∃ text, Accepted P cfg n (snapshot P.root st.1 n) st.2 text ∧
        snapshot P.root (runCases P cfg ex st).1 n = some text) := by
  intro ex
  induction ex with
  | nil => intro st _ _ _; exact Or.inl rfl
  | cons m ex ih =>
    intro st hsub hnd h
    have hm := hsub m (by simp)
    have hsub' : ∀ a ∈ ex, a ∈ ns := fun a ha => hsub a (by simp [ha])
    have h1 := runCases_inv (P := P) hp cfg [m] st (fun a ha => by
      rw [List.mem_singleton] at ha; rw [ha]; exact hm) h
    have e1 : runCases P cfg (m :: ex) st = runCases P cfg ex (runCase P cfg m st).1 := rfl
    have e2 : runCases P cfg [m] st = (runCase P cfg m st).1 := rfl
    rw [e2] at h1
    by_cases hmn : m = n
    · subst hmn
      have e3 : snapshot P.root (runCases P cfg (m :: ex) st).1 m = snapshot P.root (runCase P cfg m st).1.1 m := by
        rw [e1]
        unfold snapshot
        rw [runCases_other (P := P) hp cfg hm ex _ hsub' h1 (List.nodup_cons.mp hnd).1]
      rw [e3]
      obtain ⟨k, t, hk⟩ := case_steps (P := P) hp hm cfg h.1
      rcases case_change hp hm cfg _ hk with hc | ⟨text, ha, hc⟩
      · exact Or.inl hc
      · exact Or.inr ⟨by simp, text, ha, hc⟩
    · have e3 : snapshot P.root (runCase P cfg m st).1.1 n = snapshot P.root st.1 n := by
        rw [← e2]
        unfold snapshot
        rw [runCases_other (P := P) hp cfg hn [m] st (fun a ha => by
          rw [List.mem_singleton] at ha; rw [ha]; exact hm) h (by
            rw [List.mem_singleton]; exact fun hc => hmn hc.symm)]
      rw [e1]
      have := ih _ hsub' (List.nodup_cons.mp hnd).2 h1
      rw [e3] at this
      rcases this with hc | ⟨hin, text, ha, hc⟩
      · exact Or.inl hc
      · exact Or.inr ⟨by simp [hin], text, accepted_more (runCase_rest cfg st) ha, hc⟩

/-- The tests that a run executes. -/
theorem trace_names {fl : Durations} (u : Unicode) (cfg : Config) (outcome : List Str → Str → Outcome fl)
    (selected : List Str) (file : Option Bytes) :
    (ranNames (runAsync u fl cfg outcome selected file).1).Sublist selected := by
  unfold runAsync
  cases ofFile u fl file with
  | none => exact List.nil_sublist _
  | some old =>
    dsimp only
    have : ranNames (Ev.truncate :: (keptRecords old (doneAndTodo cfg old selected).2).map Ev.write ++
        (runLoop fl cfg outcome [] .OK 0 (doneAndTodo cfg old selected).2).1) =
        ranNames (runLoop fl cfg outcome [] .OK 0 (doneAndTodo cfg old selected).2).1 := ranNames_writes _ _
    rw [this]
    refine (runLoop_ran cfg _ _ [] .OK 0).1.sublist.trans ?_
    rw [(doneAndTodo_eq _ _ _).1]
    exact List.filter_sublist

/-! ### Files beside the books -/

theorem there_mem {p : Path} {m : Node} : ∀ {fs : FS}, fs.get p = some m → (p, m) ∈ fs
  | [], h => by cases h
  | (q, x) :: fs, h => by
    rw [get_cons] at h
    split at h
    · rename_i e; cases h; rw [e]; simp
    · exact List.mem_cons_of_mem _ (there_mem h)

/-- Files of the working directory may be removed. -/
theorem top_removed {root : Path} {fs : FS} (h : SoundTree root ns fs) (gone : Path → Bool)
    (h1 : ∀ p, gone p = true → p.length = 1) (h2 : ∀ p, gone p = true → fs.get p ≠ some .dir) :
    SoundTree root ns (fs.filter (fun e => !gone e.1)) ∧ ∀ p, p.length ≠ 1 →
      FS.get (fs.filter (fun e => !gone e.1)) p = fs.get p := by
  have hget : ∀ p, FS.get (fs.filter (fun e => !gone e.1)) p = if gone p = false then fs.get p else none := by
    intro p
    rw [get_filter (fun q => !gone q)]
    cases gone p <;> rfl
  have hdir : ∀ p, fs.get p = some .dir → FS.get (fs.filter (fun e => !gone e.1)) p = some .dir := by
    intro p hd
    rw [hget, if_pos, hd]
    rw [← Bool.not_eq_true]
    exact fun hc => h2 p hc hd
  have hback : ∀ p m, FS.get (fs.filter (fun e => !gone e.1)) p = some m → fs.get p = some m := by
    intro p m hm
    rw [hget] at hm
    split at hm
    · exact hm
    · cases hm
  refine ⟨⟨?_, hdir _ h.cwd, ?_, ?_, ?_, ?_, ?_⟩, ?_⟩
  · intro p c hs
    obtain ⟨m, hm⟩ := Option.isSome_iff_exists.mp hs
    exact hdir _ (h.wf p c (by rw [hback _ _ hm]; rfl))
  · intro n hn o q hq t hx
    exact h.ways n hn o q hq t (hback _ _ hx)
  · intro n hn o x hx hx' hc
    exact h.files n hn o x hx hx' (hback _ _ hc)
  · intro n hn o x hx t hc
    exact h.dirs n hn o x hx t (hback _ _ hc)
  · exact fun hc => h.index (hback _ _ hc)
  · exact fun q hq t hc => h.base q hq t (hback _ _ hc)
  · intro p hp
    rw [hget, if_pos]
    rw [← Bool.not_eq_true]
    exact fun hc => hp (h1 p hc)

private theorem long_dir {root p q : Path} (hroot : root ≠ []) (hq : q.length = 1) (hd : root <+: p)
    (h : q <+: p) : q <+: root := by
  rcases List.prefix_or_prefix_of_prefix h hd with h' | h'
  · exact h'
  · have := h'.length_le
    have hl : 0 < root.length := List.length_pos_iff.mpr hroot
    rw [h'.eq_of_length (by omega)]
    exact List.prefix_rfl

/-- A file may be written in the working directory, once the books directory is there. -/
theorem top_written {root : Path} (hroot : root ≠ []) {fs g : FS} (h : SoundTree root ns fs)
    (hr : fs.get root = some .dir) {f text : Str} (he : openW [f] text fs = .ok g) :
    SoundTree root ns g ∧ g.get root = some .dir ∧ ∀ p, p.length ≠ 1 → g.get p = fs.get p := by
  have hno : fs.get [f] ≠ some .dir := by
    intro hc
    unfold openW at he
    rw [hc] at he
    cases he
  have eg : g = fs.write [f] text := by
    unfold openW at he
    split at he
    · cases he
    · split at he
      · cases he; rfl
      · cases he
  have hget : ∀ p, g.get p = if p = [f] then some (.file text) else fs.get p := by
    intro p; rw [eg]; unfold FS.write; rw [get_cons]
  have hlong : ∀ p : Path, p.length ≠ 1 → g.get p = fs.get p := by
    intro p hp
    rw [hget, if_neg]
    rintro rfl
    exact hp rfl
  have hpre : ∀ q : Path, q <+: root → q ≠ [f] := by
    rintro q hq rfl
    apply hno
    by_cases e : root = [f]
    · rw [← e]; exact hr
    · exact wf_child h.wf (by rw [hr]; rfl) hq e
  have hl : 0 < root.length := List.length_pos_iff.mpr hroot
  have hbooks : ∀ o, root <+: booksDir root o := by
    intro o; unfold booksDir; cases o <;> simp
  have hways : ∀ p q : Path, root <+: p → q <+: p → q ≠ [f] := by
    rintro p q hp hq rfl
    exact hpre _ (long_dir hroot rfl hp hq) rfl
  have hslots : ∀ o m x, (slot root o m x).length ≠ 1 := by
    intro o m x
    have h1 := (hbooks o).length_le
    have h2 : 0 < (split '/' (m ++ x)).length := List.length_pos_iff.mpr (split_ne_nil _ _)
    unfold slot
    rw [List.length_append]
    omega
  have hcwd : fs.get [f].dropLast = some .dir := h.cwd
  refine ⟨⟨?_, ?_, ?_, ?_, ?_, ?_, ?_⟩, ?_, hlong⟩
  · rw [eg]; exact wf_write h.wf hno hcwd (by simp) text
  · rw [hlong _ (by simp)]; exact h.cwd
  · intro m hm o q hq t
    rw [hget, if_neg (hways _ q ((hbooks o).trans (List.prefix_append _ _)) hq)]
    exact h.ways m hm o q hq t
  · intro m hm o x hx hx'
    rw [hlong _ (hslots o m x)]
    exact h.files m hm o x hx hx'
  · intro m hm o x hx t
    rw [hlong _ (hslots o m x)]
    exact h.dirs m hm o x hx t
  · rw [hlong _ (by rw [List.length_append, List.length_singleton]; omega)]
    exact h.index
  · intro q hq t
    rw [hget, if_neg (hways _ q (hbooks true) hq)]
    exact h.base q hq t
  · rw [hget, if_neg (hpre _ List.prefix_rfl)]
    exact hr

/-- The files of `Coverage`. -/
theorem coverage_written {root : Path} (hroot : root ≠ []) {fs : FS} (h : SoundTree root ns fs)
    (hr : fs.get root = some .dir) (texts : Str × Str) : SoundTree root ns (writeCoverage texts fs).1 ∧
    ∀ p, p.length ≠ 1 → (writeCoverage texts fs).1.get p = fs.get p := by
  unfold writeCoverage
  split
  · exact ⟨h, fun _ _ => rfl⟩
  · rename_i g1 e1
    obtain ⟨a1, a2, a3⟩ := top_written hroot h hr e1
    split
    · exact ⟨a1, a3⟩
    · rename_i g2 e2
      obtain ⟨b1, -, b3⟩ := top_written hroot a1 a2 e2
      exact ⟨b1, fun p hp => (b3 p hp).trans (a3 p hp)⟩

theorem slot_long {root : Path} (hroot : root ≠ []) (o : Bool) (m x : Str) : (slot root o m x).length ≠ 1 := by
  have hl : 0 < root.length := List.length_pos_iff.mpr hroot
  have h2 : 0 < (split '/' (m ++ x)).length := List.length_pos_iff.mpr (split_ne_nil _ _)
  unfold slot booksDir
  cases o <;> simp only [if_true, Bool.false_eq_true, if_false, List.length_append] <;> omega

end Verif.Lemmas
