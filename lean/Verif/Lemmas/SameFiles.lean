import Verif.Lemmas.ParallelRun

/-! # Tests at the same time and tests one after the other leave the same files -/

namespace Verif.Lemmas
open Verif.Py Verif.Model Verif.Spec

variable {P : Project} {cfg : Config} {all ns : List Str} {fs : FS} {n : Str}

theorem rel_start {root : Path} (h : SoundTree root ns fs) (hn : n ∈ ns) : Rel root n fs fs :=
  ⟨fun _ _ => rfl, fun _ _ h => h, fun q ⟨o, hq⟩ => h.ways n hn o q hq, fun q ⟨o, hq⟩ => h.ways n hn o q hq,
    h.index⟩

/-- A test does in a shared file system what it does in its own one. -/
theorem task_local {root : Path} (hp : PlainNames ns) (hn : n ∈ ns) {t : Task} (ht : Local root n t) {S A B : FS}
    {e : CaseEnd} (h : Rel root n S A) (he : runTask A t = .ok (B, e)) :
    ∃ S', runTask S t = .ok (S', e) ∧ Rel root n S' B := by
  induction ht generalizing S A with
  | done x =>
    cases x with
    | error x => cases he
    | done r q => cases he; exact ⟨S, rfl, h⟩
    | eof => cases he; exact ⟨S, rfl, h⟩
    | hangs => cases he; exact ⟨S, rfl, h⟩
  | act o k ho _ ih =>
    rw [run_act] at he ⊢
    cases hx : o.run A with
    | error x => rw [hx] at he; cases he
    | ok r =>
      obtain ⟨A', x⟩ := r
      rw [hx] at he
      obtain ⟨S', e1, r1, -⟩ := run_local hp hn ho h hx
      rw [e1]
      exact ih x r1 he

/-- Whatever the order of the operations, each test is where it would be if it were alone. -/
theorem alone_inv {root : Path} {T : Str → Task} {sel trace : List Str} {g : FS} {t : Str → Task} (hp : PlainNames ns)
    (hsub : ∀ n ∈ sel, n ∈ ns) (h : SoundTree root ns fs) (hl : ∀ n ∈ sel, Local root n (T n))
    (hok : ∀ n ∈ sel, ∃ r, runTask fs (T n) = .ok r) (H : Interleaved T sel fs trace g t) :
    (∀ n ∈ sel, ∃ A, Rel root n g A ∧ Local root n (t n) ∧ runTask A (t n) = runTask fs (T n)) ∧
    ∀ p, (∀ n ∈ sel, ¬ Own root n p) → g.get p = fs.get p ∨ (∃ n ∈ sel, Above root n p) ∨ p = indexFile root := by
  induction H with
  | init => exact ⟨fun n hn => ⟨fs, rel_start h (hsub n hn), hl n hn, rfl⟩, fun p _ => Or.inl rfl⟩
  | step n H hn hs ih =>
    rename_i trace g g' t task
    obtain ⟨ih, fr⟩ := ih
    obtain ⟨A, a2, a3, a4⟩ := ih n hn
    obtain ⟨o, k, et, ho, hk⟩ : ∃ o k, t n = .act o k ∧ OpLocal root n o ∧ ∀ a, Local root n (k a) := by
      cases ht : t n with
      | done e => rw [ht] at hs; cases hs
      | act o k =>
        rw [ht] at a3
        cases a3 with
        | act _ _ h1 h2 => exact ⟨o, k, rfl, h1, h2⟩
    obtain ⟨r, er⟩ := hok n hn
    obtain ⟨A', x, ex⟩ : ∃ A' x, o.run A = .ok (A', x) := by
      rw [et, run_act, er] at a4
      cases hx : o.run A with
      | error x => rw [hx] at a4; cases a4
      | ok r => exact ⟨r.1, r.2, rfl⟩
    obtain ⟨S', e1, r1, f1⟩ := run_local hp (hsub n hn) ho a2 ex
    have hg : g' = S' ∧ task = k x := by
      rw [et] at hs
      simp only [Task.step, e1, Option.some.injEq, Prod.mk.injEq] at hs
      exact ⟨hs.1.symm, hs.2.symm⟩
    obtain ⟨rfl, rfl⟩ := hg
    refine ⟨?_, ?_⟩
    · intro m hm
      by_cases hmn : m = n
      · subst hmn
        refine ⟨A', r1, ?_, ?_⟩
        · simp only [if_true]; exact hk x
        · simp only [if_true]
          rw [et, run_act, ex] at a4
          exact a4
      · obtain ⟨B, b2, b3, b4⟩ := ih m hm
        simp only [if_neg hmn]
        exact ⟨B, b2.frame hp (hsub m hm) (hsub n hn) hmn f1, b3, b4⟩
    · intro p hpo
      rcases f1 p (hpo n hn) with e | ⟨ha, -⟩ | ⟨hi, -⟩
      · rw [e]; exact fr p hpo
      · exact Or.inr (Or.inl ⟨n, hn, ha⟩)
      · exact Or.inr (Or.inr hi)

/-! ### One test alone -/

/-- The files after a test that is executed alone. -/
def solo (P : Project) (cfg : Config) (fs : FS) (n : Str) : FS := (runCase P cfg n (fs, [])).1.1

theorem runCase_job (hc : NotAsking cfg) (st : FS × List Str) : runCase P (jobConfig cfg) n st = runCase P cfg n st := by
  obtain ⟨a, i, u, c, k, f⟩ := cfg
  obtain ⟨h1, h2⟩ := hc
  simp only at h1 h2
  subst h1 h2
  rfl

theorem caseSpec_job (snap : Option Str) : caseSpec P (jobConfig cfg) n snap = caseSpec P cfg n snap := rfl

private def soloTask (P : Project) (cfg : Config) (n : Str) : Task :=
  caseTask P cfg n [] fun r q _ => .done (.done r q)

private theorem case_answers (hc : NotAsking cfg) (ans : List Str) (k : Result → Request → Task) :
    caseTask P cfg n ans (fun r q _ => k r q) = caseTask P cfg n [] (fun r q _ => k r q) := by
  unfold caseTask endTask reviewTask
  simp only [hc.1, hc.2, Bool.and_false, Bool.or_false, Bool.false_eq_true, if_false]

theorem spec_end (P : Project) (cfg : Config) (n : Str) (snap : Option Str) :
    (caseSpec P cfg n snap).1 = .hangs ∨ ∃ r, (caseSpec P cfg n snap).1 = .done r .NONE ∧
      (cfg.accept = true → r ≠ .DIFF) := by
  unfold caseSpec
  cases runTest (P.env snap) (P.tests n).body with
  | none => exact Or.inl rfl
  | some s =>
    dsimp only
    split
    · exact Or.inr ⟨_, rfl, fun _ => by simp⟩
    · rename_i hx
      exact Or.inr ⟨_, rfl, fun ha hd => hx (Or.inr ⟨hd, ha⟩)⟩

private theorem goOn_done {r : (FS × List Str) × CaseEnd} (h : ∀ x, r.2 ≠ .error x) :
    goOn (fun r q _ => .done (.done r q)) r = .ok (r.1.1, r.2) := by
  obtain ⟨⟨f, a⟩, e⟩ := r
  cases e with
  | done v q => rfl
  | eof => rfl
  | hangs => rfl
  | error x => exact absurd rfl (h x)

theorem solo_task (hc : NotAsking cfg) (hp : PlainNames ns) (hn : n ∈ ns) (h : SoundTree P.root ns fs) (ans : List Str) :
    runTask fs (soloTask P cfg n) = .ok (solo P cfg fs n, (caseSpec P cfg n (snapshot P.root fs n)).1) ∧
    runCase P cfg n (fs, ans) = ((solo P cfg fs n, ans), (caseSpec P cfg n (snapshot P.root fs n)).1) := by
  have key : ∀ ans, ∃ fs', runCase P cfg n (fs, ans) = ((fs', ans), (caseSpec P cfg n (snapshot P.root fs n)).1) ∧
      runTask fs (soloTask P cfg n) = .ok (fs', (caseSpec P cfg n (snapshot P.root fs n)).1) := by
    intro ans
    obtain ⟨fs', e, -⟩ := runCase_ok hc hp hn h ans
    refine ⟨fs', e, ?_⟩
    have := run_case P cfg n ans fs (fun r q _ => .done (.done r q)) h.cwd
    rw [case_answers hc ans (fun r q => .done (.done r q)), e, goOn_done] at this
    · exact this
    · intro x
      rcases spec_end P cfg n (snapshot P.root fs n) with e | ⟨r, e, -⟩
      · rw [e]; simp
      · rw [e]; simp
  obtain ⟨f0, e0, e1⟩ := key []
  have hs : solo P cfg fs n = f0 := by unfold solo; rw [e0]
  rw [hs]
  refine ⟨e1, ?_⟩
  obtain ⟨f1, e2, e3⟩ := key ans
  rw [e1] at e3
  cases e3
  exact e2

theorem solo_sound (hc : NotAsking cfg) (hp : PlainNames ns) (hn : n ∈ ns) (h : SoundTree P.root ns fs) :
    SoundTree P.root ns (solo P cfg fs n) ∧
    ∀ p, ¬ Own P.root n p → (Above P.root n p → (solo P cfg fs n).get p = some .dir) ∧
      (¬ Above P.root n p → (solo P cfg fs n).get p = fs.get p) := by
  obtain ⟨f, e, h1, -, h3, -⟩ := runCase_ok hc hp hn h []
  have hs : solo P cfg fs n = f := by unfold solo; rw [e]
  rw [hs]
  refine ⟨h1, fun p hpo => ?_⟩
  have e1 := h3 p (fun o x hx hpre => hpo ⟨o, x, hx, hpre⟩)
  obtain ⟨-, g⟩ := makeDirs_ok hp hn h
  rw [e1, g]
  constructor
  · rintro ⟨o, ho⟩
    rw [if_pos]
    cases o
    · exact Or.inl ho
    · exact Or.inr ho
  · intro ha
    rw [if_neg]
    rintro (ho | ho)
    · exact ha ⟨false, ho⟩
    · exact ha ⟨true, ho⟩

/-! ### Tests one after the other -/

private theorem solo_frame (hc : NotAsking cfg) (hp : PlainNames ns) (hn : n ∈ ns) (h : SoundTree P.root ns fs) {m : Str}
    (hm : m ∈ ns) (hmn : m ≠ n) : Rel P.root m (solo P cfg fs n) fs := by
  refine (rel_start h hm).frame hp hm hn hmn (fun p hpo => ?_)
  obtain ⟨h1, h2⟩ := (solo_sound hc hp hn h).2 p hpo
  by_cases ha : Above P.root n p
  · rcases e : fs.get p with _ | (t | _)
    · exact Or.inr (Or.inl ⟨ha, rfl, h1 ha⟩)
    · obtain ⟨o, hq⟩ := ha
      exact absurd e (h.ways n hn o p hq t)
    · exact Or.inl (h1 ha)
  · exact Or.inl (h2 ha)

private theorem solo_same (hc : NotAsking cfg) (hp : PlainNames ns) (hn : n ∈ ns) (h : SoundTree P.root ns fs) {S : FS}
    (hS : SoundTree P.root ns S) (hr : Rel P.root n S fs) {p : Path} (hpo : Own P.root n p) :
    (solo P cfg S n).get p = (solo P cfg fs n).get p := by
  have e1 := (solo_task hc hp hn h []).1
  obtain ⟨S', e2, e3⟩ := task_local hp hn (local_case (hp.1 n hn) cfg [] (fun _ _ _ => .done _)) hr e1
  have e4 := (solo_task hc hp hn hS []).1
  have e5 : runTask S (soloTask P cfg n) = .ok (S', (caseSpec P cfg n (snapshot P.root fs n)).1) := e2
  rw [e4] at e5
  simp only [Except.ok.injEq, Prod.mk.injEq] at e5
  rw [e5.1]
  exact e3.own p hpo

theorem cases_files (hc : NotAsking cfg) (hp : PlainNames ns) (ex : List Str) (hx : ∀ n ∈ ex, n ∈ ns) (hd : ex.Nodup)
    (h : SoundTree P.root ns fs) (ans : List Str) :
    (∀ n ∈ ex, ∀ p, Own P.root n p → (runCases P cfg ex (fs, ans)).1.get p = (solo P cfg fs n).get p) ∧
    ∀ p, (∀ n ∈ ex, ¬ Own P.root n p) →
      ((∃ n ∈ ex, Above P.root n p) → (runCases P cfg ex (fs, ans)).1.get p = some .dir) ∧
      ((∀ n ∈ ex, ¬ Above P.root n p) → (runCases P cfg ex (fs, ans)).1.get p = fs.get p) := by
  induction ex generalizing fs with
  | nil => exact ⟨fun n hn => (by cases hn), fun p _ => ⟨fun ⟨n, hn, _⟩ => (by cases hn), fun _ => rfl⟩⟩
  | cons k ks ih =>
    have hk : k ∈ ns := hx k (by simp)
    have hd' := List.nodup_cons.mp hd
    obtain ⟨s1, s2⟩ := solo_sound (cfg := cfg) hc hp hk h
    have e : runCases P cfg (k :: ks) (fs, ans) = runCases P cfg ks (solo P cfg fs k, ans) := by
      show runCases P cfg ks (runCase P cfg k (fs, ans)).1 = _
      rw [(solo_task hc hp hk h ans).2]
    rw [e]
    obtain ⟨i1, i2⟩ := ih (fun n hn => hx n (by simp [hn])) hd'.2 s1
    refine ⟨?_, ?_⟩
    · intro n hn p hpo
      rcases List.mem_cons.mp hn with rfl | hn'
      · have ho : ∀ m ∈ ks, ¬ Own P.root m p := by
          intro m hm hmo
          have := own_apart hp hk (hx m (by simp [hm])) hpo hmo
          exact hd'.1 (this ▸ hm)
        exact (i2 p ho).2 (fun m hm => own_above hp hk (hx m (by simp [hm])) hpo)
      · have hnk : n ≠ k := by rintro rfl; exact hd'.1 hn'
        rw [i1 n hn' p hpo]
        exact solo_same hc hp (hx n hn) h s1 (solo_frame hc hp hk h (hx n hn) hnk) hpo
    · intro p hpo
      have hpk := s2 p (hpo k (by simp))
      obtain ⟨j1, j2⟩ := i2 p (fun n hn => hpo n (by simp [hn]))
      refine ⟨?_, ?_⟩
      · rintro ⟨n, hn, ha⟩
        by_cases hks : ∃ n ∈ ks, Above P.root n p
        · exact j1 hks
        · rcases List.mem_cons.mp hn with rfl | hn'
          · rw [j2 (fun m hm ha' => hks ⟨m, hm, ha'⟩)]
            exact hpk.1 ha
          · exact absurd ⟨n, hn', ha⟩ hks
      · intro ha
        rw [j2 (fun m hm => ha m (by simp [hm]))]
        exact hpk.2 (ha k (by simp))

/-! ### A worker and the review of its result -/

private theorem later_quiet (hc : NotAsking cfg) (hu : cfg.update = false) {r : Result}
    (hr : cfg.accept = true → r ≠ .DIFF) (rv : Option (List Str)) :
    laterTask P cfg n rv r .NONE = .done (.done r .NONE) := by
  cases rv with
  | none => rfl
  | some l =>
    unfold laterTask reviewTask
    simp only [hc.1, hc.2, Bool.and_false, Bool.or_false, Bool.false_eq_true, if_false]
    rw [if_neg]
    rintro (h | ⟨-, h⟩ | ⟨h, h'⟩)
    · cases h
    · rw [hu] at h; cases h
    · exact hr h' h

theorem parallel_local (hn : PlainName n) (i : Bool) (rv : Option (List Str)) :
    Local P.root n (parallelTask P cfg all i rv n) := by
  have hl : ∀ r q, Local P.root n (laterTask P cfg n rv r q) := by
    intro r q
    cases rv with
    | none => exact .done _
    | some l =>
      unfold laterTask reviewTask
      dsimp only
      split
      · exact .done _
      · split
        · exact local_freeze (.done _)
        · exact .done _
  refine local_case hn _ _ (fun r q _ => ?_)
  split
  · exact local_index hn all (hl r q)
  · exact hl r q

/-- A worker alone leaves what the test leaves, and the index. -/
theorem parallel_alone (hc : NotAsking cfg) (hu : cfg.update = false) (hp : PlainNames ns) (hn : n ∈ ns)
    (h : SoundTree P.root ns fs) (i : Bool) (rv : Option (List Str)) :
    ∃ B, runTask fs (parallelTask P cfg all i rv n) = .ok (B, (caseSpec P cfg n (snapshot P.root fs n)).1) ∧
      ∀ p, p ≠ indexFile P.root → B.get p = (solo P cfg fs n).get p := by
  obtain ⟨s1, s2⟩ := solo_sound (cfg := cfg) hc hp hn h
  unfold parallelTask
  rw [run_case P _ n [] fs _ h.cwd, runCase_job hc, (solo_task hc hp hn h []).2]
  rcases spec_end P cfg n (snapshot P.root fs n) with e | ⟨r, e, hr⟩
  · rw [e]
    exact ⟨_, rfl, fun _ _ => rfl⟩
  · rw [e]
    unfold goOn
    dsimp only
    rw [later_quiet hc hu hr]
    cases i with
    | false => exact ⟨_, rfl, fun _ _ => rfl⟩
    | true =>
      rw [if_pos rfl, indexTask, run_write]
      have hroot : (solo P cfg fs n).get P.root = some .dir :=
        (s2 P.root (fun ho => own_above hp hn hn ho above_root)).1 above_root
      have ew := openW_ok (fs := solo P cfg fs n) (p := P.root ++ ["index.md".toList]) s1.index
        (by rw [List.dropLast_concat]; exact hroot) (indexText all)
      rw [ew]
      refine ⟨_, rfl, fun p hpi => ?_⟩
      show FS.get (FS.write _ _ _) p = _
      unfold FS.write
      rw [get_cons]
      exact if_neg hpi

/-- When all tests have ended that were executed at the same time, the files are those that they leave when they are
executed one after the other. -/
theorem together_files (hc : NotAsking cfg) (hu : cfg.update = false) (hp : PlainNames ns) {sel trace ans : List Str}
    {index : Str → Bool} {rv : Str → Option (List Str)} {t : Str → Task} {g : FS} (hsub : ∀ n ∈ sel, n ∈ ns)
    (hd : sel.Nodup) (h : SoundTree P.root ns fs)
    (H : Interleaved (fun n => parallelTask P cfg all (index n) (rv n) n) sel fs trace g t) :
    (∀ n ∈ sel, ∀ e, t n = .done e → e = (caseSpec P cfg n (snapshot P.root fs n)).1) ∧
    ((∀ n ∈ sel, ∃ e, t n = .done e) → ∀ p, p ≠ indexFile P.root →
      g.get p = (runCases P cfg sel (fs, ans)).1.get p) := by
  obtain ⟨h1, h2⟩ := alone_inv hp hsub h (fun n hn => parallel_local (hp.1 n (hsub n hn)) (index n) (rv n))
    (fun n hn => by
      obtain ⟨B, e, -⟩ := parallel_alone (all := all) hc hu hp (hsub n hn) h (index n) (rv n)
      exact ⟨_, e⟩) H
  have ended : ∀ n ∈ sel, ∀ e, t n = .done e → e = (caseSpec P cfg n (snapshot P.root fs n)).1 ∧
      ∃ B, Rel P.root n g B ∧ ∀ p, p ≠ indexFile P.root → B.get p = (solo P cfg fs n).get p := by
    intro n hn e he
    obtain ⟨A, a1, -, a3⟩ := h1 n hn
    obtain ⟨B, b1, b2⟩ := parallel_alone (all := all) hc hu hp (hsub n hn) h (index n) (rv n)
    rw [b1, he] at a3
    cases e with
    | error x => cases a3
    | done r q => simp only [runTask, Except.ok.injEq, Prod.mk.injEq] at a3; exact ⟨a3.2, B, a3.1 ▸ a1, b2⟩
    | eof => simp only [runTask, Except.ok.injEq, Prod.mk.injEq] at a3; exact ⟨a3.2, B, a3.1 ▸ a1, b2⟩
    | hangs => simp only [runTask, Except.ok.injEq, Prod.mk.injEq] at a3; exact ⟨a3.2, B, a3.1 ▸ a1, b2⟩
  refine ⟨fun n hn e he => (ended n hn e he).1, fun hall p hpi => ?_⟩
  obtain ⟨c1, c2⟩ := cases_files (cfg := cfg) hc hp sel hsub hd h ans
  by_cases ho : ∃ n ∈ sel, Own P.root n p
  · obtain ⟨n, hn, hpo⟩ := ho
    obtain ⟨e, he⟩ := hall n hn
    obtain ⟨-, B, b1, b2⟩ := ended n hn e he
    rw [c1 n hn p hpo, b1.own p hpo, b2 p hpi]
  · have ho' : ∀ n ∈ sel, ¬ Own P.root n p := fun n hn hh => ho ⟨n, hn, hh⟩
    obtain ⟨c3, c4⟩ := c2 p ho'
    by_cases ha : ∃ n ∈ sel, Above P.root n p
    · rw [c3 ha]
      obtain ⟨n, hn, hpa⟩ := ha
      obtain ⟨e, he⟩ := hall n hn
      obtain ⟨-, B, b1, b2⟩ := ended n hn e he
      refine b1.dirs p hpa ?_
      rw [b2 p hpi]
      exact ((solo_sound hc hp (hsub n hn) h).2 p (ho' n hn)).1 hpa
    · rw [c4 (fun n hn hh => ha ⟨n, hn, hh⟩)]
      rcases h2 p ho' with e | e | e
      · exact e
      · exact absurd e ha
      · exact absurd e hpi

end Verif.Lemmas
