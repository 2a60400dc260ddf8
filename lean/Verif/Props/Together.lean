import Verif.Lemmas.TogetherLocal

/-! # Tests that run at the same time (C103) -/

namespace Verif.Props
open Verif.Py Verif.Model Verif.Spec Verif.Lemmas

variable {P : Project} {cfg : Config} {all ns : List Str} {fs g : FS} {trace : List Str} {t : Str → Task}

private theorem quiet (cfg : Config) : NotAsking (jobConfig cfg) := ⟨rfl, rfl⟩

/-! ### A worker that is alone -/

private theorem caseSpec_end (P : Project) (cfg : Config) (n : Str) (snap : Option Str) :
    (caseSpec P cfg n snap).1 = .hangs ∨ ∃ r, (caseSpec P cfg n snap).1 = .done r .NONE := by
  unfold caseSpec
  cases runTest (P.env snap) (P.tests n).body with
  | none => exact Or.inl rfl
  | some s =>
    dsimp only
    split
    · exact Or.inr ⟨_, rfl⟩
    · exact Or.inr ⟨_, rfl⟩

private theorem worker_alone (hp : PlainNames ns) (h : SoundTree P.root ns fs) {n : Str} (hn : n ∈ ns) :
    ∃ B, runTask fs (workerTask P cfg all n) =
        .ok (B, (caseSpec P (jobConfig cfg) n (snapshot P.root fs n)).1) ∧
      snapshot P.root B n = (caseSpec P (jobConfig cfg) n (snapshot P.root fs n)).2 := by
  obtain ⟨f1, e1, h1, s1, fr1, -⟩ := runCase_ok (quiet cfg) hp hn h []
  rw [workerTask, run_case P _ n [] fs _ h.cwd, e1]
  rcases caseSpec_end P (jobConfig cfg) n (snapshot P.root fs n) with e | ⟨r, e⟩
  · rw [e]
    exact ⟨f1, rfl, s1⟩
  · rw [e]
    have hroot : f1.get P.root = some .dir := by
      rw [fr1, (makeDirs_ok hp hn h).2, if_pos]
      · left; rw [slotDir, booksDir]; simp
      · intro o x hx hc
        exact own_above hp hn hn ⟨o, x, hx, hc⟩ above_root
    obtain ⟨f2, e2, -, s2⟩ := index_ok hp h1 hroot (indexText all)
    refine ⟨f2, ?_, by rw [s2 n hn, s1]⟩
    change runTask f1 (indexTask P all (.done (.done r .NONE))) = _
    rw [indexTask, run_write, e2]
    rfl

/-! ### Counting steps -/

private theorem stepsOf_succ (k : Nat) (c : FS × Task) :
    stepsOf (k + 1) c = (stepsOf k c).bind (fun c => c.2.step c.1) := by
  induction k generalizing c with
  | zero =>
    simp only [stepsOf, Option.bind_some]
    cases c.2.step c.1 <;> rfl
  | succ k ih =>
    rw [stepsOf]
    conv => rhs; rw [stepsOf]
    cases c.2.step c.1 with
    | none => rfl
    | some c' => exact ih c'

private theorem ends (t : Task) (fs : FS) : ∃ k B e, stepsOf k (fs, t) = some (B, .done e) := by
  induction t generalizing fs with
  | done e => exact ⟨0, fs, e, rfl⟩
  | act o k ih =>
    cases hr : o.run fs with
    | error x => exact ⟨1, fs, .error x, by simp only [stepsOf, Task.step, hr]⟩
    | ok r =>
      obtain ⟨g, a⟩ := r
      obtain ⟨j, B, e, h⟩ := ih a g
      exact ⟨j + 1, B, e, by simp only [stepsOf, Task.step, hr]; exact h⟩

private theorem not_after_done {k j : Nat} {c : FS × Task} {B : FS} {e : CaseEnd}
    (h : stepsOf k c = some (B, .done e)) (hj : k < j) : stepsOf j c = none := by
  induction j with
  | zero => omega
  | succ j ih =>
    rw [stepsOf_succ]
    by_cases hk : k = j
    · subst hk; rw [h]; rfl
    · rw [ih (by omega)]; rfl

/-! ### The invariant -/

private theorem rel_init (h : SoundTree P.root ns fs) {n : Str} (hn : n ∈ ns) : Rel P.root n fs fs :=
  ⟨fun _ _ => rfl, fun _ _ h => h, fun q ⟨o, hq⟩ => h.ways n hn o q hq, fun q ⟨o, hq⟩ => h.ways n hn o q hq,
    h.index⟩

private theorem together_inv (hp : PlainNames ns) (h : SoundTree P.root ns fs)
    (H : Together P cfg all ns fs trace g t) :
    (∀ n ∈ ns, ∃ A, stepsOf (trace.count n) (fs, workerTask P cfg all n) = some (A, t n) ∧
      Rel P.root n g A ∧ Local P.root n (t n) ∧
      runTask A (t n) = runTask fs (workerTask P cfg all n)) ∧
    ∀ p, (∀ n ∈ ns, ¬ Own P.root n p) → g.get p = fs.get p ∨
      ((∃ n ∈ ns, Above P.root n p) ∧ fs.get p = none ∧ g.get p = some .dir) ∨
      (p = indexFile P.root ∧ ∃ t, g.get p = some (.file t)) := by
  induction H with
  | init =>
    refine ⟨?_, fun p _ => Or.inl rfl⟩
    intro n hn
    exact ⟨fs, rfl, rel_init h hn, local_worker (hp.1 n hn) cfg all, rfl⟩
  | step n H hn hs ih =>
    rename_i trace g g' t task
    obtain ⟨ih, fr⟩ := ih
    obtain ⟨A, a1, a2, a3, a4⟩ := ih n hn
    -- the step of the test alone
    obtain ⟨o, k, et, hl, hk⟩ : ∃ o k, t n = .act o k ∧ OpLocal P.root n o ∧ ∀ a, Local P.root n (k a) := by
      cases ht : t n with
      | done e => rw [ht] at hs; cases hs
      | act o k =>
        rw [ht] at a3
        cases a3 with
        | act _ _ h1 h2 => exact ⟨o, k, rfl, h1, h2⟩
    obtain ⟨B, eB, -⟩ := worker_alone (cfg := cfg) (all := all) hp h hn
    obtain ⟨A', x, ex⟩ : ∃ A' x, o.run A = .ok (A', x) := by
      rw [et, run_act, eB] at a4
      cases hx : o.run A with
      | error x => rw [hx] at a4; cases a4
      | ok r => exact ⟨r.1, r.2, rfl⟩
    obtain ⟨S', e1, r1, f1⟩ := run_local hp hn hl a2 ex
    have hg : g' = S' ∧ task = k x := by
      rw [et] at hs
      simp only [Task.step, e1, Option.some.injEq, Prod.mk.injEq] at hs
      exact ⟨hs.1.symm, hs.2.symm⟩
    obtain ⟨rfl, rfl⟩ := hg
    refine ⟨?_, ?_⟩
    · intro m hm
      by_cases hmn : m = n
      · subst hmn
        refine ⟨A', ?_, r1, ?_, ?_⟩
        · rw [List.count_append, List.count_cons_self, List.count_nil, stepsOf_succ, a1]
          simp only [if_true, Option.bind_some, et, Task.step, ex]
        · simp only [if_true]; exact hk x
        · simp only [if_true]
          rw [et, run_act, ex] at a4
          exact a4
      · obtain ⟨B, b1, b2, b3, b4⟩ := ih m hm
        have hc : List.count m (trace ++ [n]) = List.count m trace := by
          rw [List.count_append, List.count_cons_of_ne (fun hc => hmn hc.symm)]; rfl
        simp only [if_neg hmn]
        exact ⟨B, by rw [hc]; exact b1, b2.frame hp hm hn hmn f1, b3, b4⟩
    · intro p hpo
      rcases f1 p (hpo n hn) with e | ⟨ha, hnone, hd⟩ | ⟨hi, c, hc⟩
      · rw [e]; exact fr p hpo
      · rcases fr p hpo with e | ⟨-, -, e⟩ | ⟨-, c, e⟩
        · rw [hnone] at e
          exact Or.inr (Or.inl ⟨⟨n, hn, ha⟩, e.symm, hd⟩)
        · rw [hnone] at e; cases e
        · rw [hnone] at e; cases e
      · exact Or.inr (Or.inr ⟨hi, c, hc⟩)

/-- **C103**: tests that run at the same time in different processes do not disturb each other. Whatever the
order of their file operations, and whichever processes have been killed or have not started yet, each
test is where it would be if it had been alone: it has the same operations ahead, and its own files are
the same. Names are plain and not nested, the tests touch files only through booktest. -/
theorem C103_alone_partial (hp : PlainNames ns) (h : SoundTree P.root ns fs)
    (H : Together P cfg all ns fs trace g t) {n : Str} (hn : n ∈ ns) :
    ∃ A, stepsOf (trace.count n) (fs, workerTask P cfg all n) = some (A, t n) ∧
      ∀ p, Own P.root n p → g.get p = A.get p := by
  obtain ⟨A, h1, h2, -⟩ := (together_inv hp h H).1 n hn
  exact ⟨A, h1, h2.own⟩

/-- How a test ends is decided by the test and its snapshot, and so is the snapshot that it leaves: never
by the tests that run beside it. No file operation of a worker fails. -/
theorem C103_results (hp : PlainNames ns) (h : SoundTree P.root ns fs)
    (H : Together P cfg all ns fs trace g t) {n : Str} (hn : n ∈ ns) {e : CaseEnd} (hd : t n = .done e) :
    e = (caseSpec P (jobConfig cfg) n (snapshot P.root fs n)).1 ∧
    snapshot P.root g n = (caseSpec P (jobConfig cfg) n (snapshot P.root fs n)).2 := by
  obtain ⟨A, -, h2, -, h4⟩ := (together_inv hp h H).1 n hn
  obtain ⟨B, eB, sB⟩ := worker_alone (cfg := cfg) (all := all) hp h hn
  rw [hd, eB] at h4
  have hs : snapshot P.root g n = snapshot P.root A n := by
    unfold snapshot
    rw [h2.own _ (own_slot false (Or.inr mem_md))]
  have hh : A = B ∧ e = (caseSpec P (jobConfig cfg) n (snapshot P.root fs n)).1 := by
    cases e with
    | error x => cases h4
    | done r q => simp only [runTask, Except.ok.injEq, Prod.mk.injEq] at h4; exact h4
    | eof => simp only [runTask, Except.ok.injEq, Prod.mk.injEq] at h4; exact h4
    | hangs => simp only [runTask, Except.ok.injEq, Prod.mk.injEq] at h4; exact h4
  obtain ⟨rfl, h6⟩ := hh
  exact ⟨h6, by rw [hs, sB]⟩

/-- The same as in a sequential run, after any other tests: the same result, and in the end the same
snapshots. -/
theorem C103_sequential (hp : PlainNames ns) (h : SoundTree P.root ns fs)
    (H : Together P cfg all ns fs trace g t) {n : Str} (hn : n ∈ ns) {e : CaseEnd} (hd : t n = .done e)
    (ans before : List Str) (hb : ∀ m ∈ before, m ∈ ns) (hdup : before.Nodup) (hnb : n ∉ before) :
    (runCase P (jobConfig cfg) n (runCases P (jobConfig cfg) before (fs, ans))).2 = e ∧
    snapshot P.root (runCases P (jobConfig cfg) (before ++ [n]) (fs, ans)).1 n = snapshot P.root g n := by
  obtain ⟨f1, f2⟩ := C103_results hp h H hn hd
  obtain ⟨g1, e1, h1, -, s1⟩ := runCases_ok (quiet cfg) hp before hb hdup h ans
  obtain ⟨g2, e2, -⟩ := runCase_ok (quiet cfg) hp hn h1 ans
  have hs := s1 n hn
  rw [if_neg hnb] at hs
  refine ⟨by rw [e1, e2, hs, f1], ?_⟩
  have hd' : (before ++ [n]).Nodup := by
    rw [List.nodup_append]
    refine ⟨hdup, by simp, ?_⟩
    intro a ha b hb'
    rw [List.mem_singleton.mp hb']
    rintro rfl
    exact hnb ha
  have hsub : ∀ m ∈ before ++ [n], m ∈ ns := by
    intro m hm
    rcases List.mem_append.mp hm with hm | hm
    · exact hb m hm
    · rw [List.mem_singleton.mp hm]; exact hn
  obtain ⟨g3, e3, -, -, s3⟩ := runCases_ok (quiet cfg) hp (before ++ [n]) hsub hd' h ans
  rw [e3, s3 n hn, if_pos (by simp), f2]

/-- Every worker comes to an end after the same number of its own operations in every schedule, and until
then its next operation is possible: workers do not wait for each other. -/
theorem C103_length (hp : PlainNames ns) (h : SoundTree P.root ns fs) {n : Str} (hn : n ∈ ns) :
    ∃ K, ∀ trace g t, Together P cfg all ns fs trace g t →
      trace.count n ≤ K ∧ (trace.count n = K ↔ ∃ e, t n = .done e) ∧
      (trace.count n < K → ∃ g' t', Together P cfg all ns fs (trace ++ [n]) g' t') := by
  obtain ⟨K, B, e, hK⟩ := ends (workerTask P cfg all n) fs
  refine ⟨K, ?_⟩
  intro trace g t H
  obtain ⟨A, h1, -⟩ := C103_alone_partial hp h H hn
  have hle : trace.count n ≤ K := by
    by_cases hc : trace.count n ≤ K
    · exact hc
    · rw [not_after_done hK (by omega)] at h1; cases h1
  have hiff : trace.count n = K ↔ ∃ e, t n = .done e := by
    constructor
    · intro hc
      rw [hc, hK] at h1
      simp only [Option.some.injEq, Prod.mk.injEq] at h1
      exact ⟨e, h1.2.symm⟩
    · rintro ⟨e', he⟩
      rw [he] at h1
      by_cases hc : trace.count n < K
      · rw [not_after_done h1 hc] at hK; cases hK
      · omega
  refine ⟨hle, hiff, ?_⟩
  intro hlt
  have hnd : ¬ ∃ e, t n = .done e := fun hc => by
    have := hiff.mpr hc; omega
  cases ht : t n with
  | done e => exact absurd ⟨e, ht⟩ hnd
  | act o k =>
    cases hs : (t n).step g with
    | none =>
      rw [ht] at hs
      simp only [Task.step] at hs
      split at hs <;> cases hs
    | some c => exact ⟨c.1, _, .step n H hn hs⟩

/-- Files of no test stay as they are, except the index; directories are made only above files of tests. -/
theorem C103_elsewhere (hp : PlainNames ns) (h : SoundTree P.root ns fs)
    (H : Together P cfg all ns fs trace g t) (p : Path) (hpo : ∀ n ∈ ns, ¬ Own P.root n p)
    (hi : p ≠ indexFile P.root) :
    g.get p = fs.get p ∨ ((∃ n ∈ ns, Above P.root n p) ∧ fs.get p = none ∧ g.get p = some .dir) := by
  rcases (together_inv hp h H).2 p hpo with e | e | ⟨e, -⟩
  · exact Or.inl e
  · exact Or.inr e
  · exact absurd e hi

/-! ### Examples -/

/-- Executes a schedule. -/
private def play (P : Project) (cfg : Config) (all ns : List Str) (fs : FS) :
    List Str → Option (FS × (Str → Task))
  | [] => some (fs, workerTask P cfg all)
  | n :: before =>
    if n ∈ ns then
      match play P cfg all ns fs before with
      | none => none
      | some (g, t) =>
        match (t n).step g with
        | none => none
        | some (g', task) => some (g', fun m => if m = n then task else t m)
    else none

private theorem play_together (P : Project) (cfg : Config) (all ns : List Str) (fs : FS) (l : List Str)
    {g : FS} {t : Str → Task} (h : play P cfg all ns fs l = some (g, t)) :
    Together P cfg all ns fs l.reverse g t := by
  induction l generalizing g t with
  | nil => cases h; exact .init
  | cons n l ih =>
    rw [play] at h
    split at h
    · rename_i hn
      cases hpl : play P cfg all ns fs l with
      | none => rw [hpl] at h; cases h
      | some c =>
        obtain ⟨g0, t0⟩ := c
        rw [hpl] at h
        dsimp only at h
        cases hs : (t0 n).step g0 with
        | none => rw [hs] at h; cases h
        | some c =>
          rw [hs] at h
          cases h
          rw [List.reverse_cons]
          exact .step n (ih hpl) hn hs
    · cases h

private def ended : Task → Option CaseEnd
  | .done e => some e
  | .act _ _ => none

private theorem ended_some {t : Task} {e : CaseEnd} (h : ended t = some e) : t = .done e := by
  cases t with
  | done e' => simp only [ended, Option.some.injEq] at h; rw [h]
  | act o k => cases h

private def writer (x : String) : TestFn :=
  ⟨⟨[.header "# t".toList, .tln x.toList], none⟩, [("f.csv".toList, "1".toList)], [], some "v".toList⟩

private def pair : Project where
  u := ascii
  pointErrorPos := false
  refmt := some
  root := ["books".toList]
  tests := fun n => if n = "t/a".toList then writer "a" else writer "b"

private theorem bare_sound (ns : List Str) : SoundTree ["books".toList] ns [([], .dir)] := by
  have g : ∀ p, FS.get [([], .dir)] p = if p = [] then some .dir else none := by
    intro p; rw [get_cons]; rfl
  refine ⟨?_, rfl, ?_, ?_, ?_, ?_, ?_⟩
  · intro p c h; rw [g, if_neg (by simp)] at h; cases h
  · intro n _ o q _ t; rw [g]; split <;> simp
  · intro n _ o x hx _; rw [g, if_neg (slot_ne_nil _ o n (Or.inr hx))]; simp
  · intro n _ o x hx t; rw [g]; split <;> simp
  · decide
  · intro q _ t; rw [g]; split <;> simp

private theorem pair_plain : PlainNames ["t/a".toList, "t/b".toList] := by
  refine ⟨?_, ?_⟩
  · intro n hn
    simp only [List.mem_cons, List.not_mem_nil, or_false] at hn
    rcases hn with rfl | rfl
    · exact ⟨by decide, by decide, by decide⟩
    · exact ⟨by decide, by decide, by decide⟩
  · unfold NotNested; decide

/-- Two tests of a new project that take turns meet the hypotheses, and both are accepted. -/
example : PlainNames ["t/a".toList, "t/b".toList] ∧
    SoundTree pair.root ["t/a".toList, "t/b".toList] [([], .dir)] ∧
    ∃ trace g t, Together pair { accept := true } [] ["t/a".toList, "t/b".toList] [([], .dir)] trace g t ∧
      t "t/a".toList = .done (.done .OK .NONE) ∧ t "t/b".toList = .done (.done .OK .NONE) ∧
      snapshot pair.root g "t/a".toList = some "# t\n\na\n".toList ∧
      snapshot pair.root g "t/b".toList = some "# t\n\nb\n".toList := by
  refine ⟨pair_plain, bare_sound _, ?_⟩
  have key : ∃ c, play pair { accept := true } [] ["t/a".toList, "t/b".toList] [([], .dir)]
      (List.replicate 23 ["t/b".toList, "t/a".toList]).flatten = some c ∧
      ended (c.2 "t/a".toList) = some (.done .OK .NONE) ∧ ended (c.2 "t/b".toList) = some (.done .OK .NONE) ∧
      snapshot pair.root c.1 "t/a".toList = some "# t\n\na\n".toList ∧
      snapshot pair.root c.1 "t/b".toList = some "# t\n\nb\n".toList :=
    ⟨_, rfl, rfl, rfl, rfl, rfl⟩
  obtain ⟨⟨g, t⟩, h1, h2, h3, h4, h5⟩ := key
  exact ⟨_, g, t, play_together _ _ _ _ _ _ h1, ended_some h2, ended_some h3, h4, h5⟩

/-- C103 fails for nested names: the test `a` removes its directory, in which the test `a/b` is about to
write; alone the second test would be accepted. -/
theorem C103_nested_refuted : ∃ (P : Project) (cfg : Config) (fs : FS) (trace : List Str) (g : FS)
    (t : Str → Task), SoundTree P.root ["a".toList, "a/b".toList] fs ∧
      Together P cfg [] ["a".toList, "a/b".toList] fs trace g t ∧
      t "a/b".toList = .done (.error .notFound) ∧
      (caseSpec P (jobConfig cfg) "a/b".toList (snapshot P.root fs "a/b".toList)).1 = .done .OK .NONE := by
  have key : ∃ c, play pair { accept := true } [] ["a".toList, "a/b".toList] [([], .dir)]
      (["a/b", "a/b", "a/b", "a/b", "a", "a", "a", "a", "a", "a", "a/b", "a/b", "a/b", "a/b", "a/b"].map
        String.toList) = some c ∧
      ended (c.2 "a/b".toList) = some (.error .notFound) :=
    ⟨_, rfl, rfl⟩
  obtain ⟨⟨g, t⟩, h1, h2⟩ := key
  exact ⟨pair, { accept := true }, [([], .dir)], _, g, t, bare_sound _, play_together _ _ _ _ _ _ h1,
    ended_some h2, rfl⟩

end Verif.Props
