import Verif.Lemmas.Provenance

/-! # Where snapshots come from (C104) -/

namespace Verif.Props
open Verif.Py Verif.Model Verif.Spec Verif.Lemmas

variable {P : Project} {cfg : Config} {all ns : List Str} {fs g : FS}

private theorem kept_snapshot {root : Path} {n : Str} {Good : Str → Prop} {y : Option Node} {A : FS}
    (h : Kept (slot root false n ".md".toList) y Good A) :
    snapshot root A n = textOf y ∨ ∃ text, Good text ∧ snapshot root A n = some text := by
  unfold snapshot
  rcases h with h | ⟨text, hg, h⟩
  · rw [h]; exact Or.inl rfl
  · rw [h]; exact Or.inr ⟨text, hg, rfl⟩

/-- A sequential run that stops after any of its operations leaves the snapshot of a test as it was, or it
has run the test to its end and its output has been accepted. -/
theorem C104_sequential (hp : PlainNames ns) (h : SoundTree P.root ns fs) {todo ans : List Str}
    (hsub : ∀ m ∈ todo, m ∈ ns) (hdup : todo.Nodup) {k : Nat} {t : Task}
    (hk : stepsOf k (fs, sequentialTask P cfg all todo ans) = some (g, t)) {n : Str} (hn : n ∈ ns) :
    SoundTree P.root ns g ∧ (snapshot P.root g n = snapshot P.root fs n ∨
      ∃ text, n ∈ todo ∧ Accepted P cfg n (snapshot P.root fs n) ans text ∧
        snapshot P.root g n = some text) := by
  have hs := steps_inv (I := fun A t => SoundTree P.root ns A ∧ All (RunsOp P.root ns) t)
    (fun A t A' t' hi hst => ⟨runs_sound hp hi.2 hi.1 hst, all_step hi.2 hst⟩) k _
    ⟨h, sequential_ops cfg all hn todo ans hsub⟩ hk
  refine ⟨hs.1, ?_⟩
  by_cases hin : n ∈ todo
  · have ht := steps_inv (I := fun A t => Traced (slot P.root false n ".md".toList)
        (slot P.root true n ".md".toList) (fs.get (slot P.root false n ".md".toList))
        (Accepted P cfg n (textOf (fs.get (slot P.root false n ".md".toList))) ans) A t)
      (fun A t A' t' hi hst => hi.step hst) k _
      (Or.inl ⟨rfl, sequential_writes hp hn cfg all todo ans hsub hdup _⟩) hk
    rcases kept_snapshot ht.kept with e | ⟨text, hg, e⟩
    · exact Or.inl e
    · exact Or.inr ⟨text, hin, hg, e⟩
  · left
    have ht := steps_inv (I := fun A t => All (OpAvoids (slot P.root false n ".md".toList)) t ∧
        A.get (slot P.root false n ".md".toList) = fs.get (slot P.root false n ".md".toList))
      (fun A t A' t' hi hst => ⟨all_step hi.1 hst, by rw [kept_step hi.1 hst, hi.2]⟩) k _
      ⟨sequential_avoids hp hn cfg all todo ans hsub hin, rfl⟩ hk
    unfold snapshot
    rw [ht.2]

/-- The same for a parallel run, whatever the order of the operations of its processes. -/
theorem C104_parallel (hp : PlainNames ns) (h : SoundTree P.root ns fs) {sel trace : List Str}
    {index : Str → Bool} {ans : Str → Option (List Str)} {t : Str → Task} (hsub : ∀ m ∈ sel, m ∈ ns)
    (H : Interleaved (fun n => parallelTask P cfg all (index n) (ans n) n) sel fs trace g t) {n : Str} (hn : n ∈ ns) :
    SoundTree P.root ns g ∧ (snapshot P.root g n = snapshot P.root fs n ∨
      ∃ text, n ∈ sel ∧ Accepted P cfg n (snapshot P.root fs n) ((ans n).getD []) text ∧
        snapshot P.root g n = some text) := by
  have inv : SoundTree P.root ns g ∧ (∀ m ∈ sel, All (CaseOp P.root m) (t m)) ∧
      Traced (slot P.root false n ".md".toList) (slot P.root true n ".md".toList)
        (fs.get (slot P.root false n ".md".toList))
        (Accepted P cfg n (textOf (fs.get (slot P.root false n ".md".toList))) ((ans n).getD [])) g (t n) ∧
      (n ∉ sel → g.get (slot P.root false n ".md".toList) = fs.get (slot P.root false n ".md".toList)) := by
    induction H with
    | init =>
      exact ⟨h, fun m _ => parallel_ops P cfg all (index m) (ans m) m,
        Or.inl ⟨rfl, parallel_writes (hp.1 n hn) cfg all (index n) (ans n) _⟩, fun _ => rfl⟩
    | step m H hm hst ih =>
      rename_i trace g g' t task
      obtain ⟨i1, i2, i3, i4⟩ := ih
      have hmn := hsub m hm
      refine ⟨runs_sound hp ((i2 m hm).mono (fun o ho => ⟨m, hmn, ho⟩)) i1 hst, ?_, ?_, ?_⟩
      · intro m' hm'
        by_cases e : m' = m
        · subst e; simp only [if_true]; exact all_step (i2 m' hm) hst
        · simp only [if_neg e]; exact i2 m' hm'
      · by_cases e : n = m
        · subst e; simp only [if_true]; exact i3.step hst
        · simp only [if_neg e]
          have hav : ∀ s, All (OpAvoids (slot P.root s n ".md".toList)) (t m) := fun s =>
            (i2 m hm).mono (fun o ho => other_avoids hp hmn hn (fun hc => e hc.symm) ho
              (own_slot s (Or.inr mem_md)))
          exact i3.frame (kept_step (hav false) hst) (kept_step (hav true) hst)
      · intro hnot
        have e : m ≠ n := fun hc => hnot (hc ▸ hm)
        rw [← i4 hnot]
        exact kept_step ((i2 m hm).mono (fun o ho => other_avoids hp hmn hn e ho
          (own_slot false (Or.inr mem_md)))) hst
  refine ⟨inv.1, ?_⟩
  by_cases hin : n ∈ sel
  · rcases kept_snapshot inv.2.2.1.kept with e | ⟨text, hg, e⟩
    · exact Or.inl e
    · exact Or.inr ⟨text, hin, hg, e⟩
  · left
    unfold snapshot
    rw [inv.2.2.2 hin]

/-- **C104**: after any number of runs, sequential or parallel, finished or killed at any point, with tests
and options that change from run to run, the snapshot of a test is the one that was there in the
beginning, or the complete output of the test in one of the runs, which was accepted there. -/
theorem C104_snapshots_partial {root : Path} (hp : PlainNames ns) (h : SoundTree root ns fs)
    {runs : List RunRecord} (H : Since root ns fs runs g) {n : Str} (hn : n ∈ ns) :
    SoundTree root ns g ∧ (snapshot root g n = snapshot root fs n ∨
      ∃ r ∈ runs, ∃ text, r.Yields n text ∧ snapshot root g n = some text) := by
  induction H with
  | start => exact ⟨h, Or.inl rfl⟩
  | sequential H hr hsub hdup hk ih =>
    subst hr
    obtain ⟨i1, i2⟩ := ih
    obtain ⟨j1, j2⟩ := C104_sequential hp i1 hsub hdup hk hn
    refine ⟨j1, ?_⟩
    rcases j2 with e | ⟨text, hin, ha, e⟩
    · rw [e]
      rcases i2 with i2 | ⟨r, hr, i2⟩
      · exact Or.inl i2
      · exact Or.inr ⟨r, List.mem_append_left _ hr, i2⟩
    · exact Or.inr ⟨_, List.mem_append_right _ (List.mem_singleton.mpr rfl), text, ⟨hin, ha⟩, e⟩
  | parallel H hr hsub hi ih =>
    subst hr
    obtain ⟨i1, i2⟩ := ih
    obtain ⟨j1, j2⟩ := C104_parallel hp i1 hsub hi hn
    refine ⟨j1, ?_⟩
    rcases j2 with e | ⟨text, hin, ha, e⟩
    · rw [e]
      rcases i2 with i2 | ⟨r, hr, i2⟩
      · exact Or.inl i2
      · exact Or.inr ⟨r, List.mem_append_left _ hr, i2⟩
    · exact Or.inr ⟨_, List.mem_append_right _ (List.mem_singleton.mpr rfl), text, ⟨hin, ha⟩, e⟩
  | elsewhere H hg hs ih =>
    obtain ⟨-, i2⟩ := ih
    refine ⟨hg, ?_⟩
    rw [hs n hn]
    exact i2

/-- The output of a test that fails is never accepted, nor is the output of one that raises an exception. -/
theorem C104_not_failed {n : Str} {snap : Option Str} {ans : List Str} {text : Str}
    (h : Accepted P cfg n snap ans text) : ∃ s, runTest (P.env snap) (P.tests n).body = some s ∧
      text = s.out ∧ verdict (P.env snap) s ≠ .FAIL := by
  obtain ⟨s, l, -, hs, ha, e⟩ := h
  refine ⟨s, hs, e, ?_⟩
  intro hc
  rw [hc] at ha
  rcases ha with ⟨-, hd⟩ | ⟨hd, -⟩ | ⟨hd, -⟩
  · have := List.find?_some hd
    revert this
    decide
  · cases hd
  · cases hd

/-- Without options that accept, and without a user who enters `a`, snapshots stay as they are for ever. -/
theorem C104_nothing_accepted {root : Path} (hp : PlainNames ns) (h : SoundTree root ns fs)
    {runs : List RunRecord} (H : Since root ns fs runs g) {n : Str} (hn : n ∈ ns)
    (hq : ∀ r ∈ runs, r.cfg.update = false ∧ r.cfg.accept = false ∧
      ("a".toList ∉ r.answers n ∨ NotAsking r.cfg)) :
    snapshot root g n = snapshot root fs n := by
  rcases (C104_snapshots_partial hp h H hn).2 with e | ⟨r, hr, text, ⟨-, s, l, hl, -, ha, -⟩, -⟩
  · exact e
  · obtain ⟨h1, h2, h3⟩ := hq r hr
    rcases ha with ⟨hask, hd⟩ | ⟨-, hu⟩ | ⟨-, hu⟩
    · rcases h3 with h3 | h3
      · exact absurd (hl.subset (List.mem_of_find?_eq_some hd)) h3
      · rcases hask with hask | hask
        · rw [h3.1] at hask; cases hask
        · rw [h3.2] at hask; cases hask.2
    · rw [h1] at hu; cases hu
    · rw [h2] at hu; cases hu

/-- The runs of C104 are the runs of the other properties: a run that is not killed and returns a result has
exactly these operations, whatever the configuration and the user's answers. -/
theorem C104_is_run {fl : Durations} (hp : PlainNames ns) (h : SoundTree P.root ns fs) (dur : Str → fl.D)
    {selected ans : List Str} {report : Option Bytes} {old : List (Rec fl)}
    (hold : ofFile P.u fl report = some old) (hsub : ∀ m ∈ (doneAndTodo cfg old selected).2, m ∈ ns)
    (hne : ns ≠ []) {rv : Result} (hr : (runProject P cfg dur all selected fs ans report).result = some rv) :
    ∃ k q, stepsOf k (fs, sequentialTask P cfg all (doneAndTodo cfg old selected).2 ans) =
      some ((runProject P cfg dur all selected fs ans report).fs, .done (.done rv q)) := by
  obtain ⟨n, hn⟩ := List.exists_mem_of_ne_nil ns hne
  have hmk : SoundTree P.root ns (mkdirs fs P.out) := by
    have hall : All (RunsOp P.root ns) (mkdirsTask [] P.out (.done (.done .OK .NONE))) :=
      closed_mkdirs (n := n) (closed_all (fun _ h => ⟨n, hn, Or.inl h⟩)).toClosedRest _ (out_above P n)
        (.done _) _ _ rfl
    exact runTask_sound hp hall h (run_mkdirs _ _ _ _ h.cwd)
  unfold runProject runAsync at hr ⊢
  rw [hold] at hr ⊢
  dsimp only at hr ⊢
  have hw : ∀ l : List (Rec fl), ranNames (l.map (Ev.write)) = [] := by
    intro l; induction l with
    | nil => rfl
    | cons a l ih => exact ih
  have hran : ∀ (l : List (Rec fl)) (b : List (Ev fl)),
      ranNames (.truncate :: l.map .write ++ b) = ranNames b := by
    intro l b
    have := hw l
    unfold ranNames at this ⊢
    rw [List.cons_append, List.filterMap_cons]
    dsimp only
    rw [List.filterMap_append, this, List.nil_append]
  cases hl : (runLoop fl cfg (projectOutcome P cfg dur (mkdirs fs P.out, ans)) [] .OK 0
      (doneAndTodo cfg old selected).2).2 with
  | none => rw [hl] at hr; cases hr
  | some res =>
    obtain ⟨q, hq⟩ := run_loop (P := P) hp cfg dur all (mkdirs fs P.out, ans) _ [] .OK 0 hsub hmk res hl
    rw [hl] at hr
    rw [hran] at hr ⊢
    rw [List.nil_append] at hq
    dsimp only at hr ⊢
    cases ho : openW (P.root ++ ["index.md".toList]) (indexText all) (runCases P cfg (ranNames
        (runLoop fl cfg (projectOutcome P cfg dur (mkdirs fs P.out, ans)) [] .OK 0
          (doneAndTodo cfg old selected).2).1) (mkdirs fs P.out, ans)).1 with
    | error x => rw [ho] at hr; cases hr
    | ok g =>
      rw [ho] at hr hq
      dsimp only at hr ⊢
      cases hr
      obtain ⟨k, hk⟩ := run_steps (sequentialTask P cfg all (doneAndTodo cfg old selected).2 ans) (A := fs)
        (B := g) (e := .done rv q) (by
          rw [sequentialTask, run_mkdirs _ _ _ _ h.cwd]
          exact hq)
      exact ⟨k, q, hk⟩

/-! ### Examples -/

private def says (x : String) : Project where
  u := ascii
  pointErrorPos := false
  refmt := some
  root := ["books".toList]
  tests := fun _ => ⟨⟨[.header "# t".toList, .tln x.toList], none⟩, [], [], none⟩

private theorem empty_sound (ns : List Str) : SoundTree ["books".toList] ns [([], .dir)] := by
  have g : ∀ p, FS.get [([], .dir)] p = if p = [] then some .dir else none := by
    intro p; rw [get_cons]; rfl
  refine ⟨?_, rfl, ?_, ?_, ?_, ?_, ?_⟩
  · intro p c h; rw [g, if_neg (by simp)] at h; cases h
  · intro n _ o q _ t; rw [g]; split <;> simp
  · intro n _ o x hx _; rw [g, if_neg (slot_ne_nil _ o n (Or.inr hx))]; simp
  · intro n _ o x hx t; rw [g]; split <;> simp
  · decide
  · intro q _ t; rw [g]; split <;> simp

private theorem two_plain : PlainNames ["t/a".toList, "t/b".toList] := by
  refine ⟨?_, ?_⟩
  · intro n hn
    simp only [List.mem_cons, List.not_mem_nil, or_false] at hn
    rcases hn with rfl | rfl
    · exact ⟨by decide, by decide, by decide⟩
    · exact ⟨by decide, by decide, by decide⟩
  · unfold NotNested; decide

/-- The user accepts `t/a`; then the process is killed while `t/b` runs. Later the tests print something
else, and a parallel run with `-a` is killed too. -/
example : PlainNames ["t/a".toList, "t/b".toList] ∧
    SoundTree ["books".toList] ["t/a".toList, "t/b".toList] [([], .dir)] ∧
    ∃ r₁ r₂ g, Since ["books".toList] ["t/a".toList, "t/b".toList] [([], .dir)] [r₁, r₂] g ∧
      snapshot ["books".toList] g "t/a".toList = some "# t\n\nx\n".toList ∧
      snapshot ["books".toList] g "t/b".toList = some "# t\n\ny\n".toList := by
  refine ⟨two_plain, empty_sound _, ?_⟩
  have k1 : ∃ c, stepsOf 23 ([([], .dir)], sequentialTask (says "x") { interactive := true } []
      ["t/a".toList, "t/b".toList] ["v".toList, "a".toList]) = some c ∧
      snapshot ["books".toList] c.1 "t/a".toList = some "# t\n\nx\n".toList ∧
      ∃ d, stepsOf 16 (c.1, parallelTask (says "y") { accept := true } [] true (some []) "t/b".toList) = some d ∧
        snapshot ["books".toList] d.1 "t/a".toList = some "# t\n\nx\n".toList ∧
        snapshot ["books".toList] d.1 "t/b".toList = some "# t\n\ny\n".toList :=
    ⟨_, rfl, rfl, _, rfl, rfl, rfl⟩
  obtain ⟨⟨g1, t1⟩, h1, -, ⟨g2, t2⟩, h2, h3, h4⟩ := k1
  have s1 : Since ["books".toList] ["t/a".toList, "t/b".toList] [([], .dir)] _ g1 :=
    Since.start.sequential (P := says "x") rfl (fun n hn => hn) (by decide) h1
  have inter : ∀ (k : Nat) (fs : FS) (T : Str → Task) (g : FS) (t : Task),
      stepsOf k (fs, T "t/b".toList) = some (g, t) →
      ∃ trace t', Interleaved T ["t/b".toList] fs trace g t' ∧ t' "t/b".toList = t := by
    intro k
    induction k with
    | zero => intro fs T g t h; cases h; exact ⟨[], T, .init, rfl⟩
    | succ k ih =>
      intro fs T g t h
      have hsucc : ∀ (k : Nat) (c : FS × Task),
          stepsOf (k + 1) c = (stepsOf k c).bind (fun c => c.2.step c.1) := by
        intro k
        induction k with
        | zero => intro c; simp only [stepsOf, Option.bind_some]; cases c.2.step c.1 <;> rfl
        | succ k ih =>
          intro c
          rw [stepsOf]
          conv => rhs; rw [stepsOf]
          cases c.2.step c.1 with
          | none => rfl
          | some c' => exact ih c'
      rw [hsucc] at h
      cases hk : stepsOf k (fs, T "t/b".toList) with
      | none => rw [hk] at h; cases h
      | some c =>
        obtain ⟨trace, t', hi, ht⟩ := ih fs T c.1 c.2 hk
        rw [hk] at h
        exact ⟨_, _, .step (task := t) "t/b".toList hi (by simp) (by rw [ht]; exact h), if_pos rfl⟩
  obtain ⟨trace, t', hi, -⟩ := inter 16 g1 (fun n => parallelTask (says "y") { accept := true } [] true (some []) n) g2 t2 h2
  exact ⟨_, _, g2, s1.parallel (P := says "y") (index := fun _ => true) (ans := fun _ => some []) rfl (fun n hn => by
    rw [List.mem_singleton.mp hn]; simp) hi, h3, h4⟩

private def nested : FS :=
  [(["books".toList, "a".toList, "b.md".toList], .file "x".toList), (["books".toList, "a".toList], .dir),
    (["books".toList], .dir), ([], .dir)]

private theorem nested_sound : SoundTree ["books".toList] ["a".toList, "a/b".toList] nested := by
  have g : ∀ p, nested.get p = if p = ["books".toList, "a".toList, "b.md".toList] then some (.file "x".toList)
      else if p = ["books".toList, "a".toList] then some .dir else if p = ["books".toList] then some .dir
      else if p = [] then some .dir else none := by
    intro p; unfold nested; rw [get_cons, get_cons, get_cons, get_cons]; rfl
  have gf : ∀ p t, nested.get p = some (.file t) → p = ["books".toList, "a".toList, "b.md".toList] := by
    intro p t h
    rw [g] at h
    split at h
    · assumption
    · split at h
      · cases h
      · split at h
        · cases h
        · split at h <;> cases h
  refine ⟨?_, rfl, ?_, ?_, ?_, ?_, ?_⟩
  · intro p c h
    rw [g] at h
    split at h
    · rename_i e
      have : p = ["books".toList, "a".toList] := by
        have := congrArg List.dropLast e
        rw [List.dropLast_concat] at this
        exact this
      rw [this]; rfl
    · split at h
      · rename_i e
        have : p = ["books".toList] := by
          have := congrArg List.dropLast e
          rw [List.dropLast_concat] at this
          exact this
        rw [this]; rfl
      · split at h
        · rename_i e
          have : p = [] := by
            have := congrArg List.dropLast e
            rw [List.dropLast_concat] at this
            exact this
          rw [this]; rfl
        · rw [if_neg (by simp)] at h; cases h
  · intro n hn o q hq t hc
    have := gf q t hc
    subst this
    revert hq
    simp only [List.mem_cons, List.not_mem_nil, or_false] at hn
    rcases hn with rfl | rfl <;> revert o <;> decide
  · intro n hn o x hx _
    simp only [List.mem_cons, List.not_mem_nil, or_false] at hn
    simp only [endings, List.mem_cons, List.not_mem_nil, or_false] at hx
    rcases hn with rfl | rfl <;> rcases hx with rfl | rfl | rfl | rfl | rfl <;> revert o <;> decide
  · intro n hn o x hx t hc
    have := gf _ t hc
    clear hc
    revert this
    simp only [List.mem_cons, List.not_mem_nil, or_false] at hn
    rcases hn with rfl | rfl <;> rcases hx with rfl | rfl <;> revert o <;> decide
  · decide
  · intro q hq t hc
    have := gf q t hc
    subst this
    revert hq
    decide

/-- C104 fails for nested names: accepting the test `a` removes the snapshot of the test `a/b`. -/
theorem C104_nested_refuted : ∃ (P : Project) (fs g : FS) (t : Task) (k : Nat),
    SoundTree P.root ["a".toList, "a/b".toList] fs ∧
    stepsOf k (fs, sequentialTask P { accept := true } [] ["a".toList] []) = some (g, t) ∧
    snapshot P.root fs "a/b".toList = some "x".toList ∧ snapshot P.root g "a/b".toList = none := by
  have key : ∃ c, stepsOf 16 (nested, sequentialTask (says "y") { accept := true } [] ["a".toList] []) = some c ∧
      snapshot ["books".toList] c.1 "a/b".toList = none := ⟨_, rfl, rfl⟩
  obtain ⟨⟨g, t⟩, h1, h2⟩ := key
  exact ⟨says "y", nested, g, t, 16, nested_sound, h1, rfl, h2⟩

end Verif.Props
