import Verif.Lemmas.ProjectFiles

/-! # Facts about whole runs: one test, then many -/

namespace Verif.Lemmas
open Verif.Py Verif.Model Verif.Spec

variable {P : Project} {ns : List Str} {n : Str} {fs : FS}

theorem makeDirs_ok (hp : PlainNames ns) (hn : n ∈ ns) (h : SoundTree P.root ns fs) :
    Live P.root n (makeDirs P n fs) ∧
    ∀ p, (makeDirs P n fs).get p =
      if p <+: slotDir P.root false n ∨ p <+: slotDir P.root true n then some .dir
      else fs.get p := by
  unfold makeDirs
  rw [(baseDir_slot P).1, (baseDir_slot P).2]
  obtain ⟨w1, g1⟩ := mkdirs_ok h.wf h.cwd (h.ways n hn false)
  obtain ⟨w2, g2⟩ := mkdirs_ok (d := slotDir P.root true n) w1
    (by rw [g1, if_pos (List.nil_prefix)])
    (by
      intro q hq t
      rw [g1]
      split
      · simp
      · exact h.ways n hn true q hq t)
  have g : ∀ p, (mkdirs (mkdirs fs (slotDir P.root false n)) (slotDir P.root true n)).get p =
      if p <+: slotDir P.root false n ∨ p <+: slotDir P.root true n then some .dir
      else fs.get p := by
    intro p
    rw [g2, g1]
    by_cases h1 : p <+: slotDir P.root true n <;> by_cases h2 : p <+: slotDir P.root false n <;>
      simp [h1, h2]
  have hslot : ∀ o x, (x = [] ∨ x ∈ endings) →
      (mkdirs (mkdirs fs (slotDir P.root false n)) (slotDir P.root true n)).get (slot P.root o n x) =
        fs.get (slot P.root o n x) := by
    intro o x hx
    rw [g, if_neg]
    rintro (hc | hc)
    · exact slot_not_above hp hn hn hx hc List.prefix_rfl
    · exact slot_not_above hp hn hn hx hc List.prefix_rfl
  refine ⟨⟨w2, ?_, ?_, ?_⟩, g⟩
  · intro o
    rw [g, if_pos]
    cases o
    · exact Or.inl List.prefix_rfl
    · exact Or.inr List.prefix_rfl
  · intro o x hx hx'
    rw [hslot o x (Or.inr hx)]
    exact h.files n hn o x hx hx'
  · intro o x hx
    rw [hslot o x (dirEnd hx)]
    exact h.dirs n hn o x hx

/-- The tree stays sound if only the places of one test change. -/
theorem sound_of_live (hp : PlainNames ns) (hn : n ∈ ns) (h : SoundTree P.root ns fs) {fs' : FS}
    (hl : Live P.root n fs')
    (hf : ∀ p, (∀ o x, (x = [] ∨ x ∈ endings) → ¬ slot P.root o n x <+: p) →
      fs'.get p = (makeDirs P n fs).get p) : SoundTree P.root ns fs' := by
  obtain ⟨-, g⟩ := makeDirs_ok hp hn h
  have hdir : ∀ q m, (∀ o x, (x = [] ∨ x ∈ endings) → ¬ slot P.root o n x <+: q) →
      fs.get q ≠ some m → m ≠ .dir → fs'.get q ≠ some m := by
    intro q m hq h1 h2
    rw [hf q hq, g]
    split
    · intro hc; cases hc; exact h2 rfl
    · exact h1
  have hother : ∀ m ∈ ns, m ≠ n → ∀ o x, (x = [] ∨ x ∈ endings) →
      fs'.get (slot P.root o m x) = fs.get (slot P.root o m x) := by
    intro m hm hne o x hx
    rw [hf, g, if_neg]
    · rintro (hc | hc)
      · exact slot_not_above hp hm hn hx hc List.prefix_rfl
      · exact slot_not_above hp hm hn hx hc List.prefix_rfl
    · intro o' y hy hc
      exact hne (slot_sep hp hn hm hy hx hc List.prefix_rfl).1.symm
  refine ⟨hl.wf, ?_, ?_, ?_, ?_, ?_, ?_⟩
  · rw [hf, g, if_pos (Or.inl List.nil_prefix)]
    intro o x hx
    exact slot_not_above hp hn hn (o' := false) hx List.nil_prefix
  · intro m hm o q hq t
    exact hdir q _ (fun o' x hx => slot_not_above hp hn hm hx hq) (h.ways m hm o q hq t) (by simp)
  · intro m hm o x hx hx'
    by_cases he : m = n
    · subst he; exact hl.files o x hx hx'
    · rw [hother m hm he o x (Or.inr hx)]; exact h.files m hm o x hx hx'
  · intro m hm o x hx t
    by_cases he : m = n
    · subst he; exact hl.dirs o x hx t
    · rw [hother m hm he o x (dirEnd hx)]; exact h.dirs m hm o x hx t
  · rw [hf, g]
    · split
      · rename_i hc
        exfalso
        have hpl := hp.1 n hn
        obtain ⟨cs, l, h1, h2⟩ := slot_shape n
        -- the index would be a directory above the files of the test
        rcases hc with hc | hc
        · rw [slotDir, h1, List.dropLast_concat, booksDir] at hc
          simp only [Bool.false_eq_true, if_false, List.prefix_append_right_inj] at hc
          refine hpl.parts "index.md".toList ?_ ".md".toList (by decide) ⟨"index".toList, rfl⟩
          rw [h1]
          exact List.mem_append_left _ (hc.subset (by simp))
        · rw [slotDir, h1, List.dropLast_concat, booksDir] at hc
          simp only [if_true, List.append_assoc, List.prefix_append_right_inj] at hc
          obtain ⟨t, ht⟩ := hc
          simp only [List.cons_append, List.cons.injEq] at ht
          exact absurd ht.1 (by decide)
      · exact h.index
    · intro o x hx
      exact slot_not_index (hp.1 n hn) hx
  · intro q hq t
    exact hdir q _ (fun o' x hx => slot_not_root (hp.1 n hn) hx hq) (h.base q hq t) (by simp)

theorem caseReview_auto {cfg : Config} (hc : NotAsking cfg) (exp out : Path) (v : Result)
    (ans : List Str) (fs : FS) :
    caseReview cfg exp out n (.res v) ans fs =
      if AutoAccepted cfg v then
        match freezeCase exp out n fs with
        | (fs', some x) => (fs', .error x, ans)
        | (fs', none) => (fs', .done (.res .OK) .NONE, ans)
      else (fs, .done (.res v) .NONE, ans) := by
  unfold caseReview
  simp only [hc.1, hc.2, Bool.and_false, Bool.or_false, Bool.false_eq_true, if_false]
  have e : ((Request.NONE = .FREEZE) ∨ (Raw.res v = .res .OK ∧ cfg.update = true) ∨
      (Raw.res v = .res .DIFF ∧ cfg.accept = true)) ↔
      ((v = .OK ∧ cfg.update = true) ∨ (v = .DIFF ∧ cfg.accept = true)) := by
    simp
  by_cases ha : AutoAccepted cfg v
  · rw [if_pos ha, if_pos (e.mpr ha)]
    rcases freezeCase exp out n fs with ⟨f, _ | x⟩ <;> rfl
  · rw [if_neg ha, if_neg (fun h => ha (e.mp h))]

/-- What one test does, on the file system. -/
theorem runCase_ok {cfg : Config} (hc : NotAsking cfg) (hp : PlainNames ns) (hn : n ∈ ns)
    (h : SoundTree P.root ns fs) (ans : List Str) :
    ∃ fs', runCase P cfg n (fs, ans) = ((fs', ans), (caseSpec P cfg n (snapshot P.root fs n)).1) ∧
      SoundTree P.root ns fs' ∧
      snapshot P.root fs' n = (caseSpec P cfg n (snapshot P.root fs n)).2 ∧
      (∀ p, (∀ o x, (x = [] ∨ x ∈ endings) → ¬ slot P.root o n x <+: p) →
        fs'.get p = (makeDirs P n fs).get p) ∧
      (∀ s, runTest (P.env (snapshot P.root fs n)) (P.tests n).body = some s →
        AutoAccepted cfg (verdict (P.env (snapshot P.root fs n)) s) →
        ∀ c, fs'.get (slot P.root false n [] ++ [c]) =
          ((P.tests n).files.reverse.lookup c).map .file) := by
  have hpl := hp.1 n hn
  obtain ⟨l0, g0⟩ := makeDirs_ok hp hn h
  obtain ⟨f1, e1, l1, n1, g1⟩ := purge_live P hpl l0
  obtain ⟨f2, e2, l2, m2, g2⟩ := writeOutputs_live P hpl l1 [] [] []
  have hnil : ([] : Str) = [] ∨ ([] : Str) ∈ endings := Or.inl rfl
  have sep : ∀ {o o' : Bool} {x y : Str}, (x = [] ∨ x ∈ endings) → (y = [] ∨ y ∈ endings) →
      (o ≠ o' ∨ x ≠ y) → ¬ slot P.root o n x <+: slot P.root o' n y := by
    intro o o' x y hx hy hne hc'
    obtain ⟨h1, h2⟩ := own_sep hpl hx hy hc' List.prefix_rfl
    rcases hne with hne | hne
    · exact hne h1
    · exact hne h2
  -- the snapshot in the course of the test
  have s0 : (makeDirs P n fs).get (slot P.root false n ".md".toList) =
      fs.get (slot P.root false n ".md".toList) := by
    rw [g0, if_neg]
    rintro (hc' | hc')
    · exact slot_not_above hp hn hn (Or.inr mem_md) hc' List.prefix_rfl
    · exact slot_not_above hp hn hn (Or.inr mem_md) hc' List.prefix_rfl
  have st0 : snapshotText (makeDirs P n fs) (filePath P.root n ".md".toList) =
      snapshot P.root fs n := by
    rw [(filePath_slot P _).1, snapshotText, s0, snapshot]
    rcases fs.get (slot P.root false n ".md".toList) with _ | _ | _ <;> rfl
  have sd : (makeDirs P n fs).isDir (filePath P.root n ".md".toList) = false := by
    rw [(filePath_slot P _).1, FS.isDir, s0]
    have := h.files n hn false _ mem_md (by decide)
    cases hg : fs.get (slot P.root false n ".md".toList) with
    | none => rfl
    | some m =>
      cases m with
      | dir => exact absurd hg this
      | file c => rfl
  have s2 : f2.get (slot P.root false n ".md".toList) =
      fs.get (slot P.root false n ".md".toList) := by
    rw [g2, g1, s0]
    · exact sep hnil (Or.inr mem_md) (Or.inl (by decide))
    · exact sep (Or.inr (by decide)) (Or.inr mem_md) (Or.inl (by decide))
    · intro hc'; exact sep (o := true) (o' := false) (Or.inr mem_md) (Or.inr mem_md)
        (Or.inl (by decide)) (by rw [← hc']; exact List.prefix_rfl)
    · intro hc'; exact sep (o := true) (o' := false) (Or.inr mem_txt) (Or.inr mem_md)
        (Or.inl (by decide)) (by rw [← hc']; exact List.prefix_rfl)
    · intro hc'; exact sep (o := true) (o' := false) (Or.inr mem_log) (Or.inr mem_md)
        (Or.inl (by decide)) (by rw [← hc']; exact List.prefix_rfl)
  have fr2 : ∀ p, (∀ o x, (x = [] ∨ x ∈ endings) → ¬ slot P.root o n x <+: p) →
      f2.get p = (makeDirs P n fs).get p := by
    intro p hp'
    rw [g2, g1 p (hp' true [] hnil) (hp' true _ (Or.inr (by decide)))]
    · rintro rfl; exact hp' true _ (Or.inr mem_md) List.prefix_rfl
    · rintro rfl; exact hp' true _ (Or.inr mem_txt) List.prefix_rfl
    · rintro rfl; exact hp' true _ (Or.inr mem_log) List.prefix_rfl
  have unfold1 : runCase P cfg n (fs, ans) =
      match runTest (P.env (snapshot P.root fs n)) (P.tests n).body with
      | none => ((f2, ans), .hangs)
      | some s =>
        match writeFiles P.out n (P.tests n).files f2 with
        | .error x => ((f2, ans), .error x)
        | .ok fs3 =>
          match writeOutputs P.out n s.out (s.rep.map (· ++ "\n".toList)).flatten
              (P.tests n).log fs3 with
          | .error x => ((fs3, ans), .error x)
          | .ok fs4 => endCase P cfg n (verdict (P.env (snapshot P.root fs n)) s) ans fs4 := by
    unfold runCase
    simp only [e1, e2, sd, st0, Bool.false_eq_true, if_false]
    rfl
  rw [unfold1]
  cases hr : runTest (P.env (snapshot P.root fs n)) (P.tests n).body with
  | none =>
    refine ⟨f2, ?_, ?_, ?_, fr2, ?_⟩
    · simp only [caseSpec, hr]
    · exact sound_of_live hp hn h l2 fr2
    · simp only [caseSpec, hr]
      simp only [snapshot, s2]
    · intro s hs; cases hs
  | some s =>
    -- the files that the test writes
    have hbelow : ∀ q, f2.get (slot P.root true n [] ++ q) = none := by
      intro q
      have hroot : f2.get (slot P.root true n []) = none := by
        rw [g2, n1]
        · intro hc'; exact sep (o := true) (o' := true) hnil (Or.inr mem_md)
            (Or.inr (by decide)) (by rw [← hc']; exact List.prefix_rfl)
        · intro hc'; exact sep (o := true) (o' := true) hnil (Or.inr mem_txt)
            (Or.inr (by decide)) (by rw [← hc']; exact List.prefix_rfl)
        · intro hc'; exact sep (o := true) (o' := true) hnil (Or.inr mem_log)
            (Or.inr (by decide)) (by rw [← hc']; exact List.prefix_rfl)
      exact get_below_none l2.wf hroot q
    obtain ⟨f3, e3, l3, g3, c3⟩ := writeFiles_live P hpl (P.tests n).files l2
      (fun c => by rw [hbelow]; simp)
    obtain ⟨f4, e4, l4, m4, g4⟩ := writeOutputs_live P hpl l3 s.out
      (s.rep.map (· ++ "\n".toList)).flatten (P.tests n).log
    simp only [e3, e4]
    have fr4 : ∀ p, (∀ o x, (x = [] ∨ x ∈ endings) → ¬ slot P.root o n x <+: p) →
        f4.get p = (makeDirs P n fs).get p := by
      intro p hp'
      rw [g4, g3 p (hp' true [] hnil), fr2 p hp']
      · rintro rfl; exact hp' true _ (Or.inr mem_md) List.prefix_rfl
      · rintro rfl; exact hp' true _ (Or.inr mem_txt) List.prefix_rfl
      · rintro rfl; exact hp' true _ (Or.inr mem_log) List.prefix_rfl
    have s4 : f4.get (slot P.root false n ".md".toList) =
        fs.get (slot P.root false n ".md".toList) := by
      rw [g4, g3, s2]
      · exact sep hnil (Or.inr mem_md) (Or.inl (by decide))
      · intro hc'; exact sep (o := true) (o' := false) (Or.inr mem_md) (Or.inr mem_md)
          (Or.inl (by decide)) (by rw [← hc']; exact List.prefix_rfl)
      · intro hc'; exact sep (o := true) (o' := false) (Or.inr mem_txt) (Or.inr mem_md)
          (Or.inl (by decide)) (by rw [← hc']; exact List.prefix_rfl)
      · intro hc'; exact sep (o := true) (o' := false) (Or.inr mem_log) (Or.inr mem_md)
          (Or.inl (by decide)) (by rw [← hc']; exact List.prefix_rfl)
    have r4 : ∀ c, f4.get (slot P.root true n [] ++ [c]) =
        ((P.tests n).files.reverse.lookup c).map .file := by
      intro c
      rw [g4, c3, hbelow]
      · cases (P.tests n).files.reverse.lookup c <;> rfl
      · intro hc'; exact sep (o := true) (o' := true) hnil (Or.inr mem_md)
          (Or.inr (by decide)) (by rw [← hc']; exact List.prefix_append _ _)
      · intro hc'; exact sep (o := true) (o' := true) hnil (Or.inr mem_txt)
          (Or.inr (by decide)) (by rw [← hc']; exact List.prefix_append _ _)
      · intro hc'; exact sep (o := true) (o' := true) hnil (Or.inr mem_log)
          (Or.inr (by decide)) (by rw [← hc']; exact List.prefix_append _ _)
    -- storing the returned value
    have save : ∀ (g : FS) (r : Result), Live P.root n g →
        (∀ p, (∀ o x, (x = [] ∨ x ∈ endings) → ¬ slot P.root o n x <+: p) →
          g.get p = (makeDirs P n fs).get p) →
        ∃ fs', (if r = .OK ∨ r = .DIFF then
            match saveValue P.out n (P.tests n).returns g with
            | .error x => ((g, ans), CaseEnd.error x)
            | .ok g => ((g, ans), CaseEnd.done r .NONE)
          else ((g, ans), CaseEnd.done r .NONE)) = ((fs', ans), CaseEnd.done r .NONE) ∧
          Live P.root n fs' ∧
          (∀ p, (∀ o x, (x = [] ∨ x ∈ endings) → ¬ slot P.root o n x <+: p) →
            fs'.get p = (makeDirs P n fs).get p) ∧
          ∀ p, p ≠ slot P.root true n ".bin".toList → fs'.get p = g.get p := by
      intro g r hl hf
      by_cases hr' : r = .OK ∨ r = .DIFF
      · obtain ⟨g', e, l, k⟩ := saveValue_live P hpl hl (P.tests n).returns
        refine ⟨g', by simp only [hr', if_true, e], l, ?_, k⟩
        intro p hp'
        rw [k p, hf p hp']
        rintro rfl
        exact hp' true _ (Or.inr mem_bin) List.prefix_rfl
      · exact ⟨g, by simp only [hr', if_false], hl, hf, fun _ _ => rfl⟩
    have notbin : ∀ {o : Bool} {x : Str} {q : Path}, (x = [] ∨ x ∈ endings) →
        (o ≠ true ∨ x ≠ ".bin".toList) → slot P.root o n x ++ q ≠ slot P.root true n ".bin".toList := by
      intro o x q hx hne hc'
      exact sep hx (Or.inr mem_bin) hne (by rw [← hc']; exact List.prefix_append _ _)
    unfold endCase
    rw [caseReview_auto hc]
    by_cases ha : AutoAccepted cfg (verdict (P.env (snapshot P.root fs n)) s)
    · obtain ⟨f5, e5, l5, t5, q5, g5⟩ := freeze_live P hpl l4 m4
      have fr5 : ∀ p, (∀ o x, (x = [] ∨ x ∈ endings) → ¬ slot P.root o n x <+: p) →
          f5.get p = (makeDirs P n fs).get p := by
        intro p hp'
        rw [g5, fr4 p hp']
        intro o x hx
        rcases hx with rfl | rfl
        · exact hp' o _ hnil
        · exact hp' o _ (Or.inr mem_md)
      obtain ⟨f6, e6, l6, fr6, k6⟩ := save f5 .OK l5 fr5
      refine ⟨f6, ?_, sound_of_live hp hn h l6 fr6, ?_, fr6, ?_⟩
      · simp only [ha, if_true, e5, caseSpec, hr]
        exact e6
      · simp only [caseSpec, hr, ha, if_true]
        have : f6.get (slot P.root false n ".md".toList) = some (.file s.out) := by
          rw [k6, t5]
          have := notbin (o := false) (x := ".md".toList) (q := []) (Or.inr mem_md)
            (Or.inl (by decide))
          rwa [List.append_nil] at this
        simp only [snapshot, this]
      · intro s' hs' _ c
        rw [k6 _ (notbin hnil (Or.inl (by decide))), q5, r4]
    · obtain ⟨f6, e6, l6, fr6, k6⟩ := save f4 (verdict (P.env (snapshot P.root fs n)) s) l4 fr4
      refine ⟨f6, ?_, sound_of_live hp hn h l6 fr6, ?_, fr6, ?_⟩
      · simp only [ha, if_false, caseSpec, hr]
        exact e6
      · simp only [caseSpec, hr, ha, if_false]
        simp only [snapshot]
        rw [k6, s4]
        have := notbin (o := false) (x := ".md".toList) (q := []) (Or.inr mem_md)
          (Or.inl (by decide))
        rwa [List.append_nil] at this
      · intro s' hs' ha'
        cases hs'
        exact absurd ha' ha

/-- Other tests keep their snapshots. -/
theorem snapshot_other (hp : PlainNames ns) (hn : n ∈ ns) (h : SoundTree P.root ns fs) {fs' : FS}
    (hf : ∀ p, (∀ o x, (x = [] ∨ x ∈ endings) → ¬ slot P.root o n x <+: p) →
      fs'.get p = (makeDirs P n fs).get p) {m : Str} (hm : m ∈ ns) (hne : m ≠ n) :
    snapshot P.root fs' m = snapshot P.root fs m := by
  obtain ⟨-, g⟩ := makeDirs_ok hp hn h
  have : fs'.get (slot P.root false m ".md".toList) = fs.get (slot P.root false m ".md".toList) := by
    rw [hf, g, if_neg]
    · rintro (hc | hc)
      · exact slot_not_above hp hm hn (Or.inr mem_md) hc List.prefix_rfl
      · exact slot_not_above hp hm hn (Or.inr mem_md) hc List.prefix_rfl
    · intro o' y hy hc
      exact hne (slot_sep hp hn hm hy (Or.inr mem_md) hc List.prefix_rfl).1.symm
  simp only [snapshot, this]

/-- Making the output directory keeps the tree sound. -/
theorem mkOut_ok (hp : PlainNames ns) (h : SoundTree P.root ns fs) :
    SoundTree P.root ns (mkdirs fs P.out) ∧
    (∀ m ∈ ns, snapshot P.root (mkdirs fs P.out) m = snapshot P.root fs m) ∧
    ∀ q, q <+: P.out → (mkdirs fs P.out).get q = some .dir := by
  rw [out_eq]
  obtain ⟨w, g⟩ := mkdirs_ok h.wf h.cwd h.base
  have hslot : ∀ m ∈ ns, ∀ o x, (x = [] ∨ x ∈ endings) →
      (mkdirs fs (booksDir P.root true)).get (slot P.root o m x) = fs.get (slot P.root o m x) := by
    intro m hm o x hx
    rw [g, if_neg]
    exact fun hc => slot_not_root (hp.1 m hm) hx hc List.prefix_rfl
  have hdir : ∀ q m, fs.get q ≠ some m → m ≠ .dir →
      (mkdirs fs (booksDir P.root true)).get q ≠ some m := by
    intro q m h1 h2
    rw [g]
    split
    · intro hc; cases hc; exact h2 rfl
    · exact h1
  refine ⟨⟨w, ?_, ?_, ?_, ?_, ?_, ?_⟩, ?_, ?_⟩
  · rw [g, if_pos List.nil_prefix]
  · intro m hm o q hq t
    exact hdir q _ (h.ways m hm o q hq t) (by simp)
  · intro m hm o x hx hx'
    rw [hslot m hm o x (Or.inr hx)]; exact h.files m hm o x hx hx'
  · intro m hm o x hx t
    rw [hslot m hm o x (dirEnd hx)]; exact h.dirs m hm o x hx t
  · rw [g, if_neg]
    · exact h.index
    · intro hc
      rw [booksDir, if_pos rfl, List.prefix_append_right_inj] at hc
      obtain ⟨t, ht⟩ := hc
      simp only [List.cons_append, List.cons.injEq] at ht
      exact absurd ht.1 (by decide)
  · intro q hq t
    exact hdir q _ (h.base q hq t) (by simp)
  · intro m hm
    simp only [snapshot, hslot m hm false _ (Or.inr mem_md)]
  · intro q hq
    rw [g, if_pos hq]

/-- Writing the index keeps the tree sound and the snapshots. -/
theorem index_ok (hp : PlainNames ns) (h : SoundTree P.root ns fs)
    (hroot : fs.get P.root = some .dir) (text : Str) :
    ∃ fs', openW (P.root ++ ["index.md".toList]) text fs = .ok fs' ∧ SoundTree P.root ns fs' ∧
      ∀ m ∈ ns, snapshot P.root fs' m = snapshot P.root fs m := by
  have hd : fs.get (P.root ++ ["index.md".toList]).dropLast = some .dir := by
    rw [List.dropLast_concat]; exact hroot
  have g : ∀ p, (fs.write (P.root ++ ["index.md".toList]) text).get p =
      if p = P.root ++ ["index.md".toList] then some (.file text) else fs.get p := by
    intro p; unfold FS.write; rw [get_cons]
  have hslot : ∀ m ∈ ns, ∀ o x, (x = [] ∨ x ∈ endings) →
      (fs.write (P.root ++ ["index.md".toList]) text).get (slot P.root o m x) =
        fs.get (slot P.root o m x) := by
    intro m hm o x hx
    rw [g, if_neg]
    intro hc
    exact slot_not_index (hp.1 m hm) hx (o := o) (root := P.root) (by rw [hc]; exact List.prefix_rfl)
  refine ⟨_, openW_ok h.index hd text, ⟨wf_write h.wf h.index hd (by simp) text, ?_, ?_, ?_, ?_, ?_, ?_⟩,
    ?_⟩
  · rw [g, if_neg (by simp)]; exact h.cwd
  · intro m hm o q hq t
    rw [g]
    split
    · rename_i hc
      exfalso
      subst hc
      obtain ⟨cs, l, h1, h2⟩ := slot_shape m
      rw [slotDir, h1, List.dropLast_concat, booksDir] at hq
      cases o
      · simp only [Bool.false_eq_true, if_false, List.prefix_append_right_inj] at hq
        refine (hp.1 m hm).parts "index.md".toList ?_ ".md".toList (by decide) ⟨"index".toList, rfl⟩
        rw [h1]
        exact List.mem_append_left _ (hq.subset (by simp))
      · simp only [if_true, List.append_assoc, List.prefix_append_right_inj] at hq
        obtain ⟨t, ht⟩ := hq
        simp only [List.cons_append, List.cons.injEq] at ht
        exact absurd ht.1 (by decide)
    · exact h.ways m hm o q hq t
  · intro m hm o x hx hx'
    rw [hslot m hm o x (Or.inr hx)]; exact h.files m hm o x hx hx'
  · intro m hm o x hx t
    rw [hslot m hm o x (dirEnd hx)]; exact h.dirs m hm o x hx t
  · rw [g, if_pos rfl]; simp
  · intro q hq t
    rw [g, if_neg]
    · exact h.base q hq t
    · rintro rfl
      rw [booksDir, if_pos rfl, List.prefix_append_right_inj] at hq
      obtain ⟨t, ht⟩ := hq
      simp only [List.cons_append, List.cons.injEq] at ht
      exact absurd ht.1 (by decide)
  · intro m hm
    simp only [snapshot, hslot m hm false _ (Or.inr mem_md)]

/-- Many tests. -/
theorem runCases_ok {cfg : Config} (hc : NotAsking cfg) (hp : PlainNames ns) (ex : List Str)
    (hx : ∀ n ∈ ex, n ∈ ns) (hd : ex.Nodup) (h : SoundTree P.root ns fs) (ans : List Str) :
    ∃ fs', runCases P cfg ex (fs, ans) = (fs', ans) ∧ SoundTree P.root ns fs' ∧
      (fs.get P.root = some .dir → fs'.get P.root = some .dir) ∧
      ∀ m ∈ ns, snapshot P.root fs' m =
        if m ∈ ex then (caseSpec P cfg m (snapshot P.root fs m)).2 else snapshot P.root fs m := by
  induction ex generalizing fs with
  | nil => exact ⟨fs, rfl, h, fun h => h, fun m _ => by simp⟩
  | cons k ks ih =>
    have hk : k ∈ ns := hx k (by simp)
    obtain ⟨hk1, hk2⟩ := List.nodup_cons.mp hd
    obtain ⟨f1, e1, h1, s1, fr1, -⟩ := runCase_ok hc hp hk h ans
    obtain ⟨f2, e2, h2, r2, s2⟩ := ih (fun n hn => hx n (by simp [hn])) hk2 h1
    refine ⟨f2, ?_, h2, ?_, ?_⟩
    rotate_left
    · intro hr
      apply r2
      obtain ⟨-, g⟩ := makeDirs_ok hp hk h
      rw [fr1, g]
      · split
        · rfl
        · exact hr
      · intro o x hx
        exact slot_not_root (hp.1 k hk) hx (List.prefix_append _ _)
    rotate_left
    · simp only [runCases, List.foldl_cons, e1]
      exact e2
    · intro m hm
      rw [s2 m hm]
      by_cases hmk : m = k
      · subst hmk
        simp only [hk1, if_false, List.mem_cons, true_or, if_true, s1]
      · rw [snapshot_other hp hk h fr1 hm hmk]
        simp [hmk]

end Verif.Lemmas
