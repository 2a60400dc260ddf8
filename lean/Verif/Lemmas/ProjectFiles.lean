import Verif.Lemmas.Project

/-! # Facts about whole runs: the file operations of one test -/

namespace Verif.Lemmas
open Verif.Py Verif.Model Verif.Spec

/-! ### Making directories -/

theorem wf_add_dir {fs : FS} (hw : fs.WellFormed) {p : Path} (hp : fs.get p = some .dir) (c : Str) :
    FS.WellFormed ((p ++ [c], .dir) :: fs) := by
  intro q d h
  rw [get_cons] at h ⊢
  by_cases h1 : q = p ++ [c]
  · rw [if_pos h1]
  · rw [if_neg h1]
    by_cases h2 : q ++ [d] = p ++ [c]
    · obtain ⟨rfl, -⟩ := List.append_inj' h2 rfl
      exact hp
    · rw [if_neg h2] at h
      exact hw q d h

theorem mkdirsFrom_ok (cs : List Str) (fs : FS) (base : Path) (hw : fs.WellFormed)
    (hb : fs.get base = some .dir)
    (hf : ∀ q, q <+: base ++ cs → ∀ t, fs.get q ≠ some (.file t)) :
    (mkdirsFrom fs base cs).WellFormed ∧
    ∀ p, (mkdirsFrom fs base cs).get p =
      if base <+: p ∧ p <+: base ++ cs then some .dir else fs.get p := by
  induction cs generalizing fs base with
  | nil =>
    refine ⟨hw, ?_⟩
    intro p
    simp only [mkdirsFrom, List.append_nil]
    split
    · rename_i h
      rw [List.IsPrefix.eq_of_length h.1 (Nat.le_antisymm h.1.length_le h.2.length_le)] at hb
      exact hb
    · rfl
  | cons c cs ih =>
    have e1 : base ++ c :: cs = base ++ [c] ++ cs := by simp
    have split_case : ∀ p : Path, (base <+: p ∧ p <+: base ++ c :: cs) ↔
        p = base ∨ (base ++ [c] <+: p ∧ p <+: base ++ [c] ++ cs) := by
      intro p
      constructor
      · rintro ⟨⟨t, rfl⟩, h2⟩
        cases t with
        | nil => left; simp
        | cons k ks =>
          right
          rw [List.prefix_append_right_inj] at h2
          obtain ⟨u, hu⟩ := h2
          simp only [List.cons_append, List.cons.injEq] at hu
          obtain ⟨rfl, rfl⟩ := hu
          exact ⟨⟨ks, by simp⟩, ⟨u, by simp⟩⟩
      · rintro (rfl | ⟨h1, h2⟩)
        · exact ⟨List.prefix_rfl, List.prefix_append _ _⟩
        · exact ⟨(List.prefix_append _ _).trans h1, by rw [e1]; exact h2⟩
    simp only [mkdirsFrom]
    cases hg : fs.get (base ++ [c]) with
    | some n =>
      cases n with
      | file t => exact absurd hg (hf _ (by rw [e1]; exact List.prefix_append _ _) t)
      | dir =>
        obtain ⟨w, g⟩ := ih fs (base ++ [c]) hw hg (by rw [← e1]; exact hf)
        refine ⟨w, ?_⟩
        intro p
        rw [g p]
        by_cases h1 : base ++ [c] <+: p ∧ p <+: base ++ [c] ++ cs
        · rw [if_pos h1, if_pos ((split_case p).mpr (Or.inr h1))]
        · rw [if_neg h1]
          by_cases h2 : p = base
          · rw [if_pos ((split_case p).mpr (Or.inl h2)), h2, hb]
          · rw [if_neg]
            intro h
            rcases (split_case p).mp h with h | h
            · exact h2 h
            · exact h1 h
    | none =>
      have hw' := wf_add_dir hw hb c
      obtain ⟨w, g⟩ := ih ((base ++ [c], .dir) :: fs) (base ++ [c]) hw' (by rw [get_cons]; simp)
        (by
          intro q hq t
          rw [get_cons]
          split
          · simp
          · exact hf q (by rw [e1]; exact hq) t)
      refine ⟨w, ?_⟩
      intro p
      rw [g p]
      by_cases h1 : base ++ [c] <+: p ∧ p <+: base ++ [c] ++ cs
      · rw [if_pos h1, if_pos ((split_case p).mpr (Or.inr h1))]
      · rw [if_neg h1, get_cons]
        have hne : p ≠ base ++ [c] := by
          rintro rfl
          exact h1 ⟨List.prefix_rfl, List.prefix_append _ _⟩
        rw [if_neg hne]
        by_cases h2 : p = base
        · rw [if_pos ((split_case p).mpr (Or.inl h2)), h2, hb]
        · rw [if_neg]
          intro h
          rcases (split_case p).mp h with h | h
          · exact h2 h
          · exact h1 h

theorem mkdirs_ok {fs : FS} {d : Path} (hw : fs.WellFormed) (hb : fs.get [] = some .dir)
    (hf : ∀ q, q <+: d → ∀ t, fs.get q ≠ some (.file t)) :
    (mkdirs fs d).WellFormed ∧
    ∀ p, (mkdirs fs d).get p = if p <+: d then some .dir else fs.get p := by
  have := mkdirsFrom_ok d fs [] hw hb (by simpa using hf)
  simpa [mkdirs] using this

/-! ### The files of one test while it runs -/

/-- The directories of the test exist, and nothing odd is in the place of its files. -/
structure Live (root : Path) (n : Str) (fs : FS) : Prop where
  wf : fs.WellFormed
  dir : ∀ o, fs.get (slotDir root o n) = some .dir
  files : ∀ o x, x ∈ endings → x ≠ ".tmp".toList → fs.get (slot root o n x) ≠ some .dir
  dirs : ∀ o x, x = [] ∨ x = ".tmp".toList → ∀ t, fs.get (slot root o n x) ≠ some (.file t)

variable {root : Path} {n : Str}

theorem own_sep (hn : PlainName n) {p : Path} {o o' : Bool} {x y : Str} (hx : x = [] ∨ x ∈ endings)
    (hy : y = [] ∨ y ∈ endings) (h1 : slot root o n x <+: p) (h2 : slot root o' n y <+: p) :
    o = o' ∧ x = y :=
  (slot_sep (ns := [n]) ⟨by simpa using hn, by simp⟩ (by simp) (by simp) hx hy h1 h2).2

theorem own_not_above (hn : PlainName n) {q : Path} {o o' : Bool} {x : Str}
    (hx : x = [] ∨ x ∈ endings) (hq : q <+: slotDir root o' n) : ¬ slot root o n x <+: q :=
  slot_not_above (ns := [n]) ⟨by simpa using hn, by simp⟩ (by simp) (by simp) hx hq

theorem fileEnd {x : Str} (hx : x ∈ endings) (hx' : x ≠ ".tmp".toList) :
    x ≠ [] ∧ x ≠ ".tmp".toList := by
  refine ⟨?_, hx'⟩
  rintro rfl
  exact absurd hx (by decide)

theorem dirEnd {x : Str} (hx : x = [] ∨ x = ".tmp".toList) : x = [] ∨ x ∈ endings := by
  rcases hx with h | rfl
  · exact Or.inl h
  · exact Or.inr (by decide)

/-- Something happens below one of the places of the test only. -/
theorem Live.frame (hn : PlainName n) {fs fs' : FS} (h : Live root n fs) (hw : fs'.WellFormed)
    {o : Bool} {x : Str} (hx : x = [] ∨ x ∈ endings)
    (hf : ∀ p, ¬ slot root o n x <+: p → fs'.get p = fs.get p)
    (h1 : x ∈ endings → x ≠ ".tmp".toList → fs'.get (slot root o n x) ≠ some .dir)
    (h2 : x = [] ∨ x = ".tmp".toList → ∀ t, fs'.get (slot root o n x) ≠ some (.file t)) :
    Live root n fs' := by
  refine ⟨hw, ?_, ?_, ?_⟩
  · intro o'
    rw [hf _ (own_not_above hn hx List.prefix_rfl)]
    exact h.dir o'
  · intro o' y hy hy'
    by_cases he : o = o' ∧ x = y
    · obtain ⟨rfl, rfl⟩ := he
      exact h1 hy hy'
    · rw [hf _ (fun hc => he (own_sep hn hx (Or.inr hy) hc List.prefix_rfl))]
      exact h.files o' y hy hy'
  · intro o' y hy t
    by_cases he : o = o' ∧ x = y
    · obtain ⟨rfl, rfl⟩ := he
      exact h2 hy t
    · rw [hf _ (fun hc => he (own_sep hn hx (dirEnd hy) hc List.prefix_rfl))]
      exact h.dirs o' y hy t

/-! ### Writing a file -/

theorem wf_write {fs : FS} (hw : fs.WellFormed) {p : Path} (hp : fs.get p ≠ some .dir)
    (hd : fs.get p.dropLast = some .dir) (hne : p ≠ []) (t : Str) : (fs.write p t).WellFormed := by
  intro q d h
  unfold FS.write at h ⊢
  rw [get_cons] at h ⊢
  by_cases h2 : q ++ [d] = p
  · subst h2
    rw [List.dropLast_concat] at hd
    rw [if_neg (by intro hc; have := congrArg List.length hc; simp at this)]
    exact hd
  · rw [if_neg h2] at h
    have := hw q d h
    rw [if_neg]
    · exact this
    · rintro rfl; exact hp this

theorem openW_ok {fs : FS} {p : Path} (hp : fs.get p ≠ some .dir)
    (hd : fs.get p.dropLast = some .dir) (t : Str) : openW p t fs = .ok (fs.write p t) := by
  unfold openW
  cases hg : fs.get p with
  | none => simp [FS.isDir, hd]
  | some m =>
    cases m with
    | dir => exact absurd hg hp
    | file c => simp [FS.isDir, hd]

theorem Live.openW (hn : PlainName n) {fs : FS} (h : Live root n fs) (o : Bool) {x : Str}
    (hx : x ∈ endings) (hx' : x ≠ ".tmp".toList) (t : Str) :
    ∃ fs', Model.openW (slot root o n x) t fs = .ok fs' ∧ Live root n fs' ∧
      ∀ p, fs'.get p = if p = slot root o n x then some (.file t) else fs.get p := by
  have hd : fs.get (slot root o n x).dropLast = some .dir := by
    rw [slot_dropLast root o n (Or.inr hx)]; exact h.dir o
  have hg : ∀ p, (fs.write (slot root o n x) t).get p =
      if p = slot root o n x then some (.file t) else fs.get p := by
    intro p; unfold FS.write; rw [get_cons]
  refine ⟨_, openW_ok (h.files o x hx hx') hd t, ?_, hg⟩
  refine h.frame hn (wf_write h.wf (h.files o x hx hx') hd (slot_ne_nil root o n (Or.inr hx)) t)
    (o := o) (x := x) (Or.inr hx) ?_ ?_ ?_
  · intro p hp
    rw [hg, if_neg]
    rintro rfl
    exact hp List.prefix_rfl
  · intro _ _
    rw [hg, if_pos rfl]; simp
  · intro hc
    rcases hc with hc | hc
    · exact absurd hc (fileEnd hx hx').1
    · exact absurd hc hx'

/-! ### Removing -/

theorem wf_below {fs fs' : FS} (hw : fs.WellFormed) {d : Path}
    (hg : ∀ p, fs'.get p = if d <+: p then none else fs.get p) : fs'.WellFormed := by
  intro q c h
  rw [hg] at h
  split at h
  · cases h
  · rename_i hnp
    rw [hg, if_neg (fun hc => hnp (hc.trans (List.prefix_append _ _)))]
    exact hw q c h

theorem Live.removeIfThere (hn : PlainName n) {fs : FS} (h : Live root n fs) (o : Bool) {x : Str}
    (hx : x = [] ∨ x = ".tmp".toList) :
    ∃ fs', Model.removeIfThere (slot root o n x) fs = .ok fs' ∧ Live root n fs' ∧
      ∀ p, fs'.get p = if slot root o n x <+: p then none else fs.get p := by
  have main : ∃ fs', Model.removeIfThere (slot root o n x) fs = .ok fs' ∧
      ∀ p, fs'.get p = if slot root o n x <+: p then none else fs.get p := by
    unfold Model.removeIfThere
    rcases Option.eq_none_or_eq_some (fs.get (slot root o n x)) with hg | ⟨m, hg⟩
    · refine ⟨fs, by simp [FS.exists_, hg], ?_⟩
      intro p
      split
      · rename_i hp
        obtain ⟨q, rfl⟩ := hp
        exact get_below_none h.wf hg q
      · rfl
    · cases m with
      | file t => exact absurd hg (h.dirs o x hx t)
      | dir =>
        refine ⟨_, by simp only [FS.exists_, hg, Option.isSome_some, if_true, FS.rmtree]; rfl, ?_⟩
        intro p
        rw [get_filter (fun k => !(slot root o n x).isPrefixOf k), isPrefixOf_eq]
        by_cases hp : slot root o n x <+: p <;> simp [hp]
  obtain ⟨fs', e, hg⟩ := main
  refine ⟨fs', e, ?_, hg⟩
  refine h.frame hn (wf_below h.wf hg) (o := o) (x := x) (dirEnd hx) ?_ ?_ ?_
  · intro p hp; rw [hg, if_neg hp]
  · intro _ _; rw [hg, if_pos List.prefix_rfl]; simp
  · intro _ t; rw [hg, if_pos List.prefix_rfl]; simp

theorem Live.remove (hn : PlainName n) {fs : FS} (h : Live root n fs) (o : Bool) {x : Str}
    (hx : x ∈ endings) (hx' : x ≠ ".tmp".toList) (he : fs.exists_ (slot root o n x) = true) :
    ∃ fs', fs.remove (slot root o n x) = .ok fs' ∧ Live root n fs' ∧
      ∀ p, fs'.get p = if p = slot root o n x then none else fs.get p := by
  cases hg : fs.get (slot root o n x) with
  | none => simp [FS.exists_, hg] at he
  | some m =>
    cases m with
    | dir => exact absurd hg (h.files o x hx hx')
    | file c =>
      have hg' : ∀ p, FS.get (fs.filter (fun e => decide (e.1 ≠ slot root o n x))) p =
          if p = slot root o n x then none else fs.get p := by
        intro p
        rw [get_filter (fun k => decide (k ≠ slot root o n x))]
        by_cases hp : p = slot root o n x <;> simp [hp]
      refine ⟨_, by simp only [FS.remove, hg], ?_, hg'⟩
      have hw : FS.WellFormed (fs.filter (fun e => decide (e.1 ≠ slot root o n x))) := by
        intro q d hq
        rw [hg'] at hq ⊢
        split at hq
        · cases hq
        · have := h.wf q d hq
          rw [if_neg]
          · exact this
          · rintro rfl; rw [hg] at this; cases this
      refine h.frame hn hw (o := o) (x := x) (Or.inr hx) ?_ ?_ ?_
      · intro p hp
        rw [hg', if_neg]
        rintro rfl
        exact hp List.prefix_rfl
      · intro _ _; rw [hg', if_pos rfl]; simp
      · intro hc
        rcases hc with hc | hc
        · exact absurd hc (fileEnd hx hx').1
        · exact absurd hc hx'

/-! ### The model's paths -/

theorem out_eq (P : Project) : P.out = booksDir P.root true := rfl

theorem filePath_slot (P : Project) (x : Str) :
    filePath P.root n x = slot P.root false n x ∧ filePath P.out n x = slot P.root true n x :=
  ⟨rfl, rfl⟩

theorem dirPath_slot (P : Project) :
    dirPath P.root n = slot P.root false n [] ∧ dirPath P.out n = slot P.root true n [] := by
  simp [dirPath, slot, booksDir, Project.out]

theorem dirPath_tmp (P : Project) :
    dirPath P.out (n ++ ".tmp".toList) = slot P.root true n ".tmp".toList := rfl

theorem baseDir_slot (P : Project) :
    baseDir P.root n = slotDir P.root false n ∧ baseDir P.out n = slotDir P.root true n :=
  ⟨rfl, rfl⟩

/-! ### The steps of a test -/

theorem mem_md : ".md".toList ∈ endings := by decide
theorem mem_txt : ".txt".toList ∈ endings := by decide
theorem mem_log : ".log".toList ∈ endings := by decide
theorem mem_bin : ".bin".toList ∈ endings := by decide

theorem purge_live (P : Project) (hn : PlainName n) {fs : FS} (h : Live P.root n fs) :
    ∃ fs', purge P.out n fs = .ok fs' ∧ Live P.root n fs' ∧
      fs'.get (slot P.root true n []) = none ∧
      ∀ p, ¬ slot P.root true n [] <+: p → ¬ slot P.root true n ".tmp".toList <+: p →
        fs'.get p = fs.get p := by
  obtain ⟨f1, e1, l1, g1⟩ := h.removeIfThere hn true (x := []) (Or.inl rfl)
  obtain ⟨f2, e2, l2, g2⟩ := l1.removeIfThere hn true (x := ".tmp".toList) (Or.inr rfl)
  refine ⟨f2, ?_, l2, ?_, ?_⟩
  · unfold purge
    rw [(dirPath_slot P).2, e1]
    exact e2
  · rw [g2, g1]
    split
    · rfl
    · rw [if_pos List.prefix_rfl]
  · intro p h1 h2
    rw [g2, if_neg h2, g1, if_neg h1]

theorem writeOutputs_live (P : Project) (hn : PlainName n) {fs : FS} (h : Live P.root n fs)
    (md txt log : Str) :
    ∃ fs', writeOutputs P.out n md txt log fs = .ok fs' ∧ Live P.root n fs' ∧
      fs'.get (slot P.root true n ".md".toList) = some (.file md) ∧
      ∀ p, p ≠ slot P.root true n ".md".toList → p ≠ slot P.root true n ".txt".toList →
        p ≠ slot P.root true n ".log".toList → fs'.get p = fs.get p := by
  obtain ⟨f1, e1, l1, g1⟩ := h.openW hn true mem_md (by decide) md
  obtain ⟨f2, e2, l2, g2⟩ := l1.openW hn true mem_txt (by decide) txt
  obtain ⟨f3, e3, l3, g3⟩ := l2.openW hn true mem_log (by decide) log
  have ne : ∀ {x y : Str}, x ∈ endings → y ∈ endings → x ≠ y →
      slot P.root true n x ≠ slot P.root true n y := by
    intro x y hx hy hxy hc
    exact hxy (own_sep hn (Or.inr hx) (Or.inr hy) (p := slot P.root true n y)
      (by rw [hc]; exact List.prefix_rfl) List.prefix_rfl).2
  refine ⟨f3, ?_, l3, ?_, ?_⟩
  · unfold writeOutputs
    simp only [(filePath_slot P _).2, e1, e2, e3, bind, Except.bind]
  · rw [g3, if_neg (ne mem_md mem_log (by decide)), g2, if_neg (ne mem_md mem_txt (by decide)), g1,
      if_pos rfl]
  · intro p h1 h2 h3
    rw [g3, if_neg h3, g2, if_neg h2, g1, if_neg h1]

/-- The state of the directory of resource files while files are written. -/
theorem writeFile_live (P : Project) (hn : PlainName n) {fs : FS} (h : Live P.root n fs)
    (f : Str × Str) (hs : ∀ c, fs.get (slot P.root true n [] ++ [c]) ≠ some .dir) :
    ∃ fs', writeFile P.out n f fs = .ok fs' ∧ Live P.root n fs' ∧
      (∀ c, fs'.get (slot P.root true n [] ++ [c]) ≠ some .dir) ∧
      fs'.get (slot P.root true n []) = some .dir ∧
      (∀ p, ¬ slot P.root true n [] <+: p → fs'.get p = fs.get p) ∧
      ∀ c, fs'.get (slot P.root true n [] ++ [c]) =
        if c = f.1 then some (.file f.2) else fs.get (slot P.root true n [] ++ [c]) := by
  -- the directory is there
  have hdir : ∀ g : FS, Live P.root n g → g.get (slot P.root true n []) = some .dir →
      (∀ c, g.get (slot P.root true n [] ++ [c]) ≠ some .dir) →
      ∃ fs', openW (slot P.root true n [] ++ [f.1]) f.2 g = .ok fs' ∧ Live P.root n fs' ∧
        (∀ c, fs'.get (slot P.root true n [] ++ [c]) ≠ some .dir) ∧
        fs'.get (slot P.root true n []) = some .dir ∧
        (∀ p, ¬ slot P.root true n [] <+: p → fs'.get p = g.get p) ∧
        ∀ c, fs'.get (slot P.root true n [] ++ [c]) =
          if c = f.1 then some (.file f.2) else g.get (slot P.root true n [] ++ [c]) := by
    intro g hl hd hc
    have hg : ∀ p, (g.write (slot P.root true n [] ++ [f.1]) f.2).get p =
        if p = slot P.root true n [] ++ [f.1] then some (.file f.2) else g.get p := by
      intro p; unfold FS.write; rw [get_cons]
    have hd' : g.get (slot P.root true n [] ++ [f.1]).dropLast = some .dir := by
      rw [List.dropLast_concat]; exact hd
    have hself : (g.write (slot P.root true n [] ++ [f.1]) f.2).get (slot P.root true n []) =
        some .dir := by
      rw [hg, if_neg, hd]
      intro hx
      have := congrArg List.length hx
      simp at this
    refine ⟨_, openW_ok (hc f.1) hd' f.2, ?_, ?_, hself, ?_, ?_⟩
    · refine hl.frame hn (wf_write hl.wf (hc f.1) hd' (by simp) f.2) (o := true) (x := [])
        (Or.inl rfl) ?_ ?_ ?_
      · intro p hp
        rw [hg, if_neg]
        rintro rfl
        exact hp (List.prefix_append _ _)
      · intro hx; exact absurd hx (by decide)
      · intro _ t; rw [hself]; simp
    · intro c
      rw [hg]
      split
      · simp
      · exact hc c
    · intro p hp
      rw [hg, if_neg]
      rintro rfl
      exact hp (List.prefix_append _ _)
    · intro c
      rw [hg]
      simp
  unfold writeFile
  rw [(dirPath_slot P).2]
  by_cases he : fs.exists_ (slot P.root true n []) = true
  · rw [if_pos he]
    have hd : fs.get (slot P.root true n []) = some .dir := by
      cases hg : fs.get (slot P.root true n []) with
      | none => simp [FS.exists_, hg] at he
      | some m =>
        cases m with
        | dir => rfl
        | file t => exact absurd hg (h.dirs true [] (Or.inl rfl) t)
    exact hdir fs h hd hs
  · rw [if_neg he]
    have hnone : fs.get (slot P.root true n []) = none := by
      cases hg : fs.get (slot P.root true n []) with
      | none => rfl
      | some m => simp [FS.exists_, hg] at he
    have hd : fs.get (slot P.root true n []).dropLast = some .dir := by
      rw [slot_dropLast P.root true n (Or.inl rfl)]; exact h.dir true
    have hmk : mkdir (slot P.root true n []) fs = .ok ((slot P.root true n [], .dir) :: fs) := by
      unfold mkdir
      rw [if_neg he]
      simp [FS.isDir, hd]
    rw [hmk]
    have hg : ∀ p, FS.get ((slot P.root true n [], .dir) :: fs) p =
        if p = slot P.root true n [] then some .dir else fs.get p := fun p => get_cons _ _ _ _
    have hl : Live P.root n ((slot P.root true n [], .dir) :: fs) := by
      have hw : FS.WellFormed ((slot P.root true n [], .dir) :: fs) := by
        have := wf_add_dir h.wf hd ((slot P.root true n []).getLast
          (slot_ne_nil P.root true n (Or.inl rfl)))
        rwa [List.dropLast_concat_getLast] at this
      refine h.frame hn hw (o := true) (x := []) (Or.inl rfl) ?_ ?_ ?_
      · intro p hp
        rw [hg, if_neg]
        rintro rfl
        exact hp List.prefix_rfl
      · intro hx; exact absurd hx (by decide)
      · intro _ t; rw [hg, if_pos rfl]; simp
    have hchild : ∀ c, FS.get ((slot P.root true n [], .dir) :: fs) (slot P.root true n [] ++ [c]) =
        fs.get (slot P.root true n [] ++ [c]) := by
      intro c
      rw [hg, if_neg]
      intro hx
      have := congrArg List.length hx
      simp at this
    obtain ⟨fs', a1, a2, a3, a4, a5, a6⟩ := hdir _ hl (by rw [hg, if_pos rfl])
      (by intro c; rw [hchild]; exact hs c)
    refine ⟨fs', a1, a2, a3, a4, ?_, ?_⟩
    · intro p hp
      rw [a5 p hp, hg, if_neg]
      rintro rfl
      exact hp List.prefix_rfl
    · intro c
      rw [a6, hchild]

theorem writeFiles_live (P : Project) (hn : PlainName n) (files : List (Str × Str)) {fs : FS}
    (h : Live P.root n fs) (hs : ∀ c, fs.get (slot P.root true n [] ++ [c]) ≠ some .dir) :
    ∃ fs', writeFiles P.out n files fs = .ok fs' ∧ Live P.root n fs' ∧
      (∀ p, ¬ slot P.root true n [] <+: p → fs'.get p = fs.get p) ∧
      ∀ c, fs'.get (slot P.root true n [] ++ [c]) =
        match (files.reverse.lookup c) with
        | some t => some (.file t)
        | none => fs.get (slot P.root true n [] ++ [c]) := by
  induction files generalizing fs with
  | nil => exact ⟨fs, rfl, h, fun _ _ => rfl, fun _ => rfl⟩
  | cons f rest ih =>
    obtain ⟨f1, e1, l1, s1, d1, g1, c1⟩ := writeFile_live P hn h f hs
    obtain ⟨f2, e2, l2, g2, c2⟩ := ih l1 s1
    refine ⟨f2, ?_, l2, ?_, ?_⟩
    · simp only [writeFiles, e1, e2]
    · intro p hp
      rw [g2 p hp, g1 p hp]
    · intro c
      rw [c2, c1, List.reverse_cons]
      have hlook : ∀ (l : List (Str × Str)), (l ++ [f]).lookup c =
          (l.lookup c).or (if c = f.1 then some f.2 else none) := by
        intro l
        obtain ⟨k, v⟩ := f
        induction l with
        | nil =>
          by_cases hc : c = k
          · subst hc; simp
          · have hb : (c == k) = false := by simpa using hc
            simp only [List.nil_append, List.lookup_cons, hb, List.lookup_nil, hc, if_false,
              Option.or_none]
        | cons e l ih =>
          obtain ⟨k', v'⟩ := e
          rw [List.cons_append, List.lookup_cons, List.lookup_cons, ih]
          cases c == k' <;> rfl
      rw [hlook]
      cases rest.reverse.lookup c with
      | some t => rfl
      | none =>
        simp only [Option.none_or]
        split <;> simp_all

theorem saveValue_live (P : Project) (hn : PlainName n) {fs : FS} (h : Live P.root n fs)
    (v : Option Str) :
    ∃ fs', saveValue P.out n v fs = .ok fs' ∧ Live P.root n fs' ∧
      ∀ p, p ≠ slot P.root true n ".bin".toList → fs'.get p = fs.get p := by
  unfold saveValue
  rw [(filePath_slot P _).2]
  cases v with
  | none =>
    by_cases he : fs.exists_ (slot P.root true n ".bin".toList) = true
    · obtain ⟨fs', e, l, g⟩ := h.remove hn true mem_bin (by decide) he
      refine ⟨fs', ?_, l, fun p hp => by rw [g, if_neg hp]⟩
      simp only [he, if_true]
      exact e
    · refine ⟨fs, ?_, h, fun p hp => rfl⟩
      simp only [he, Bool.false_eq_true, if_false]
  | some v =>
    obtain ⟨fs', e, l, g⟩ := h.openW hn true mem_bin (by decide) v
    exact ⟨fs', e, l, fun p hp => by rw [g, if_neg hp]⟩

theorem slot_apart (P : Project) (hn : PlainName n) : Apart P.root P.out n :=
  Or.inl ⟨rfl, hn.top⟩

theorem resourceDir_slot (P : Project) :
    resourceDir P.root n = slot P.root false n [] ∧ resourceDir P.out n = slot P.root true n [] := by
  simp [resourceDir, slot, booksDir, Project.out]

theorem mdFile_slot (P : Project) :
    mdFile P.root n = slot P.root false n ".md".toList ∧
    mdFile P.out n = slot P.root true n ".md".toList := ⟨rfl, rfl⟩

theorem freeze_live (P : Project) (hn : PlainName n) {fs : FS} (h : Live P.root n fs) {t : Str}
    (ht : fs.get (slot P.root true n ".md".toList) = some (.file t)) :
    ∃ fs', freezeCase P.root P.out n fs = (fs', none) ∧ Live P.root n fs' ∧
      fs'.get (slot P.root false n ".md".toList) = some (.file t) ∧
      (∀ q, fs'.get (slot P.root false n [] ++ q) = fs.get (slot P.root true n [] ++ q)) ∧
      ∀ p, (∀ o x, x = [] ∨ x = ".md".toList → ¬ slot P.root o n x <+: p) →
        fs'.get p = fs.get p := by
  have ha := slot_apart P hn
  have hr : Ready fs P.root P.out n := by
    refine ⟨h.wf, ⟨t, ht⟩, ?_, ?_, ?_, ?_⟩
    · rw [(mdFile_slot P).1, slot_dropLast P.root false n (Or.inr mem_md)]; exact h.dir false
    · exact h.files false _ mem_md (by decide)
    · rw [(resourceDir_slot P).1]; exact h.dirs false [] (Or.inl rfl)
    · rw [(resourceDir_slot P).2]; exact h.dirs true [] (Or.inl rfl)
  obtain ⟨fs', e, g⟩ := freeze_ok ha hr
  rw [(resourceDir_slot P).1, (resourceDir_slot P).2, (mdFile_slot P).1, (mdFile_slot P).2] at g
  have sep : ∀ {p : Path} {o o' : Bool} {x y : Str}, (x = [] ∨ x ∈ endings) → (y = [] ∨ y ∈ endings)
      → slot P.root o n x <+: p → slot P.root o' n y <+: p → o = o' ∧ x = y :=
    fun hx hy => own_sep hn hx hy
  have hnil : ([] : Str) = [] ∨ ([] : Str) ∈ endings := Or.inl rfl
  have hmd : ".md".toList = [] ∨ ".md".toList ∈ endings := Or.inr mem_md
  have gframe : ∀ p, (∀ o x, x = [] ∨ x = ".md".toList → ¬ slot P.root o n x <+: p) →
      fs'.get p = fs.get p := by
    intro p hp
    rw [g, if_neg, if_neg, if_neg (hp false [] (Or.inl rfl)), if_neg (hp true [] (Or.inl rfl))]
    · rintro rfl; exact hp true _ (Or.inr rfl) List.prefix_rfl
    · rintro rfl; exact hp false _ (Or.inr rfl) List.prefix_rfl
  have g1 : fs'.get (slot P.root false n ".md".toList) = some (.file t) := by
    rw [g, if_pos rfl, ht]
  have g2 : ∀ q, fs'.get (slot P.root false n [] ++ q) = fs.get (slot P.root true n [] ++ q) := by
    intro q
    rw [g, if_neg, if_neg, if_pos (List.prefix_append _ _), List.drop_left]
    · intro hc
      exact absurd (sep (p := slot P.root true n ".md".toList) hnil hmd ⟨q, hc⟩ List.prefix_rfl).2
        (by decide)
    · intro hc
      exact absurd (sep (p := slot P.root false n ".md".toList) hnil hmd ⟨q, hc⟩ List.prefix_rfl).2
        (by decide)
  have g3 : fs'.get (slot P.root true n ".md".toList) = none := by
    rw [g, if_neg, if_pos rfl]
    intro hc
    exact absurd (sep (o := true) (o' := false) hmd hmd List.prefix_rfl
      (by rw [hc]; exact List.prefix_rfl)).1 (by decide)
  have g4 : ∀ q, fs'.get (slot P.root true n [] ++ q) = none := by
    intro q
    rw [g, if_neg, if_neg, if_neg, if_pos (List.prefix_append _ _)]
    · intro hc
      exact absurd (sep hnil hnil hc (List.prefix_append (slot P.root true n []) q)).1 (by decide)
    · intro hc
      exact absurd (sep (p := slot P.root true n ".md".toList) hnil hmd ⟨q, hc⟩ List.prefix_rfl).2
        (by decide)
    · intro hc
      exact absurd (sep (p := slot P.root false n ".md".toList) hnil hmd ⟨q, hc⟩ List.prefix_rfl).2
        (by decide)
  have gdir : ∀ o, fs'.get (slotDir P.root o n) = some .dir := by
    intro o
    rw [gframe _ _]
    · exact h.dir o
    · intro o' x hx
      exact own_not_above hn (by rcases hx with h | h
                                 · exact Or.inl h
                                 · rw [h]; exact hmd) List.prefix_rfl
  have hwf : fs'.WellFormed := by
    intro p c hp
    -- where is the entry?
    by_cases w1 : p ++ [c] = slot P.root false n ".md".toList
    · have : p = slotDir P.root false n := by
        rw [← slot_dropLast P.root false n hmd, ← w1, List.dropLast_concat]
      rw [this]; exact gdir false
    by_cases w2 : slot P.root false n [] <+: p ++ [c]
    · rcases prefix_concat w2 with w2 | w2
      · obtain ⟨q, rfl⟩ := w2
        rw [List.append_assoc, g2] at hp
        rw [g2]
        exact h.wf _ c (by rw [List.append_assoc]; exact hp)
      · have : p = slotDir P.root false n := by
          rw [← slot_dropLast P.root false n hnil, w2, List.dropLast_concat]
        rw [this]; exact gdir false
    by_cases w3 : p ++ [c] = slot P.root true n ".md".toList
    · rw [w3, g3] at hp; cases hp
    by_cases w4 : slot P.root true n [] <+: p ++ [c]
    · obtain ⟨q, hq⟩ := w4
      rw [← hq, g4] at hp; cases hp
    rw [g, if_neg w1, if_neg w3, if_neg w2, if_neg w4] at hp
    have hd := h.wf p c hp
    rw [g, if_neg, if_neg, if_neg, if_neg]
    · exact hd
    · exact fun hc => w4 (hc.trans (List.prefix_append _ _))
    · exact fun hc => w2 (hc.trans (List.prefix_append _ _))
    · rintro rfl; exact h.files true _ mem_md (by decide) hd
    · rintro rfl; exact h.files false _ mem_md (by decide) hd
  refine ⟨fs', e, ⟨hwf, gdir, ?_, ?_⟩, g1, g2, gframe⟩
  · intro o x hx hx'
    by_cases hm : x = ".md".toList
    · subst hm
      cases o
      · rw [g1]; simp
      · rw [g3]; simp
    · rw [gframe _ _]
      · exact h.files o x hx hx'
      · intro o' y hy hc
        have := (sep (by rcases hy with h | h
                         · exact Or.inl h
                         · rw [h]; exact hmd) (Or.inr hx) hc List.prefix_rfl).2
        rcases hy with rfl | rfl
        · subst this; exact absurd hx (by decide)
        · exact hm this.symm
  · intro o x hx t'
    rcases hx with rfl | rfl
    · cases o
      · have := g2 []
        rw [List.append_nil, List.append_nil] at this
        rw [this]; exact h.dirs true [] (Or.inl rfl) t'
      · have := g4 []
        rw [List.append_nil] at this
        rw [this]; simp
    · rw [gframe _ _]
      · exact h.dirs o _ (Or.inr rfl) t'
      · intro o' y hy hc
        have := (sep (by rcases hy with h | h
                         · exact Or.inl h
                         · rw [h]; exact hmd) (Or.inr (by decide)) hc List.prefix_rfl).2
        rcases hy with rfl | rfl
        · exact absurd this (by decide)
        · exact absurd this (by decide)

end Verif.Lemmas
