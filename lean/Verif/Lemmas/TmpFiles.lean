import Verif.Spec.TmpFiles
import Verif.Lemmas.ProjectRun

/-! # Facts about temporary files -/

namespace Verif.Lemmas
open Verif.Py Verif.Model Verif.Spec

variable {root : Path} {n : Str} {fs : FS} {s s' : Place}

/-- The directory of temporary files of the test holds what is in its place. -/
structure HoldsTmp (root : Path) (n : Str) (fs : FS) (s : Place) : Prop where
  live : Live root n fs
  has : ∀ q, fs.get (slot root true n ".tmp".toList ++ q) = s q

theorem mem_tmp : ".tmp".toList ∈ endings := by decide

theorem asked_cons (a : Str) (q : Path) : s.asked (a :: q) = s (a :: q) := by
  unfold Place.asked Place.put
  rw [if_neg (by simp)]

theorem asked_nil : s.asked [] = some .dir := by
  unfold Place.asked Place.put
  rw [if_pos rfl]

/-- Something is put below the directory. -/
theorem holds_put (hn : PlainName n) (h : HoldsTmp root n fs s) (hs : s [] = some .dir) {p : Path} (hp : p ≠ [])
    (hd : s p.dropLast = some .dir) (x : Node) (hx : x = .dir ∨ s p ≠ some .dir) :
    HoldsTmp root n ((slot root true n ".tmp".toList ++ p, x) :: fs) (s.put p x) ∧
    ∀ q, ¬ slot root true n ".tmp".toList <+: q → FS.get ((slot root true n ".tmp".toList ++ p, x) :: fs) q = fs.get q := by
  have hlast : slot root true n ".tmp".toList ++ p =
      (slot root true n ".tmp".toList ++ p.dropLast) ++ [p.getLast hp] := by
    rw [List.append_assoc, List.dropLast_concat_getLast]
  have hdir : fs.get (slot root true n ".tmp".toList ++ p.dropLast) = some .dir := by rw [h.has]; exact hd
  have hwf : FS.WellFormed ((slot root true n ".tmp".toList ++ p, x) :: fs) := by
    cases x with
    | dir => rw [hlast]; exact wf_add_dir h.live.wf hdir _
    | file t =>
      refine wf_write h.live.wf ?_ ?_ (by simp [hp]) t
      · rw [h.has]; exact hx.resolve_left (by simp)
      · rw [hlast, List.dropLast_concat]; exact hdir
  have hfr : ∀ q, ¬ slot root true n ".tmp".toList <+: q →
      FS.get ((slot root true n ".tmp".toList ++ p, x) :: fs) q = fs.get q := by
    intro q hq
    rw [get_cons, if_neg]
    rintro rfl
    exact hq (List.prefix_append _ _)
  have hhas : ∀ q, FS.get ((slot root true n ".tmp".toList ++ p, x) :: fs) (slot root true n ".tmp".toList ++ q) =
      s.put p x q := by
    intro q
    rw [get_cons, h.has]
    unfold Place.put
    by_cases hq : q = p
    · rw [if_pos hq, if_pos (by rw [hq])]
    · rw [if_neg hq, if_neg (fun hc => hq (List.append_cancel_left hc))]
  refine ⟨⟨h.live.frame hn hwf (Or.inr mem_tmp) hfr ?_ ?_, hhas⟩, hfr⟩
  · intro _ h1; exact absurd rfl h1
  · intro _ t hc
    have := hhas []
    rw [List.append_nil, hc] at this
    unfold Place.put at this
    rw [if_neg (fun h => hp h.symm), hs] at this
    cases this

/-- `tmp_path` -/
theorem tmpPath_ok (hn : PlainName n) (h : HoldsTmp root n fs s) :
    ∃ fs1, tmpPath (root ++ [".out".toList]) n fs = .ok fs1 ∧ HoldsTmp root n fs1 s.asked ∧
      ∀ q, ¬ slot root true n ".tmp".toList <+: q → fs1.get q = fs.get q := by
  have ht : tmpDir (root ++ [".out".toList]) n = slot root true n ".tmp".toList := rfl
  have h0 : fs.get (slot root true n ".tmp".toList) = s [] := by
    have := h.has []
    rwa [List.append_nil] at this
  unfold tmpPath
  rw [ht]
  cases hg : fs.get (slot root true n ".tmp".toList) with
  | some x =>
    cases x with
    | file t => exact absurd hg (h.live.dirs true _ (Or.inr rfl) t)
    | dir =>
      refine ⟨fs, by rw [if_pos (by unfold FS.exists_; rw [hg]; rfl)], ⟨h.live, ?_⟩, fun _ _ => rfl⟩
      intro q
      rw [h.has]
      unfold Place.asked Place.put
      split
      · rename_i hq; rw [hq, ← h0, hg]
      · rfl
  | none =>
    have hd : fs.get (slot root true n ".tmp".toList).dropLast = some .dir := by
      rw [slot_dropLast root true n (Or.inr mem_tmp)]; exact h.live.dir true
    have hmk : mkdir (slot root true n ".tmp".toList) fs = .ok ((slot root true n ".tmp".toList, .dir) :: fs) := by
      unfold mkdir
      rw [if_neg (by unfold FS.exists_; rw [hg]; simp), if_pos (by unfold FS.isDir; rw [hd]; rfl)]
    have hne : slot root true n ".tmp".toList ≠ [] := slot_ne_nil root true n (Or.inr mem_tmp)
    have hwf : FS.WellFormed ((slot root true n ".tmp".toList, .dir) :: fs) := by
      have := wf_add_dir h.live.wf hd ((slot root true n ".tmp".toList).getLast hne)
      rwa [List.dropLast_concat_getLast] at this
    have hfr : ∀ q, ¬ slot root true n ".tmp".toList <+: q →
        FS.get ((slot root true n ".tmp".toList, .dir) :: fs) q = fs.get q := by
      intro q hq
      rw [get_cons, if_neg]
      rintro rfl
      exact hq List.prefix_rfl
    refine ⟨_, by rw [if_neg (by unfold FS.exists_; rw [hg]; simp), hmk], ⟨?_, ?_⟩, hfr⟩
    · refine h.live.frame hn hwf (Or.inr mem_tmp) hfr (fun _ h1 => absurd rfl h1) ?_
      intro _ t hc
      rw [get_cons, if_pos rfl] at hc
      cases hc
    · intro q
      rw [get_cons]
      unfold Place.asked Place.put
      by_cases hq : q = []
      · rw [if_pos hq, if_pos (by rw [hq, List.append_nil])]
      · rw [if_neg hq, if_neg (by
          intro hc
          exact hq (List.append_cancel_left (hc.trans (List.append_nil _).symm))), h.has]

private theorem under {fs : FS} (h : HoldsTmp root n fs s) (p : Path) (x : Option Node) (hp : s p = x) :
    fs.get (slot root true n ".tmp".toList ++ p) = x := by rw [h.has, hp]

private theorem under_last {fs : FS} (h : HoldsTmp root n fs s) {p : Path} (hp : p ≠ []) :
    fs.get (slot root true n ".tmp".toList ++ p).dropLast = s p.dropLast := by
  rw [List.dropLast_append_of_ne_nil hp, h.has]

private theorem mkdir_under (hn : PlainName n) (h : HoldsTmp root n fs s) (hs : s [] = some .dir) {p : Path} (hp : p ≠ []) :
    (s p = none → s p.dropLast = some .dir → ∃ fs', mkdir (slot root true n ".tmp".toList ++ p) fs = .ok fs' ∧
      HoldsTmp root n fs' (s.put p .dir) ∧ ∀ q, ¬ slot root true n ".tmp".toList <+: q → fs'.get q = fs.get q) ∧
    (s p ≠ none → mkdir (slot root true n ".tmp".toList ++ p) fs = .error .invalid) ∧
    (s p = none → s p.dropLast ≠ some .dir → mkdir (slot root true n ".tmp".toList ++ p) fs = .error .notFound) := by
  unfold mkdir FS.exists_ FS.isDir
  rw [h.has, under_last h hp]
  refine ⟨?_, ?_, ?_⟩
  · intro h1 h2
    rw [h1, h2]
    obtain ⟨k1, k2⟩ := holds_put hn h hs hp h2 .dir (Or.inl rfl)
    exact ⟨_, rfl, k1, k2⟩
  · intro h1
    cases hg : s p with
    | none => exact absurd hg h1
    | some x => rfl
  · intro h1 h2
    rw [h1]
    cases hg : s p.dropLast with
    | none => rfl
    | some x =>
      cases x with
      | dir => exact absurd hg h2
      | file t => rfl

private theorem openW_under (hn : PlainName n) (h : HoldsTmp root n fs s) (hs : s [] = some .dir) {p : Path} (hp : p ≠ [])
    (t : Str) :
    (s p ≠ some .dir → s p.dropLast = some .dir → ∃ fs', openW (slot root true n ".tmp".toList ++ p) t fs = .ok fs' ∧
      HoldsTmp root n fs' (s.put p (.file t)) ∧ ∀ q, ¬ slot root true n ".tmp".toList <+: q → fs'.get q = fs.get q) ∧
    (s p = some .dir → openW (slot root true n ".tmp".toList ++ p) t fs = .error .isADirectory) ∧
    (s p ≠ some .dir → s p.dropLast ≠ some .dir → openW (slot root true n ".tmp".toList ++ p) t fs = .error .notFound) := by
  refine ⟨?_, ?_, ?_⟩
  · intro h1 h2
    obtain ⟨k1, k2⟩ := holds_put hn h hs hp h2 (.file t) (Or.inr h1)
    exact ⟨_, openW_ok (by rw [h.has]; exact h1) (by rw [under_last h hp]; exact h2) t, k1, k2⟩
  · intro h1
    unfold openW
    rw [h.has, h1]
  · intro h1 h2
    have h3 : fs.isDir (slot root true n ".tmp".toList ++ p).dropLast = false := by
      unfold FS.isDir
      rw [under_last h hp]
      cases hg : s p.dropLast with
      | none => rfl
      | some x =>
        cases x with
        | dir => exact absurd hg h2
        | file t => rfl
    unfold openW
    rw [h.has, h3]
    cases hg : s p with
    | none => rfl
    | some x =>
      cases x with
      | dir => exact absurd hg h1
      | file t => rfl

/-- One use of temporary files. -/
theorem tmpCall_ok (hn : PlainName n) (h : HoldsTmp root n fs s) {c : TmpCall} {a : Except FsErr Str} (hd : Does1 s c s' a) :
    ∃ fs', tmpCall (root ++ [".out".toList]) n c fs = (fs', a) ∧ HoldsTmp root n fs' s' ∧
      ∀ q, ¬ slot root true n ".tmp".toList <+: q → fs'.get q = fs.get q := by
  obtain ⟨f1, e1, h1, g1⟩ := tmpPath_ok hn h
  have ht : tmpDir (root ++ [".out".toList]) n = slot root true n ".tmp".toList := rfl
  unfold tmpCall
  rw [e1, ht]
  dsimp only
  cases hd with
  | path m => exact ⟨f1, rfl, h1, g1⟩
  | dir m k =>
    obtain ⟨f2, e2, h2, g2⟩ := (mkdir_under hn h1 asked_nil (p := [m]) (by simp)).1 (by rw [asked_cons]; exact k) asked_nil
    refine ⟨f2, ?_, h2, fun q hq => (g2 q hq).trans (g1 q hq)⟩
    dsimp only
    rw [e2]
  | dirThere m k =>
    refine ⟨f1, ?_, h1, g1⟩
    dsimp only
    rw [(mkdir_under hn h1 asked_nil (p := [m]) (by simp)).2.1 (by rw [asked_cons]; exact k)]
  | make m ps k k' =>
    obtain ⟨f2, e2, h2, g2⟩ := (mkdir_under hn h1 asked_nil (p := m :: ps) (by simp)).1 (by rw [asked_cons]; exact k) k'
    refine ⟨f2, ?_, h2, fun q hq => (g2 q hq).trans (g1 q hq)⟩
    dsimp only
    rw [e2]
  | makeThere m ps k =>
    refine ⟨f1, ?_, h1, g1⟩
    dsimp only
    rw [(mkdir_under hn h1 asked_nil (p := m :: ps) (by simp)).2.1 (by rw [asked_cons]; exact k)]
  | makeNowhere m ps k k' =>
    refine ⟨f1, ?_, h1, g1⟩
    dsimp only
    rw [(mkdir_under hn h1 asked_nil (p := m :: ps) (by simp)).2.2 (by rw [asked_cons]; exact k) k']
  | write m ps t k k' =>
    obtain ⟨f2, e2, h2, g2⟩ := (openW_under hn h1 asked_nil (p := m :: ps) (by simp) t).1 (by rw [asked_cons]; exact k) k'
    refine ⟨f2, ?_, h2, fun q hq => (g2 q hq).trans (g1 q hq)⟩
    dsimp only
    rw [e2]
  | writeDir m ps t k =>
    refine ⟨f1, ?_, h1, g1⟩
    dsimp only
    rw [(openW_under hn h1 asked_nil (p := m :: ps) (by simp) t).2.1 (by rw [asked_cons]; exact k)]
  | writeNowhere m ps t k k' =>
    refine ⟨f1, ?_, h1, g1⟩
    dsimp only
    rw [(openW_under hn h1 asked_nil (p := m :: ps) (by simp) t).2.2 (by rw [asked_cons]; exact k) k']
  | read m ps t k =>
    refine ⟨f1, ?_, h1, g1⟩
    dsimp only
    unfold readText
    rw [h1.has, asked_cons, k]
  | readDir m ps k =>
    refine ⟨f1, ?_, h1, g1⟩
    dsimp only
    unfold readText
    rw [h1.has, asked_cons, k]
  | readNone m ps k =>
    refine ⟨f1, ?_, h1, g1⟩
    dsimp only
    unfold readText
    rw [h1.has, asked_cons, k]

/-- All uses of temporary files by a test. -/
theorem tmpRun_ok (hn : PlainName n) {t : TmpTest} {f : TestFn} (hd : DoesAlone s t s' f) :
    ∀ {fs : FS}, HoldsTmp root n fs s → ∃ fs', tmpRun (root ++ [".out".toList]) n t fs = (fs', f) ∧ HoldsTmp root n fs' s' ∧
      ∀ q, ¬ slot root true n ".tmp".toList <+: q → fs'.get q = fs.get q := by
  induction hd with
  | rest s f => intro fs h; exact ⟨fs, rfl, h, fun _ _ => rfl⟩
  | use h1 _ ih =>
    intro fs h
    obtain ⟨f1, e1, k1, g1⟩ := tmpCall_ok hn h h1
    obtain ⟨f2, e2, k2, g2⟩ := ih k1
    refine ⟨f2, ?_, k2, fun q hq => (g2 q hq).trans (g1 q hq)⟩
    unfold tmpRun
    rw [e1]
    exact e2

/-- A test does something, and only one thing. -/
theorem does1_exists (s : Place) (c : TmpCall) : ∃ s' a, Does1 s c s' a := by
  have hdir : ∀ x : Option Node, x = some .dir ∨ x ≠ some .dir := fun x => by
    cases x with
    | none => exact Or.inr (by simp)
    | some y => cases y with
      | dir => exact Or.inl rfl
      | file t => exact Or.inr (by simp)
  cases c with
  | path m => exact ⟨_, _, .path m⟩
  | dir m =>
    cases h : s [m] with
    | none => exact ⟨_, _, .dir m h⟩
    | some x => exact ⟨_, _, .dirThere m (by rw [h]; simp)⟩
  | make m ps =>
    cases h : s (m :: ps) with
    | some x => exact ⟨_, _, .makeThere m ps (by rw [h]; simp)⟩
    | none =>
      rcases hdir (s.asked (m :: ps).dropLast) with h2 | h2
      · exact ⟨_, _, .make m ps h h2⟩
      · exact ⟨_, _, .makeNowhere m ps h h2⟩
  | write m ps t =>
    rcases hdir (s (m :: ps)) with h | h
    · exact ⟨_, _, .writeDir m ps t h⟩
    · rcases hdir (s.asked (m :: ps).dropLast) with h2 | h2
      · exact ⟨_, _, .write m ps t h h2⟩
      · exact ⟨_, _, .writeNowhere m ps t h h2⟩
  | read m ps =>
    cases h : s (m :: ps) with
    | none => exact ⟨_, _, .readNone m ps h⟩
    | some x =>
      cases x with
      | dir => exact ⟨_, _, .readDir m ps h⟩
      | file t => exact ⟨_, _, .read m ps t h⟩

theorem alone_exists (t : TmpTest) : ∀ s : Place, ∃ s' f, DoesAlone s t s' f := by
  induction t with
  | rest f => intro s; exact ⟨s, f, .rest s f⟩
  | use c k ih =>
    intro s
    obtain ⟨s1, a, h1⟩ := does1_exists s c
    obtain ⟨s2, f, h2⟩ := ih a s1
    exact ⟨s2, f, .use h1 h2⟩

theorem does1_unique {s s1 s2 : Place} {c : TmpCall} {a b : Except FsErr Str} (h1 : Does1 s c s1 a) (h2 : Does1 s c s2 b) :
    s1 = s2 ∧ a = b := by
  cases h1 <;> cases h2 <;> first | exact ⟨rfl, rfl⟩ | (exfalso; simp_all; done) | (simp_all; done)

theorem alone_unique {s s1 : Place} {t : TmpTest} {f : TestFn} (h1 : DoesAlone s t s1 f) :
    ∀ {s2 g}, DoesAlone s t s2 g → s1 = s2 ∧ f = g := by
  induction h1 with
  | rest s f => intro s2 g h; cases h; exact ⟨rfl, rfl⟩
  | use h1 _ ih =>
    intro s2 g h
    cases h with
    | use k1 k2 =>
      obtain ⟨rfl, rfl⟩ := does1_unique h1 k1
      exact ih k2

/-! ### The rest of a test -/

/-- What a test does after it has used temporary files (compare `runCase_ok`): these are left as they are. -/
theorem callCase_ok {P : Project} {cfg : Config} (hc : NotAsking cfg) (hpl : PlainName n) {f2 : FS} (l2 : Live P.root n f2)
    (hroot : f2.get (slot P.root true n []) = none) (sn : Option Str) (hsn : snapshot P.root f2 n = sn) (ans : List Str) :
    ∃ fs', callCase P cfg n (P.env sn) ans f2 = ((fs', ans), (caseSpec P cfg n sn).1) ∧ Live P.root n fs' ∧
      snapshot P.root fs' n = (caseSpec P cfg n sn).2 ∧
      ∀ p, (∀ o x, (x = [] ∨ x ∈ endings) → (o, x) ≠ (true, ".tmp".toList) → ¬ slot P.root o n x <+: p) →
        fs'.get p = f2.get p := by
  have hnil : ([] : Str) = [] ∨ ([] : Str) ∈ endings := Or.inl rfl
  have sep : ∀ {o o' : Bool} {x y : Str}, (x = [] ∨ x ∈ endings) → (y = [] ∨ y ∈ endings) →
      (o ≠ o' ∨ x ≠ y) → ¬ slot P.root o n x <+: slot P.root o' n y := by
    intro o o' x y hx hy hne hc'
    obtain ⟨h1, h2⟩ := own_sep hpl hx hy hc' List.prefix_rfl
    rcases hne with hne | hne
    · exact hne h1
    · exact hne h2
  have away : ∀ {p : Path} {x : Str}, (∀ o x, (x = [] ∨ x ∈ endings) → (o, x) ≠ (true, ".tmp".toList) → ¬ slot P.root o n x <+: p) →
      (x = [] ∨ x ∈ endings) → x ≠ ".tmp".toList → p ≠ slot P.root true n x := by
    rintro p x h1 h2 h3 rfl
    exact h1 true x h2 (fun e => h3 (Prod.mk.inj e).2) List.prefix_rfl
  unfold callCase
  cases hr : runTest (P.env sn) (P.tests n).body with
  | none =>
    refine ⟨f2, ?_, l2, ?_, fun _ _ => rfl⟩
    · simp only [caseSpec, hr]
    · simp only [caseSpec, hr]
      exact hsn
  | some s =>
    have hbelow : ∀ q, f2.get (slot P.root true n [] ++ q) = none := fun q => get_below_none l2.wf hroot q
    obtain ⟨f3, e3, l3, g3, c3⟩ := writeFiles_live P hpl (P.tests n).files l2 (fun c => by rw [hbelow]; simp)
    obtain ⟨f4, e4, l4, m4, g4⟩ := writeOutputs_live P hpl l3 s.out (s.rep.map (· ++ "\n".toList)).flatten (P.tests n).log
    simp only [e3, e4]
    have fr4 : ∀ p, (∀ o x, (x = [] ∨ x ∈ endings) → (o, x) ≠ (true, ".tmp".toList) → ¬ slot P.root o n x <+: p) →
        f4.get p = f2.get p := by
      intro p hp'
      rw [g4 p (away hp' (Or.inr mem_md) (by decide)) (away hp' (Or.inr mem_txt) (by decide))
        (away hp' (Or.inr mem_log) (by decide)), g3 p (hp' true [] hnil (by decide))]
    have s4 : f4.get (slot P.root false n ".md".toList) = f2.get (slot P.root false n ".md".toList) := by
      rw [g4, g3]
      · exact sep hnil (Or.inr mem_md) (Or.inl (by decide))
      · intro hc'; exact sep (o := true) (o' := false) (Or.inr mem_md) (Or.inr mem_md)
          (Or.inl (by decide)) (by rw [← hc']; exact List.prefix_rfl)
      · intro hc'; exact sep (o := true) (o' := false) (Or.inr mem_txt) (Or.inr mem_md)
          (Or.inl (by decide)) (by rw [← hc']; exact List.prefix_rfl)
      · intro hc'; exact sep (o := true) (o' := false) (Or.inr mem_log) (Or.inr mem_md)
          (Or.inl (by decide)) (by rw [← hc']; exact List.prefix_rfl)
    have save : ∀ (g : FS) (r : Result), Live P.root n g →
        ∃ fs', (if r = .OK ∨ r = .DIFF then
            match saveValue P.out n (P.tests n).returns g with
            | .error x => ((g, ans), CaseEnd.error x)
            | .ok g => ((g, ans), CaseEnd.done r .NONE)
          else ((g, ans), CaseEnd.done r .NONE)) = ((fs', ans), CaseEnd.done r .NONE) ∧
          Live P.root n fs' ∧ ∀ p, p ≠ slot P.root true n ".bin".toList → fs'.get p = g.get p := by
      intro g r hl
      by_cases hr' : r = .OK ∨ r = .DIFF
      · obtain ⟨g', e, l, k⟩ := saveValue_live P hpl hl (P.tests n).returns
        exact ⟨g', by simp only [hr', if_true, e], l, k⟩
      · exact ⟨g, by simp only [hr', if_false], hl, fun _ _ => rfl⟩
    have notbin : slot P.root false n ".md".toList ≠ slot P.root true n ".bin".toList := by
      intro hc'
      exact sep (o := false) (o' := true) (Or.inr mem_md) (Or.inr mem_bin) (Or.inl (by decide))
        (by rw [← hc']; exact List.prefix_rfl)
    unfold endCase
    rw [caseReview_auto hc]
    by_cases ha : AutoAccepted cfg (verdict (P.env sn) s)
    · obtain ⟨f5, e5, l5, t5, -, g5⟩ := freeze_live P hpl l4 m4
      obtain ⟨f6, e6, l6, k6⟩ := save f5 .OK l5
      refine ⟨f6, ?_, l6, ?_, ?_⟩
      · simp only [ha, if_true, e5, caseSpec, hr]
        exact e6
      · simp only [caseSpec, hr, ha, if_true]
        simp only [snapshot, k6 _ notbin, t5]
      · intro p hp'
        rw [k6 p (away hp' (Or.inr mem_bin) (by decide)), g5, fr4 p hp']
        intro o x hx
        rcases hx with rfl | rfl
        · exact hp' o _ hnil (by simp)
        · exact hp' o _ (Or.inr mem_md) (by simp)
    · obtain ⟨f6, e6, l6, k6⟩ := save f4 (verdict (P.env sn) s) l4
      refine ⟨f6, ?_, l6, ?_, ?_⟩
      · simp only [ha, if_false, caseSpec, hr]
        exact e6
      · simp only [caseSpec, hr, ha, if_false]
        rw [← hsn]
        simp only [snapshot]
        rw [k6 _ notbin, s4]
      · intro p hp'
        rw [k6 p (away hp' (Or.inr mem_bin) (by decide)), fr4 p hp']

/-- Old temporary files are removed before the test begins. -/
theorem purge_tmp (P : Project) (hn : PlainName n) {fs fs' : FS} (h : Live P.root n fs) (he : purge P.out n fs = .ok fs') :
    fs'.get (slot P.root true n ".tmp".toList) = none := by
  obtain ⟨f1, e1, l1, g1⟩ := h.removeIfThere hn true (x := []) (Or.inl rfl)
  obtain ⟨f2, e2, l2, g2⟩ := l1.removeIfThere hn true (x := ".tmp".toList) (Or.inr rfl)
  have : purge P.out n fs = .ok f2 := by
    unfold purge
    rw [(dirPath_slot P).2, e1]
    exact e2
  rw [this] at he
  injection he with he
  rw [← he, g2, if_pos List.prefix_rfl]

variable {T : TProject} {ns : List Str}

/-- What a test with temporary files does, on the file system (compare `runCase_ok`). -/
theorem runCaseT_ok {cfg : Config} (hc : NotAsking cfg) (hp : PlainNames ns) (hn : n ∈ ns) (h : SoundTree T.root ns fs)
    {left : Place} {f : Str → TestFn} (hd : DoesAlone nowhere (T.tests n) left (f n)) (ans : List Str) :
    ∃ fs', runCaseT T cfg n (fs, ans) = ((fs', ans), (caseSpec (T.doing f) cfg n (snapshot T.root fs n)).1) ∧
      SoundTree T.root ns fs' ∧
      snapshot T.root fs' n = (caseSpec (T.doing f) cfg n (snapshot T.root fs n)).2 ∧
      (∀ p, (∀ o x, (x = [] ∨ x ∈ endings) → ¬ slot T.root o n x <+: p) →
        fs'.get p = (makeDirs (T.doing f) n fs).get p) ∧
      ∀ q, fs'.get (slot T.root true n ".tmp".toList ++ q) = left q := by
  have hpl := hp.1 n hn
  have h' : SoundTree (T.doing f).root ns fs := h
  obtain ⟨l0, g0⟩ := makeDirs_ok (P := T.doing f) hp hn h'
  obtain ⟨f1, e1, l1, n1, g1⟩ := purge_live (T.doing f) hpl l0
  have t1 := purge_tmp (T.doing f) hpl l0 e1
  obtain ⟨f2, e2, l2, m2, g2⟩ := writeOutputs_live (T.doing f) hpl l1 [] [] []
  have hnil : ([] : Str) = [] ∨ ([] : Str) ∈ endings := Or.inl rfl
  have sep : ∀ {o o' : Bool} {x y : Str}, (x = [] ∨ x ∈ endings) → (y = [] ∨ y ∈ endings) →
      (o ≠ o' ∨ x ≠ y) → ¬ slot T.root o n x <+: slot T.root o' n y := by
    intro o o' x y hx hy hne hc'
    obtain ⟨h1, h2⟩ := own_sep hpl hx hy hc' List.prefix_rfl
    rcases hne with hne | hne
    · exact hne h1
    · exact hne h2
  have ne : ∀ {o o' : Bool} {x y : Str}, (x = [] ∨ x ∈ endings) → (y = [] ∨ y ∈ endings) →
      (o ≠ o' ∨ x ≠ y) → slot T.root o n x ≠ slot T.root o' n y := by
    intro o o' x y hx hy hne hc'
    exact sep hx hy hne (by rw [hc']; exact List.prefix_rfl)
  have htmp : ".tmp".toList = [] ∨ ".tmp".toList ∈ endings := Or.inr mem_tmp
  -- the snapshot in the course of the test
  have s0 : (makeDirs (T.doing f) n fs).get (slot T.root false n ".md".toList) =
      fs.get (slot T.root false n ".md".toList) := by
    rw [g0, if_neg]
    rintro (hc' | hc')
    · exact slot_not_above hp hn hn (Or.inr mem_md) hc' List.prefix_rfl
    · exact slot_not_above hp hn hn (Or.inr mem_md) hc' List.prefix_rfl
  have st0 : snapshotText (makeDirs (T.doing f) n fs) (filePath T.root n ".md".toList) = snapshot T.root fs n := by
    rw [show filePath T.root n ".md".toList = slot T.root false n ".md".toList from rfl, snapshotText, s0, snapshot]
    rcases fs.get (slot T.root false n ".md".toList) with _ | _ | _ <;> rfl
  have sd : (makeDirs (T.doing f) n fs).isDir (filePath T.root n ".md".toList) = false := by
    rw [show filePath T.root n ".md".toList = slot T.root false n ".md".toList from rfl, FS.isDir, s0]
    have := h.files n hn false _ mem_md (by decide)
    cases hg : fs.get (slot T.root false n ".md".toList) with
    | none => rfl
    | some m =>
      cases m with
      | dir => exact absurd hg this
      | file c => rfl
  have s2 : f2.get (slot T.root false n ".md".toList) = fs.get (slot T.root false n ".md".toList) := by
    rw [g2 _ (ne (Or.inr mem_md) (Or.inr mem_md) (Or.inl (by decide))) (ne (Or.inr mem_md) (Or.inr mem_txt) (Or.inl (by decide)))
      (ne (Or.inr mem_md) (Or.inr mem_log) (Or.inl (by decide))), g1, s0]
    · exact sep hnil (Or.inr mem_md) (Or.inl (by decide))
    · exact sep htmp (Or.inr mem_md) (Or.inl (by decide))
  have t2 : f2.get (slot T.root true n ".tmp".toList) = none := by
    rw [g2 _ (ne htmp (Or.inr mem_md) (Or.inr (by decide))) (ne htmp (Or.inr mem_txt) (Or.inr (by decide)))
      (ne htmp (Or.inr mem_log) (Or.inr (by decide)))]
    exact t1
  have n2 : f2.get (slot T.root true n []) = none := by
    rw [g2 _ (ne hnil (Or.inr mem_md) (Or.inr (by decide))) (ne hnil (Or.inr mem_txt) (Or.inr (by decide)))
      (ne hnil (Or.inr mem_log) (Or.inr (by decide)))]
    exact n1
  have fr2 : ∀ p, (∀ o x, (x = [] ∨ x ∈ endings) → ¬ slot T.root o n x <+: p) →
      f2.get p = (makeDirs (T.doing f) n fs).get p := by
    intro p hp'
    rw [g2, g1 p (hp' true [] hnil) (hp' true _ htmp)]
    · rintro rfl; exact hp' true _ (Or.inr mem_md) List.prefix_rfl
    · rintro rfl; exact hp' true _ (Or.inr mem_txt) List.prefix_rfl
    · rintro rfl; exact hp' true _ (Or.inr mem_log) List.prefix_rfl
  -- the temporary files
  have hold : HoldsTmp T.root n f2 nowhere := ⟨l2, fun q => get_below_none l2.wf t2 q⟩
  obtain ⟨f3, e3, h3, g3⟩ := tmpRun_ok hpl hd hold
  have hsn : snapshot (T.doing f).root f3 n = snapshot T.root fs n := by
    show snapshot T.root f3 n = _
    unfold snapshot
    rw [g3 _ (sep htmp (Or.inr mem_md) (Or.inl (by decide))), s2]
  obtain ⟨f4, e4, l4, s4, g4⟩ := callCase_ok (P := T.doing f) (ans := ans) hc hpl h3.live
    ((g3 _ (sep htmp hnil (Or.inr (by decide)))).trans n2) _ hsn
  have e5 : runCaseT T cfg n (fs, ans) = callCase (T.doing f) cfg n ((T.doing f).env (snapshot T.root fs n)) ans f3 := by
    unfold runCaseT
    dsimp only
    rw [show makeDirs (T.doing fun _ => ⟨⟨[], none⟩, [], [], none⟩) n fs = makeDirs (T.doing f) n fs from rfl,
      show purge T.out n (makeDirs (T.doing f) n fs) = .ok f1 from e1]
    dsimp only
    rw [show writeOutputs T.out n [] [] [] f1 = .ok f2 from e2]
    dsimp only
    rw [sd, if_neg (by simp), st0, show tmpRun T.out n (T.tests n) f2 = (f3, f n) from e3]
    rfl
  have fr4 : ∀ p, (∀ o x, (x = [] ∨ x ∈ endings) → ¬ slot T.root o n x <+: p) →
      f4.get p = (makeDirs (T.doing f) n fs).get p := by
    intro p hp'
    rw [g4 p (fun o x hx _ => hp' o x hx), g3 p (hp' true _ htmp), fr2 p hp']
  refine ⟨f4, by rw [e5]; exact e4, sound_of_live (P := T.doing f) hp hn h' l4 fr4, s4, fr4, ?_⟩
  intro q
  rw [g4, h3.has]
  intro o x hx hne hc'
  obtain ⟨k1, k2⟩ := own_sep hpl hx htmp hc' (List.prefix_append _ _)
  exact hne (by rw [k1, k2])

/-- Many tests (compare `runCases_ok`). -/
theorem runCasesT_ok {cfg : Config} (hc : NotAsking cfg) (hp : PlainNames ns) (ex : List Str) (hx : ∀ n ∈ ex, n ∈ ns)
    (hnd : ex.Nodup) {left : Str → Place} {f : Str → TestFn} (hd : ∀ n ∈ ns, DoesAlone nowhere (T.tests n) (left n) (f n))
    (h : SoundTree T.root ns fs) (ans : List Str) :
    ∃ fs', runCasesT T cfg ex (fs, ans) = (fs', ans) ∧ SoundTree T.root ns fs' ∧
      (fs.get T.root = some .dir → fs'.get T.root = some .dir) ∧
      (∀ m ∈ ns, snapshot T.root fs' m =
        if m ∈ ex then (caseSpec (T.doing f) cfg m (snapshot T.root fs m)).2 else snapshot T.root fs m) ∧
      ∀ m ∈ ns, ∀ q, fs'.get (slot T.root true m ".tmp".toList ++ q) =
        if m ∈ ex then left m q else fs.get (slot T.root true m ".tmp".toList ++ q) := by
  induction ex generalizing fs with
  | nil => exact ⟨fs, rfl, h, fun h => h, fun m _ => by simp, fun m _ q => by simp⟩
  | cons k ks ih =>
    have hk : k ∈ ns := hx k (by simp)
    obtain ⟨hk1, hk2⟩ := List.nodup_cons.mp hnd
    obtain ⟨f1, e1, h1, s1, fr1, t1⟩ := runCaseT_ok (cfg := cfg) hc hp hk h (hd k hk) ans
    obtain ⟨f2, e2, h2, r2, s2, t2⟩ := ih (fun n hn => hx n (by simp [hn])) hk2 h1
    have h' : SoundTree (T.doing f).root ns fs := h
    obtain ⟨-, g⟩ := makeDirs_ok (P := T.doing f) hp hk h'
    refine ⟨f2, ?_, h2, ?_, ?_, ?_⟩
    · simp only [runCasesT, List.foldl_cons, e1]
      exact e2
    · intro hr
      apply r2
      rw [fr1, g]
      · split
        · rfl
        · exact hr
      · intro o x hx
        exact slot_not_root (hp.1 k hk) hx (List.prefix_append _ _)
    · intro m hm
      rw [s2 m hm]
      by_cases hmk : m = k
      · subst hmk
        simp only [hk1, if_false, List.mem_cons, true_or, if_true, s1]
      · rw [show snapshot T.root f1 m = snapshot T.root fs m from snapshot_other (P := T.doing f) hp hk h' fr1 hm hmk]
        simp [hmk]
    · intro m hm q
      rw [t2 m hm q]
      by_cases hmk : m = k
      · subst hmk
        simp only [hk1, if_false, List.mem_cons, true_or, if_true, t1]
      · have : f1.get (slot T.root true m ".tmp".toList ++ q) = fs.get (slot T.root true m ".tmp".toList ++ q) := by
          rw [fr1, g, if_neg]
          · rintro (hc' | hc')
            · exact slot_not_above hp hm hk (Or.inr mem_tmp) hc' (List.prefix_append _ _)
            · exact slot_not_above hp hm hk (Or.inr mem_tmp) hc' (List.prefix_append _ _)
          · intro o' y hy hc'
            exact hmk (slot_sep hp hk hm hy (Or.inr mem_tmp) hc' (List.prefix_append _ _)).1.symm
        rw [this]
        simp [hmk]

end Verif.Lemmas
