import Verif.Spec.Together
import Verif.Lemmas.Together

/-! # Tests that are executed at the same time: the files they touch -/

namespace Verif.Lemmas
open Verif.Py Verif.Model Verif.Spec

variable {root : Path} {n : Str}

/-! ### Places -/

theorem own_below {p q : Path} (h : Own root n p) (hq : p <+: q) : Own root n q := by
  obtain ⟨o, x, hx, h⟩ := h
  exact ⟨o, x, hx, h.trans hq⟩

theorem own_ne {p q : Path} (h : ¬ Own root n p) (hq : Own root n q) : p ≠ q := by
  rintro rfl; exact h hq

theorem own_slot (o : Bool) {x : Str} (hx : x = [] ∨ x ∈ endings) : Own root n (slot root o n x) :=
  ⟨o, x, hx, List.prefix_rfl⟩

theorem own_apart {ns : List Str} (hp : PlainNames ns) {a b : Str} (ha : a ∈ ns) (hb : b ∈ ns) {p : Path}
    (h1 : Own root a p) (h2 : Own root b p) : a = b := by
  obtain ⟨o, x, hx, h1⟩ := h1
  obtain ⟨o', y, hy, h2⟩ := h2
  exact (slot_sep hp ha hb hx hy h1 h2).1

theorem own_above {ns : List Str} (hp : PlainNames ns) {a b : Str} (ha : a ∈ ns) (hb : b ∈ ns) {p : Path}
    (h1 : Own root a p) : ¬ Above root b p := by
  rintro ⟨o', h2⟩
  obtain ⟨o, x, hx, h1⟩ := h1
  exact slot_not_above hp ha hb hx h2 h1

theorem own_index (hn : PlainName n) : ¬ Own root n (indexFile root) := by
  rintro ⟨o, x, hx, h⟩
  exact slot_not_index hn hx h

theorem above_index (hn : PlainName n) : ¬ Above root n (indexFile root) := by
  rintro ⟨o, h⟩
  rw [indexFile, slotDir, booksDir] at h
  cases o
  · simp only [Bool.false_eq_true, if_false, List.prefix_append_right_inj] at h
    have hm : "index.md".toList ∈ (split '/' n).dropLast := h.subset (by simp)
    exact hn.parts _ (List.dropLast_subset _ hm) ".md".toList mem_md ⟨"index".toList, rfl⟩
  · simp only [if_true, List.append_assoc, List.prefix_append_right_inj] at h
    obtain ⟨t, ht⟩ := h
    simp only [List.cons_append, List.cons.injEq] at ht
    exact absurd ht.1 (by decide)

theorem above_root : Above root n root := by
  refine ⟨false, ?_⟩
  rw [slotDir, booksDir]
  simp

/-! ### Operations on the files of a test -/

/-- Where a file may be made. -/
def Place (root : Path) (n : Str) (p : Path) : Prop := Own root n p ∨ Above root n p

/-- The place of a file of the test. -/
def FileSlot (root : Path) (n : Str) (p : Path) : Prop :=
  ∃ o x, x ∈ endings ∧ x ≠ ".tmp".toList ∧ p = slot root o n x

/-- The place of a directory of the test. -/
def DirSlot (root : Path) (n : Str) (p : Path) : Prop :=
  ∃ o x, (x = [] ∨ x = ".tmp".toList) ∧ p = slot root o n x

/-- The operation is on files of the test, and puts files and directories where they belong. -/
def OpLocal (root : Path) (n : Str) : FsOp → Prop
  | .look p => Own root n p
  | .makeDir p => Above root n p ∧ p ≠ []
  | .mkdir p => Own root n p ∧ Place root n p.dropLast ∧ DirSlot root n p
  | .rmtree p => Own root n p
  | .write p _ => (Own root n p ∨ p = indexFile root) ∧ Place root n p.dropLast ∧ ¬ DirSlot root n p
  | .rename a b => Own root n a ∧ Own root n b ∧ Place root n b.dropLast ∧
    ((FileSlot root n a ∧ FileSlot root n b) ∨ (DirSlot root n a ∧ DirSlot root n b))
  | .remove p => Own root n p

theorem file_not_dir (hn : PlainName n) {p : Path} (h : FileSlot root n p) : ¬ DirSlot root n p := by
  obtain ⟨o, x, hx, hx', rfl⟩ := h
  rintro ⟨o', y, hy, e⟩
  have := (own_sep hn (p := slot root o n x) (Or.inr hx) (dirEnd hy) List.prefix_rfl
    (by rw [e]; exact List.prefix_rfl)).2
  subst this
  exact absurd hy (not_or.mpr (fileEnd hx hx'))

theorem below_no_slot (hn : PlainName n) {o o' : Bool} {x y : Str} (hx : x = [] ∨ x ∈ endings)
    (hy : y = [] ∨ y ∈ endings) {q : Path} (hq : q ≠ []) : slot root o n x ++ q ≠ slot root o' n y := by
  intro e
  obtain ⟨rfl, rfl⟩ := own_sep (root := root) (o := o) (o' := o') hn hx hy (List.prefix_append _ q)
    (by rw [e]; exact List.prefix_rfl)
  have := congrArg List.length e
  rw [List.length_append] at this
  have := List.length_pos_iff.mpr hq
  omega

theorem index_not_dir (hn : PlainName n) : ¬ DirSlot root n (indexFile root) := by
  rintro ⟨o, x, hx, e⟩
  exact own_index hn ⟨o, x, dirEnd hx, by rw [e]; exact List.prefix_rfl⟩

theorem md_slot (o : Bool) : FileSlot root n (slot root o n ".md".toList) := ⟨o, _, mem_md, by decide, rfl⟩
theorem txt_slot (o : Bool) : FileSlot root n (slot root o n ".txt".toList) := ⟨o, _, mem_txt, by decide, rfl⟩
theorem log_slot (o : Bool) : FileSlot root n (slot root o n ".log".toList) := ⟨o, _, mem_log, by decide, rfl⟩
theorem bin_slot (o : Bool) : FileSlot root n (slot root o n ".bin".toList) := ⟨o, _, mem_bin, by decide, rfl⟩
theorem res_slot (o : Bool) : DirSlot root n (slot root o n []) := ⟨o, _, Or.inl rfl, rfl⟩

/-- All operations of a task are on files of the test. -/
inductive Local (root : Path) (n : Str) : Task → Prop
  | done (e : CaseEnd) : Local root n (.done e)
  | act (o : FsOp) (k : Option Node → Task) : OpLocal root n o → (∀ a, Local root n (k a)) →
      Local root n (.act o k)

theorem local_mkdirs (d : Path) (hd : Above root n d) {k : Task} (hk : Local root n k) :
    ∀ (cs : List Str) (base : Path), base ++ cs = d → Local root n (mkdirsTask base cs k) := by
  intro cs
  induction cs with
  | nil => intro base _; exact hk
  | cons c cs ih =>
    intro base hb
    rw [mkdirsTask]
    refine .act _ _ ?_ ?_
    · obtain ⟨o, h⟩ := hd
      refine ⟨⟨o, List.IsPrefix.trans ⟨cs, ?_⟩ h⟩, by simp⟩
      rw [← hb]; simp
    · intro a
      rcases a with _ | (t | _)
      · exact ih _ (by rw [← hb]; simp)
      · exact hk
      · exact ih _ (by rw [← hb]; simp)

theorem local_remove {d : Path} (hd : Own root n d) {k : Task} (hk : Local root n k) :
    Local root n (removeTask d k) := by
  refine .act _ _ hd ?_
  intro a
  split
  · exact .act _ _ hd (fun _ => hk)
  · exact hk

variable {P : Project}

theorem place_file (o : Bool) {x : Str} (hx : x = [] ∨ x ∈ endings) : Place root n (slot root o n x).dropLast :=
  Or.inr ⟨o, by rw [slot_dropLast root o n hx]; exact List.prefix_rfl⟩

theorem local_outputs (hn : PlainName n) (md txt log : Str) {k : Task} (hk : Local P.root n k) :
    Local P.root n (outputsTask P.out n md txt log k) := by
  unfold outputsTask
  rw [(filePath_slot P _).2, (filePath_slot P _).2, (filePath_slot P _).2]
  exact .act _ _ ⟨Or.inl (own_slot _ (Or.inr mem_md)), place_file _ (Or.inr mem_md), file_not_dir hn (md_slot _)⟩ fun _ =>
    .act _ _ ⟨Or.inl (own_slot _ (Or.inr mem_txt)), place_file _ (Or.inr mem_txt), file_not_dir hn (txt_slot _)⟩ fun _ =>
      .act _ _ ⟨Or.inl (own_slot _ (Or.inr mem_log)), place_file _ (Or.inr mem_log), file_not_dir hn (log_slot _)⟩ fun _ => hk

theorem local_files (hn : PlainName n) (files : List (Str × Str)) {k : Task} (hk : Local P.root n k) :
    Local P.root n (filesTask P.out n files k) := by
  induction files with
  | nil => exact hk
  | cons f rest ih =>
    rw [filesTask, (dirPath_slot P).2]
    have hd : Own P.root n (slot P.root true n []) := own_slot _ (Or.inl rfl)
    have hw : OpLocal P.root n (.write (slot P.root true n [] ++ [f.1]) f.2) :=
      ⟨Or.inl (own_below hd (List.prefix_append _ _)), Or.inl (by rw [List.dropLast_concat]; exact hd), by
        rintro ⟨o, x, hx, e⟩
        exact below_no_slot hn (Or.inl rfl) (dirEnd hx) (by simp) e⟩
    refine .act _ _ hd ?_
    intro a
    split
    · exact .act _ _ hw (fun _ => ih)
    · exact .act _ _ ⟨hd, place_file _ (Or.inl rfl), res_slot _⟩ (fun _ => .act _ _ hw (fun _ => ih))

theorem local_freeze {k : Task} (hk : Local P.root n k) :
    Local P.root n (freezeTask P.root P.out n k) := by
  unfold freezeTask
  rw [(dirPath_slot P).1, (dirPath_slot P).2, mdPath_eq, mdPath_eq, (mdFile_slot P).1, (mdFile_slot P).2]
  refine local_remove (own_slot _ (Or.inl rfl)) ?_
  refine .act _ _ ⟨own_slot _ (Or.inr mem_md), own_slot _ (Or.inr mem_md), place_file _ (Or.inr mem_md),
    Or.inl ⟨md_slot _, md_slot _⟩⟩ ?_
  intro _
  refine .act _ _ (own_slot _ (Or.inl rfl)) ?_
  intro a
  split
  · exact .act _ _ ⟨own_slot _ (Or.inl rfl), own_slot _ (Or.inl rfl), place_file _ (Or.inl rfl),
      Or.inr ⟨res_slot _, res_slot _⟩⟩ (fun _ => hk)
  · exact hk

theorem local_save (hn : PlainName n) (v : Option Str) {k : Task} (hk : Local P.root n k) :
    Local P.root n (saveTask P.out n v k) := by
  unfold saveTask
  rw [(filePath_slot P _).2]
  cases v with
  | none =>
    refine .act _ _ (own_slot _ (Or.inr mem_bin)) ?_
    intro a
    split
    · exact .act _ _ (own_slot _ (Or.inr mem_bin)) (fun _ => hk)
    · exact hk
  | some v => exact .act _ _ ⟨Or.inl (own_slot _ (Or.inr mem_bin)), place_file _ (Or.inr mem_bin), file_not_dir hn (bin_slot _)⟩ (fun _ => hk)

theorem local_end (hn : PlainName n) (cfg : Config) (ans : List Str) (v : Result)
    {k : Result → Request → List Str → Task} (hk : ∀ r q l, Local P.root n (k r q l)) :
    Local P.root n (endTask P cfg n ans v k) := by
  unfold endTask reviewTask
  dsimp only
  split
  · exact .done _
  · split
    · exact local_freeze (local_save hn _ (hk _ _ _))
    · split
      · exact local_save hn _ (hk _ _ _)
      · exact hk _ _ _

theorem local_case (hn : PlainName n) (cfg : Config) (ans : List Str)
    {k : Result → Request → List Str → Task} (hk : ∀ r q l, Local P.root n (k r q l)) :
    Local P.root n (caseTask P cfg n ans k) := by
  unfold caseTask
  refine local_mkdirs _ ⟨false, List.prefix_rfl⟩ ?_ _ _ (by rw [(baseDir_slot P).1]; rfl)
  refine local_mkdirs _ ⟨true, List.prefix_rfl⟩ ?_ _ _ (by rw [(baseDir_slot P).2]; rfl)
  rw [(filePath_slot P _).1, (dirPath_slot P).2, dirPath_tmp]
  refine .act _ _ (own_slot _ (Or.inr mem_md)) ?_
  intro a
  refine local_remove (own_slot _ (Or.inl rfl)) ?_
  refine local_remove (own_slot _ (Or.inr (by decide))) ?_
  refine local_outputs hn _ _ _ ?_
  split
  · exact .done _
  · dsimp only
    split
    · exact .done _
    · exact local_files hn _ (local_outputs hn _ _ _ (local_end hn _ _ _ hk))

theorem local_index (hn : PlainName n) (all : List Str) {k : Task} (hk : Local P.root n k) :
    Local P.root n (indexTask P all k) := by
  refine .act _ _ ⟨Or.inr rfl, Or.inr ?_, index_not_dir hn⟩ (fun _ => hk)
  rw [List.dropLast_concat]
  exact above_root

theorem local_worker (hn : PlainName n) (cfg : Config) (all : List Str) :
    Local P.root n (workerTask P cfg all n) :=
  local_case hn _ _ fun _ _ _ => local_index hn all (.done _)

/-! ### A shared file system and one that the test has for itself -/

/-- What a test sees of a shared file system `S` is what it sees of `A`. -/
structure Rel (root : Path) (n : Str) (S A : FS) : Prop where
  own : ∀ p, Own root n p → S.get p = A.get p
  dirs : ∀ q, Above root n q → A.get q = some .dir → S.get q = some .dir
  ways : ∀ q, Above root n q → ∀ t, S.get q ≠ some (.file t)
  waysA : ∀ q, Above root n q → ∀ t, A.get q ≠ some (.file t)
  index : S.get (indexFile root) ≠ some .dir

/-- What an operation of a test may change. -/
def Frame (root : Path) (n : Str) (S S' : FS) : Prop :=
  ∀ p, ¬ Own root n p → S'.get p = S.get p ∨ (Above root n p ∧ S.get p = none ∧ S'.get p = some .dir) ∨
    (p = indexFile root ∧ ∃ t, S'.get p = some (.file t))

/-- Another test does not notice. -/
theorem Rel.frame {ns : List Str} (hp : PlainNames ns) {a b : Str} (ha : a ∈ ns) (hb : b ∈ ns)
    (hab : a ≠ b) {S S' A : FS} (h : Rel root a S A) (hf : Frame root b S S') : Rel root a S' A := by
  have hnot : ∀ q, Above root a q → ¬ Own root b q := fun q h1 h2 => own_above hp hb ha h2 h1
  constructor
  · intro p hpo
    rcases hf p (fun h2 => hab (own_apart hp ha hb hpo h2)) with e | ⟨e, -⟩ | ⟨e, -⟩
    · rw [e, h.own p hpo]
    · exact absurd e (own_above hp ha hb hpo)
    · rw [e] at hpo; exact absurd hpo (own_index (hp.1 a ha))
  · intro q hq hd
    rcases hf q (hnot q hq) with e | ⟨-, -, e⟩ | ⟨e, -⟩
    · rw [e, h.dirs q hq hd]
    · exact e
    · rw [e] at hq; exact absurd hq (above_index (hp.1 a ha))
  · intro q hq t
    rcases hf q (hnot q hq) with e | ⟨-, -, e⟩ | ⟨e, -⟩
    · rw [e]; exact h.ways q hq t
    · rw [e]; simp
    · rw [e] at hq; exact absurd hq (above_index (hp.1 a ha))
  · exact h.waysA
  · rcases hf _ (own_index (hp.1 b hb)) with e | ⟨e, -⟩ | ⟨-, t, e⟩
    · rw [e]; exact h.index
    · exact absurd e (above_index (hp.1 b hb))
    · rw [e]; simp

/-- Changes of own files only. -/
theorem Rel.change {ns : List Str} (hp : PlainNames ns) (hn : n ∈ ns) {S A S' A' : FS} (h : Rel root n S A)
    (hS : ∀ p, ¬ Own root n p → S'.get p = S.get p) (hA : ∀ p, ¬ Own root n p → A'.get p = A.get p)
    (ho : ∀ p, Own root n p → S'.get p = A'.get p) : Rel root n S' A' ∧ Frame root n S S' := by
  have hnot : ∀ q, Above root n q → ¬ Own root n q := fun q h1 h2 => own_above hp hn hn h2 h1
  refine ⟨⟨ho, ?_, ?_, ?_, ?_⟩, fun p h => Or.inl (hS p h)⟩
  · intro q hq; rw [hA q (hnot q hq), hS q (hnot q hq)]; exact h.dirs q hq
  · intro q hq; rw [hS q (hnot q hq)]; exact h.ways q hq
  · intro q hq; rw [hA q (hnot q hq)]; exact h.waysA q hq
  · rw [hS _ (own_index (hp.1 n hn))]; exact h.index

theorem Rel.place {S A : FS} (h : Rel root n S A) {p : Path} (hp : Place root n p) (hd : A.isDir p = true) :
    S.isDir p = true := by
  unfold FS.isDir at hd ⊢
  rw [beq_iff_eq] at hd ⊢
  rcases hp with hp | hp
  · rw [h.own p hp, hd]
  · exact h.dirs p hp hd

theorem any_below (fs : FS) (b : Path) : fs.any (fun e => b.isPrefixOf e.1 && decide (e.1 ≠ b)) = true ↔
    ∃ p, b <+: p ∧ p ≠ b ∧ (fs.get p).isSome := by
  rw [List.any_eq_true]
  constructor
  · rintro ⟨⟨p, m⟩, hm, h⟩
    simp only [Bool.and_eq_true, List.isPrefixOf_iff_prefix, decide_eq_true_eq] at h
    exact ⟨p, h.1, h.2, mem_get hm⟩
  · rintro ⟨p, h1, h2, h3⟩
    obtain ⟨m, hm⟩ := Option.isSome_iff_exists.mp h3
    have : (p, m) ∈ fs := by
      unfold FS.get at hm
      clear h1 h2 h3
      induction fs with
      | nil => cases hm
      | cons e fs ih =>
        obtain ⟨k, m'⟩ := e
        rw [List.lookup_cons] at hm
        by_cases hk : p = k
        · subst hk
          simp only [beq_self_eq_true, Option.some.injEq] at hm
          rw [hm]; simp
        · have hb : (p == k) = false := by simpa using hk
          rw [hb] at hm
          exact List.mem_cons_of_mem _ (ih hm)
    refine ⟨(p, m), this, ?_⟩
    simp only [Bool.and_eq_true, List.isPrefixOf_iff_prefix, decide_eq_true_eq]
    exact ⟨h1, h2⟩

theorem run_local_rename {ns : List Str} (hp : PlainNames ns) (hn : n ∈ ns) {a b : Path}
    (ha : Own root n a) (hb : Own root n b) (hpl : Place root n b.dropLast) {S A A' : FS}
    (h : Rel root n S A) (he : A.rename a b = .ok A') :
    ∃ S', S.rename a b = .ok S' ∧ Rel root n S' A' ∧ Frame root n S S' := by
  unfold FS.rename at he ⊢
  rw [h.own a ha]
  cases hg : A.get a with
  | none => rw [hg] at he; cases he
  | some m =>
    rw [hg] at he
    dsimp only at he ⊢
    by_cases hab : a = b
    · rw [if_pos hab] at he ⊢
      cases he
      exact ⟨S, rfl, h, fun p _ => Or.inl rfl⟩
    · rw [if_neg hab] at he ⊢
      by_cases hd : A.isDir b.dropLast = true
      · rw [hd] at he
        rw [h.place hpl hd]
        simp only [Bool.not_true, Bool.false_eq_true, if_false] at he ⊢
        cases m with
        | file c =>
          dsimp only at he ⊢
          rw [h.own b hb]
          have key : ∀ fs : FS, ∀ p, FS.get ((b, Node.file c) :: fs.filter (fun e => decide (e.1 ≠ a))) p =
              if p = b then some (.file c) else if p ≠ a then fs.get p else none := by
            intro fs p
            rw [get_cons, get_filter (fun q => decide (q ≠ a))]
            simp only [decide_eq_true_eq]
          have fin : (match A.get b with
              | some .dir => Except.error FsErr.isADirectory
              | _ => Except.ok ((b, Node.file c) :: A.filter (fun e => decide (e.1 ≠ a)))) = .ok A' →
              (match A.get b with
              | some .dir => Except.error FsErr.isADirectory
              | _ => Except.ok ((b, Node.file c) :: S.filter (fun e => decide (e.1 ≠ a)))) =
                .ok ((b, Node.file c) :: S.filter (fun e => decide (e.1 ≠ a))) ∧
              A' = (b, Node.file c) :: A.filter (fun e => decide (e.1 ≠ a)) := by
            intro he
            generalize A.get b = g at he ⊢
            rcases g with _ | (t | _)
            · cases he; exact ⟨rfl, rfl⟩
            · cases he; exact ⟨rfl, rfl⟩
            · cases he
          obtain ⟨f1, f2⟩ := fin he
          refine ⟨_, f1, ?_⟩
          subst f2
          apply h.change hp hn
          · intro p hpo
            rw [key, if_neg (own_ne hpo hb), if_pos (own_ne hpo ha)]
          · intro p hpo
            rw [key, if_neg (own_ne hpo hb), if_pos (own_ne hpo ha)]
          · intro p hpo
            rw [key, key, h.own p hpo]
        | dir =>
          dsimp only at he ⊢
          by_cases hpre : a.isPrefixOf b = true
          · rw [if_pos hpre] at he; cases he
          · rw [if_neg hpre] at he ⊢
            rw [h.own b hb]
            have hany : S.any (fun e => b.isPrefixOf e.1 && decide (e.1 ≠ b)) =
                A.any (fun e => b.isPrefixOf e.1 && decide (e.1 ≠ b)) := by
              rw [Bool.eq_iff_iff, any_below, any_below]
              constructor
              · rintro ⟨p, h1, h2, h3⟩
                exact ⟨p, h1, h2, by rw [← h.own p (own_below hb h1)]; exact h3⟩
              · rintro ⟨p, h1, h2, h3⟩
                exact ⟨p, h1, h2, by rw [h.own p (own_below hb h1)]; exact h3⟩
            rw [hany]
            have key : ∀ fs : FS, ∀ p, FS.get (fs.moved a b ++ fs.filter (fun e => !a.isPrefixOf e.1)) p =
                (if b <+: p then fs.get (a ++ p.drop b.length) else none).or
                  (if a <+: p then none else fs.get p) := by
              intro fs p
              rw [get_append, get_moved, get_filter (fun q => !a.isPrefixOf q), isPrefixOf_eq]
              by_cases h : a <+: p <;> simp [h]
            have fin : (match A.get b with
                | some (.file _) => Except.error FsErr.notADirectory
                | _ => if A.any (fun e => b.isPrefixOf e.1 && decide (e.1 ≠ b)) then Except.error .notEmpty
                  else Except.ok (A.moved a b ++ List.filter (fun e : Path × Node => !a.isPrefixOf e.1) A)) = .ok A' →
                (match A.get b with
                | some (.file _) => Except.error FsErr.notADirectory
                | _ => if A.any (fun e => b.isPrefixOf e.1 && decide (e.1 ≠ b)) then Except.error .notEmpty
                  else Except.ok (S.moved a b ++ List.filter (fun e : Path × Node => !a.isPrefixOf e.1) S)) =
                  .ok (S.moved a b ++ List.filter (fun e : Path × Node => !a.isPrefixOf e.1) S) ∧
                A' = A.moved a b ++ List.filter (fun e : Path × Node => !a.isPrefixOf e.1) A := by
              intro he
              generalize A.any (fun e => b.isPrefixOf e.1 && decide (e.1 ≠ b)) = w at he ⊢
              generalize A.get b = g at he ⊢
              rcases g with _ | (t | _)
              · cases w
                · cases he; exact ⟨rfl, rfl⟩
                · cases he
              · cases he
              · cases w
                · cases he; exact ⟨rfl, rfl⟩
                · cases he
            obtain ⟨f1, f2⟩ := fin he
            refine ⟨_, f1, ?_⟩
            subst f2
            apply h.change hp hn
            · intro p hpo
              rw [key, if_neg (fun hc => hpo (own_below hb hc)), if_neg (fun hc => hpo (own_below ha hc))]
              rfl
            · intro p hpo
              rw [key, if_neg (fun hc => hpo (own_below hb hc)), if_neg (fun hc => hpo (own_below ha hc))]
              rfl
            · intro p hpo
              rw [key, key, h.own p hpo, h.own _ (own_below ha (List.prefix_append _ _))]
      · have hd' : A.isDir b.dropLast = false := by simpa using hd
        rw [hd'] at he; cases he

/-- An operation that is possible for a test alone does the same in a shared file system, and only to
its own files. -/
theorem run_local {ns : List Str} (hp : PlainNames ns) (hn : n ∈ ns) {o : FsOp} (ho : OpLocal root n o)
    {S A A' : FS} {x : Option Node} (h : Rel root n S A) (he : o.run A = .ok (A', x)) :
    ∃ S', o.run S = .ok (S', x) ∧ Rel root n S' A' ∧ Frame root n S S' := by
  have hnot : ∀ q, Above root n q → ¬ Own root n q := fun q h1 h2 => own_above hp hn hn h2 h1
  cases o with
  | look p =>
    simp only [FsOp.run] at he ⊢
    cases he
    exact ⟨S, by rw [h.own p ho], h, fun p _ => Or.inl rfl⟩
  | makeDir p =>
    obtain ⟨ho, hne⟩ := ho
    have hup : Place root n p.dropLast := by
      obtain ⟨o, h⟩ := ho
      exact Or.inr ⟨o, (List.dropLast_prefix p).trans h⟩
    have hS : S.get p = none ∨ S.get p = some .dir := by
      rcases hg : S.get p with _ | (t | _)
      · exact Or.inl rfl
      · exact absurd hg (h.ways p ho t)
      · exact Or.inr rfl
    have hA : x = some .dir ∧ (∀ q, A'.get q = if q = p then some .dir else A.get q) ∧
        (S.get p = none → A.isDir p.dropLast = true) := by
      simp only [FsOp.run] at he
      rcases hg : A.get p with _ | (t | _)
      · rw [hg] at he
        cases hd : A.isDir p.dropLast with
        | false => rw [hd] at he; cases he
        | true =>
          rw [hd] at he; cases he
          exact ⟨rfl, (fun q => by rw [get_cons]), fun _ => rfl⟩
      · exact absurd hg (h.waysA p ho t)
      · rw [hg] at he; cases he
        refine ⟨rfl, (fun q => ?_), fun hc => absurd (h.dirs p ho hg) (by rw [hc]; simp)⟩
        split
        · rename_i hq; rw [hq, hg]
        · rfl
    obtain ⟨rfl, hA, hpar⟩ := hA
    have hS' : ∃ S', FsOp.run S (.makeDir p) = .ok (S', some .dir) ∧
        ∀ q, S'.get q = if q = p then some .dir else S.get q := by
      simp only [FsOp.run]
      rcases hS with hg | hg
      · rw [hg]
        dsimp only
        rw [if_pos (h.place hup (hpar hg))]
        exact ⟨_, rfl, fun q => by rw [get_cons]⟩
      · rw [hg]
        refine ⟨_, rfl, fun q => ?_⟩
        split
        · rename_i hq; rw [hq, hg]
        · rfl
    obtain ⟨S', e, hS'⟩ := hS'
    refine ⟨S', e, ⟨?_, ?_, ?_, ?_, ?_⟩, ?_⟩
    · intro q hq
      have hne : q ≠ p := fun hc => hnot p ho (hc ▸ hq)
      rw [hS', hA, if_neg hne, if_neg hne, h.own q hq]
    · intro q hq
      rw [hS', hA]
      split
      · intro _; rfl
      · exact h.dirs q hq
    · intro q hq t
      rw [hS']
      split
      · simp
      · exact h.ways q hq t
    · intro q hq t
      rw [hA]
      split
      · simp
      · exact h.waysA q hq t
    · rw [hS', if_neg]
      · exact h.index
      · intro hc; rw [← hc] at ho; exact above_index (hp.1 n hn) ho
    · intro q _
      rw [hS']
      by_cases hq : q = p
      · subst hq
        rw [if_pos rfl]
        rcases hS with hg | hg
        · exact Or.inr (Or.inl ⟨ho, hg, rfl⟩)
        · exact Or.inl hg.symm
      · rw [if_neg hq]; exact Or.inl rfl
  | mkdir p =>
    obtain ⟨ho, hpl, -⟩ := ho
    simp only [FsOp.run, Model.mkdir] at he ⊢
    have hex : S.exists_ p = A.exists_ p := by unfold FS.exists_; rw [h.own p ho]
    rw [hex]
    cases hx : A.exists_ p with
    | true => rw [hx] at he; cases he
    | false =>
      rw [hx] at he
      cases hd : A.isDir p.dropLast with
      | false => rw [hd] at he; cases he
      | true =>
        rw [hd] at he
        rw [h.place hpl hd]
        cases he
        refine ⟨_, rfl, ?_⟩
        apply h.change hp hn
        · intro q hq; rw [get_cons, if_neg (own_ne hq ho)]
        · intro q hq; rw [get_cons, if_neg (own_ne hq ho)]
        · intro q hq; rw [get_cons, get_cons, h.own q hq]
  | rmtree p =>
    simp only [FsOp.run, FS.rmtree] at he ⊢
    rw [h.own p ho]
    rcases hg : A.get p with _ | (t | _)
    · rw [hg] at he; cases he
    · rw [hg] at he; cases he
    · rw [hg] at he
      cases he
      have key : ∀ fs : FS, ∀ q, FS.get (fs.filter (fun e => !p.isPrefixOf e.1)) q =
          if p <+: q then none else fs.get q := by
        intro fs q
        rw [get_filter (fun q => !p.isPrefixOf q), isPrefixOf_eq]
        by_cases h : p <+: q <;> simp [h]
      refine ⟨_, rfl, ?_⟩
      apply h.change hp hn
      · intro q hq; rw [key, if_neg (fun hc => hq (own_below ho hc))]
      · intro q hq; rw [key, if_neg (fun hc => hq (own_below ho hc))]
      · intro q hq; rw [key, key, h.own q hq]
  | write p t =>
    obtain ⟨ho, hpl, -⟩ := ho
    simp only [FsOp.run, openW] at he ⊢
    have hA : A.isDir p.dropLast = true ∧ x = none ∧ A' = A.write p t ∧ A.get p ≠ some .dir := by
      cases hd : A.isDir p.dropLast with
      | true =>
        rw [hd] at he
        rcases hg : A.get p with _ | (c | _) <;> rw [hg] at he <;> cases he <;> simp
      | false =>
        rw [hd] at he
        rcases hg : A.get p with _ | (c | _) <;> rw [hg] at he <;> cases he
    obtain ⟨hd, rfl, rfl, hnd⟩ := hA
    have hS : S.get p ≠ some .dir := by
      rcases ho with ho | ho
      · rw [h.own p ho]; exact hnd
      · rw [ho]; exact h.index
    rw [h.place hpl hd]
    have gw : ∀ fs : FS, ∀ q, (fs.write p t).get q = if q = p then some (.file t) else fs.get q := by
      intro fs q; unfold FS.write; rw [get_cons]
    refine ⟨S.write p t, ?_, ?_⟩
    · rcases hg : S.get p with _ | (c | _)
      · rfl
      · rfl
      · exact absurd hg hS
    · rcases ho with ho | ho
      · apply h.change hp hn
        · intro q hq; rw [gw, if_neg (own_ne hq ho)]
        · intro q hq; rw [gw, if_neg (own_ne hq ho)]
        · intro q hq; rw [gw, gw, h.own q hq]
      · subst ho
        have na : ∀ q, Above root n q → q ≠ indexFile root := by
          rintro q hq rfl; exact above_index (hp.1 n hn) hq
        refine ⟨⟨?_, ?_, ?_, ?_, ?_⟩, ?_⟩
        · intro q hq; rw [gw, gw, h.own q hq]
        · intro q hq
          rw [gw, gw, if_neg (na q hq), if_neg (na q hq)]; exact h.dirs q hq
        · intro q hq
          rw [gw, if_neg (na q hq)]; exact h.ways q hq
        · intro q hq
          rw [gw, if_neg (na q hq)]; exact h.waysA q hq
        · rw [gw, if_pos rfl]; simp
        · intro q _
          rw [gw]
          by_cases hq : q = indexFile root
          · rw [if_pos hq]; exact Or.inr (Or.inr ⟨hq, t, rfl⟩)
          · rw [if_neg hq]; exact Or.inl rfl
  | rename a b =>
    simp only [FsOp.run] at he ⊢
    cases hr : A.rename a b with
    | error e => rw [hr] at he; cases he
    | ok B =>
      rw [hr] at he
      cases he
      obtain ⟨S', e, h1, h2⟩ := run_local_rename hp hn ho.1 ho.2.1 ho.2.2.1 h hr
      exact ⟨S', by rw [e]; rfl, h1, h2⟩
  | remove p =>
    simp only [FsOp.run, FS.remove] at he ⊢
    rw [h.own p ho]
    rcases hg : A.get p with _ | (t | _)
    · rw [hg] at he; cases he
    · rw [hg] at he
      cases he
      have key : ∀ fs : FS, ∀ q, FS.get (fs.filter (fun e => decide (e.1 ≠ p))) q =
          if q ≠ p then fs.get q else none := by
        intro fs q
        rw [get_filter (fun q => decide (q ≠ p))]
        simp only [decide_eq_true_eq]
      refine ⟨_, rfl, ?_⟩
      apply h.change hp hn
      · intro q hq; rw [key, if_pos (own_ne hq ho)]
      · intro q hq; rw [key, if_pos (own_ne hq ho)]
      · intro q hq; rw [key, key, h.own q hq]
    · rw [hg] at he; cases he

end Verif.Lemmas
