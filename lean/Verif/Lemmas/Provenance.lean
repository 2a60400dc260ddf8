import Verif.Lemmas.TogetherSound
import Verif.Spec.Provenance

/-! # Where snapshots come from: facts about the operations of tests -/

namespace Verif.Lemmas
open Verif.Py Verif.Model Verif.Spec

variable {root : Path} {n : Str} {ns : List Str} {P : Project}

/-! ### All operations of a test but one -/

/-- The operations of a test that write neither its output nor its snapshot. -/
def RestOp (root : Path) (n : Str) : FsOp → Prop
  | .look p => Own root n p
  | .makeDir p => Above root n p ∧ p ≠ []
  | .mkdir p => p = slot root true n []
  | .rmtree p => DirSlot root n p
  | .write p _ => (∃ x, x ∈ endings ∧ x ≠ ".tmp".toList ∧ x ≠ ".md".toList ∧ p = slot root true n x) ∨
      (∃ c, p = slot root true n [] ++ [c]) ∨ p = indexFile root
  | .rename a b => a = slot root true n [] ∧ b = slot root false n []
  | .remove p => p = slot root true n ".bin".toList

/-- The operations of a test, apart from the one that replaces its snapshot. -/
def RunOp (root : Path) (n : Str) (o : FsOp) : Prop :=
  RestOp root n o ∨ ∃ t, o = .write (slot root true n ".md".toList) t

/-- The operation that replaces the snapshot. -/
def acceptOp (root : Path) (n : Str) : FsOp :=
  .rename (slot root true n ".md".toList) (slot root false n ".md".toList)

/-- A property of tasks that holds if it holds after an operation. -/
structure ClosedRest (root : Path) (n : Str) (Q : Task → Prop) : Prop where
  done : ∀ e, (∀ r q, e ≠ .done r q) → Q (.done e)
  act : ∀ o k, RestOp root n o → (∀ a, Q (k a)) → Q (.act o k)

/-- The same for all operations of a test but one. -/
structure Closed (root : Path) (n : Str) (Q : Task → Prop) : Prop extends ClosedRest root n Q where
  out : ∀ t k, (∀ a, Q (k a)) → Q (.act (.write (slot root true n ".md".toList) t) k)

variable {Q : Task → Prop}

theorem closed_mkdirs (hQ : ClosedRest root n Q) (d : Path) (hd : Above root n d) {k : Task} (hk : Q k) :
    ∀ (cs : List Str) (base : Path), base ++ cs = d → Q (mkdirsTask base cs k) := by
  intro cs
  induction cs with
  | nil => intro base _; exact hk
  | cons c cs ih =>
    intro base hb
    rw [mkdirsTask]
    refine hQ.act _ _ ?_ ?_
    · obtain ⟨o, h⟩ := hd
      refine ⟨⟨o, List.IsPrefix.trans ⟨cs, ?_⟩ h⟩, by simp⟩
      rw [← hb]; simp
    · intro a
      rcases a with _ | (t | _)
      · exact ih _ (by rw [← hb]; simp)
      · exact hk
      · exact ih _ (by rw [← hb]; simp)

theorem closed_remove (hQ : ClosedRest root n Q) {d : Path} (hd : DirSlot root n d) {k : Task} (hk : Q k) :
    Q (removeTask d k) := by
  refine hQ.act _ _ ?_ ?_
  · obtain ⟨o, x, hx, rfl⟩ := hd
    exact own_slot o (dirEnd hx)
  · intro a
    split
    · exact hQ.act _ _ hd (fun _ => hk)
    · exact hk

theorem write_run {x : Str} (h : x ∈ endings) (h' : x ≠ ".tmp".toList) (h2 : x ≠ ".md".toList) (t : Str) :
    RestOp root n (.write (slot root true n x) t) := Or.inl ⟨x, h, h', h2, rfl⟩

theorem closed_outputs (hQ : Closed P.root n Q) (md txt log : Str) {k : Task} (hk : Q k) :
    Q (outputsTask P.out n md txt log k) := by
  unfold outputsTask
  rw [(filePath_slot P _).2, (filePath_slot P _).2, (filePath_slot P _).2]
  exact hQ.out _ _ fun _ => hQ.act _ _ (write_run mem_txt (by decide) (by decide) _) fun _ =>
    hQ.act _ _ (write_run mem_log (by decide) (by decide) _) fun _ => hk

theorem closed_files (hQ : ClosedRest P.root n Q) (files : List (Str × Str)) {k : Task} (hk : Q k) :
    Q (filesTask P.out n files k) := by
  induction files with
  | nil => exact hk
  | cons f rest ih =>
    rw [filesTask, (dirPath_slot P).2]
    have hw : RestOp P.root n (.write (slot P.root true n [] ++ [f.1]) f.2) := Or.inr (Or.inl ⟨f.1, rfl⟩)
    refine hQ.act _ _ (own_slot _ (Or.inl rfl)) ?_
    intro a
    split
    · exact hQ.act _ _ hw (fun _ => ih)
    · exact hQ.act _ _ rfl (fun _ => hQ.act _ _ hw (fun _ => ih))

theorem closed_save (hQ : ClosedRest P.root n Q) (v : Option Str) {k : Task} (hk : Q k) :
    Q (saveTask P.out n v k) := by
  unfold saveTask
  rw [(filePath_slot P _).2]
  cases v with
  | none =>
    refine hQ.act _ _ (own_slot _ (Or.inr mem_bin)) ?_
    intro a
    split
    · exact hQ.act _ _ rfl (fun _ => hk)
    · exact hk
  | some v => exact hQ.act _ _ (write_run mem_bin (by decide) (by decide) _) (fun _ => hk)

theorem closed_index (hQ : ClosedRest P.root n Q) (all : List Str) {k : Task} (hk : Q k) :
    Q (indexTask P all k) :=
  hQ.act _ _ (Or.inr (Or.inr rfl)) (fun _ => hk)

/-- What follows the replacement of the snapshot. -/
def afterAccept (P : Project) (n : Str) (k : Task) : Task :=
  .act (.look (dirPath P.out n)) fun a =>
    if a.isSome then .act (.rename (dirPath P.out n) (dirPath P.root n)) (fun _ => k) else k

theorem closed_after (hQ : ClosedRest P.root n Q) {k : Task} (hk : Q k) : Q (afterAccept P n k) := by
  unfold afterAccept
  rw [(dirPath_slot P).1, (dirPath_slot P).2]
  refine hQ.act _ _ (own_slot _ (Or.inl rfl)) ?_
  intro a
  split
  · exact hQ.act _ _ ⟨rfl, rfl⟩ (fun _ => hk)
  · exact hk

theorem freezeTask_eq (P : Project) (n : Str) (k : Task) : freezeTask P.root P.out n k =
    removeTask (slot P.root false n []) (.act (acceptOp P.root n) (fun _ => afterAccept P n k)) := by
  unfold freezeTask afterAccept acceptOp
  rw [(dirPath_slot P).1, (dirPath_slot P).2, mdPath_eq, mdPath_eq, (mdFile_slot P).1, (mdFile_slot P).2]

theorem interact_suffix (r : Raw) (l : List Str) {q : Request} {rest : List Str}
    (h : interact r l = some (q, rest)) : rest <:+ l := by
  induction l with
  | nil => cases h
  | cons a as ih =>
    rw [interact] at h
    split at h
    · cases h; exact List.suffix_cons _ _
    · split at h
      · cases h; exact List.suffix_cons _ _
      · split at h
        · cases h; exact List.suffix_cons _ _
        · exact (ih h).trans (List.suffix_cons _ _)

/-- The review inside `endTask`. -/
def reviewed (cfg : Config) (ans : List Str) (v : Result) : Option (Request × List Str) :=
  if cfg.alwaysInteractive || (decide (v ≠ .OK) && cfg.interactive) then interact (.res v) ans
  else some (.NONE, ans)

theorem reviewed_suffix {cfg : Config} {ans rest : List Str} {v : Result} {q : Request}
    (h : reviewed cfg ans v = some (q, rest)) : rest <:+ ans := by
  unfold reviewed at h
  split at h
  · exact interact_suffix _ _ h
  · cases h; exact List.suffix_rfl

theorem reviewed_accepts {cfg : Config} {ans rest : List Str} {v : Result} {q : Request}
    (h : reviewed cfg ans v = some (q, rest))
    (hf : q = .FREEZE ∨ (v = .OK ∧ cfg.update = true) ∨ (v = .DIFF ∧ cfg.accept = true)) :
    Accepts cfg v ans := by
  rcases hf with rfl | hf
  · left
    unfold reviewed at h
    split at h
    · rename_i hc
      refine ⟨?_, ?_⟩
      · simp only [Bool.or_eq_true, Bool.and_eq_true, decide_eq_true_eq] at hc
        exact hc
      · have := interact_eq v ans
        rw [h] at this
        simp only [Option.map_some] at this
        cases hd : decision v ans with
        | none => rw [hd] at this; cases this
        | some d =>
          rw [hd] at this
          simp only [Option.map_some, Option.some.injEq] at this
          split at this
          · rename_i e; rw [e]
          · split at this <;> cases this
    · cases h
  · exact Or.inr hf

theorem reviewTask_eq (P : Project) (cfg : Config) (name : Str) (ans : List Str) (v : Result)
    (yes no : Request → List Str → Task) : reviewTask P cfg name ans v yes no =
    match reviewed cfg ans v with
    | none => .done .eof
    | some (request, rest) =>
      if request = .FREEZE ∨ (v = .OK ∧ cfg.update = true) ∨ (v = .DIFF ∧ cfg.accept = true) then
        freezeTask P.root P.out name (yes request rest)
      else no request rest := rfl

theorem closed_review (hQ : ClosedRest P.root n Q)
    (hmv : ∀ k, (∀ a, Q (k a)) → Q (.act (acceptOp P.root n) k)) (cfg : Config) (ans : List Str) (v : Result)
    {yes no : Request → List Str → Task} (hy : ∀ q l, l <:+ ans → Q (yes q l))
    (hn : ∀ q l, l <:+ ans → Q (no q l)) : Q (reviewTask P cfg n ans v yes no) := by
  rw [reviewTask_eq]
  cases hr : reviewed cfg ans v with
  | none => exact hQ.done _ (by simp)
  | some c =>
    obtain ⟨q, rest⟩ := c
    have hs := reviewed_suffix hr
    dsimp only
    split
    · rw [freezeTask_eq]
      exact closed_remove hQ (res_slot _) (hmv _ fun _ => closed_after hQ (hy _ _ hs))
    · exact hn _ _ hs

theorem closed_end (hQ : ClosedRest P.root n Q)
    (hmv : ∀ k, (∀ a, Q (k a)) → Q (.act (acceptOp P.root n) k)) (cfg : Config) (ans : List Str) (v : Result)
    {k : Result → Request → List Str → Task} (hk : ∀ r q l, l <:+ ans → Q (k r q l)) :
    Q (endTask P cfg n ans v k) := by
  refine closed_review hQ hmv _ _ _ (fun q l hs => closed_save hQ _ (hk _ _ _ hs)) ?_
  intro q l hs
  split
  · exact closed_save hQ _ (hk _ _ _ hs)
  · exact hk _ _ _ hs

/-- A property that is closed under all operations of a test holds before the test. -/
theorem closed_case (hQ : Closed P.root n Q)
    (hmv : ∀ k, (∀ a, Q (k a)) → Q (.act (acceptOp P.root n) k)) (cfg : Config) (ans : List Str)
    {k : Result → Request → List Str → Task} (hk : ∀ r q l, l <:+ ans → Q (k r q l)) :
    Q (caseTask P cfg n ans k) := by
  unfold caseTask
  refine closed_mkdirs hQ.toClosedRest _ ⟨false, List.prefix_rfl⟩ ?_ _ _ (by rw [(baseDir_slot P).1]; rfl)
  refine closed_mkdirs hQ.toClosedRest _ ⟨true, List.prefix_rfl⟩ ?_ _ _ (by rw [(baseDir_slot P).2]; rfl)
  rw [(filePath_slot P _).1, (dirPath_slot P).2, dirPath_tmp]
  refine hQ.act _ _ (own_slot _ (Or.inr mem_md)) ?_
  intro a
  refine closed_remove hQ.toClosedRest (res_slot _) ?_
  refine closed_remove hQ.toClosedRest ⟨true, _, Or.inr rfl, rfl⟩ ?_
  refine closed_outputs hQ _ _ _ ?_
  split
  · exact hQ.done _ (by simp)
  · dsimp only
    split
    · exact hQ.done _ (by simp)
    · exact closed_files hQ.toClosedRest _ (closed_outputs hQ _ _ _ (closed_end hQ.toClosedRest hmv _ _ _ hk))

/-! ### Operations that leave a file alone -/

/-- The operation does not change what is at the path. -/
def OpAvoids (p : Path) : FsOp → Prop
  | .look _ => True
  | .makeDir q => q ≠ p
  | .mkdir q => q ≠ p
  | .rmtree d => ¬ d <+: p
  | .write q _ => q ≠ p
  | .rename a b => ¬ a <+: p ∧ ¬ b <+: p
  | .remove q => q ≠ p

theorem avoids_run {p : Path} {o : FsOp} (h : OpAvoids p o) {fs fs' : FS} {a : Option Node}
    (he : o.run fs = .ok (fs', a)) : fs'.get p = fs.get p := by
  cases o with
  | look q => simp only [FsOp.run] at he; cases he; rfl
  | makeDir q =>
    simp only [FsOp.run] at he
    split at he
    · cases he; rfl
    · split at he
      · cases he
        rw [get_cons, if_neg (fun hc => h hc.symm)]
      · cases he
  | mkdir q =>
    simp only [FsOp.run, Model.mkdir] at he
    split at he
    · cases he
    · split at he
      · cases he
        rw [get_cons, if_neg (fun hc => h hc.symm)]
      · cases he
  | rmtree d =>
    simp only [FsOp.run] at he
    cases hr : fs.rmtree d with
    | error x => rw [hr] at he; cases he
    | ok g => rw [hr] at he; cases he; exact rmtree_frame hr h
  | write q t =>
    simp only [FsOp.run, openW] at he
    split at he
    · cases he
    · split at he
      · cases he
        rw [FS.write, get_cons, if_neg (fun hc => h hc.symm)]
      · cases he
  | rename a b =>
    simp only [FsOp.run] at he
    cases hr : fs.rename a b with
    | error x => rw [hr] at he; cases he
    | ok g => rw [hr] at he; cases he; exact rename_frame hr h.1 h.2
  | remove q =>
    simp only [FsOp.run, FS.remove] at he
    split at he
    · cases he
    · cases he
    · cases he
      rw [get_filter (fun r => decide (r ≠ q)), if_pos]
      simpa using fun hc => h hc.symm

theorem not_prefix_slot (hn : PlainName n) {o o' : Bool} {x y : Str} (hx : x = [] ∨ x ∈ endings)
    (hy : y = [] ∨ y ∈ endings) (hne : o ≠ o' ∨ x ≠ y) : ¬ slot root o n x <+: slot root o' n y := by
  intro hc
  obtain ⟨h1, h2⟩ := own_sep hn hx hy hc List.prefix_rfl
  rcases hne with hne | hne
  · exact hne h1
  · exact hne h2

theorem slot_ne (hn : PlainName n) {o o' : Bool} {x y : Str} (hx : x = [] ∨ x ∈ endings)
    (hy : y = [] ∨ y ∈ endings) (hne : o ≠ o' ∨ x ≠ y) : slot root o n x ≠ slot root o' n y := by
  intro hc
  exact not_prefix_slot (root := root) hn hx hy hne (by rw [hc]; exact List.prefix_rfl)

/-- The snapshot and the output are left alone by all operations but two. -/
theorem rest_avoids (hn : PlainName n) {o : FsOp} (h : RestOp root n o) (s : Bool) :
    OpAvoids (slot root s n ".md".toList) o := by
  have hmd : ".md".toList = [] ∨ ".md".toList ∈ endings := Or.inr mem_md
  have hres : [] ≠ ".md".toList := by decide
  cases o with
  | look q => trivial
  | makeDir q =>
    obtain ⟨⟨o, h⟩, -⟩ := h
    rintro rfl
    exact own_not_above hn hmd h List.prefix_rfl
  | mkdir q =>
    change q = _ at h
    subst h
    exact slot_ne hn (Or.inl rfl) hmd (Or.inr hres)
  | rmtree d =>
    obtain ⟨o, x, hx, rfl⟩ := h
    refine not_prefix_slot hn (dirEnd hx) hmd (Or.inr ?_)
    rcases hx with rfl | rfl <;> decide
  | write q t =>
    rcases h with ⟨x, hx, -, hx2, rfl⟩ | ⟨c, rfl⟩ | rfl
    · exact slot_ne hn (Or.inr hx) hmd (Or.inr hx2)
    · exact below_no_slot hn (Or.inl rfl) hmd (by simp)
    · intro hc
      exact own_index (root := root) hn (hc ▸ own_slot s hmd)
  | rename a b =>
    obtain ⟨rfl, rfl⟩ := h
    exact ⟨not_prefix_slot hn (Or.inl rfl) hmd (Or.inr hres), not_prefix_slot hn (Or.inl rfl) hmd (Or.inr hres)⟩
  | remove q =>
    change q = _ at h
    subst h
    exact slot_ne hn (Or.inr mem_bin) hmd (Or.inr (by decide))

theorem out_ne_exp (hn : PlainName n) : slot root true n ".md".toList ≠ slot root false n ".md".toList :=
  slot_ne hn (Or.inr mem_md) (Or.inr mem_md) (Or.inl (by simp))

/-- The snapshot is left alone by all operations but one. -/
theorem run_avoids (hn : PlainName n) {o : FsOp} (h : RunOp root n o) :
    OpAvoids (slot root false n ".md".toList) o := by
  rcases h with h | ⟨t, rfl⟩
  · exact rest_avoids hn h _
  · exact out_ne_exp hn

/-- Operations of other tests leave all files of a test alone. -/
theorem other_avoids (hp : PlainNames ns) {m : Str} (hm : m ∈ ns) (hn : n ∈ ns) (hmn : m ≠ n) {o : FsOp}
    (h : RunOp root m o ∨ o = acceptOp root m) {p : Path} (hpo : Own root n p) : OpAvoids p o := by
  have hown : ∀ {q}, Own root m q → ¬ q <+: p := by
    intro q hq hc
    exact hmn (own_apart hp hm hn (own_below hq hc) hpo)
  have hne : ∀ {q}, Own root m q → q ≠ p := by
    rintro q hq rfl
    exact hown hq List.prefix_rfl
  rcases h with (h | ⟨t, rfl⟩) | rfl
  · cases o with
    | look q => trivial
    | makeDir q =>
      rintro rfl
      exact own_above hp hn hm hpo h.1
    | mkdir q =>
      change q = _ at h
      subst h
      exact hne (own_slot _ (Or.inl rfl))
    | rmtree d =>
      obtain ⟨o, x, hx, rfl⟩ := h
      exact hown (own_slot _ (dirEnd hx))
    | write q t =>
      rcases h with ⟨x, hx, -, -, rfl⟩ | ⟨c, rfl⟩ | rfl
      · exact hne (own_slot _ (Or.inr hx))
      · exact hne (own_below (own_slot _ (Or.inl rfl)) (List.prefix_append _ _))
      · rintro rfl
        exact own_index (hp.1 n hn) hpo
    | rename a b =>
      obtain ⟨rfl, rfl⟩ := h
      exact ⟨hown (own_slot _ (Or.inl rfl)), hown (own_slot _ (Or.inl rfl))⟩
    | remove q =>
      change q = _ at h
      subst h
      exact hne (own_slot _ (Or.inr mem_bin))
  · exact hne (own_slot _ (Or.inr mem_md))
  · exact ⟨hown (own_slot _ (Or.inr mem_md)), hown (own_slot _ (Or.inr mem_md))⟩

/-! ### Tasks -/

/-- All operations of a task have a property. -/
inductive All (R : FsOp → Prop) : Task → Prop
  | done (e : CaseEnd) : All R (.done e)
  | act (o : FsOp) (k : Option Node → Task) : R o → (∀ a, All R (k a)) → All R (.act o k)

theorem All.mono {R R' : FsOp → Prop} (h : ∀ o, R o → R' o) {t : Task} (ht : All R t) : All R' t := by
  induction ht with
  | done e => exact .done e
  | act o k h1 _ ih => exact .act o k (h o h1) ih

/-- The operations of a test. -/
def CaseOp (root : Path) (n : Str) (o : FsOp) : Prop := RunOp root n o ∨ o = acceptOp root n

theorem closed_all {R : FsOp → Prop} (h : ∀ o, RunOp root n o → R o) : Closed root n (All R) :=
  ⟨⟨fun e _ => .done e, fun o k h1 h2 => .act o k (h o (Or.inl h1)) h2⟩,
    fun t k h2 => .act _ k (h _ (Or.inr ⟨t, rfl⟩)) h2⟩

theorem parallel_ops (P : Project) (cfg : Config) (all : List Str) (index : Bool) (ans : Option (List Str)) (n : Str) :
    All (CaseOp P.root n) (parallelTask P cfg all index ans n) := by
  have hQ : Closed P.root n (All (CaseOp P.root n)) := closed_all (fun o h => Or.inl h)
  have hmv : ∀ k, (∀ a, All (CaseOp P.root n) (k a)) → All (CaseOp P.root n) (.act (acceptOp P.root n) k) :=
    fun k hk => .act _ k (Or.inr rfl) hk
  refine closed_case hQ hmv _ _ (fun r q l _ => ?_)
  have hl : All (CaseOp P.root n) (laterTask P cfg n ans r q) := by
    cases ans with
    | none => exact .done _
    | some ans => exact closed_review hQ.toClosedRest hmv _ _ _ (fun _ _ _ => .done _) (fun _ _ _ => .done _)
  cases index with
  | false => exact hl
  | true => exact closed_index hQ.toClosedRest _ hl

theorem case_local (hn : PlainName n) {o : FsOp} (h : CaseOp root n o) : OpLocal root n o := by
  have hd : Own root n (slot root true n []) := own_slot _ (Or.inl rfl)
  rcases h with (h | ⟨t, rfl⟩) | rfl
  · cases o with
    | look q => exact h
    | makeDir q => exact h
    | mkdir q =>
      change q = _ at h
      subst h
      exact ⟨hd, place_file _ (Or.inl rfl), res_slot _⟩
    | rmtree d =>
      obtain ⟨o, x, hx, rfl⟩ := h
      exact own_slot _ (dirEnd hx)
    | write q t =>
      rcases h with ⟨x, hx, hx', -, rfl⟩ | ⟨c, rfl⟩ | rfl
      · exact ⟨Or.inl (own_slot _ (Or.inr hx)), place_file _ (Or.inr hx), file_not_dir hn ⟨true, x, hx, hx', rfl⟩⟩
      · exact ⟨Or.inl (own_below hd (List.prefix_append _ _)), Or.inl (by rw [List.dropLast_concat]; exact hd), by
          rintro ⟨o, x, hx, e⟩
          exact below_no_slot hn (Or.inl rfl) (dirEnd hx) (by simp) e⟩
      · refine ⟨Or.inr rfl, Or.inr ?_, index_not_dir hn⟩
        rw [indexFile, List.dropLast_concat]
        exact above_root
    | rename a b =>
      obtain ⟨rfl, rfl⟩ := h
      exact ⟨hd, own_slot _ (Or.inl rfl), place_file _ (Or.inl rfl), Or.inr ⟨res_slot _, res_slot _⟩⟩
    | remove q =>
      change q = _ at h
      subst h
      exact own_slot _ (Or.inr mem_bin)
  · exact ⟨Or.inl (own_slot _ (Or.inr mem_md)), place_file _ (Or.inr mem_md), file_not_dir hn (md_slot _)⟩
  · exact ⟨own_slot _ (Or.inr mem_md), own_slot _ (Or.inr mem_md), place_file _ (Or.inr mem_md),
      Or.inl ⟨md_slot _, md_slot _⟩⟩

/-! ### From the output to the snapshot -/

variable {exp out : Path} {x : Option Node} {Good : Str → Prop}

/-- The task leaves `exp` alone if there is nothing in `out`. -/
inductive Gone (exp out : Path) : Task → Prop
  | keep {t : Task} : All (OpAvoids exp) t → Gone exp out t
  | act {o : FsOp} {k : Option Node → Task} : OpAvoids exp o → OpAvoids out o →
      (∀ a, Gone exp out (k a)) → Gone exp out (.act o k)
  | dead {k : Option Node → Task} : Gone exp out (.act (.rename out exp) k)

/-- The task may move `out` to `exp`, and touches none of them before. -/
inductive Moves (exp out : Path) : Task → Prop
  | keep {t : Task} : All (OpAvoids exp) t → Moves exp out t
  | act {o : FsOp} {k : Option Node → Task} : OpAvoids exp o → OpAvoids out o →
      (∀ a, Moves exp out (k a)) → Moves exp out (.act o k)
  | move {k : Option Node → Task} : out ≠ exp → (∀ a, Gone exp out (k a)) →
      Moves exp out (.act (.rename out exp) k)

/-- The task finds `x` in `exp`, and may write a good text to `out` in order to move it to `exp`. -/
inductive Writes (exp out : Path) (x : Option Node) (Good : Str → Prop) : Task → Prop
  | keep {t : Task} : All (OpAvoids exp) t → Writes exp out x Good t
  | act {o : FsOp} {k : Option Node → Task} : OpAvoids exp o → (∀ a, Writes exp out x Good (k a)) →
      Writes exp out x Good (.act o k)
  | look {k : Option Node → Task} : Writes exp out x Good (k x) → Writes exp out x Good (.act (.look exp) k)
  | write {text : Str} {k : Option Node → Task} : out ≠ exp → Good text → (∀ a, Moves exp out (k a)) →
      Writes exp out x Good (.act (.write out text) k)

/-- What is in `exp` is what was there, or a good text. -/
def Kept (exp : Path) (x : Option Node) (Good : Str → Prop) (A : FS) : Prop :=
  A.get exp = x ∨ ∃ text, Good text ∧ A.get exp = some (.file text)

/-- The states of a process that replaces `exp`. -/
def Traced (exp out : Path) (x : Option Node) (Good : Str → Prop) (A : FS) (t : Task) : Prop :=
  (A.get exp = x ∧ Writes exp out x Good t) ∨
  (A.get exp = x ∧ (∃ text, Good text ∧ A.get out = some (.file text)) ∧ Moves exp out t) ∨
  (A.get out = none ∧ Gone exp out t ∧ Kept exp x Good A) ∨
  (All (OpAvoids exp) t ∧ Kept exp x Good A)

theorem Traced.kept {A : FS} {t : Task} (h : Traced exp out x Good A t) : Kept exp x Good A := by
  rcases h with h | h | h | h
  · exact Or.inl h.1
  · exact Or.inl h.1
  · exact h.2.2
  · exact h.2

/-- Operations elsewhere. -/
theorem Traced.frame {A A' : FS} {t : Task} (h : Traced exp out x Good A t) (he : A'.get exp = A.get exp)
    (ho : A'.get out = A.get out) : Traced exp out x Good A' t := by
  unfold Traced Kept at *
  rw [he, ho]
  exact h

theorem all_step {R : FsOp → Prop} {A A' : FS} {t t' : Task} (h : All R t)
    (hs : t.step A = some (A', t')) : All R t' := by
  cases h with
  | done e => cases hs
  | act o k h1 h2 =>
    simp only [Task.step] at hs
    split at hs
    · cases hs; exact .done _
    · cases hs; exact h2 _

theorem kept_step {A A' : FS} {t t' : Task} (h : All (OpAvoids exp) t)
    (hs : t.step A = some (A', t')) : A'.get exp = A.get exp := by
  cases h with
  | done e => cases hs
  | act o k h1 h2 =>
    simp only [Task.step] at hs
    cases hr : o.run A with
    | error y => rw [hr] at hs; cases hs; rfl
    | ok r =>
      obtain ⟨B, a⟩ := r
      rw [hr] at hs
      cases hs
      exact avoids_run h1 hr

theorem Traced.step {A A' : FS} {t t' : Task} (h : Traced exp out x Good A t)
    (hs : t.step A = some (A', t')) : Traced exp out x Good A' t' := by
  have done3 : All (OpAvoids exp) t → Kept exp x Good A → Traced exp out x Good A' t' := by
    intro h1 h2
    refine Or.inr (Or.inr (Or.inr ⟨all_step h1 hs, ?_⟩))
    unfold Kept at *
    rw [kept_step h1 hs]
    exact h2
  rcases h with ⟨h1, h2⟩ | ⟨h1, h2, h3⟩ | ⟨h1, h2, h3⟩ | ⟨h1, h2⟩
  · cases h2 with
    | keep h2 => exact done3 h2 (Or.inl h1)
    | act ha hk =>
      rename_i o k
      simp only [Task.step] at hs
      cases hr : o.run A with
      | error y => rw [hr] at hs; cases hs; exact Or.inl ⟨h1, .keep (.done _)⟩
      | ok r =>
        obtain ⟨B, a⟩ := r
        rw [hr] at hs
        cases hs
        exact Or.inl ⟨by rw [avoids_run ha hr, h1], hk a⟩
    | look hk =>
      simp only [Task.step, FsOp.run] at hs
      cases hs
      exact Or.inl ⟨h1, by rw [h1]; exact hk⟩
    | write hne hg hk =>
      rename_i text k
      simp only [Task.step] at hs
      cases hr : (FsOp.write out text).run A with
      | error y => rw [hr] at hs; cases hs; exact Or.inl ⟨h1, .keep (.done _)⟩
      | ok r =>
        obtain ⟨B, a⟩ := r
        rw [hr] at hs
        cases hs
        refine Or.inr (Or.inl ⟨by rw [avoids_run (p := exp) (show OpAvoids exp (.write out text) from hne) hr, h1],
          ⟨text, hg, ?_⟩, hk a⟩)
        simp only [FsOp.run, openW] at hr
        split at hr
        · cases hr
        · split at hr
          · cases hr
            rw [FS.write, get_cons, if_pos rfl]
          · cases hr
  · cases h3 with
    | keep h3 => exact done3 h3 (Or.inl h1)
    | act ha hb hk =>
      rename_i o k
      simp only [Task.step] at hs
      cases hr : o.run A with
      | error y => rw [hr] at hs; cases hs; exact Or.inl ⟨h1, .keep (.done _)⟩
      | ok r =>
        obtain ⟨B, a⟩ := r
        rw [hr] at hs
        cases hs
        exact Or.inr (Or.inl ⟨by rw [avoids_run ha hr, h1], by rw [avoids_run hb hr]; exact h2, hk a⟩)
    | move hne hk =>
      rename_i k
      obtain ⟨text, hg, ho⟩ := h2
      simp only [Task.step] at hs
      cases hr : (FsOp.rename out exp).run A with
      | error y => rw [hr] at hs; cases hs; exact Or.inl ⟨h1, .keep (.done _)⟩
      | ok r =>
        obtain ⟨B, a⟩ := r
        rw [hr] at hs
        cases hs
        have hB : A'.get exp = some (.file text) ∧ A'.get out = none := by
          have hfil : ∀ c, FS.get ((exp, Node.file c) :: A.filter (fun e => decide (e.1 ≠ out))) out = none := by
            intro c
            rw [get_cons, if_neg hne, get_filter (fun r => decide (r ≠ out)), if_neg (by simp)]
          simp only [FsOp.run, FS.rename, ho] at hr
          rw [if_neg hne] at hr
          split at hr
          · cases hr
          · cases hx : A.get exp with
            | none => rw [hx] at hr; cases hr; exact ⟨by rw [get_cons, if_pos rfl], hfil _⟩
            | some m =>
              rw [hx] at hr
              cases m with
              | dir => cases hr
              | file c => cases hr; exact ⟨by rw [get_cons, if_pos rfl], hfil _⟩
        exact Or.inr (Or.inr (Or.inl ⟨hB.2, hk a, Or.inr ⟨text, hg, hB.1⟩⟩))
  · cases h2 with
    | keep h2 => exact done3 h2 h3
    | act ha hb hk =>
      rename_i o k
      simp only [Task.step] at hs
      cases hr : o.run A with
      | error y => rw [hr] at hs; cases hs; exact Or.inr (Or.inr (Or.inr ⟨.done _, h3⟩))
      | ok r =>
        obtain ⟨B, a⟩ := r
        rw [hr] at hs
        cases hs
        refine Or.inr (Or.inr (Or.inl ⟨by rw [avoids_run hb hr, h1], hk a, ?_⟩))
        unfold Kept at *
        rw [avoids_run ha hr]
        exact h3
    | dead =>
      simp only [Task.step, FsOp.run, FS.rename, h1, Except.map] at hs
      cases hs
      exact Or.inr (Or.inr (Or.inr ⟨.done _, h3⟩))
  · exact done3 h1 h2

/-! ### Tests -/

/-- The text of a file. -/
def textOf : Option Node → Option Str
  | some (.file c) => some c
  | _ => none

theorem closed_writes (hn : PlainName n) :
    Closed root n (Writes (slot root false n ".md".toList) out x Good) :=
  ⟨⟨fun e _ => .keep (.done e), fun _ _ h1 h2 => .act (run_avoids hn (Or.inl h1)) h2⟩,
    fun t _ h2 => .act (run_avoids hn (Or.inr ⟨t, rfl⟩)) h2⟩

theorem closed_avoids (hn : PlainName n) : Closed root n (All (OpAvoids (slot root false n ".md".toList))) :=
  closed_all (fun _ h => run_avoids hn h)

theorem closed_gone (hn : PlainName n) :
    ClosedRest root n (Gone (slot root false n ".md".toList) (slot root true n ".md".toList)) :=
  ⟨fun e _ => .keep (.done e), fun _ _ h1 h2 => .act (rest_avoids hn h1 _) (rest_avoids hn h1 _) h2⟩

theorem closed_moves (hn : PlainName n) :
    ClosedRest root n (Moves (slot root false n ".md".toList) (slot root true n ".md".toList)) :=
  ⟨fun e _ => .keep (.done e), fun _ _ h1 h2 => .act (rest_avoids hn h1 _) (rest_avoids hn h1 _) h2⟩

/-- What may come after the review of a test. -/
structure Afterwards (P : Project) (cfg : Config) (n : Str) (l : List Str) (Good : Str → Prop) (s : St)
    (v : Result) (k : Result → Request → List Str → Task) : Prop where
  accepted : Accepts cfg v l → Good s.out ∧
    ∀ q rest, Gone (slot P.root false n ".md".toList) (slot P.root true n ".md".toList) (k .OK q rest)
  other : ∀ q rest, All (OpAvoids (slot P.root false n ".md".toList)) (k v q rest) ∨
    (Good s.out ∧ Moves (slot P.root false n ".md".toList) (slot P.root true n ".md".toList) (k v q rest))

/-- Before the test the snapshot is what it was, and only the accepted output can replace it. -/
theorem writes_case_gen (hn : PlainName n) (cfg : Config) (l : List Str)
    {k : Result → Request → List Str → Task} (y : Option Node)
    (hk : ∀ s, runTest (P.env (textOf y)) (P.tests n).body = some s →
      Afterwards P cfg n l Good s (verdict (P.env (textOf y)) s) k) :
    Writes (slot P.root false n ".md".toList) (slot P.root true n ".md".toList) y Good
      (caseTask P cfg n l k) := by
  have hQ := closed_writes (root := P.root) (out := slot P.root true n ".md".toList) (x := y)
    (Good := Good) hn
  have hA := closed_avoids (root := P.root) hn
  have hM := closed_moves (root := P.root) hn
  have hG := closed_gone (root := P.root) hn
  unfold caseTask
  refine closed_mkdirs hQ.toClosedRest _ ⟨false, List.prefix_rfl⟩ ?_ _ _ (by rw [(baseDir_slot P).1]; rfl)
  refine closed_mkdirs hQ.toClosedRest _ ⟨true, List.prefix_rfl⟩ ?_ _ _ (by rw [(baseDir_slot P).2]; rfl)
  rw [(filePath_slot P _).1, (dirPath_slot P).2, dirPath_tmp]
  refine .look ?_
  refine closed_remove hQ.toClosedRest (res_slot _) ?_
  refine closed_remove hQ.toClosedRest ⟨true, _, Or.inr rfl, rfl⟩ ?_
  refine closed_outputs hQ _ _ _ ?_
  by_cases hy : y = some .dir
  · rw [if_pos hy]; exact hQ.done _ (by simp)
  · rw [if_neg hy]
    change Writes _ _ _ _ (match runTest (P.env (textOf y)) (P.tests n).body with
      | none => .done .hangs
      | some s => filesTask P.out n (P.tests n).files (outputsTask P.out n s.out
          (s.rep.map (· ++ "\n".toList)).flatten (P.tests n).log
          (endTask P cfg n l (verdict (P.env (textOf y)) s) k)))
    generalize textOf y = snap at *
    cases hrun : runTest (P.env snap) (P.tests n).body with
    | none => exact hQ.done _ (by simp)
    | some s =>
      have hk := hk s hrun
      refine closed_files hQ.toClosedRest _ ?_
      rw [endTask, reviewTask_eq]
      cases hr : reviewed cfg l (verdict (P.env snap) s) with
      | none => exact .keep (closed_outputs hA _ _ _ (.done _))
      | some c =>
        obtain ⟨q, rest⟩ := c
        dsimp only
        have good : ∀ {t : Task} (txt log : Str), Good s.out →
            Moves (slot P.root false n ".md".toList) (slot P.root true n ".md".toList) t →
            Writes (slot P.root false n ".md".toList) (slot P.root true n ".md".toList) y Good
              (outputsTask P.out n s.out txt log t) := by
          intro t txt log hg ht
          unfold outputsTask
          rw [(filePath_slot P _).2, (filePath_slot P _).2, (filePath_slot P _).2]
          refine .write (out_ne_exp hn) hg fun _ => ?_
          exact hM.act _ _ (write_run mem_txt (by decide) (by decide) _) fun _ =>
            hM.act _ _ (write_run mem_log (by decide) (by decide) _) fun _ => ht
        split
        · rename_i hf
          obtain ⟨hg, hk⟩ := hk.accepted (reviewed_accepts hr hf)
          refine good _ _ hg ?_
          rw [freezeTask_eq]
          exact closed_remove hM (res_slot _) (.move (out_ne_exp hn)
            (fun _ => closed_after hG (closed_save hG _ (hk _ _))))
        · rcases hk.other q rest with hk | ⟨hg, hk⟩
          · refine .keep (closed_outputs hA _ _ _ ?_)
            split
            · exact closed_save hA.toClosedRest _ hk
            · exact hk
          · refine good _ _ hg ?_
            split
            · exact closed_save hM _ hk
            · exact hk

theorem writes_case (hn : PlainName n) (cfg : Config) (ans l : List Str) (hl : l <:+ ans)
    {k : Result → Request → List Str → Task}
    (hk : ∀ r q l, All (OpAvoids (slot P.root false n ".md".toList)) (k r q l)) (y : Option Node) :
    Writes (slot P.root false n ".md".toList) (slot P.root true n ".md".toList) y
      (Accepted P cfg n (textOf y) ans) (caseTask P cfg n l k) := by
  refine writes_case_gen hn cfg l y ?_
  intro s hs
  exact ⟨fun ha => ⟨⟨s, l, hl, hs, ha, rfl⟩, fun _ _ => .keep (hk _ _ _)⟩, fun _ _ => Or.inl (hk _ _ _)⟩

/-! ### Runs -/

/-- Operations of a run of the tests `ns`. -/
def RunsOp (root : Path) (ns : List Str) (o : FsOp) : Prop := ∃ m ∈ ns, CaseOp root m o

theorem closed_others (hp : PlainNames ns) (hn : n ∈ ns) {m : Str} (hm : m ∈ ns) (hmn : m ≠ n)
    (good : Str → Prop) :
    Closed root m (Writes (slot root false n ".md".toList) (slot root true n ".md".toList) x good) :=
  ⟨⟨fun e _ => .keep (.done e), fun _ _ h1 h2 => .act (other_avoids hp hm hn hmn (Or.inl (Or.inl h1))
    (own_slot _ (Or.inr mem_md))) h2⟩, fun t _ h2 => .act (other_avoids hp hm hn hmn (Or.inl (Or.inr ⟨t, rfl⟩))
    (own_slot _ (Or.inr mem_md))) h2⟩

theorem closed_others_all (hp : PlainNames ns) (hn : n ∈ ns) {m : Str} (hm : m ∈ ns) (hmn : m ≠ n) :
    Closed root m (All (OpAvoids (slot root false n ".md".toList))) :=
  closed_all (fun _ h1 => other_avoids hp hm hn hmn (Or.inl h1) (own_slot _ (Or.inr mem_md)))

/-- A loop without the test leaves its snapshot alone. -/
theorem loop_avoids (hp : PlainNames ns) (hn : n ∈ ns) (cfg : Config) (all : List Str) :
    ∀ (todo ans : List Str) (rv : Result) (fails : Nat), (∀ m ∈ todo, m ∈ ns) → n ∉ todo →
      All (OpAvoids (slot P.root false n ".md".toList)) (loopTask P cfg all rv fails todo ans) := by
  have hA := closed_avoids (root := P.root) (hp.1 n hn)
  intro todo
  induction todo with
  | nil => intro ans rv fails _ _; exact closed_index hA.toClosedRest _ (.done _)
  | cons m todo ih =>
    intro ans rv fails hsub hnot
    have hmn : m ≠ n := fun h => hnot (by simp [h])
    have hm := hsub m (by simp)
    rw [loopTask]
    refine closed_case (closed_others_all hp hn hm hmn) (fun k hk => .act _ k
      (other_avoids hp hm hn hmn (Or.inr rfl) (own_slot _ (Or.inr mem_md))) hk) _ _ ?_
    intro r q l _
    split
    · exact closed_index hA.toClosedRest _ (.done _)
    · exact ih _ _ _ (fun a ha => hsub a (by simp [ha])) (fun h => hnot (by simp [h]))

/-- A loop replaces the snapshot only by the accepted output. -/
theorem loop_writes (hp : PlainNames ns) (hn : n ∈ ns) (cfg : Config) (all ans : List Str) (y : Option Node) :
    ∀ (todo l : List Str) (rv : Result) (fails : Nat), (∀ m ∈ todo, m ∈ ns) → todo.Nodup → l <:+ ans →
      Writes (slot P.root false n ".md".toList) (slot P.root true n ".md".toList) y
        (Accepted P cfg n (textOf y) ans)
        (loopTask P cfg all rv fails todo l) := by
  have hA := closed_avoids (root := P.root) (hp.1 n hn)
  intro todo
  induction todo with
  | nil => intro l rv fails _ _ _; exact .keep (closed_index hA.toClosedRest _ (.done _))
  | cons m todo ih =>
    intro l rv fails hsub hdup hl
    have hsub' : ∀ a ∈ todo, a ∈ ns := fun a ha => hsub a (by simp [ha])
    rw [loopTask]
    by_cases hmn : m = n
    · subst hmn
      refine writes_case (hp.1 m hn) cfg ans l hl ?_ y
      intro r q l
      split
      · exact closed_index hA.toClosedRest _ (.done _)
      · exact loop_avoids hp hn _ _ _ _ _ _ hsub' (List.nodup_cons.mp hdup).1
    · have hm := hsub m (by simp)
      refine closed_case (closed_others hp hn hm hmn _) (fun k hk => .act
        (other_avoids hp hm hn hmn (Or.inr rfl) (own_slot _ (Or.inr mem_md))) hk) _ _ ?_
      intro r q l' hl'
      split
      · exact .keep (closed_index hA.toClosedRest _ (.done _))
      · exact ih _ _ _ hsub' (List.nodup_cons.mp hdup).2 (hl'.trans hl)

theorem loop_ops (cfg : Config) (all : List Str) (hn : n ∈ ns) : ∀ (todo ans : List Str) (rv : Result) (fails : Nat),
    (∀ m ∈ todo, m ∈ ns) → All (RunsOp P.root ns) (loopTask P cfg all rv fails todo ans) := by
  have hQ : ∀ m ∈ ns, Closed P.root m (All (RunsOp P.root ns)) := fun m hm =>
    closed_all (fun _ h => ⟨m, hm, Or.inl h⟩)
  intro todo
  induction todo with
  | nil => intro ans rv fails _; exact closed_index (hQ n hn).toClosedRest _ (.done _)
  | cons m todo ih =>
    intro ans rv fails hsub
    have hm := hsub m (by simp)
    rw [loopTask]
    refine closed_case (hQ m hm) (fun k hk => .act _ k ⟨m, hm, Or.inr rfl⟩ hk) _ _ ?_
    intro r q l _
    split
    · exact closed_index (hQ m hm).toClosedRest _ (.done _)
    · exact ih _ _ _ (fun a ha => hsub a (by simp [ha]))

theorem out_above (P : Project) (n : Str) : Above P.root n P.out := by
  refine ⟨true, ?_⟩
  rw [slotDir, booksDir]
  exact List.prefix_append _ _

theorem sequential_ops (cfg : Config) (all : List Str) (hn : n ∈ ns) (todo ans : List Str)
    (hsub : ∀ m ∈ todo, m ∈ ns) : All (RunsOp P.root ns) (sequentialTask P cfg all todo ans) :=
  closed_mkdirs (n := n) (closed_all (fun _ h => ⟨n, hn, Or.inl h⟩)).toClosedRest _ (out_above P n)
    (loop_ops cfg all hn todo ans _ _ hsub) _ _ rfl

theorem sequential_writes (hp : PlainNames ns) (hn : n ∈ ns) (cfg : Config) (all todo ans : List Str)
    (hsub : ∀ m ∈ todo, m ∈ ns) (hdup : todo.Nodup) (y : Option Node) :
    Writes (slot P.root false n ".md".toList) (slot P.root true n ".md".toList) y
      (Accepted P cfg n (textOf y) ans)
      (sequentialTask P cfg all todo ans) :=
  closed_mkdirs (n := n) (closed_writes (hp.1 n hn)).toClosedRest _ (out_above P n)
    (loop_writes hp hn cfg all ans y todo ans _ _ hsub hdup List.suffix_rfl) _ _ rfl

/-- Accepted by a worker, which asks nobody, or by the user in the main process. -/
theorem parallel_writes (hn : PlainName n) (cfg : Config) (all : List Str) (index : Bool) (ans : Option (List Str))
    (y : Option Node) :
    Writes (slot P.root false n ".md".toList) (slot P.root true n ".md".toList) y
      (Accepted P cfg n (textOf y) (ans.getD [])) (parallelTask P cfg all index ans n) := by
  have hA := closed_avoids (root := P.root) hn
  have hM := closed_moves (root := P.root) hn
  have hG := closed_gone (root := P.root) hn
  refine writes_case_gen hn _ [] y ?_
  intro s hs
  refine ⟨?_, ?_⟩
  · intro ha
    have ha' : Accepts cfg (verdict (P.env (textOf y)) s) (ans.getD []) := by
      rcases ha with ⟨-, hd⟩ | ha
      · cases hd
      · exact Or.inr ha
    refine ⟨⟨s, _, List.suffix_rfl, hs, ha', rfl⟩, ?_⟩
    intro q rest
    have hl : Gone (slot P.root false n ".md".toList) (slot P.root true n ".md".toList) (laterTask P cfg n ans .OK q) := by
      cases ans with
      | none => exact .keep (.done _)
      | some ans =>
        exact closed_review hG (fun _ _ => .dead) _ _ _ (fun _ _ _ => .keep (.done _))
          (fun _ _ _ => .keep (.done _))
    cases index with
    | false => exact hl
    | true => exact closed_index hG _ hl
  · intro q rest
    cases ans with
    | none =>
      cases index with
      | false => exact Or.inl (.done _)
      | true => exact Or.inl (closed_index hA.toClosedRest _ (.done _))
    | some ans =>
    dsimp only [laterTask, Option.getD_some]
    rw [reviewTask_eq]
    cases hr : reviewed cfg ans (verdict (P.env (textOf y)) s) with
    | none =>
      cases index with
      | false => exact Or.inl (.done _)
      | true => exact Or.inl (closed_index hA.toClosedRest _ (.done _))
    | some c =>
      obtain ⟨q', rest'⟩ := c
      dsimp only
      by_cases hf : q' = .FREEZE ∨ (verdict (P.env (textOf y)) s = .OK ∧ cfg.update = true) ∨
          (verdict (P.env (textOf y)) s = .DIFF ∧ cfg.accept = true)
      · rw [if_pos hf, freezeTask_eq]
        refine Or.inr ⟨⟨s, ans, List.suffix_rfl, hs, reviewed_accepts hr hf, rfl⟩, ?_⟩
        have := closed_remove hM (res_slot (root := P.root) (n := n) false) (.move (out_ne_exp hn) (fun _ => closed_after hG
          (.keep (.done (.done .OK q')))))
        cases index with
        | false => exact this
        | true => exact closed_index hM _ this
      · rw [if_neg hf]
        cases index with
        | false => exact Or.inl (.done _)
        | true => exact Or.inl (closed_index hA.toClosedRest _ (.done _))

theorem runs_sound (hp : PlainNames ns) {A A' : FS} {t t' : Task} (h : All (RunsOp root ns) t)
    (hA : SoundTree root ns A) (hs : t.step A = some (A', t')) : SoundTree root ns A' := by
  cases h with
  | done e => cases hs
  | act o k h1 h2 =>
    obtain ⟨m, hm, hc⟩ := h1
    simp only [Task.step] at hs
    cases hr : o.run A with
    | error y => rw [hr] at hs; cases hs; exact hA
    | ok r =>
      obtain ⟨B, a⟩ := r
      rw [hr] at hs
      cases hs
      exact sound_step hp hm (case_local (hp.1 m hm) hc) hA hr

theorem sequential_avoids (hp : PlainNames ns) (hn : n ∈ ns) (cfg : Config) (all todo ans : List Str)
    (hsub : ∀ m ∈ todo, m ∈ ns) (hnot : n ∉ todo) :
    All (OpAvoids (slot P.root false n ".md".toList)) (sequentialTask P cfg all todo ans) :=
  closed_mkdirs (n := n) (closed_avoids (hp.1 n hn)).toClosedRest _ (out_above P n)
    (loop_avoids hp hn cfg all todo ans _ _ hsub hnot) _ _ rfl

theorem runTask_sound (hp : PlainNames ns) {t : Task} (h : All (RunsOp root ns) t) :
    ∀ {A B : FS} {e : CaseEnd}, SoundTree root ns A → runTask A t = .ok (B, e) → SoundTree root ns B := by
  induction h with
  | done e =>
    intro A B e' hA he
    cases e with
    | error x => cases he
    | done r q => simp only [runTask, Except.ok.injEq, Prod.mk.injEq] at he; rw [← he.1]; exact hA
    | eof => simp only [runTask, Except.ok.injEq, Prod.mk.injEq] at he; rw [← he.1]; exact hA
    | hangs => simp only [runTask, Except.ok.injEq, Prod.mk.injEq] at he; rw [← he.1]; exact hA
  | act o k h1 _ ih =>
    intro A B e hA he
    rw [run_act] at he
    obtain ⟨m, hm, hc⟩ := h1
    cases hr : o.run A with
    | error y => rw [hr] at he; cases he
    | ok r =>
      rw [hr] at he
      exact ih r.2 (sound_step hp hm (case_local (hp.1 m hm) hc) hA hr) he

/-- A test leaves a sound tree, also if the user is asked. -/
theorem runCase_sound (hp : PlainNames ns) (hn : n ∈ ns) (cfg : Config) {fs fs' : FS} (h : SoundTree P.root ns fs)
    (ans : List Str) {rest : List Str} {r : Result} {q : Request}
    (he : runCase P cfg n (fs, ans) = ((fs', rest), .done r q)) : SoundTree P.root ns fs' := by
  have e := run_case P cfg n ans fs (fun r q _ => .done (.done r q)) h.cwd
  rw [he] at e
  refine runTask_sound hp ?_ h e
  exact closed_case (closed_all (fun _ h => ⟨n, hn, Or.inl h⟩)) (fun k hk => .act _ k ⟨n, hn, Or.inr rfl⟩ hk) _ _
    (fun _ _ _ _ => .done _)

theorem run_loop {fl : Durations} (hp : PlainNames ns) (cfg : Config) (dur : Str → fl.D) (all : List Str)
    (st0 : FS × List Str) : ∀ (todo before : List Str) (rv : Result) (fails : Nat), (∀ m ∈ todo, m ∈ ns) →
      SoundTree P.root ns (runCases P cfg before st0).1 →
      ∀ res, (runLoop fl cfg (projectOutcome P cfg dur st0) before rv fails todo).2 = some res →
      ∃ q, runTask (runCases P cfg before st0).1
          (loopTask P cfg all rv fails todo (runCases P cfg before st0).2) =
        (openW (P.root ++ ["index.md".toList]) (indexText all)
          (runCases P cfg (before ++ ranNames
            (runLoop fl cfg (projectOutcome P cfg dur st0) before rv fails todo).1) st0).1).map
          (fun g => (g, .done res q)) := by
  intro todo
  induction todo with
  | nil =>
    intro before rv fails _ _ res hr
    simp only [runLoop, Option.some.injEq] at hr
    subst hr
    refine ⟨.NONE, ?_⟩
    rw [loopTask, indexTask, run_write]
    simp only [runLoop, ranNames, List.filterMap_nil, List.append_nil]
    cases openW (P.root ++ ["index.md".toList]) (indexText all) (runCases P cfg before st0).1 <;> rfl
  | cons n todo ih =>
    intro before rv fails hsub hst res hr
    have hn := hsub n (by simp)
    have hsub' : ∀ m ∈ todo, m ∈ ns := fun a ha => hsub a (by simp [ha])
    have hnext : runCases P cfg (before ++ [n]) st0 = (runCase P cfg n (runCases P cfg before st0)).1 := by
      unfold runCases; rw [List.foldl_append]; rfl
    rw [loopTask, run_case P cfg n _ _ _ hst.cwd]
    change ∃ q, goOn _ (runCase P cfg n (runCases P cfg before st0)) = _
    rw [runLoop] at hr ⊢
    unfold projectOutcome at hr ⊢
    cases hc : runCase P cfg n (runCases P cfg before st0) with
    | mk st e =>
      rw [hc] at hnext
      cases e with
      | error x => rw [hc] at hr; cases hr
      | eof => rw [hc] at hr; cases hr
      | hangs => rw [hc] at hr; cases hr
      | done r q =>
        rw [hc] at hr
        have hs1 : SoundTree P.root ns st.1 := runCase_sound (ans := (runCases P cfg before st0).2) hp hn cfg hst hc
        dsimp only at hr ⊢
        change ∃ q', runTask st.1 (if q = .ABORT ∨ (cfg.failFast = true ∧ nextFails fails r > 0) then _ else _) = _
        by_cases hstop : q = .ABORT ∨ (cfg.failFast = true ∧ nextFails fails r > 0)
        · rw [if_pos hstop] at hr ⊢
          rw [if_pos hstop]
          simp only [Option.some.injEq] at hr
          subst hr
          refine ⟨q, ?_⟩
          rw [indexTask, run_write]
          simp only [ranNames, List.filterMap_cons, List.filterMap_nil]
          rw [hnext]
          cases openW (P.root ++ ["index.md".toList]) (indexText all) st.1 <;> rfl
        · rw [if_neg hstop] at hr ⊢
          rw [if_neg hstop]
          have := ih (before ++ [n]) (nextRv rv r) (nextFails fails r) hsub' (by rw [hnext]; exact hs1) res hr
          rw [hnext] at this
          dsimp only at this
          obtain ⟨q', hq⟩ := this
          refine ⟨q', ?_⟩
          rw [hq]
          simp only [ranNames, List.filterMap_append, List.filterMap_cons, List.filterMap_nil, List.append_assoc]
          rfl

theorem steps_inv {I : FS → Task → Prop}
    (hI : ∀ A t A' t', I A t → t.step A = some (A', t') → I A' t') :
    ∀ (k : Nat) (c : FS × Task) {g : FS} {t : Task}, I c.1 c.2 → stepsOf k c = some (g, t) → I g t := by
  intro k
  induction k with
  | zero => intro c g t h he; cases he; exact h
  | succ k ih =>
    intro c g t h he
    rw [stepsOf] at he
    cases hs : c.2.step c.1 with
    | none => rw [hs] at he; cases he
    | some c' => rw [hs] at he; exact ih c' (hI _ _ _ _ h hs) he

theorem run_steps (t : Task) : ∀ {A B : FS} {e : CaseEnd}, runTask A t = .ok (B, e) →
    ∃ k, stepsOf k (A, t) = some (B, .done e) := by
  induction t with
  | done e =>
    intro A B e' he
    refine ⟨0, ?_⟩
    cases e with
    | error x => cases he
    | done r q => simp only [runTask, Except.ok.injEq, Prod.mk.injEq] at he; rw [he.1, he.2]; rfl
    | eof => simp only [runTask, Except.ok.injEq, Prod.mk.injEq] at he; rw [he.1, ← he.2]; rfl
    | hangs => simp only [runTask, Except.ok.injEq, Prod.mk.injEq] at he; rw [he.1, ← he.2]; rfl
  | act o k ih =>
    intro A B e he
    rw [run_act] at he
    cases hr : o.run A with
    | error x => rw [hr] at he; cases he
    | ok r =>
      rw [hr] at he
      obtain ⟨j, hj⟩ := ih r.2 he
      exact ⟨j + 1, by simp only [stepsOf, Task.step, hr]; exact hj⟩

end Verif.Lemmas
