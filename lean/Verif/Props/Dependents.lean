import Verif.Lemmas.Dependents
import Verif.Props.SameFiles
import Verif.Spec.Depends

/-! # C128: sequential runs of tests with dependencies -/

namespace Verif.Props
open Verif.Py Verif.Model Verif.Spec Verif.Lemmas

variable {fl : Durations} {D : DProject} {cfg : Config} {ns selected : List Str} {fs : FS} {cache : Cache Str}

/-- The values are in the result files. -/
theorem stored_store (D : DProject) (fs : FS) (n : Str) : storedValue D.root fs n = storeOf D.dirs.out fs n := rfl

private theorem openW_get {q p : Path} {text : Str} {f g : FS} (h : openW q text f = .ok g) (hp : p ≠ q) : g.get p = f.get p := by
  unfold openW at h
  repeat' split at h
  all_goals first | cases h | skip
  all_goals (unfold FS.write; rw [get_cons, if_neg hp])

/-- The run, and the tests that have been executed. -/
private theorem project_fs (hp : PlainNames ns) (hnsn : n ∈ ns) (dur : Str → fl.D) (all : List Str) (ans : List Str) (file : Option Bytes) :
    storedValue D.root (runProjectD D cfg dur all selected fs ans file cache).fs n =
      storeOf D.dirs.out (runCasesD D cfg (ranNames (runAsync D.u fl cfg
        (outcomeD D cfg dur ((mkdirs fs D.dirs.out, ans), cache)) selected file).1)
          ((mkdirs fs D.dirs.out, ans), cache)).1.1 n := by
  unfold runProjectD
  dsimp only
  cases (runAsync D.u fl cfg (outcomeD D cfg dur ((mkdirs fs D.dirs.out, ans), cache)) selected file).2 with
  | none => rfl
  | some rv =>
    dsimp only
    split
    · rfl
    · rename_i g hg
      show (match g.get (slot D.root true n ".bin".toList) with | some (.file v) => some v | _ => none) = _
      rw [openW_get hg]
      · rfl
      · intro e
        have h : Own D.root n (slot D.root true n ".bin".toList) := own_slot true (Or.inr mem_bin)
        rw [e] at h
        exact own_index (root := D.root) (hp.1 n hnsn) h

theorem loop_sub (u : Unicode) (cfg : Config) (o : List Str → Str → Outcome fl) (selected : List Str) (file : Option Bytes) :
    (ranNames (runAsync u fl cfg o selected file).1).Sublist selected := by
  unfold runAsync
  cases ofFile u fl file with
  | none => exact List.nil_sublist _
  | some old =>
    dsimp only
    rw [ranNames_writes, (doneAndTodo_eq cfg old selected).1]
    refine (ran_prefix cfg _ _ _ _ _).sublist.trans ?_
    unfold toRun
    exact List.filter_sublist

theorem async_congr (u : Unicode) (cfg : Config) (o o' : List Str → Str → Outcome fl) (selected : List Str) (file : Option Bytes)
    (h : ∀ l1 n l2, ranNames (runAsync u fl cfg o selected file).1 = l1 ++ n :: l2 → o l1 n = o' l1 n) :
    runAsync u fl cfg o selected file = runAsync u fl cfg o' selected file := by
  unfold runAsync at h ⊢
  cases hold : ofFile u fl file with
  | none => rfl
  | some old =>
    rw [hold] at h
    dsimp only at h ⊢
    rw [ranNames_writes] at h
    rw [runLoop_congr cfg o o']
    intro l1 n l2 e
    rw [List.nil_append]
    exact h l1 n l2 e

/-- Both ways of calling the tests, and the files afterwards. -/
theorem stored_values (hq : NotAsking cfg) (hp : PlainNames ns) (hS : SoundTree D.root ns fs)
    (hsub : ∀ n ∈ selected, n ∈ ns) (hnd : selected.Nodup) (ho : DepsFirst D ns selected) (hc : EmptyCache cache)
    (dur : Str → fl.D) (all ans : List Str) (file : Option Bytes) :
    let r := runProjectD D cfg dur all selected fs ans file cache
    let P := Spec.DProject.with D r.fs
    r = runProject P cfg dur all selected fs ans file ∧
    (∀ k ∈ ns, storedValue D.root r.fs k = storeOf D.dirs.out (runCases P cfg (ranNames (runAsync D.u fl cfg
      (projectOutcome P cfg dur (mkdirs fs D.dirs.out, ans)) selected file).1) (mkdirs fs D.dirs.out, ans)).1 k) ∧
    runAsync D.u fl cfg (outcomeD D cfg dur ((mkdirs fs D.dirs.out, ans), cache)) selected file =
      runAsync D.u fl cfg (projectOutcome P cfg dur (mkdirs fs D.dirs.out, ans)) selected file := by
  intro r P
  have hk : SoundTree D.root ns (mkdirs fs D.dirs.out) := (mkOut_ok (P := D.dirs) hp hS).1
  have hsubl := loop_sub D.u cfg (outcomeD D cfg dur ((mkdirs fs D.dirs.out, ans), cache)) selected file
  have key := casesD_empty (D := D) hq hp ans (fun n hn => hsub n (hsubl.subset hn)) (hsubl.nodup hnd) hk (depsFirst_sub ho hsubl) hc
    (storedValue D.root r.fs) _ (Or.inl rfl) (fun k hk => project_fs hp hk dur all ans file)
  have hrun := async_congr D.u cfg (outcomeD D cfg dur ((mkdirs fs D.dirs.out, ans), cache))
    (projectOutcome P cfg dur (mkdirs fs D.dirs.out, ans)) selected file (by
      intro l1 n l2 e
      unfold outcomeD projectOutcome
      rw [key.1 l1 n l2 e]
      rfl)
  have h2 := key.2
  refine ⟨?_, ?_, hrun⟩
  · show runProjectD D cfg dur all selected fs ans file cache = _
    unfold runProjectD runProject
    dsimp only
    rw [h2, hrun]
    rfl
  · intro k hk
    rw [project_fs hp hk dur all ans file, h2, hrun]
    rfl

/-- **C128**: a run of tests with dependencies is, in everything, the run in which every test is called with the values
that its dependencies have stored when the run is over: the same files, the same report, the same result. -/
theorem C128_stored_values_partial (hq : NotAsking cfg) (hp : PlainNames ns) (hS : SoundTree D.root ns fs)
    (hsub : ∀ n ∈ selected, n ∈ ns) (hnd : selected.Nodup) (ho : DepsFirst D ns selected) (hc : EmptyCache cache)
    (dur : Str → fl.D) (all ans : List Str) (file : Option Bytes) :
    let r := runProjectD D cfg dur all selected fs ans file cache
    r = runProject (Spec.DProject.with D r.fs) cfg dur all selected fs ans file :=
  (stored_values hq hp hS hsub hnd ho hc dur all ans file).1

/-- A run of the tests that are called with the values that it stores. -/
theorem runs_filled (hq : NotAsking cfg) (hp : PlainNames ns) (hS : SoundTree D.root ns fs)
    (hsub : ∀ n ∈ selected, n ∈ ns) (hnd : selected.Nodup) (ho : DepsFirst D ns selected) (hc : EmptyCache cache)
    (dur : Str → fl.D) (all ans : List Str) (file : Option Bytes) (val : Str → Option Str)
    (hval : ∀ k ∈ ns, val k = storeOf D.dirs.out (runCases (D.filled fun n => valuesOf val (D.deps n)) cfg (ranNames
      (runAsync D.u fl cfg (projectOutcome (D.filled fun n => valuesOf val (D.deps n)) cfg dur (mkdirs fs D.dirs.out, ans))
        selected file).1) (mkdirs fs D.dirs.out, ans)).1 k) :
    runProject (D.filled fun n => valuesOf val (D.deps n)) cfg dur all selected fs ans file =
      runProjectD D cfg dur all selected fs ans file cache ∧
    runAsync D.u fl cfg (projectOutcome (D.filled fun n => valuesOf val (D.deps n)) cfg dur (mkdirs fs D.dirs.out, ans)) selected file =
      runAsync D.u fl cfg (outcomeD D cfg dur ((mkdirs fs D.dirs.out, ans), cache)) selected file := by
  have hk : SoundTree D.root ns (mkdirs fs D.dirs.out) := (mkOut_ok (P := D.dirs) hp hS).1
  generalize hP : (D.filled fun n => valuesOf val (D.deps n)) = P at hval ⊢
  have hsubl := loop_sub D.u cfg (projectOutcome P cfg dur (mkdirs fs D.dirs.out, ans)) selected file
  have key := casesD_empty (D := D) hq hp ans (fun n hn => hsub n (hsubl.subset hn)) (hsubl.nodup hnd) hk (depsFirst_sub ho hsubl) hc
    val _ (Or.inr rfl) (by rw [hP]; exact hval)
  rw [hP] at key
  have hrun := async_congr D.u cfg (projectOutcome P cfg dur (mkdirs fs D.dirs.out, ans))
    (outcomeD D cfg dur ((mkdirs fs D.dirs.out, ans), cache)) selected file (by
      intro l1 n l2 e
      unfold outcomeD projectOutcome
      rw [key.1 l1 n l2 e]
      rfl)
  refine ⟨?_, hrun⟩
  unfold runProjectD runProject
  dsimp only
  have h2 := key.2
  have hu : P.u = D.u := by rw [← hP]; rfl
  have ho' : P.out = D.dirs.out := by rw [← hP]; rfl
  have hr : P.root = D.root := by rw [← hP]; rfl
  rw [hrun] at h2
  rw [hu, ho', hr, hrun, h2]
  rfl

/-- **C128**, the cache: the run is the same with every cache, however few results it can hold. -/
theorem C128_any_cache_partial (hq : NotAsking cfg) (hp : PlainNames ns) (hS : SoundTree D.root ns fs)
    (hsub : ∀ n ∈ selected, n ∈ ns) (hnd : selected.Nodup) (ho : DepsFirst D ns selected) (hc : EmptyCache cache)
    {cache' : Cache Str} (hc' : EmptyCache cache') (dur : Str → fl.D) (all ans : List Str) (file : Option Bytes) :
    runProjectD D cfg dur all selected fs ans file cache = runProjectD D cfg dur all selected fs ans file cache' := by
  obtain ⟨e, hval, -⟩ := stored_values hq hp hS hsub hnd ho hc dur all ans file
  rw [e]
  exact (runs_filled hq hp hS hsub hnd ho hc' dur all ans file _ hval).1

/-- **C128**, the values: what is stored for a test that has been executed and has not failed is what it has returned in
this run. -/
theorem C128_new_values_partial (hq : NotAsking cfg) (hp : PlainNames ns) (hS : SoundTree D.root ns fs)
    (hsub : ∀ n ∈ selected, n ∈ ns) (hnd : selected.Nodup) (ho : DepsFirst D ns selected) (hc : EmptyCache cache)
    (dur : Str → fl.D) (all ans : List Str) (file : Option Bytes) {l1 l2 : List Str} {n : Str}
    (hran : ranNames (runAsync D.u fl cfg (outcomeD D cfg dur ((mkdirs fs D.dirs.out, ans), cache)) selected file).1 = l1 ++ n :: l2)
    {v : Result} {q : Request} {d : fl.D}
    (ho' : outcomeD D cfg dur ((mkdirs fs D.dirs.out, ans), cache) l1 n = some (v, q, d)) (hv : v ≠ .FAIL) :
    let r := runProjectD D cfg dur all selected fs ans file cache
    storedValue D.root r.fs n = ((Spec.DProject.with D r.fs).tests n).returns := by
  intro r
  have hk : SoundTree D.root ns (mkdirs fs D.dirs.out) := (mkOut_ok (P := D.dirs) hp hS).1
  have hsubl := loop_sub D.u cfg (outcomeD D cfg dur ((mkdirs fs D.dirs.out, ans), cache)) selected file
  have key := casesD_empty (D := D) hq hp ans (fun n hn => hsub n (hsubl.subset hn)) (hsubl.nodup hnd) hk (depsFirst_sub ho hsubl) hc
    (storedValue D.root r.fs) _ (Or.inl rfl) (fun k hk => project_fs hp hk dur all ans file)
  have h1 := key.1 l1 n l2 hran
  have h2 := key.2
  have hnd1 := hsubl.nodup hnd
  have hsub1 : ∀ m ∈ l1 ++ n :: l2, m ∈ ns := fun m hm => hsub m (hsubl.subset (by rw [hran]; exact hm))
  rw [hran] at h2 hnd1
  have hn : n ∈ ns := hsub1 n (by simp)
  obtain ⟨k1, k2, k3⟩ := List.nodup_append.mp hnd1
  obtain ⟨k4, k5⟩ := List.nodup_cons.mp k2
  show storedValue D.root (runProjectD D cfg dur all selected fs ans file cache).fs n = _
  rw [project_fs hp hn dur all ans file, hran, h2]
  generalize hP : (D.filled fun n => valuesOf (storedValue D.root r.fs) (D.deps n)) = P at h1 h2 ⊢
  have hPr : P.root = D.root := by rw [← hP]; rfl
  obtain ⟨f1, e1, s1, -⟩ := runCases_ok (P := P) (cfg := cfg) hq hp l1 (fun m hm => hsub1 m (by simp [hm])) k1
    (hPr ▸ hk) ans
  obtain ⟨c1, c2, -⟩ := case_frame (P := P) (cfg := cfg) hq hp hn s1 ans
  have e2 : runCases P cfg (l1 ++ n :: l2) (mkdirs fs D.dirs.out, ans) =
      runCases P cfg l2 ((runCase P cfg n (f1, ans)).1.1, ans) := by
    unfold runCases at e1 ⊢
    rw [List.foldl_append, e1, List.foldl_cons]
    congr 1
    exact Prod.ext rfl c2
  rw [e2]
  have e3 := cases_frame (P := P) hq hp ans l2 (fun m hm => hsub1 m (by simp [hm])) k5 c1 n hn k4
  have hPo : P.out = D.dirs.out := by rw [← hP]; rfl
  rw [hPo] at e3
  rw [e3, ← hPo]
  unfold outcomeD at ho'
  rw [h1, e1] at ho'
  cases hr : (runCase P cfg n (f1, ans)).2 with
  | done r' q' =>
    rw [hr] at ho'
    injection ho' with ho'
    injection ho' with ho' _
    rw [value_after (P := P) (cfg := cfg) (n := n) (st := (f1, ans)) (st' := (runCase P cfg n (f1, ans)).1) (Prod.ext rfl hr)
      (by rw [ho']; exact hv), ← hP]
    rfl
  | eof => rw [hr] at ho'; cases ho'
  | error x => rw [hr] at ho'; cases ho'
  | hangs => rw [hr] at ho'; cases ho'

/-! ### Examples -/

private theorem empty_sound (ns : List Str) : SoundTree ["books".toList] ns [([], .dir)] := by
  have g : ∀ p, FS.get [([], .dir)] p = if p = [] then some .dir else none := by
    intro p; rw [get_cons]; rfl
  refine ⟨?_, rfl, ?_, ?_, ?_, ?_, ?_⟩
  · intro p c h; rw [g, if_neg (by simp)] at h; cases h
  · intro n _ o q _ t; rw [g]; split <;> simp
  · intro n _ o x hx _; rw [g, if_neg (slot_ne_nil _ o n (Or.inr hx))]; simp
  · intro n _ o x hx t; rw [g]; split <;> simp
  · rw [g, if_neg (by simp)]; simp
  · intro q _ t; rw [g]; split <;> simp

/-- `t/z` prints the value of `t/a`; the other tests depend on nothing. -/
private def chain (value : Option Str) : DProject where
  u := ascii
  pointErrorPos := false
  refmt := some
  root := ["books".toList]
  deps := fun n => if n = "t/z".toList then ["t/a".toList] else []
  fn := fun n vs => ⟨⟨[.header "# t".toList, .tln (match vs with | [some v] => v | _ => n)], none⟩, [], [],
    if n = "t/a".toList then value else some n⟩
  missing := fun n d => (n ++ d, [])

private def ten : List Str := ["t/a".toList, "t/b".toList, "t/c".toList, "t/d".toList, "t/e".toList, "t/f".toList,
  "t/g".toList, "t/h".toList, "t/i".toList, "t/z".toList]

private theorem ten_plain : PlainNames ten := by
  refine ⟨?_, ?_⟩
  · intro n hn
    simp only [ten, List.mem_cons, List.not_mem_nil, or_false] at hn
    rcases hn with rfl | rfl | rfl | rfl | rfl | rfl | rfl | rfl | rfl | rfl <;> exact ⟨by decide, by decide, by decide⟩
  · unfold NotNested; decide +kernel

private theorem chain_order (v : Option Str) (hv : v ≠ none) : DepsFirst (chain v) ten ten where
  names := by
    intro n _ d hd
    simp only [chain] at hd
    split at hd
    · rw [List.mem_singleton.mp hd]; decide
    · cases hd
  before := by
    intro l1 n l2 e d hd hm
    simp only [chain] at hd
    split at hd
    · rename_i hn
      rw [List.mem_singleton.mp hd, hn] at hm
      rw [hn] at e
      rcases List.mem_cons.mp hm with hm | hm
      · exact absurd hm (by decide)
      · have h1 : ten = (l1 ++ ["t/z".toList]) ++ l2 := by rw [e]; simp
        have hnd : ten.Nodup := by decide +kernel
        cases l1 with
        | nil => injection e with e; exact absurd e (by decide)
        | cons x l1 =>
          injection e with e1 e2
          rw [h1, ← e1] at hnd
          exact (List.nodup_append.mp hnd).2.2 _ (by simp) _ hm rfl
    · cases hd
  returns := by
    intro n _ d hd _ vs
    simp only [chain] at hd ⊢
    split at hd
    · rw [List.mem_singleton.mp hd, if_pos rfl]; exact hv
    · cases hd

/-- The hypotheses of C128 are met by ten tests, the last of which prints the value of the first one. -/
example : ∃ (D : DProject) (cfg : Config) (ns selected : List Str) (fs : FS) (cache : Cache Str),
    NotAsking cfg ∧ PlainNames ns ∧ SoundTree D.root ns fs ∧ (∀ n ∈ selected, n ∈ ns) ∧ selected.Nodup ∧
    DepsFirst D ns selected ∧ EmptyCache cache ∧ (∃ n ∈ selected, D.deps n ≠ []) :=
  ⟨chain (some "5".toList), { accept := true }, ten, ten, [([], .dir)], .lru 8 [], ⟨rfl, rfl⟩, ten_plain, empty_sound _,
    fun _ h => h, by decide +kernel, chain_order _ (by simp), ⟨by decide, rfl⟩, "t/z".toList, by decide, by decide⟩

example : ((runProjectD (fl := strokes) (chain (some "5".toList)) { accept := true } (fun _ => (1 : Nat)) ten ten [([], .dir)] [] none
    (.lru 8 [])).fs.get ["books".toList, "t".toList, "z.md".toList] = some (.file "# t\n\n5\n".toList)) := by decide +kernel

/-- **C128** needs that tests that others depend on return something: with the cache of booktest, a test that depends on a
test that returns `None` fails if eight others have been executed in between, and gets `None` otherwise. -/
theorem C128_none_refuted : ∃ (D : DProject) (cfg : Config) (ns selected : List Str) (fs : FS), NotAsking cfg ∧
    PlainNames ns ∧ SoundTree D.root ns fs ∧ (∀ n ∈ selected, n ∈ ns) ∧ selected.Nodup ∧
    (∀ n ∈ selected, ∀ d ∈ D.deps n, Before selected d n) ∧
    (runProjectD (fl := strokes) D cfg (fun _ => (1 : Nat)) selected selected fs [] none (.dict [])).result = some .OK ∧
    (runProjectD (fl := strokes) D cfg (fun _ => (1 : Nat)) selected selected fs [] none (.lru 8 [])).result = some .FAIL := by
  refine ⟨chain none, { accept := true }, ten, ten, [([], .dir)], ⟨rfl, rfl⟩, ten_plain, empty_sound _, fun _ h => h,
    by decide +kernel, ?_, by decide +kernel, by decide +kernel⟩
  intro n _ d hd
  simp only [chain] at hd
  split at hd
  · rename_i h
    rw [List.mem_singleton.mp hd, h]
    exact ⟨ten.dropLast, [], by decide, by decide, by decide⟩
  · cases hd

end Verif.Props
