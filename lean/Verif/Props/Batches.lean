import Verif.Model.Batches
import Verif.Props.Shell
import Verif.Props.Parallel

/-! # C114: the batch directories of a parallel run -/

namespace Verif.Props
open Verif.Py Verif.Model Verif.Spec Verif.Lemmas

variable {fl : Durations}

private theorem plain_batches : PlainPart ".batches".toList := by unfold PlainPart; decide

private theorem batches_place (cwd : Path) {o : Str} (ho : o ≠ []) :
    resolve cwd (batchesDir o) = resolve cwd o ++ [".batches".toList] :=
  resolve_join_parts cwd ho (parts := [".batches".toList]) (by
    intro c hc; rw [List.mem_singleton] at hc; rw [hc]; exact plain_batches)

private theorem batch_place (cwd : Path) {o n : Str} (ho : o ≠ []) (hn : PlainPart (batchName n)) :
    resolve cwd (batchDirOf o n) = resolve cwd o ++ [".batches".toList, batchName n] := by
  have hne : batchesDir o ≠ [] := by
    unfold batchesDir pathJoin
    split
    · decide
    · split <;> simp
  have := resolve_join_parts cwd hne (parts := [batchName n]) (by
    intro c hc; rw [List.mem_singleton] at hc; rw [hc]; exact hn)
  unfold batchDirOf
  rw [show join ['/'] [batchName n] = batchName n from rfl] at this
  rw [this, batches_place cwd ho, List.append_assoc]
  rfl

private theorem makedirs_ok {fs : FS} {d : Path} (hw : fs.WellFormed) (hb : fs.get [] = some .dir)
    (hf : ∀ q, q <+: d → ∀ t, fs.get q ≠ some (.file t)) :
    ∃ fs', makedirs d fs = .ok fs' ∧ fs'.WellFormed ∧
      ∀ p, fs'.get p = if p <+: d then some .dir else fs.get p := by
  obtain ⟨h1, h2⟩ := mkdirs_ok hw hb hf
  refine ⟨mkdirs fs d, ?_, h1, h2⟩
  unfold makedirs
  rw [if_pos]
  unfold FS.isDir
  rw [h2, if_pos (List.prefix_refl d)]
  rfl

/-- What is there while the directories are made. -/
private theorem makeBatchDirs_ok (cwd : Path) {o : Str} (ho : o ≠ []) (D : Path)
    (hD : D = resolve cwd o ++ [".batches".toList]) :
    ∀ (cases : List Str) (fs : FS), (∀ n ∈ cases, PlainPart (batchName n)) → fs.WellFormed →
      (∀ q, q <+: D → fs.get q = some .dir) →
      (∀ c, fs.get (D ++ [c]) = none ∨ fs.get (D ++ [c]) = some .dir) →
      ∃ fs', makeBatchDirs cwd o cases fs = .ok fs' ∧
        ∀ p, fs'.get p = if ∃ n ∈ cases, p = D ++ [batchName n] then some .dir else fs.get p
  | [], fs, _, _, _, _ => ⟨fs, rfl, fun p => by rw [if_neg (by simp)]⟩
  | n :: cases, fs, hn, hw, h1, h2 => by
    have e : resolve cwd (batchDirOf o n) = D ++ [batchName n] := by
      rw [batch_place cwd ho (hn n List.mem_cons_self), hD, List.append_assoc]
      rfl
    have below : ∀ q : Path, q <+: D ++ [batchName n] → q <+: D ∨ q = D ++ [batchName n] := by
      intro q hq
      rcases List.prefix_concat_iff.mp hq with h | h
      · exact .inr h
      · exact .inl h
    obtain ⟨fs1, k1, k2, k3⟩ := makedirs_ok (d := D ++ [batchName n]) hw (h1 [] List.nil_prefix) (by
      intro q hq t ht
      rcases below q hq with h | rfl
      · rw [h1 q h] at ht; cases ht
      · rcases h2 (batchName n) with h | h <;> rw [h] at ht <;> cases ht)
    have k4 : ∀ p, fs1.get p = if p = D ++ [batchName n] then some .dir else fs.get p := by
      intro p
      rw [k3]
      by_cases hp : p = D ++ [batchName n]
      · rw [if_pos hp, if_pos (hp ▸ List.prefix_refl _)]
      · rw [if_neg hp]
        by_cases hq : p <+: D ++ [batchName n]
        · rw [if_pos hq, h1 p ((below p hq).resolve_right hp)]
        · rw [if_neg hq]
    obtain ⟨fs', g1, g2⟩ := makeBatchDirs_ok cwd ho D hD cases fs1
      (fun m hm => hn m (List.mem_cons_of_mem _ hm)) k2
      (fun q hq => by
        rw [k3, if_pos (hq.trans (List.prefix_append _ _))])
      (fun c => by
        rw [k4]
        by_cases hc : D ++ [c] = D ++ [batchName n]
        · rw [if_pos hc]; exact .inr rfl
        · rw [if_neg hc]; exact h2 c)
    refine ⟨fs', ?_, fun p => ?_⟩
    · unfold makeBatchDirs
      rw [e, k1]
      exact g1
    · rw [g2, k4]
      by_cases h : ∃ m ∈ cases, p = D ++ [batchName m]
      · rw [if_pos h, if_pos]
        obtain ⟨m, hm, hp⟩ := h
        exact ⟨m, List.mem_cons_of_mem _ hm, hp⟩
      · rw [if_neg h]
        by_cases hp : p = D ++ [batchName n]
        · rw [if_pos hp, if_pos ⟨n, List.mem_cons_self, hp⟩]
        · rw [if_neg hp, if_neg]
          rintro ⟨m, hm, hq⟩
          rcases List.mem_cons.mp hm with rfl | hm
          · exact hp hq
          · exact h ⟨m, hm, hq⟩

/-- **C114, partial.** When the workers of a parallel run are started, the directory `.batches` holds an empty
directory for each test to be run and nothing else, and nothing has changed outside of it except that the
directories above it have been made.  Missing for the full claim: output directories with characters
that are special to the shell, for which it is false (`C114_blank_refuted`). -/
theorem C114_directories_partial (cwd : Path) {o : Str} (ho : PlainArg o) (hl : 4 ≤ o.length) {fs : FS}
    (hw : fs.WellFormed) (hroot : fs.get [] = some .dir)
    (hway : ∀ q, q <+: resolve cwd o → ∀ t, fs.get q ≠ some (.file t)) (cases : List Str)
    (hn : ∀ n ∈ cases, PlainPart (batchName n)) :
    ∃ fs', startBatches cwd o cases fs = some (.ok fs') ∧ ∀ p, fs'.get p =
      if p <+: resolve cwd o ++ [".batches".toList] then some .dir
      else if resolve cwd o ++ [".batches".toList] <+: p then
        if ∃ n ∈ cases, p = resolve cwd o ++ [".batches".toList, batchName n] then some .dir else none
      else fs.get p := by
  obtain ⟨fs1, h1, h2, h3⟩ := C97_batches_partial cwd ho hl hw
  have hx : ∀ c : Str, resolve cwd o ++ [".batches".toList, c] = resolve cwd o ++ [".batches".toList] ++ [c] := by
    intro c; rw [List.append_assoc]; rfl
  simp only [hx]
  have below : ∀ q, q <+: resolve cwd o ++ [".batches".toList] →
      q = resolve cwd o ++ [".batches".toList] ∨ q <+: resolve cwd o :=
    fun q hq => List.prefix_concat_iff.mp hq
  have over : ∀ q, q <+: resolve cwd o → ¬ resolve cwd o ++ [".batches".toList] <+: q := by
    intro q hq h
    have a := hq.length_le
    have b := h.length_le
    rw [List.length_append] at b
    have : [".batches".toList].length = 1 := rfl
    omega
  generalize hD : resolve cwd o ++ [".batches".toList] = D at h3 below over ⊢
  have hne : D ≠ [] := by rw [← hD]; simp
  obtain ⟨fs2, k1, k2, k3⟩ := makedirs_ok (d := D) h2
    (by rw [h3, if_neg (over [] List.nil_prefix)]; exact hroot)
    (by
      intro q hq t ht
      rw [h3] at ht
      rcases below q hq with rfl | h
      · rw [if_pos (List.prefix_refl _)] at ht
        split at ht <;> cases ht
      · rw [if_neg (over q h)] at ht
        exact hway q h t ht)
  have k4 : ∀ c, fs2.get (D ++ [c]) = none := by
    intro c
    rw [k3, if_neg, h3, if_pos (List.prefix_append _ _), if_neg]
    · rintro ⟨h, -⟩
      have := congrArg List.length h
      simp at this
    · intro h
      have := h.length_le
      simp at this
      omega
  obtain ⟨fs3, g1, g2⟩ := makeBatchDirs_ok cwd ho.1 D hD.symm cases fs2 hn k2
    (fun q hq => by rw [k3, if_pos hq]) (fun c => .inl (k4 c))
  refine ⟨fs3, ?_, fun p => ?_⟩
  · unfold startBatches
    rw [h1]
    change some (runnerDirs cwd o cases fs1) = _
    unfold runnerDirs
    rw [batches_place cwd ho.1, hD, k1]
    exact congrArg some g1
  · rw [g2, k3, h3]
    by_cases hp : p <+: D
    · rw [if_pos hp, if_pos hp]
      split <;> rfl
    · rw [if_neg hp, if_neg hp]
      by_cases hq : D <+: p
      · rw [if_pos hq, if_pos hq, if_neg (show ¬ (p = D ∧ (fs.get p).isSome = true) from
          fun h => hp (h.1 ▸ List.prefix_refl _))]
      · rw [if_neg hq, if_neg hq, if_neg]
        rintro ⟨n, -, rfl⟩
        exact hq (List.prefix_append _ _)

/-- **C114, partial.** No report of an earlier run is left when the workers are started, so that a worker
that dies before it opens its report makes its test fail. -/
theorem C114_fresh_partial (cwd : Path) {o : Str} (ho : PlainArg o) (hl : 4 ≤ o.length) {fs fs' : FS}
    (hw : fs.WellFormed) (hroot : fs.get [] = some .dir)
    (hway : ∀ q, q <+: resolve cwd o → ∀ t, fs.get q ≠ some (.file t)) (cases : List Str)
    (hn : ∀ n ∈ cases, PlainPart (batchName n)) (h : startBatches cwd o cases fs = some (.ok fs')) :
    ∀ n ∈ cases, batchReport cwd o n fs' = none ∧
      ∀ c : PConf fl, collectOne c n (batchReport cwd o n fs') = some (n, .text Result.FAIL.name, c.zero) := by
  intro n hm
  have key : batchReport cwd o n fs' = none := by
    obtain ⟨fs1, h1, h2⟩ := C114_directories_partial cwd ho hl hw hroot hway cases hn
    rw [h1] at h
    injection h with h
    injection h with h
    subst h
    unfold batchReport
    rw [h2, batch_place cwd ho.1 (hn n hm), if_neg, if_pos, if_neg]
    · rintro ⟨m, -, e⟩
      have := congrArg List.length e
      simp at this
    · exact ⟨[batchName n, "cases.txt".toList], by simp⟩
    · intro e
      have := e.length_le
      simp at this
  exact ⟨key, fun c => by rw [key]; rfl⟩

private theorem wf_of_all {fs : FS}
    (h : ∀ e ∈ fs, e.1.dropLast = [] ∨ fs.get e.1.dropLast = some .dir)
    (hroot : fs.get [] = some .dir) : fs.WellFormed := by
  intro p c hs
  obtain ⟨n, hn⟩ : ∃ n, (p ++ [c], n) ∈ fs := by
    clear h hroot
    induction fs with
    | nil => cases hs
    | cons e es ih =>
      obtain ⟨k, m⟩ := e
      rw [get_cons] at hs
      split at hs
      · rename_i he; exact ⟨m, by rw [he]; exact List.mem_cons_self⟩
      · obtain ⟨n, hn⟩ := ih hs
        exact ⟨n, List.mem_cons_of_mem _ hn⟩
  have := h _ hn
  simp only [List.dropLast_concat] at this
  rcases this with rfl | h
  · exact hroot
  · exact h

/-- **C114.** A worker that finds a report of an earlier run of its test does what it does without one, also
with `-c`: it executes the test and replaces the report. -/
theorem C114_started (u : Unicode) (cfg : Config) (outcome : List Str → Str → Outcome fl) (case : Str)
    (file : Option Bytes) {old : List (Rec fl)} (hf : ofFile u fl file = some old) (ho : ∀ r ∈ old, r.1 = case) :
    workerOver u fl cfg outcome case file = workerTrace u fl cfg outcome case := by
  have hc : (jobConfig cfg).cont = false := rfl
  have hd : ∀ old : List (Rec fl), (doneAndTodo (jobConfig cfg) old [case]).2 = [case] := by
    intro old; unfold doneAndTodo; rw [hc]; rfl
  have hk : keptRecords old [case] = [] := by
    unfold keptRecords
    rw [List.filter_eq_nil_iff]
    intro r hr
    simp [ho r hr]
  unfold workerOver workerTrace runAsync
  rw [hf]
  change (let todo := (doneAndTodo (jobConfig cfg) old [case]).2
    let body := runLoop fl (jobConfig cfg) outcome [] .OK 0 todo
    ((.truncate :: (keptRecords old todo).map .write ++ body.1 : List (Ev fl)), body.2)) =
    (let todo := (doneAndTodo (jobConfig cfg) [] [case]).2
    let body := runLoop fl (jobConfig cfg) outcome [] .OK 0 todo
    ((.truncate :: (keptRecords [] todo).map .write ++ body.1 : List (Ev fl)), body.2))
  dsimp only
  rw [hd, hd, hk]
  rfl

/-- The report of a test that was right. -/
private def oldReport : Str := caseLine strokes ("t/a".toList, .OK, (2 : Nat))

/-- A project after a parallel run of the test `t/a`. -/
private def runBefore (books : Str) : FS :=
  [([], .dir), ([books], .dir), ([books, ".out".toList], .dir),
   ([books, ".out".toList, ".batches".toList], .dir),
   ([books, ".out".toList, ".batches".toList, "t.a".toList], .dir),
   ([books, ".out".toList, ".batches".toList, "t.a".toList, "cases.txt".toList], .file oldReport)]

example : PlainArg "books/.out".toList ∧ (runBefore "books".toList).WellFormed ∧
    (∀ n ∈ ["t/a".toList, "t/b".toList], PlainPart (batchName n)) ∧
    (batchReport [] "books/.out".toList "t/a".toList (runBefore "books".toList)).isSome ∧
    (startBatches [] "books/.out".toList ["t/a".toList, "t/b".toList] (runBefore "books".toList)).map (fun
      | .ok fs => (fs.get ["books".toList, ".out".toList, ".batches".toList, "t.a".toList],
          fs.get ["books".toList, ".out".toList, ".batches".toList, "t.b".toList],
          batchReport [] "books/.out".toList "t/a".toList fs)
      | .error _ => (none, none, none)) = some (some .dir, some .dir, none) := by
  refine ⟨?_, ?_, ?_, by decide, by decide⟩
  · unfold PlainArg PlainChar; decide
  · exact wf_of_all (by decide) (by decide)
  · unfold PlainPart; decide

example : (ofFile ascii strokes (some (encode oldReport))).map (fun l => l.map (·.1)) = some ["t/a".toList] ∧
    applyEvs (some (encode oldReport)) (workerOver ascii strokes { cont := true } (fun _ _ => some (.FAIL, .NONE, (3 : Nat)))
      "t/a".toList (some (encode oldReport))).1 = some (encode (caseLine strokes ("t/a".toList, .FAIL, (3 : Nat)))) := by
  refine ⟨by decide, by decide +kernel⟩

/-- **C114 does not hold for directories with blanks.** With the books in `my books`, the report of an earlier
run stays: if the worker dies before it opens its report, the old result `OK` is taken. -/
theorem C114_blank_refuted : ∃ fs fs' : FS,
    startBatches [] "my books/.out".toList ["t/a".toList] fs = some (.ok fs') ∧
    batchReport [] "my books/.out".toList "t/a".toList fs' =
      batchReport [] "my books/.out".toList "t/a".toList fs ∧
    collectOne fourTests "t/a".toList (batchReport [] "my books/.out".toList "t/a".toList fs') =
      some ("t/a".toList, .res .OK, (2 : Nat)) :=
  ⟨runBefore "my books".toList, _, rfl, by decide, rfl⟩

end Verif.Props
