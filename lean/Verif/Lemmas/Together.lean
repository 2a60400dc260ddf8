import Verif.Model.Together
import Verif.Lemmas.ProjectRun

/-! # Tests that are executed at the same time -/

namespace Verif.Lemmas
open Verif.Py Verif.Model Verif.Spec

/-! ### Running a task alone -/

/-- A process that is alone. -/
def runTask (fs : FS) : Task → Except FsErr (FS × CaseEnd)
  | .done (.error x) => .error x
  | .done e => .ok (fs, e)
  | .act o k =>
    match o.run fs with
    | .error x => .error x
    | .ok (fs', a) => runTask fs' (k a)

theorem run_act (fs : FS) (o : FsOp) (k : Option Node → Task) :
    runTask fs (.act o k) = (o.run fs).bind (fun r => runTask r.1 (k r.2)) := by
  conv => lhs; unfold runTask
  cases o.run fs with
  | error x => rfl
  | ok r => rfl

theorem run_mkdirs (cs : List Str) (base : Path) (fs : FS) (k : Task) (hb : fs.get base = some .dir) :
    runTask fs (mkdirsTask base cs k) = runTask (mkdirsFrom fs base cs) k := by
  induction cs generalizing base fs with
  | nil => rfl
  | cons c cs ih =>
    rw [mkdirsTask, run_act, mkdirsFrom]
    cases hg : fs.get (base ++ [c]) with
    | none =>
      have hd : fs.isDir (base ++ [c]).dropLast = true := by
        rw [List.dropLast_concat, FS.isDir, hb]; rfl
      simp only [FsOp.run, hg, hd, if_true]
      exact ih _ _ (by rw [get_cons, if_pos rfl])
    | some n =>
      cases n with
      | file t => simp only [FsOp.run, hg]; rfl
      | dir => simp only [FsOp.run, hg]; exact ih _ _ hg

theorem mkdirsFrom_cwd (cs : List Str) (base : Path) (fs : FS) (h : fs.get [] = some .dir) :
    (mkdirsFrom fs base cs).get [] = some .dir := by
  induction cs generalizing base fs with
  | nil => exact h
  | cons c cs ih =>
    rw [mkdirsFrom]
    split
    · exact h
    · exact ih _ _ h
    · exact ih _ _ (by rw [get_cons, if_neg (by simp)]; exact h)

theorem run_remove (d : Path) (fs : FS) (k : Task) :
    runTask fs (removeTask d k) = (removeIfThere d fs).bind (fun fs => runTask fs k) := by
  rw [removeTask, run_act]
  simp only [FsOp.run, removeIfThere, Except.bind]
  by_cases h : fs.exists_ d = true
  · rw [if_pos h, if_pos (show Option.isSome _ = true from h), run_act]
    simp only [FsOp.run]
    cases fs.rmtree d <;> rfl
  · rw [if_neg h, if_neg (show ¬ Option.isSome _ = true from h)]

theorem run_write (p : Path) (t : Str) (fs : FS) (k : Task) :
    runTask fs (.act (.write p t) (fun _ => k)) = (openW p t fs).bind (fun fs => runTask fs k) := by
  rw [run_act]
  simp only [FsOp.run]
  cases openW p t fs <;> rfl

theorem run_outputs (out : Path) (name md txt log : Str) (fs : FS) (k : Task) :
    runTask fs (outputsTask out name md txt log k) =
      (writeOutputs out name md txt log fs).bind (fun fs => runTask fs k) := by
  unfold outputsTask writeOutputs
  simp only [run_write, bind]
  cases openW (filePath out name ".md".toList) md fs with
  | error x => rfl
  | ok g =>
    simp only [Except.bind]
    cases openW (filePath out name ".txt".toList) txt g with
    | error x => rfl
    | ok g => rfl

theorem run_files (out : Path) (name : Str) (files : List (Str × Str)) (fs : FS) (k : Task) :
    runTask fs (filesTask out name files k) = (writeFiles out name files fs).bind (fun fs => runTask fs k) := by
  induction files generalizing fs with
  | nil => rfl
  | cons f rest ih =>
    rw [filesTask, run_act, writeFiles, writeFile]
    simp only [FsOp.run, Except.bind]
    by_cases h : fs.exists_ (dirPath out name) = true
    · rw [if_pos h, if_pos (show Option.isSome _ = true from h), run_write]
      cases openW (dirPath out name ++ [f.1]) f.2 fs with
      | error x => rfl
      | ok g => exact ih g
    · rw [if_neg h, if_neg (show ¬ Option.isSome _ = true from h), run_act]
      simp only [FsOp.run]
      cases Model.mkdir (dirPath out name) fs with
      | error x => rfl
      | ok g =>
        simp only [Except.map, Except.bind]
        rw [run_write]
        cases openW (dirPath out name ++ [f.1]) f.2 g with
        | error x => rfl
        | ok g => exact ih g

theorem run_freeze (exp out : Path) (name : Str) (fs : FS) (k : Task) :
    runTask fs (freezeTask exp out name k) =
      match freezeCase exp out name fs with
      | (_, some x) => .error x
      | (fs', none) => runTask fs' k := by
  rw [freezeTask, run_remove, freezeCase]
  have e1 : freezeRemove exp name fs = removeIfThere (dirPath exp name) fs := rfl
  rw [e1]
  cases removeIfThere (dirPath exp name) fs with
  | error x => rfl
  | ok f1 =>
    simp only [Except.bind]
    rw [run_act]
    simp only [FsOp.run, freezeFile]
    cases f1.rename (mdPath out name) (mdPath exp name) with
    | error x => rfl
    | ok f2 =>
      simp only [Except.map, Except.bind]
      rw [run_act]
      simp only [FsOp.run, Except.bind, freezeDir]
      by_cases h : f2.exists_ (dirPath out name) = true
      · rw [if_pos h, if_pos (show Option.isSome _ = true from h), run_act]
        simp only [FsOp.run]
        cases f2.rename (dirPath out name) (dirPath exp name) <;> rfl
      · rw [if_neg h, if_neg (show ¬ Option.isSome _ = true from h)]

theorem run_save (out : Path) (name : Str) (v : Option Str) (fs : FS) (k : Task) :
    runTask fs (saveTask out name v k) = (saveValue out name v fs).bind (fun fs => runTask fs k) := by
  unfold saveTask saveValue
  cases v with
  | some v => exact run_write _ _ _ _
  | none =>
    dsimp only
    rw [run_act]
    simp only [FsOp.run, Except.bind]
    by_cases h : fs.exists_ (filePath out name ".bin".toList) = true
    · rw [if_pos h, if_pos (show Option.isSome _ = true from h), run_act]
      simp only [FsOp.run]
      cases fs.remove (filePath out name ".bin".toList) <;> rfl
    · rw [if_neg h, if_neg (show ¬ Option.isSome _ = true from h)]

/-- How `run_case` goes on. -/
def goOn (k : Result → Request → List Str → Task) (r : (FS × List Str) × CaseEnd) :
    Except FsErr (FS × CaseEnd) :=
  match r.2 with
  | .done v q => runTask r.1.1 (k v q r.1.2)
  | .error x => .error x
  | e => .ok (r.1.1, e)

theorem run_end (P : Project) (cfg : Config) (name : Str) (v : Result) (ans : List Str)
    (fs : FS) (k : Result → Request → List Str → Task) :
    runTask fs (endTask P cfg name ans v k) = goOn k (endCase P cfg name v ans fs) := by
  unfold endTask reviewTask endCase caseReview
  dsimp only
  have e0 : decide (Raw.res v ≠ Raw.res .OK) = decide (v ≠ .OK) := by
    by_cases h : v = .OK <;> simp [h]
  rw [e0]
  generalize (if (cfg.alwaysInteractive || decide (v ≠ .OK) && cfg.interactive) = true then
    interact (.res v) ans else some (.NONE, ans)) = d
  cases d with
  | none => rfl
  | some d =>
    obtain ⟨q, rest⟩ := d
    dsimp only
    have e1 : (q = .FREEZE ∨ (Raw.res v = .res .OK ∧ cfg.update = true) ∨
        (Raw.res v = .res .DIFF ∧ cfg.accept = true)) ↔
        (q = .FREEZE ∨ (v = .OK ∧ cfg.update = true) ∨ (v = .DIFF ∧ cfg.accept = true)) := by
      simp only [Raw.res.injEq]
    by_cases h : q = .FREEZE ∨ (v = .OK ∧ cfg.update = true) ∨ (v = .DIFF ∧ cfg.accept = true)
    · rw [if_pos h, if_pos (e1.mpr h), run_freeze]
      rcases freezeCase P.root P.out name fs with ⟨g, _ | x⟩
      · dsimp only
        rw [run_save]
        cases saveValue P.out name (P.tests name).returns g <;> rfl
      · rfl
    · rw [if_neg h, if_neg (fun hc => h (e1.mp hc))]
      dsimp only
      by_cases h2 : v = .OK ∨ v = .DIFF
      · rw [if_pos h2, if_pos h2, run_save]
        cases saveValue P.out name (P.tests name).returns fs <;> rfl
      · rw [if_neg h2, if_neg h2]; rfl

/-- The operations of `run_case`, one after the other, do what `runCase` does. -/
theorem run_case (P : Project) (cfg : Config) (name : Str) (ans : List Str) (fs : FS)
    (k : Result → Request → List Str → Task) (hcwd : fs.get [] = some .dir) :
    runTask fs (caseTask P cfg name ans k) = goOn k (runCase P cfg name (fs, ans)) := by
  unfold caseTask runCase makeDirs
  rw [run_mkdirs _ _ _ _ hcwd, run_mkdirs _ _ _ _ (mkdirsFrom_cwd _ _ _ hcwd), run_act]
  dsimp only
  change Except.bind (FsOp.run (mkdirs (mkdirs fs (baseDir P.root name)) (baseDir P.out name)) _) _ = _
  generalize mkdirs (mkdirs fs (baseDir P.root name)) (baseDir P.out name) = f0
  simp only [FsOp.run, Except.bind]
  rw [run_remove, purge]
  cases removeIfThere (dirPath P.out name) f0 with
  | error x => rfl
  | ok f1 =>
    simp only [Except.bind]
    rw [run_remove]
    cases removeIfThere (dirPath P.out (name ++ ".tmp".toList)) f1 with
    | error x => rfl
    | ok f2 =>
      simp only [Except.bind]
      rw [run_outputs]
      cases writeOutputs P.out name [] [] [] f2 with
      | error x => rfl
      | ok f3 =>
        simp only [Except.bind]
        have hd : f0.isDir (filePath P.root name ".md".toList) =
            decide (f0.get (filePath P.root name ".md".toList) = some .dir) := by
          unfold FS.isDir
          by_cases h : f0.get (filePath P.root name ".md".toList) = some .dir
          · rw [decide_eq_true h]; simpa using h
          · rw [decide_eq_false h]; simpa using h
        rw [hd]
        by_cases h : f0.get (filePath P.root name ".md".toList) = some .dir
        · rw [if_pos h, if_pos (decide_eq_true h)]; rfl
        · rw [if_neg h, if_neg (by simpa using h)]
          change runTask f3 (match runTest (P.env (snapshotText f0 (filePath P.root name ".md".toList)))
            (P.tests name).body with | none => _ | some s => _) = _
          cases runTest (P.env (snapshotText f0 (filePath P.root name ".md".toList))) (P.tests name).body with
          | none => rfl
          | some s =>
            dsimp only
            rw [run_files]
            cases writeFiles P.out name (P.tests name).files f3 with
            | error x => rfl
            | ok f4 =>
              simp only [Except.bind]
              rw [run_outputs]
              cases writeOutputs P.out name s.out (s.rep.map (· ++ "\n".toList)).flatten
                  (P.tests name).log f4 with
              | error x => rfl
              | ok f5 => exact run_end P cfg name _ ans f5 k

end Verif.Lemmas
