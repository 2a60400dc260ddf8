import Verif.Lemmas.SameFiles
import Verif.Lemmas.Whole
import Verif.Props.Agree
import Verif.Props.ParallelRun

/-! # C123: parallel and sequential runs leave the same files -/

namespace Verif.Props
open Verif.Py Verif.Model Verif.Spec Verif.Lemmas

variable {fl : Durations}

/-! ### A sequential run in which every test comes to its end -/

private theorem loop_whole (cfg : Config) (outcome : List Str → Str → Outcome fl)
    (v : Str → Result) (dur : Str → fl.D) (todo ex : List Str) (rv : Result) (fails : Nat)
    (hff : cfg.failFast = true → fails = 0 ∧ ∀ n ∈ todo, v n = .OK)
    (ho : ∀ l1 n l2, todo = l1 ++ n :: l2 → outcome (ex ++ l1) n = some (v n, .NONE, dur n)) :
    ∃ r : Result, runLoop fl cfg outcome ex rv fails todo =
      ((todo.map (fun n => (((n, v n, dur n) : Rec fl), Request.NONE))).flatMap pair, some r) := by
  induction todo generalizing ex rv fails with
  | nil => exact ⟨rv, rfl⟩
  | cons n ns ih =>
    have h1 := ho [] n ns rfl
    rw [List.append_nil] at h1
    unfold runLoop
    rw [h1]
    dsimp only
    have hnext : cfg.failFast = true → nextFails fails (v n) = 0 := by
      intro h
      obtain ⟨h1, h2⟩ := hff h
      rw [h2 n (by simp), h1]; rfl
    rw [if_neg (by rintro (h | ⟨h, h'⟩); cases h; rw [hnext h] at h'; cases h')]
    obtain ⟨r, e⟩ := ih (ex ++ [n]) (nextRv rv (v n)) (nextFails fails (v n))
      (fun h => ⟨hnext h, fun m hm => (hff h).2 m (List.mem_cons_of_mem _ hm)⟩) (by
      intro l1 m l2 he
      have := ho (n :: l1) m l2 (by rw [he]; rfl)
      rw [List.append_assoc]
      exact this)
    rw [e]
    exact ⟨r, rfl⟩

private theorem ran_pairs (ds : List (Rec fl × Request)) : ranNames (ds.flatMap pair) = ds.map (·.1.1) := by
  induction ds with
  | nil => rfl
  | cons d ds ih =>
    rw [List.flatMap_cons, ranNames_append, ih]
    rfl

private theorem run_whole (P : Project) (cfg : Config) (dur : Str → fl.D)
    (all selected : List Str) (fs : FS) (ans : List Str) (file : Option Bytes) (old : List (Rec fl)) (todo : List Str)
    (v : Str → Result) (hff : cfg.failFast = true → ∀ n ∈ todo, v n = .OK) (hold : ofFile P.u fl file = some old) (htodo : todo = toRun cfg old selected)
    (ho : ∀ l1 n l2, todo = l1 ++ n :: l2 →
      projectOutcome P cfg dur (mkdirs fs P.out, ans) l1 n = some (v n, .NONE, dur n))
    {g : FS} (hi : openW (P.root ++ ["index.md".toList]) (indexText all)
      (runCases P cfg todo (mkdirs fs P.out, ans)).1 = .ok g) :
    ∃ r : Result, (runProject P cfg dur all selected fs ans file).result = some r ∧
      (exitCode r = 0 ↔ ∀ n ∈ todo, v n = .OK) ∧ (runProject P cfg dur all selected fs ans file).fs = g ∧
      ofFile P.u fl (runProject P cfg dur all selected fs ans file).report =
        ofFile P.u fl (some (encode (toText fl (keptRecords old todo ++ todo.map (fun n => (n, v n, dur n)))))) ∧
      ranNames (runAsync P.u fl cfg (projectOutcome P cfg dur (mkdirs fs P.out, ans)) selected file).1 = todo := by
  obtain ⟨r, e1⟩ := loop_whole cfg (projectOutcome P cfg dur (mkdirs fs P.out, ans)) v dur todo [] .OK 0
    (fun h => ⟨rfl, hff h⟩) (by
    intro l1 n l2 h
    rw [List.nil_append]
    exact ho l1 n l2 h)
  have e2 : runAsync P.u fl cfg (projectOutcome P cfg dur (mkdirs fs P.out, ans)) selected file =
      (.truncate :: (keptRecords old todo).map .write ++
        (todo.map (fun n => (((n, v n, dur n) : Rec fl), Request.NONE))).flatMap pair, some r) := by
    unfold runAsync
    rw [hold]
    dsimp only
    rw [(doneAndTodo_eq cfg old selected).1, ← htodo, e1]
  have hran : ranNames (runAsync P.u fl cfg (projectOutcome P cfg dur (mkdirs fs P.out, ans)) selected file).1 = todo := by
    rw [e2]
    dsimp only
    rw [ranNames_writes, ran_pairs, List.map_map]
    exact List.map_id' _
  have eR : runProject P cfg dur all selected fs ans file =
      ⟨g, (runCases P cfg todo (mkdirs fs P.out, ans)).2,
        applyEvs file (runAsync P.u fl cfg (projectOutcome P cfg dur (mkdirs fs P.out, ans)) selected file).1, some r⟩ := by
    unfold runProject
    dsimp only
    rw [hran, e2]
    dsimp only
    rw [hi]
  refine ⟨r, by rw [eR], ?_, by rw [eR], ?_, hran⟩
  · rw [(C27_result P.u fl cfg _ selected file r (by rw [e2])).1, e2]
    have : execs (Ev.truncate :: (keptRecords old todo).map .write ++
        (todo.map (fun n => (((n, v n, dur n) : Rec fl), Request.NONE))).flatMap pair) = todo.map (fun n => (n, v n)) := by
      show execs ((keptRecords old todo).map .write ++ _) = _
      rw [execs_append, execs_map, execs_pairs, List.nil_append, List.map_map]
      rfl
    rw [this]
    constructor
    · intro h n hn
      exact h (n, v n) (List.mem_map_of_mem hn)
    · intro h e he
      obtain ⟨n, hn, rfl⟩ := List.mem_map.mp he
      exact h n hn
  · rw [eR, e2]
    dsimp only
    have hne : Ev.truncate ∉ (keptRecords old todo).map (Ev.write (fl := fl)) ++
        (todo.map (fun n => (((n, v n, dur n) : Rec fl), Request.NONE))).flatMap pair := by
      intro hx
      rcases List.mem_append.mp hx with hx | hx
      · obtain ⟨q, -, hq⟩ := List.mem_map.mp hx; cases hq
      · obtain ⟨q, -, hq⟩ := List.mem_flatMap.mp hx
        simp [pair] at hq
    have : applyEvs file (Ev.truncate :: (keptRecords old todo).map Ev.write ++
        (todo.map (fun n => (((n, v n, dur n) : Rec fl), Request.NONE))).flatMap pair) =
        applyEvs (some []) ((keptRecords old todo).map Ev.write ++
          (todo.map (fun n => (((n, v n, dur n) : Rec fl), Request.NONE))).flatMap pair) := rfl
    rw [this, applyEvs_some _ _ hne, List.nil_append, writes_append, writes_map, writes_pairs, List.map_map]
    rfl

/-! ### The theorem -/

variable {c : RConf fl} {fs : FS} {ans : List Str} {s : RSt fl} {ns : List Str}

private theorem spec_never {P : Project} {cfg : Config} {todo : List Str} (hf : NeverStops P cfg fs todo)
    (hff : cfg.failFast = true) {n : Str} (hn : n ∈ todo) {r : Result} {q : Request}
    (e : (caseSpec P cfg n (snapshot P.root fs n)).1 = .done r q) : r = .OK := by
  unfold caseSpec at e
  cases hrun : runTest (P.env (snapshot P.root fs n)) (P.tests n).body with
  | none => rw [hrun] at e; cases e
  | some x =>
    rw [hrun] at e
    dsimp only at e
    by_cases h : AutoAccepted cfg (verdict (P.env (snapshot P.root fs n)) x)
    · rw [if_pos h] at e
      injection e with e
      exact e.symm
    · rw [if_neg h] at e
      injection e with e
      rw [← e]
      exact (hf hff n hn x hrun).resolve_right h

/-- `-f` does not stop a run in which every test is `OK` or accepted. -/
theorem never_stops (ht : Tidy c) (hq : NotAsking c.cfg) (hu : c.cfg.update = false)
    (hf : NeverStops c.P c.cfg fs c.todo) (hp : PlainNames ns) (hS : SoundTree c.P.root ns fs)
    (hsub : ∀ n ∈ c.todo, n ∈ ns) (H : RReach c (mkdirs fs c.P.out) ans s) {n : Str} {res : Result} {d : fl.D}
    (hx : (n, res, d) ∈ s.run.recorded) : (c.cfg.failFast && decide (res ≠ .OK)) = false := by
  cases hff : c.cfg.failFast with
  | false => rfl
  | true =>
    obtain ⟨k1, k2, -⟩ := mkOut_ok hp hS
    obtain ⟨index, rv, trace, t, h1, -, -, -, h5⟩ := C118_refines ht (fun _ _ => ⟨hq.2, hq.1⟩) H
    obtain ⟨hn, q, e⟩ := h5 _ hx
    have e1 := (together_files (ans := ans) hq hu hp hsub ht.todo k1 h1).1 n hn _ e
    rw [k2 n (hsub n hn)] at e1
    have e2 : res = .OK := spec_never hf hff hn e1.symm
    rw [e2]
    rfl

private theorem same_files (ht : Tidy c) (hq : NotAsking c.cfg) (hu : c.cfg.update = false)
    (hf : NeverStops c.P c.cfg fs c.todo) (hU : c.u = c.P.u) (hp : PlainNames ns) (hS : SoundTree c.P.root ns fs)
    (hsub : ∀ n ∈ c.todo, n ∈ ns) {selected : List Str} {file : Option Bytes} {old : List (Rec fl)}
    (hold : ofFile c.u fl file = some old) (htodo : c.todo = toRun c.cfg old selected)
    (H : RReach c (mkdirs fs c.P.out) ans s) (hall : ∀ n ∈ c.todo, ∃ r d, (n, r, d) ∈ s.run.recorded)
    (ans' : List Str) :
    let r := runProject c.P c.cfg c.dur c.all selected fs ans' file
    (∃ g, s.finish c = .ok g ∧ ∀ p, g.get p = r.fs.get p) ∧
    (∃ ps ss, ofFile c.u fl (some (parallelReport c.pconf old s.run)) = some ps ∧ ofFile c.u fl r.report = some ss ∧
      (ps.map key).Perm (ss.map key)) ∧
    (∃ v, r.result = some v ∧ (InLoop s.run → exitCode v = s.run.exitCode)) ∧
    ranNames (runAsync c.P.u fl c.cfg (projectOutcome c.P c.cfg c.dur (mkdirs fs c.P.out, ans')) selected file).1 = c.todo := by
  obtain ⟨k1, k2, k3⟩ := mkOut_ok hp hS
  obtain ⟨index, rv, trace, t, h1, h2, h3, h4, h5⟩ := C118_refines ht (fun _ _ => ⟨hq.2, hq.1⟩) H
  obtain ⟨g1, g2⟩ := together_files (ans := ans') hq hu hp hsub ht.todo k1 h1
  -- the results
  have hv : ∀ n ∈ c.todo, ∃ r, (caseSpec c.P c.cfg n (snapshot c.P.root (mkdirs fs c.P.out) n)).1 = .done r .NONE ∧
      ∀ r' d, (n, r', d) ∈ s.run.recorded → r' = r := by
    intro n hn
    obtain ⟨r, d, hm⟩ := hall n hn
    obtain ⟨-, q, e⟩ := h5 _ hm
    have e1 := g1 n hn _ e
    rcases spec_end c.P c.cfg n (snapshot c.P.root (mkdirs fs c.P.out) n) with e2 | ⟨r2, e2, -⟩
    · rw [e2] at e1; cases e1
    · refine ⟨r2, e2, ?_⟩
      intro r' d' hm'
      obtain ⟨-, q', e'⟩ := h5 _ hm'
      have e3 := g1 n hn _ e'
      rw [e2] at e3
      cases e3
      rfl
  let v : Str → Result := fun n =>
    match (caseSpec c.P c.cfg n (snapshot c.P.root (mkdirs fs c.P.out) n)).1 with
    | .done r _ => r
    | _ => .FAIL
  have hv1 : ∀ n ∈ c.todo, (caseSpec c.P c.cfg n (snapshot c.P.root (mkdirs fs c.P.out) n)).1 = .done (v n) .NONE := by
    intro n hn
    obtain ⟨r, e, -⟩ := hv n hn
    dsimp only [v]
    rw [e]
  have hv2 : ∀ x ∈ s.run.recorded, x.1 ∈ c.todo ∧ x.2.1 = v x.1 := by
    intro x hx
    obtain ⟨n, r, d⟩ := x
    obtain ⟨hn, -⟩ := h5 _ hx
    obtain ⟨r', e, he⟩ := hv n hn
    have e1 := hv1 n hn
    rw [e] at e1
    cases e1
    exact ⟨hn, he r d hx⟩
  have hperm : (s.run.recorded.map (·.1)).Perm c.todo := by
    refine (List.perm_ext_iff_of_nodup h4 ht.todo).mpr fun n => ⟨fun hn => ?_, fun hn => ?_⟩
    · obtain ⟨x, hx, rfl⟩ := List.mem_map.mp hn
      exact (hv2 x hx).1
    · obtain ⟨r, d, hm⟩ := hall n hn
      exact List.mem_map_of_mem (f := (·.1)) hm
  -- the sequential run
  have hout : ∀ l1 n l2, c.todo = l1 ++ n :: l2 →
      projectOutcome c.P c.cfg c.dur (mkdirs fs c.P.out, ans') l1 n = some (v n, .NONE, c.dur n) := by
    intro l1 n l2 he
    have hn : n ∈ c.todo := by rw [he]; simp
    have hnd := ht.todo
    rw [he] at hnd
    obtain ⟨d1, -, d3⟩ := List.nodup_append.mp hnd
    have hnot : n ∉ l1 := fun h => d3 n h n (by simp) rfl
    obtain ⟨f1, e1, s1, -, n1⟩ := runCases_ok (cfg := c.cfg) hq hp l1 (fun m hm => hsub m (by rw [he]; simp [hm])) d1 k1 ans'
    obtain ⟨f2, e2, -⟩ := runCase_ok hq hp (hsub n hn) s1 ans'
    unfold projectOutcome
    rw [e1, e2, n1 n (hsub n hn), if_neg hnot]
    dsimp only
    rw [hv1 n hn]
  obtain ⟨f1, e1, s1, r1, -⟩ := runCases_ok (cfg := c.cfg) hq hp c.todo hsub ht.todo k1 ans'
  have hroot : (mkdirs fs c.P.out).get c.P.root = some .dir := k3 _ (by rw [out_eq, booksDir]; simp)
  obtain ⟨f2, e2, -⟩ := index_ok hp s1 (r1 hroot) (indexText c.all)
  obtain ⟨r, j1, j2, j3, j4, j5⟩ := run_whole c.P c.cfg c.dur c.all selected fs ans' file old c.todo v (by
      intro hff n hn
      have e := hv1 n hn
      rw [k2 n (hsub n hn)] at e
      exact spec_never hf hff hn e) (hU ▸ hold) htodo hout
    (by rw [e1]; exact e2)
  -- the files
  have hsame : ∀ p, p ≠ indexFile c.P.root → s.fs.get p = f1.get p := by
    intro p hpi
    rw [g2 (fun n hn => by
      obtain ⟨r, d, hm⟩ := hall n hn
      obtain ⟨-, q, e⟩ := h5 _ hm
      exact ⟨_, e⟩) p hpi, e1]
  have hrooti : c.P.root ≠ indexFile c.P.root := by
    intro h
    have := congrArg List.length h
    unfold indexFile at this
    simp at this
  have hsound : SoundTree c.P.root ns s.fs := by
    obtain ⟨d, -⟩ := during_parallel hp c.cfg k1 c.all hsub h1
    exact d
  obtain ⟨f3, e3, -⟩ := index_ok hp hsound (by rw [hsame _ hrooti]; exact r1 hroot) (indexText c.all)
  refine ⟨⟨f3, e3, ?_⟩, ?_, ⟨r, j1, ?_⟩, j5⟩
  · intro p
    rw [j3]
    have w1 := openW_ok (fs := s.fs) (p := c.P.root ++ ["index.md".toList]) hsound.index
      (by rw [List.dropLast_concat, hsame _ hrooti]; exact r1 hroot) (indexText c.all)
    have w2 := openW_ok (fs := f1) (p := c.P.root ++ ["index.md".toList]) s1.index
      (by rw [List.dropLast_concat]; exact r1 hroot) (indexText c.all)
    rw [w1] at e3
    rw [w2] at e2
    cases e3
    cases e2
    unfold FS.write
    rw [get_cons, get_cons]
    split
    · rfl
    · rename_i hpi
      exact hsame p hpi
  · have hclean : ∀ w ∈ keptRecords old c.todo, CleanName w.1 := fun w hw =>
      ofFile_clean c.u fl hold w (List.mem_filter.mp hw).1
    refine ⟨keptRecords old c.todo ++ s.run.recorded, keptRecords old c.todo ++ c.todo.map (fun n => (n, v n, c.dur n)),
      ?_, ?_, ?_⟩
    · refine C23_round_trip _ _ _ ?_
      intro w hw
      rcases List.mem_append.mp hw with hw | hw
      · exact hclean w hw
      · exact ht.names _ (hv2 w hw).1
    · rw [hU, j4]
      refine C23_round_trip _ _ _ ?_
      intro w hw
      rcases List.mem_append.mp hw with hw | hw
      · exact hclean w hw
      · obtain ⟨n, hn, rfl⟩ := List.mem_map.mp hw
        exact ht.names n hn
    · rw [List.map_append, List.map_append]
      refine List.Perm.append_left _ ?_
      have a1 : s.run.recorded.map key = (s.run.recorded.map (·.1)).map (fun n => (n, v n)) := by
        rw [List.map_map]
        refine List.map_congr_left fun x hx => ?_
        show (x.1, x.2.1) = (x.1, v x.1)
        rw [(hv2 x hx).2]
      have a2 : (c.todo.map (fun n => ((n, v n, c.dur n) : Rec fl))).map key = c.todo.map (fun n => (n, v n)) := by
        rw [List.map_map]; rfl
      rw [a1, a2]
      exact hperm.map _
  · intro hl
    obtain ⟨x1, x2⟩ := exit_inv (run_reach H)
    have x3 := x2 hl
    have x4 : exitCode r = 0 ↔ s.run.exitCode = 0 := by
      rw [j2, x3]
      constructor
      · intro h x hx
        rw [(hv2 x hx).2]
        exact h _ (hv2 x hx).1
      · intro h n hn
        obtain ⟨r, d, hm⟩ := hall n hn
        have := h _ hm
        rw [← (hv2 _ hm).2]
        exact this
    have x5 : exitCode r = 0 ∨ exitCode r = -1 := by
      unfold exitCode
      split
      · exact Or.inl rfl
      · exact Or.inr rfl
    rcases x1 with e | e <;> rcases x5 with e' | e'
    · rw [e, e']
    · rw [e, e'] at x4; simp at x4
    · rw [e, e'] at x4; simp at x4
    · rw [e, e']

/-- **C123**: a parallel run in which every test has been recorded, and a sequential run of the same tests from the same
files leave the same: the same text in every file and the same directories, wherever they are (the reports, `output.txt` and
`metrics.json` are not part of the file system here). Both record the same
results and end with the same status. Nobody is asked, `-u` is not given, and `-f` stops nothing. -/
theorem C123_same_files_partial (ht : Tidy c) (hq : NotAsking c.cfg) (hu : c.cfg.update = false)
    (hf : NeverStops c.P c.cfg fs c.todo) (hU : c.u = c.P.u) (hp : PlainNames ns) (hS : SoundTree c.P.root ns fs)
    (hsub : ∀ n ∈ c.todo, n ∈ ns) {selected : List Str} {file : Option Bytes} {old : List (Rec fl)}
    (hold : ofFile c.u fl file = some old) (htodo : c.todo = toRun c.cfg old selected)
    (H : RReach c (mkdirs fs c.P.out) ans s) (hall : ∀ n ∈ c.todo, ∃ r d, (n, r, d) ∈ s.run.recorded)
    (ans' : List Str) :
    let r := runProject c.P c.cfg c.dur c.all selected fs ans' file
    (∃ g, s.finish c = .ok g ∧ ∀ p, g.get p = r.fs.get p) ∧
    (∃ ps ss, ofFile c.u fl (some (parallelReport c.pconf old s.run)) = some ps ∧ ofFile c.u fl r.report = some ss ∧
      (ps.map key).Perm (ss.map key)) ∧
    ∃ v, r.result = some v ∧ (InLoop s.run → exitCode v = s.run.exitCode) := by
  obtain ⟨h1, h2, h3, -⟩ := same_files ht hq hu hf hU hp hS hsub hold htodo H hall ans'
  exact ⟨h1, h2, h3⟩

/-- The sequential run executes the same tests. -/
theorem same_ran (ht : Tidy c) (hq : NotAsking c.cfg) (hu : c.cfg.update = false)
    (hf : NeverStops c.P c.cfg fs c.todo) (hU : c.u = c.P.u) (hp : PlainNames ns) (hS : SoundTree c.P.root ns fs)
    (hsub : ∀ n ∈ c.todo, n ∈ ns) {selected : List Str} {file : Option Bytes} {old : List (Rec fl)}
    (hold : ofFile c.u fl file = some old) (htodo : c.todo = toRun c.cfg old selected)
    (H : RReach c (mkdirs fs c.P.out) ans s) (hall : ∀ n ∈ c.todo, ∃ r d, (n, r, d) ∈ s.run.recorded)
    (ans' : List Str) :
    ranNames (runAsync c.P.u fl c.cfg (projectOutcome c.P c.cfg c.dur (mkdirs fs c.P.out, ans')) selected file).1 = c.todo :=
  (same_files ht hq hu hf hU hp hS hsub hold htodo H hall ans').2.2.2

/-! ### How such a run ends -/

/-- What holds in a run in which nobody is asked. -/
structure Calmly (s : RSt fl) : Prop where
  review : ∀ r, s.run.rpc = .reviewing r → ∃ v, s.review = some v
  request : ∀ v, s.review = some v → v.request = .NONE
  going : (s.run.rpc = .check ∨ s.run.rpc = .waiting ∨ ∃ r, s.run.rpc = .reviewing r) → s.run.abort = false
  left : ∀ k, s.run.rpc ≠ .leftover k true
  ended : s.run.rpc ≠ .ended true

theorem same_abort {c : PConf fl} {s p : PSt fl} (h : PStep c s p) (hr : p.rpc = s.rpc) : p.abort = s.abort := by
  cases h with
  | reviewed r res ab h _ => rw [h] at hr; cases hr
  | reviewedText r t ab h _ => rw [h] at hr; cases hr
  | interrupt h =>
    rcases h with h | h | ⟨r, h⟩ <;> (rw [h] at hr; cases hr)
  | recordLeftText k x n t d h _ => rw [h] at hr; cases hr
  | finished k x h _ => rw [h] at hr; cases hr
  | _ => rfl

theorem unasked_review {P : Project} {cfg : Config} (hq : NotAsking cfg) (n : Str) (r : Raw) (ans : List Str) :
    ∃ v rest, startReview P cfg n r ans = some (v, rest) ∧ v.request = .NONE := by
  unfold startReview
  rw [hq.1, hq.2, Bool.and_false, Bool.or_false, if_neg (by decide)]
  dsimp only
  split
  · exact ⟨_, _, rfl, rfl⟩
  · exact ⟨_, _, rfl, rfl⟩

/-- The main thread goes on as before. -/
private theorem calm_same {s : RSt fl} (ih : Calmly s) {p : PSt fl} (hr : p.rpc = s.run.rpc)
    (ha : p.abort = s.run.abort) : Calmly { s with run := p } := by
  refine ⟨?_, ih.request, ?_, ?_, ?_⟩
  · intro r h; exact ih.review r (by rw [← hr]; exact h)
  · intro h
    show p.abort = _
    rw [ha]
    refine ih.going ?_
    rw [← hr]; exact h
  · intro k h; exact ih.left k (by rw [← hr]; exact h)
  · intro h; exact ih.ended (by rw [← hr]; exact h)

/-- A worker whose test is executed as `together_files` says does not fail. -/
theorem no_error (ht : Tidy c) (hq : NotAsking c.cfg) (hu : c.cfg.update = false) (hp : PlainNames ns)
    (hS : SoundTree c.P.root ns fs) (hsub : ∀ n ∈ c.todo, n ∈ ns) {index : Str → Bool} {rv : Str → Option (List Str)}
    {trace : List Str} {t : Str → Task}
    (hf : FileInv c (mkdirs fs c.P.out) ans s index rv trace t) {n : Str} (hn : n ∈ c.todo) (x : FsErr) :
    t n ≠ .done (.error x) := by
  intro e
  obtain ⟨k1, -, -⟩ := mkOut_ok hp hS
  have e1 := (together_files (ans := ans) hq hu hp hsub ht.todo k1 hf.inter).1 n hn _ e
  rcases spec_end c.P c.cfg n (snapshot c.P.root (mkdirs fs c.P.out) n) with e2 | ⟨r, e2, -⟩ <;>
    (rw [e2] at e1; cases e1)

theorem calmly (ht : Tidy c) (hq : NotAsking c.cfg) (hu : c.cfg.update = false) (hf : NeverStops c.P c.cfg fs c.todo)
    (hp : PlainNames ns) (hS : SoundTree c.P.root ns fs) (hsub : ∀ n ∈ c.todo, n ∈ ns)
    (hb : ∀ n b, ¬ c.breaks n b) (H : RReach c (mkdirs fs c.P.out) ans s) : Calmly s := by
  induction H with
  | init => exact ⟨fun r h => (by cases h), fun v h => (by cases h), fun _ => rfl, fun k h => (by cases h), fun h => (by cases h)⟩
  | @step s s' H hs ih =>
    obtain ⟨hw, index, rv, trace, t, hfi⟩ := run_inv ht (fun _ _ => ⟨hq.2, hq.1⟩) H
    cases hs with
    | scheduler p h hr hy => exact calm_same ih hr (same_abort h hr)
    | main p h hr hpr hy =>
      by_cases hsame : p.rpc = s.run.rpc
      · exact calm_same ih hsame (same_abort h hsame)
      · have goal : ∀ {p : PSt fl}, (∀ r, p.rpc ≠ .reviewing r) → (p.rpc = .check ∨ p.rpc = .waiting → p.abort = false) →
            (∀ k, p.rpc ≠ .leftover k true) → p.rpc ≠ .ended true → Calmly { s with run := p } := by
          intro p h1 h2 h3 h4
          refine ⟨fun r e => absurd e (h1 r), ih.request, ?_, h3, h4⟩
          rintro (e | e | ⟨r, e⟩)
          · exact h2 (Or.inl e)
          · exact h2 (Or.inr e)
          · exact absurd e (h1 r)
        cases h with
        | more h1 hn =>
          exact goal hpr (fun _ => ih.going (Or.inl h1)) (fun k e => by cases e) (fun e => by cases e)
        | noMore h1 hn =>
          exact goal hpr (fun e => by rcases e with e | e <;> cases e) (fun k e => by cases e) (fun e => by cases e)
        | take r q h1 hq' => exact absurd rfl (hpr r)
        | reviewed r res ab h1 hv => exact absurd h1 (hr r)
        | reviewedText r t ab h1 hv => exact absurd h1 (hr r)
        | reviewRaises r h1 hv => exact absurd h1 (hr r)
        | interrupt h1 =>
          exact goal hpr (fun e => by rcases e with e | e <;> cases e) (fun k e => by cases e) (fun e => by cases e)
        | recordLeft k x n res d h1 hq' =>
          refine goal hpr (fun e => by rcases e with e | e <;> cases e) (fun k' e => ?_) (fun e => by cases e)
          cases e
          exact ih.left k h1
        | recordLeftText k x n t d h1 hq' =>
          exact absurd ((hw.recs _ (Or.inl (List.mem_of_getElem? hq'))).2 _ rfl) (hb _ _)
        | finished k x h1 hq' =>
          refine goal hpr (fun e => by rcases e with e | e <;> cases e) (fun k' e => by cases e) (fun e => ?_)
          cases e
          exact ih.left k h1
        | _ => exact absurd rfl hsame
    | opens n hn h => exact ⟨ih.review, ih.request, ih.going, ih.left, ih.ended⟩
    | works n g t' hn h ht' => exact ⟨ih.review, ih.request, ih.going, ih.left, ih.ended⟩
    | writes n r q hn h hd => exact ⟨ih.review, ih.request, ih.going, ih.left, ih.ended⟩
    | indexes n rec g a hn h hi hx => exact ⟨ih.review, ih.request, ih.going, ih.left, ih.ended⟩
    | ends n hn ho => exact ⟨ih.review, ih.request, ih.going, ih.left, ih.ended⟩
    | takes r q v rest h hq' hv =>
      refine ⟨fun _ _ => ⟨v, rfl⟩, fun w hw' => ?_, fun _ => ih.going (Or.inr (Or.inl h)), fun k e => (by cases e),
        fun e => (by cases e)⟩
      cases hw'
      obtain ⟨v', rest', e1, e2⟩ := unasked_review (P := c.P) hq r.1 r.2.1 s.ans
      rw [hv] at e1
      cases e1
      exact e2
    | takesEof r q h hq' hv =>
      obtain ⟨v', rest', e1, -⟩ := unasked_review (P := c.P) hq r.1 r.2.1 s.ans
      rw [hv] at e1
      cases e1
    | reviews r v g t' h hv ht' =>
      refine ⟨fun _ _ => ⟨_, rfl⟩, fun w hw' => ?_, ih.going, ih.left, ih.ended⟩
      cases hw'
      exact ih.request v hv
    | reviewed r v res x q h hv ht' hf' =>
      refine ⟨fun _ e => (by cases e), fun w hw' => (by cases hw'), fun _ => ?_, fun k e => (by cases e), fun e => (by cases e)⟩
      show (s.run.abort || (decide (v.request = .ABORT) || (c.cfg.failFast && decide (res ≠ .OK)))) = false
      rw [ih.going (Or.inr (Or.inr ⟨r, h⟩)), ih.request v hv, never_stops ht hq hu hf hp hS hsub
        (H.step (.reviewed s r v res x q h hv ht' hf')) (List.mem_append_right _ (List.mem_singleton.mpr rfl))]
      rfl
    | reviewedText r v m x q h hv ht' hf' =>
      exfalso
      rcases hfi.review r v h hv with ⟨y, e1, -⟩ | ⟨m', e1, -⟩
      · unfold PReview.final at hf'
        rw [e1] at hf'
        split at hf' <;> cases hf'
      · exact hb _ _ ((hw.recs r (Or.inr (Or.inr (by rw [h]; exact List.mem_singleton.mpr rfl)))).2 _ e1)
    | reviewRaises r h hv =>
      exfalso
      rcases hv with e | ⟨v, x, e, ev⟩
      · obtain ⟨v, e'⟩ := ih.review r h
        rw [e] at e'; cases e'
      · rcases hfi.review r v h e with ⟨y, e1, e2, e3, -⟩ | ⟨m', -, -, y, q, e2⟩
        · rw [ev] at e2
          refine no_error ht hq hu hp hS hsub hfi ?_ x e2
          obtain ⟨l, hl⟩ := Option.isSome_iff_exists.mp e3
          obtain ⟨lost, hcount, -⟩ := (winv_reach (named_pconf ht) hw.reach).count
          have hi := inv_reach ht.todo hw.reach
          refine hi.sub _ ((hi.mem_started _).mpr (Or.inl (hcount.mem_iff.mp ?_)))
          simp [(hfi.taken _ l hl).1]
        · rw [ev] at e2; cases e2
    | interrupt r h =>
      exact ⟨fun _ e => (by cases e), fun w hw' => (by cases hw'), fun e => (by rcases e with e | e | ⟨_, e⟩ <;> cases e),
        fun k e => (by cases e), fun e => (by cases e)⟩

/-- Every worker leaves a record. -/
def Leaves (c : RConf fl) (n : Str) (b : Option Bytes) : Prop :=
  ∃ r, b = some (encode (toText fl [(n, r, c.dur n)]))

theorem rstep_run {s s' : RSt fl} (H : RReach c fs ans s) (h : RStep c s s') :
    (s'.run = s.run) ∨ PStep c.pconf s.run s'.run := by
  cases h with
  | scheduler p h _ _ => exact Or.inr h
  | main p h _ _ _ => exact Or.inr h
  | ends n hn ho => exact Or.inr (PStep.finish s.run n _ hn.1 hn.2 (by
      rcases report_shape' H n with e | e | ⟨v, e⟩
      · exact Or.inl (by rw [e]; rfl)
      · exact Or.inr (Or.inl (by rw [e]; rfl))
      · exact Or.inr (Or.inr ⟨v, by rw [e]; rfl⟩)))
  | takes r q v rest h hq hv => exact Or.inr (PStep.take s.run r q h hq)
  | takesEof r q h hq hv => exact Or.inr (PStep.take s.run r q h hq)
  | reviewed r v res x q h hv ht hf => exact Or.inr (PStep.reviewed (c := c.pconf) s.run r res _ h trivial)
  | reviewedText r v t x q h hv ht hf => exact Or.inr (PStep.reviewedText (c := c.pconf) s.run r t _ h trivial)
  | reviewRaises r h hv => exact Or.inr (PStep.reviewRaises (c := c.pconf) s.run r h trivial)
  | interrupt r h => exact Or.inr (PStep.interrupt (c := c.pconf) s.run (Or.inr (Or.inr ⟨r, h⟩)))
  | _ => exact Or.inl rfl

/-- A worker leaves a record when it ends. -/
theorem leaves_end (ht : Tidy c) (hq : NotAsking c.cfg) (hu : c.cfg.update = false)
    (hp : PlainNames ns) (hS : SoundTree c.P.root ns fs) (hsub : ∀ n ∈ c.todo, n ∈ ns)
    (hb : ∀ n b, ¬ c.breaks n b) (H : RReach c (mkdirs fs c.P.out) ans s) {n : Str} (hn : s.Works n) (ho : Over c s n) :
    ∃ r, s.reports n = some [(n, r, c.dur n)] := by
  obtain ⟨hw, index, rv, trace, t, hfi⟩ := run_inv ht (fun _ _ => ⟨hq.2, hq.1⟩) H
  have hrec : ∀ rec, s.reports n = some [rec] → ∃ r, s.reports n = some [(n, r, c.dur n)] := by
    intro rec er
    rcases hw.reports n with e' | e' | ⟨r, q, e', -⟩
    · rw [er] at e'; cases e'
    · rw [er] at e'; cases e'
    · exact ⟨r, e'⟩
  cases ho with
  | whole h => exact (hw.indexed n h).elim hrec
  | noIndex rec x h hx => exact hrec rec h
  | raised x h =>
    exfalso
    have hi := inv_reach ht.todo hw.reach
    refine no_error ht hq hu hp hS hsub hfi (hi.sub n hn.1) x ?_
    rw [hfi.work n ?_]
    · exact h
    · cases hl : rv n with
      | none => rfl
      | some l =>
        obtain ⟨lost, hcount, -⟩ := (winv_reach (named_pconf ht) hw.reach).count
        have := hi.doneReady n (hcount.mem_iff.mp (by simp [(hfi.taken n l hl).1]))
        exact absurd this hn.2
  | broken h => exact absurd h (hb _ _)

/-- If nothing but the operations of the tests can fail, then every worker leaves a record. -/
theorem reach_leaves (ht : Tidy c) (hq : NotAsking c.cfg) (hu : c.cfg.update = false)
    (hp : PlainNames ns) (hS : SoundTree c.P.root ns fs) (hsub : ∀ n ∈ c.todo, n ∈ ns)
    (hb : ∀ n b, ¬ c.breaks n b) (H : RReach c (mkdirs fs c.P.out) ans s) :
    PReach { c.pconf with leaves := fun n b => c.pconf.leaves n b ∧ Leaves c n b } s.run := by
  induction H with
  | init => exact .init
  | @step s s' H hs ih =>
    rcases rstep_run H hs with e | e
    · rw [e]; exact ih
    · refine ih.step (finish_only e _ ?_)
      intro n h1 h2 h3
      cases hs with
      | scheduler p h hr hy => rw [show ({ s with run := p } : RSt fl).run.ready = _ from hy] at h1; exact absurd h1 h2
      | main p h hr hpr hy => rw [show ({ s with run := p } : RSt fl).run.ready = _ from hy] at h1; exact absurd h1 h2
      | ends m hn ho =>
        have hm : n = m := by
          rcases List.mem_append.mp h1 with h1 | h1
          · exact absurd h1 h2
          · exact List.mem_singleton.mp h1
        subst hm
        obtain ⟨r, er⟩ := leaves_end ht hq hu hp hS hsub hb H hn ho
        refine ⟨r, ?_⟩
        show (if batchName n = batchName n then (s.reports n).map _ else _) = _
        rw [if_pos rfl, er]
        rfl
      | _ => exact absurd h1 h2

/-- **C123**: if nothing but the operations of the tests can fail, then such a run is not left by an exception, and when
it is over, unless it has been interrupted, every test has been recorded. -/
theorem C123_complete (ht : Tidy c) (hq : NotAsking c.cfg) (hu : c.cfg.update = false) (hf : NeverStops c.P c.cfg fs c.todo)
    (hp : PlainNames ns) (hS : SoundTree c.P.root ns fs) (hsub : ∀ n ∈ c.todo, n ∈ ns)
    (hb : ∀ n b, ¬ c.breaks n b) (H : RReach c (mkdirs fs c.P.out) ans s) :
    s.run.rpc ≠ .ended true ∧ (∀ k, s.run.rpc ≠ .leftover k true) ∧ s.run.spc ≠ .crashed ∧
    (s.run.rpc = .check → hasNext s.run = false → ∀ n ∈ c.todo, ∃ r, (n, r, c.dur n) ∈ s.run.recorded) := by
  have hcalm := calmly ht hq hu hf hp hS hsub hb H
  have hR := reach_leaves ht hq hu hp hS hsub hb H
  have hB : Behaved { c.pconf with leaves := fun n b => c.pconf.leaves n b ∧ Leaves c n b } := by
    refine ⟨ht.todo, ht.batches, ?_⟩
    rintro n hn b ⟨-, r, rfl⟩
    exact ⟨_, collect_complete _ (ht.names n hn) r _, rfl⟩
  refine ⟨hcalm.ended, hcalm.left, ?_, ?_⟩
  · intro e
    obtain ⟨n, hn, b, h1, h2⟩ := (winv_reach hB.named hR).crash e
    obtain ⟨r, h3, -⟩ := hB.leaves n hn b h1
    rw [h2] at h3; cases h3
  · intro h1 h2 n hn
    obtain ⟨hperm, -⟩ := C39_all_recorded hB hR h1 (hcalm.going (Or.inl h1)) h2
    obtain ⟨x, hx, e⟩ := List.mem_map.mp (hperm.mem_iff.mpr hn)
    obtain ⟨r, ⟨b, ⟨-, v, e1⟩, e2⟩, e3, e4, -⟩ := (winv_reach hB.named hR).recorded x hx
    have hn' : r.1 = n := by rw [e3, e]
    rw [hn'] at e1 e2
    rw [e1, collect_complete _ (ht.names n hn)] at e2
    cases e2
    obtain ⟨a, r', d⟩ := x
    cases e
    have e4 : c.dur a = d := e4
    rw [← e4] at hx
    exact ⟨r', hx⟩

/-! ### Runs of two tests -/

private def prints (x : String) : Project where
  u := ascii
  pointErrorPos := false
  refmt := some
  root := ["books".toList]
  tests := fun n => ⟨⟨[.header "# t".toList, .tln (x.toList ++ n)], none⟩, [], [], none⟩

private theorem empty_sound (ns : List Str) : SoundTree ["books".toList] ns [([], .dir)] := by
  have g : ∀ p, FS.get [([], .dir)] p = if p = [] then some .dir else none := by
    intro p; rw [get_cons]; rfl
  refine ⟨?_, rfl, ?_, ?_, ?_, ?_, ?_⟩
  · intro p c h; rw [g, if_neg (by simp)] at h; cases h
  · intro n _ o q _ t; rw [g]; split <;> simp
  · intro n _ o x hx _; rw [g, if_neg (slot_ne_nil _ o n (Or.inr hx))]; simp
  · intro n _ o x hx t; rw [g]; split <;> simp
  · decide
  · intro q _ t; rw [g]; split <;> simp

private def both : List Str := ["t/a".toList, "t/b".toList]

private theorem both_plain : PlainNames both := by
  refine ⟨?_, ?_⟩
  · intro n hn
    simp only [both, List.mem_cons, List.not_mem_nil, or_false] at hn
    rcases hn with rfl | rfl
    · exact ⟨by decide, by decide, by decide⟩
    · exact ⟨by decide, by decide, by decide⟩
  · unfold NotNested; decide

/-- Two tests, about which nobody is asked. -/
private def pairOf (cfg : Config) : RConf strokes where
  u := ascii
  P := prints "x"
  cfg := cfg
  all := both
  todo := both
  deps := fun _ => []
  res := fun _ => []
  zero := (0 : Nat)
  dur := fun _ => (1 : Nat)
  breaks := fun _ _ => False

private theorem pair_tidy (cfg : Config) : Tidy (pairOf cfg) :=
  ⟨(by decide : both.Nodup), (by decide : ∀ a ∈ both, ∀ b ∈ both, batchName a = batchName b → a = b),
    (by unfold CleanName; decide : ∀ n ∈ both, CleanName n)⟩

/-- Two tests are executed at the same time, and their outputs are accepted by `-a`. -/
private theorem pair_run : ∃ s, RReach (pairOf { accept := true, failFast := true }) (mkdirs [([], .dir)] (prints "x").out) [] s ∧
    s.run.recorded = [("t/b".toList, .OK, (1 : Nat)), ("t/a".toList, .OK, (1 : Nat))] ∧ s.run.rpc = .check ∧
    hasNext s.run = false := by
  have h0 : RReach (pairOf { accept := true, failFast := true }) (mkdirs [([], .dir)] (prints "x").out) [] _ := .init
  have h1 := h0.step (.scheduler _ _ (.planned _ both both rfl (by decide) rfl (by decide) (by decide)) rfl rfl)
  have h2 := h1.step (.scheduler _ _ (.start _ _ _ rfl (by decide)) rfl rfl)
  have h3 := h2.step (.scheduler _ _ (.start _ _ _ rfl (by decide)) rfl rfl)
  have h4 := h3.step (.opens _ "t/a".toList ⟨by decide, by decide⟩ rfl)
  have h5 := works_many h4 "t/a".toList ⟨by decide, by decide⟩ rfl 7 rfl
  have h6 := h5.step (.opens _ "t/b".toList ⟨by decide, by decide⟩ rfl)
  have h7 := works_many h6 "t/b".toList ⟨by decide, by decide⟩ rfl 5 rfl
  have h8 := works_many h7 "t/a".toList ⟨by decide, by decide⟩ rfl 11 rfl
  have h9 := h8.step (.writes _ "t/a".toList .OK .NONE ⟨by decide, by decide⟩ rfl rfl)
  have h10 := h9.step (.indexes _ "t/a".toList _ _ _ ⟨by decide, by decide⟩ rfl rfl rfl)
  have h11 := h10.step (.scheduler _ _ (.startedAll _ rfl) rfl rfl)
  have h12 := works_many h11 "t/b".toList ⟨by decide, by decide⟩ rfl 13 rfl
  have h13 := h12.step (.writes _ "t/b".toList .OK .NONE ⟨by decide, by decide⟩ rfl rfl)
  have h14 := h13.step (.indexes _ "t/b".toList _ _ _ ⟨by decide, by decide⟩ rfl rfl rfl)
  have h15 := h14.step (.ends _ "t/b".toList ⟨by decide, by decide⟩ (.whole rfl))
  have h16 := h15.step (.scheduler _ _ (.again _ rfl rfl) rfl rfl)
  have h17 := h16.step (.scheduler _ _ (.seeBusy _ _ _ _ rfl (by decide)) rfl rfl)
  have h18 := h17.step (.scheduler _ _ (.seeReady _ _ _ _ rfl (by decide)) rfl rfl)
  have h19 := h18.step (.scheduler _ _ (.swept _ _ rfl) rfl rfl)
  have h20 := h19.step (.scheduler _ _ (.leave _ _ rfl (Or.inl (by decide))) rfl rfl)
  have h21 := h20.step (.scheduler _ _ (.collected _ _ ["t/b".toList]
    [("t/b".toList, .res .OK, (1 : Nat))] rfl (by decide) (by decide +kernel)) rfl rfl)
  have h22 := h21.step (.scheduler _ _ (.publish _ _ rfl) rfl rfl)
  have h23 := h22.step (.main _ _ (.more _ rfl (by decide)) (in_check rfl) (in_waiting rfl) rfl)
  have h24 := h23.step (.takes _ ("t/b".toList, .res .OK, (1 : Nat)) [] _ _ rfl (by decide) rfl)
  have h26 := h24.step (.ends _ "t/a".toList ⟨by decide, by decide⟩ (.whole rfl))
  have h27 := h26.step (.reviewed _ _ _ .OK _ _ rfl rfl rfl rfl)
  have h28 := h27.step (.scheduler _ _ (.planned _ [] [] rfl (by decide) rfl (by decide) (by decide)) rfl rfl)
  have h29 := h28.step (.scheduler _ _ (.startedAll _ rfl) rfl rfl)
  have h30 := h29.step (.scheduler _ _ (.again _ rfl rfl) rfl rfl)
  have h31 := h30.step (.scheduler _ _ (.seeReady _ "t/a".toList [] _ rfl (by decide)) rfl rfl)
  have h32 := h31.step (.scheduler _ _ (.swept _ _ rfl) rfl rfl)
  have h33 := h32.step (.scheduler _ _ (.leave _ _ rfl (Or.inl (by decide))) rfl rfl)
  have h34 := h33.step (.scheduler _ _ (.collected _ _ ["t/a".toList]
    [("t/a".toList, .res .OK, (1 : Nat))] rfl (by decide) (by decide +kernel)) rfl rfl)
  have h35 := h34.step (.main _ _ (.more _ rfl (by decide)) (in_check rfl) (in_waiting rfl) rfl)
  have h36 := h35.step (.scheduler _ _ (.publish _ _ rfl) rfl rfl)
  have h37 := h36.step (.takes _ ("t/a".toList, .res .OK, (1 : Nat)) [] _ _ rfl (by decide) rfl)
  have h38 := h37.step (.reviewed _ _ _ .OK _ _ rfl rfl rfl rfl)
  exact ⟨_, h38, rfl, rfl, by decide⟩

private theorem pair_never : NeverStops (prints "x") { accept := true, failFast := true } [([], .dir)] both := by
  intro _ n hn s hs
  refine Or.inr (Or.inr ⟨?_, rfl⟩)
  rcases List.mem_cons.mp hn with rfl | hn
  · cases hs
    decide +kernel
  · cases List.mem_singleton.mp hn
    cases hs
    decide +kernel

/-- Two tests that are executed at the same time as C123 says; `-f` is given and stops nothing. -/
example : ∃ (c : RConf strokes) (fs : FS) (s : RSt strokes) (ns : List Str), Tidy c ∧ NotAsking c.cfg ∧
    c.cfg.update = false ∧ NeverStops c.P c.cfg fs c.todo ∧ c.u = c.P.u ∧ PlainNames ns ∧ SoundTree c.P.root ns fs ∧
    (∀ n ∈ c.todo, n ∈ ns) ∧ (∀ n b, ¬ c.breaks n b) ∧ ofFile c.u strokes none = some [] ∧
    c.todo = toRun c.cfg ([] : List (Rec strokes)) both ∧ RReach c (mkdirs fs c.P.out) [] s ∧ s.run.rpc = .check ∧
    hasNext s.run = false ∧ (∀ n ∈ c.todo, ∃ r d, (n, r, d) ∈ s.run.recorded) ∧ InLoop s.run := by
  obtain ⟨s, h1, h2, h3, h4⟩ := pair_run
  refine ⟨pairOf { accept := true, failFast := true }, _, s, both, pair_tidy _, ⟨rfl, rfl⟩, rfl, pair_never, rfl, both_plain, empty_sound _,
    fun _ h => h, fun _ _ h => h, rfl, by decide, h1, h3, h4, ?_, ?_⟩
  · intro n hn
    rw [h2]
    rcases List.mem_cons.mp hn with rfl | hn
    · exact ⟨.OK, (1 : Nat), List.mem_cons_of_mem _ (List.mem_cons_self ..)⟩
    · rw [List.mem_singleton.mp hn]
      exact ⟨.OK, (1 : Nat), List.mem_cons_self ..⟩
  · exact Or.inl h3

/-- The files after the outputs of the tests have been accepted. -/
private def acceptedFiles : FS :=
  match stepsOf 39 ([([], .dir)], sequentialTask (prints "x") { accept := true } both both []) with
  | some d => d.1
  | none => []

/-- **C123** needs that `-u` is not given: a worker accepts the output of a test that is `OK` again, and the main process
does the same a second time; then the output is gone, and the run ends with an exception and without a record, while a
sequential run ends with success. -/
theorem C123_update_refuted : ∃ (c : RConf strokes) (fs : FS) (s : RSt strokes) (ns : List Str), Tidy c ∧
    NotAsking c.cfg ∧ c.cfg.failFast = false ∧ c.u = c.P.u ∧ PlainNames ns ∧ SoundTree c.P.root ns fs ∧
    (∀ n ∈ c.todo, n ∈ ns) ∧ (∀ n b, ¬ c.breaks n b) ∧ RReach c (mkdirs fs c.P.out) [] s ∧ s.run.rpc = .ended true ∧
    s.run.recorded = [] ∧ (runProject c.P c.cfg c.dur c.all c.todo fs [] none).result = some .OK := by
  have k1 : ∃ t, stepsOf 39 ([([], .dir)], sequentialTask (prints "x") { accept := true } both both []) =
      some (acceptedFiles, t) := ⟨_, rfl⟩
  obtain ⟨t, k1⟩ := k1
  have hS : SoundTree ["books".toList] both acceptedFiles :=
    (C104_sequential (P := prints "x") both_plain (empty_sound both) (fun _ h => h) (by decide) k1
      (n := "t/a".toList) (by decide)).1
  have h0 : RReach (pairOf { update := true }) (mkdirs acceptedFiles (prints "x").out) [] _ := .init
  have h1 := h0.step (.scheduler _ _ (.planned _ both both rfl (by decide) rfl (by decide) (by decide)) rfl rfl)
  have h2 := h1.step (.scheduler _ _ (.start _ _ _ rfl (by decide)) rfl rfl)
  have h3 := h2.step (.scheduler _ _ (.start _ _ _ rfl (by decide)) rfl rfl)
  have h4 := h3.step (.opens _ "t/a".toList ⟨by decide, by decide⟩ rfl)
  have h5 := works_many h4 "t/a".toList ⟨by decide, by decide⟩ rfl 18 rfl
  have h9 := h5.step (.writes _ "t/a".toList .OK .NONE ⟨by decide, by decide⟩ rfl rfl)
  have h10 := h9.step (.indexes _ "t/a".toList _ _ _ ⟨by decide, by decide⟩ rfl rfl rfl)
  have h11 := h10.step (.scheduler _ _ (.startedAll _ rfl) rfl rfl)
  have h15 := h11.step (.ends _ "t/a".toList ⟨by decide, by decide⟩ (.whole rfl))
  have h16 := h15.step (.scheduler _ _ (.again _ rfl rfl) rfl rfl)
  have h17 := h16.step (.scheduler _ _ (.seeReady _ _ _ _ rfl (by decide)) rfl rfl)
  have h18 := h17.step (.scheduler _ _ (.seeBusy _ _ _ _ rfl (by decide)) rfl rfl)
  have h19 := h18.step (.scheduler _ _ (.swept _ _ rfl) rfl rfl)
  have h20 := h19.step (.scheduler _ _ (.leave _ _ rfl (Or.inl (by decide))) rfl rfl)
  have h21 := h20.step (.scheduler _ _ (.collected _ _ ["t/a".toList]
    [("t/a".toList, .res .OK, (1 : Nat))] rfl (by decide) (by decide +kernel)) rfl rfl)
  have h22 := h21.step (.scheduler _ _ (.publish _ _ rfl) rfl rfl)
  have h23 := h22.step (.main _ _ (.more _ rfl (by decide)) (in_check rfl) (in_waiting rfl) rfl)
  have h24 := h23.step (.takes _ ("t/a".toList, .res .OK, (1 : Nat)) [] _ _ rfl (by decide) rfl)
  have h25 := reviews_many h24 _ _ rfl rfl 2 rfl
  have h26 := h25.step (.reviewRaises _ _ rfl (Or.inr ⟨_, _, rfl, rfl⟩))
  have h27 := h26.step (.main _ _ (.finished _ 0 true rfl rfl) (in_leftover rfl) (in_ended rfl) rfl)
  exact ⟨pairOf { update := true }, acceptedFiles, _, both, pair_tidy _, ⟨rfl, rfl⟩, rfl, rfl, both_plain, hS,
    fun _ h => h, fun _ _ h => h, h27, rfl, rfl, by decide +kernel⟩

/-- **C123** needs that `-f` stops nothing: the test that fails first stops the run, and which one this is depends on the
workers. Here a parallel run ends with a record of the second test only, a sequential one with a record of the first one. -/
theorem C123_fail_fast_refuted : ∃ (c : RConf strokes) (fs : FS) (s : RSt strokes) (ns : List Str), Tidy c ∧
    NotAsking c.cfg ∧ c.cfg.update = false ∧ c.u = c.P.u ∧ PlainNames ns ∧ SoundTree c.P.root ns fs ∧
    (∀ n ∈ c.todo, n ∈ ns) ∧ (∀ n b, ¬ c.breaks n b) ∧ RReach c (mkdirs fs c.P.out) [] s ∧ s.run.rpc = .ended false ∧
    s.run.recorded.map (·.1) = ["t/b".toList] ∧
    ∃ ss, ofFile c.u strokes (runProject c.P c.cfg c.dur c.all c.todo fs [] none).report = some ss ∧
      ss.map (·.1) = ["t/a".toList] := by
  have h0 : RReach (pairOf { failFast := true }) (mkdirs [([], .dir)] (prints "x").out) [] _ := .init
  have h1 := h0.step (.scheduler _ _ (.planned _ both both rfl (by decide) rfl (by decide) (by decide)) rfl rfl)
  have h2 := h1.step (.scheduler _ _ (.start _ _ _ rfl (by decide)) rfl rfl)
  have h3 := h2.step (.scheduler _ _ (.start _ _ _ rfl (by decide)) rfl rfl)
  have h4 := h3.step (.opens _ "t/b".toList ⟨by decide, by decide⟩ rfl)
  have h5 := works_many h4 "t/b".toList ⟨by decide, by decide⟩ rfl 15 rfl
  have h9 := h5.step (.writes _ "t/b".toList .DIFF .NONE ⟨by decide, by decide⟩ rfl rfl)
  have h10 := h9.step (.indexes _ "t/b".toList _ _ _ ⟨by decide, by decide⟩ rfl rfl rfl)
  have h11 := h10.step (.scheduler _ _ (.startedAll _ rfl) rfl rfl)
  have h15 := h11.step (.ends _ "t/b".toList ⟨by decide, by decide⟩ (.whole rfl))
  have h16 := h15.step (.scheduler _ _ (.again _ rfl rfl) rfl rfl)
  have h17 := h16.step (.scheduler _ _ (.seeBusy _ _ _ _ rfl (by decide)) rfl rfl)
  have h18 := h17.step (.scheduler _ _ (.seeReady _ _ _ _ rfl (by decide)) rfl rfl)
  have h19 := h18.step (.scheduler _ _ (.swept _ _ rfl) rfl rfl)
  have h20 := h19.step (.scheduler _ _ (.leave _ _ rfl (Or.inl (by decide))) rfl rfl)
  have h21 := h20.step (.scheduler _ _ (.collected _ _ ["t/b".toList]
    [("t/b".toList, .res .DIFF, (1 : Nat))] rfl (by decide) (by decide +kernel)) rfl rfl)
  have h22 := h21.step (.scheduler _ _ (.publish _ _ rfl) rfl rfl)
  have h23 := h22.step (.main _ _ (.more _ rfl (by decide)) (in_check rfl) (in_waiting rfl) rfl)
  have h24 := h23.step (.takes _ ("t/b".toList, .res .DIFF, (1 : Nat)) [] _ _ rfl (by decide) rfl)
  have h25 := h24.step (.reviewed _ _ _ .DIFF _ _ rfl rfl rfl rfl)
  have h26 := h25.step (.main _ _ (.noMore _ rfl (by decide)) (in_check rfl) (in_leftover rfl) rfl)
  have h27 := h26.step (.main _ _ (.finished _ 0 false rfl rfl) (in_leftover rfl) (in_ended rfl) rfl)
  refine ⟨pairOf { failFast := true }, [([], .dir)], _, both, pair_tidy _, ⟨rfl, rfl⟩, rfl, rfl, both_plain, empty_sound _,
    fun _ h => h, fun _ _ h => h, h27, rfl, rfl, ?_⟩
  refine ⟨[("t/a".toList, .DIFF, (1 : Nat))], ?_, by decide⟩
  have : (runProject (fl := strokes) (prints "x") { failFast := true } (fun _ => (1 : Nat)) both both [([], .dir)] [] none).report =
      some (encode (toText strokes [("t/a".toList, .DIFF, (1 : Nat))])) := by decide +kernel
  show ofFile ascii strokes (runProject (fl := strokes) (prints "x") { failFast := true } (fun _ => (1 : Nat)) both both
    [([], .dir)] [] none).report = _
  rw [this]
  exact C23_round_trip _ _ _ (by unfold CleanName; decide)

end Verif.Props
