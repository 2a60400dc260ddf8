import Verif.Lemmas.Provenance
import Verif.Spec.Story

/-! # What is in the output file and the snapshot of a test when its task ends -/

namespace Verif.Lemmas
open Verif.Py Verif.Model Verif.Spec

variable {root : Path} {n : Str} {ns : List Str} {P : Project} {exp out : Path} {x : Option Node}

/-! ### Tasks with results -/

/-- The task does not touch the two files, and would fail to move the missing `out`; its result is `OK`. -/
inductive GoneR (exp out : Path) : Task → Prop
  | done (e : CaseEnd) : (∀ r q, e = .done r q → r = .OK) → GoneR exp out (.done e)
  | act {o : FsOp} {k : Option Node → Task} : OpAvoids exp o → OpAvoids out o →
      (∀ a, GoneR exp out (k a)) → GoneR exp out (.act o k)
  | dead {k : Option Node → Task} : GoneR exp out (.act (.rename out exp) k)

/-- The task moves `out` to `exp`, which needs `G`, or it touches none of them and its result is in `R`. -/
inductive MovesR (exp out : Path) (R : Result → Prop) (G : Prop) : Task → Prop
  | done (e : CaseEnd) : (∀ r q, e = .done r q → R r) → MovesR exp out R G (.done e)
  | act {o : FsOp} {k : Option Node → Task} : OpAvoids exp o → OpAvoids out o →
      (∀ a, MovesR exp out R G (k a)) → MovesR exp out R G (.act o k)
  | move {k : Option Node → Task} : out ≠ exp → G → (∀ a, GoneR exp out (k a)) →
      MovesR exp out R G (.act (.rename out exp) k)

/-- The task finds `x` in `exp` and ends with a result only after it has written a text to `out`. -/
inductive WritesR (exp out : Path) (x : Option Node) (S : Str → Result → Prop) (R : Result → Result → Prop)
    (G : Result → Prop) : Task → Prop
  | done (e : CaseEnd) : (∀ r q, e ≠ .done r q) → WritesR exp out x S R G (.done e)
  | act {o : FsOp} {k : Option Node → Task} : OpAvoids exp o → (∀ a, WritesR exp out x S R G (k a)) →
      WritesR exp out x S R G (.act o k)
  | look {k : Option Node → Task} : WritesR exp out x S R G (k x) → WritesR exp out x S R G (.act (.look exp) k)
  | write {text : Str} {v : Result} {k : Option Node → Task} : out ≠ exp → S text v →
      (∀ a, MovesR exp out (R v) (G v) (k a)) → WritesR exp out x S R G (.act (.write out text) k)

/-- The states of a process that runs a test (`fresh`), or of one that reviews an output. -/
def TracedR (exp out : Path) (x : Option Node) (S : Str → Result → Prop) (R : Result → Result → Prop)
    (G : Result → Prop) (fresh : Prop) (A : FS) (t : Task) : Prop :=
  (fresh ∧ A.get exp = x ∧ WritesR exp out x S R G t) ∨
  (∃ text v, S text v ∧ A.get exp = x ∧ A.get out = some (.file text) ∧ MovesR exp out (R v) (G v) t) ∨
  (∃ text v, S text v ∧ G v ∧ A.get exp = some (.file text) ∧ A.get out = none ∧ GoneR exp out t)

variable {S : Str → Result → Prop} {R : Result → Result → Prop} {G : Result → Prop} {fresh : Prop}

theorem TracedR.frame {A A' : FS} {t : Task} (h : TracedR exp out x S R G fresh A t)
    (he : A'.get exp = A.get exp) (ho : A'.get out = A.get out) : TracedR exp out x S R G fresh A' t := by
  unfold TracedR at *
  rw [he, ho]
  exact h

theorem TracedR.kept {A : FS} {t : Task} (h : TracedR exp out x S R G fresh A t) :
    A.get exp = x ∨ ∃ text v, S text v ∧ G v ∧ A.get exp = some (.file text) := by
  rcases h with h | ⟨_, _, -, h, -⟩ | ⟨text, v, h1, h2, h3, -⟩
  · exact Or.inl h.2.1
  · exact Or.inl h
  · exact Or.inr ⟨text, v, h1, h2, h3⟩

theorem gone_step {A A' : FS} {t t' : Task} (h : GoneR exp out t) (h2 : A.get out = none)
    (hs : t.step A = some (A', t')) : GoneR exp out t' ∧ A'.get exp = A.get exp ∧ A'.get out = none := by
  cases h with
  | done e => cases hs
  | act ha hb hk =>
    rename_i o k
    simp only [Task.step] at hs
    cases hr : o.run A with
    | error y => rw [hr] at hs; cases hs; exact ⟨.done _ (fun _ _ e => by cases e), rfl, h2⟩
    | ok r =>
      obtain ⟨B, a⟩ := r
      rw [hr] at hs
      cases hs
      exact ⟨hk a, avoids_run ha hr, by rw [avoids_run hb hr, h2]⟩
  | dead =>
    simp only [Task.step, FsOp.run, FS.rename, h2, Except.map] at hs
    cases hs
    exact ⟨.done _ (fun _ _ e => by cases e), rfl, h2⟩

theorem TracedR.step {A A' : FS} {t t' : Task} (h : TracedR exp out x S R G fresh A t)
    (hs : t.step A = some (A', t')) : TracedR exp out x S R G fresh A' t' := by
  rcases h with ⟨hl, h1, h2⟩ | ⟨text, v, hS, h1, h2, h3⟩ | ⟨text, v, hS, hG, h1, h2, h3⟩
  · cases h2 with
    | done e he => cases hs
    | act ha hk =>
      rename_i o k
      simp only [Task.step] at hs
      cases hr : o.run A with
      | error y => rw [hr] at hs; cases hs; exact Or.inl ⟨hl, h1, .done _ (by simp)⟩
      | ok r =>
        obtain ⟨B, a⟩ := r
        rw [hr] at hs
        cases hs
        exact Or.inl ⟨hl, by rw [avoids_run ha hr, h1], hk a⟩
    | look hk =>
      simp only [Task.step, FsOp.run] at hs
      cases hs
      exact Or.inl ⟨hl, h1, by rw [h1]; exact hk⟩
    | write hne hg hk =>
      rename_i text v k
      simp only [Task.step] at hs
      cases hr : (FsOp.write out text).run A with
      | error y => rw [hr] at hs; cases hs; exact Or.inl ⟨hl, h1, .done _ (by simp)⟩
      | ok r =>
        obtain ⟨B, a⟩ := r
        rw [hr] at hs
        cases hs
        refine Or.inr (Or.inl ⟨text, v, hg, by
          rw [avoids_run (p := exp) (show OpAvoids exp (.write out text) from hne) hr, h1], ?_, hk a⟩)
        simp only [FsOp.run, openW] at hr
        split at hr
        · cases hr
        · split at hr
          · cases hr
            rw [FS.write, get_cons, if_pos rfl]
          · cases hr
  · cases h3 with
    | done e he => cases hs
    | act ha hb hk =>
      rename_i o k
      simp only [Task.step] at hs
      cases hr : o.run A with
      | error y => rw [hr] at hs; cases hs; exact Or.inr (Or.inl ⟨text, v, hS, h1, h2, .done _ (by simp)⟩)
      | ok r =>
        obtain ⟨B, a⟩ := r
        rw [hr] at hs
        cases hs
        exact Or.inr (Or.inl ⟨text, v, hS, by rw [avoids_run ha hr, h1], by rw [avoids_run hb hr, h2], hk a⟩)
    | move hne hg hk =>
      rename_i k
      simp only [Task.step] at hs
      cases hr : (FsOp.rename out exp).run A with
      | error y => rw [hr] at hs; cases hs; exact Or.inr (Or.inl ⟨text, v, hS, h1, h2, .done _ (by simp)⟩)
      | ok r =>
        obtain ⟨B, a⟩ := r
        rw [hr] at hs
        cases hs
        have hB : A'.get exp = some (.file text) ∧ A'.get out = none := by
          have hfil : ∀ c, FS.get ((exp, Node.file c) :: A.filter (fun e => decide (e.1 ≠ out))) out = none := by
            intro c
            rw [get_cons, if_neg hne, get_filter (fun r => decide (r ≠ out)), if_neg (by simp)]
          simp only [FsOp.run, FS.rename, h2] at hr
          rw [if_neg hne] at hr
          split at hr
          · cases hr
          · cases hx : A.get exp with
            | none => rw [hx] at hr; cases hr; exact ⟨by rw [get_cons, if_pos rfl], hfil _⟩
            | some m =>
              rw [hx] at hr
              cases m with
              | dir => cases hr
              | file c => cases hr; exact ⟨by rw [get_cons, if_pos rfl], hfil _⟩
        exact Or.inr (Or.inr ⟨text, v, hS, hg, hB.1, hB.2, hk a⟩)
  · obtain ⟨g1, g2, g3⟩ := gone_step h3 h2 hs
    exact Or.inr (Or.inr ⟨text, v, hS, hG, by rw [g2, h1], g3, g1⟩)

/-! ### The tasks of tests -/

theorem closed_writesR (hn : PlainName n) :
    Closed root n (WritesR (slot root false n ".md".toList) out x S R G) :=
  ⟨⟨fun e he => .done e he, fun _ _ h1 h2 => .act (run_avoids hn (Or.inl h1)) h2⟩,
    fun t _ h2 => .act (run_avoids hn (Or.inr ⟨t, rfl⟩)) h2⟩

theorem closed_goneR (hn : PlainName n) :
    ClosedRest root n (GoneR (slot root false n ".md".toList) (slot root true n ".md".toList)) :=
  ⟨fun e he => .done e (fun r q h => absurd h (he r q)), fun _ _ h1 h2 => .act (rest_avoids hn h1 _) (rest_avoids hn h1 _) h2⟩

theorem closed_movesR (hn : PlainName n) {R : Result → Prop} {G : Prop} :
    ClosedRest root n (MovesR (slot root false n ".md".toList) (slot root true n ".md".toList) R G) :=
  ⟨fun e he => .done e (fun r q h => absurd h (he r q)),
    fun _ _ h1 h2 => .act (rest_avoids hn h1 _) (rest_avoids hn h1 _) h2⟩

/-- A review: it accepts and moves the output, or it changes nothing. -/
theorem moves_review (hn : PlainName n) (cfg : Config) (ans : List Str) (v : Result) {R : Result → Prop} {G : Prop}
    {yes no : Request → List Str → Task} (hG : Accepts cfg v ans → G)
    (hy : ∀ q l, l <:+ ans → GoneR (slot P.root false n ".md".toList) (slot P.root true n ".md".toList) (yes q l))
    (hno : ∀ q l, l <:+ ans → MovesR (slot P.root false n ".md".toList) (slot P.root true n ".md".toList) R G (no q l)) :
    MovesR (slot P.root false n ".md".toList) (slot P.root true n ".md".toList) R G
      (reviewTask P cfg n ans v yes no) := by
  have hM := closed_movesR (root := P.root) hn (R := R) (G := G)
  have hGo := closed_goneR (root := P.root) hn
  rw [reviewTask_eq]
  cases hr : reviewed cfg ans v with
  | none => exact hM.done _ (by simp)
  | some c =>
    obtain ⟨q, rest⟩ := c
    have hs := reviewed_suffix hr
    dsimp only
    split
    · rename_i hf
      rw [freezeTask_eq]
      exact closed_remove hM (res_slot _) (.move (out_ne_exp hn) (hG (reviewed_accepts hr hf))
        (fun _ => closed_after hGo (hy _ _ hs)))
    · exact hno _ _ hs

/-- A review of a test whose output is gone. -/
theorem gone_review (hn : PlainName n) (cfg : Config) (ans : List Str) (v : Result)
    {yes no : Request → List Str → Task}
    (hno : ∀ q l, l <:+ ans → GoneR (slot P.root false n ".md".toList) (slot P.root true n ".md".toList) (no q l)) :
    GoneR (slot P.root false n ".md".toList) (slot P.root true n ".md".toList) (reviewTask P cfg n ans v yes no) := by
  have hGo := closed_goneR (root := P.root) hn
  rw [reviewTask_eq]
  cases hr : reviewed cfg ans v with
  | none => exact hGo.done _ (by simp)
  | some c =>
    obtain ⟨q, rest⟩ := c
    have hs := reviewed_suffix hr
    dsimp only
    split
    · rw [freezeTask_eq]
      exact closed_remove hGo (res_slot _) .dead
    · exact hno _ _ hs

/-- Before the test the snapshot is what it was; the test ends with a result only if its output is complete. -/
theorem writesR_case (hn : PlainName n) (cfg : Config) (l : List Str)
    {k : Result → Request → List Str → Task} (y : Option Node)
    (hk : ∀ s, runTest (P.env (textOf y)) (P.tests n).body = some s →
      S s.out (verdict (P.env (textOf y)) s) ∧
      (Accepts cfg (verdict (P.env (textOf y)) s) l → G (verdict (P.env (textOf y)) s) ∧
        ∀ q rest, GoneR (slot P.root false n ".md".toList) (slot P.root true n ".md".toList) (k .OK q rest)) ∧
      ∀ q rest, MovesR (slot P.root false n ".md".toList) (slot P.root true n ".md".toList)
        (R (verdict (P.env (textOf y)) s)) (G (verdict (P.env (textOf y)) s))
        (k (verdict (P.env (textOf y)) s) q rest)) :
    WritesR (slot P.root false n ".md".toList) (slot P.root true n ".md".toList) y S R G
      (caseTask P cfg n l k) := by
  have hQ := closed_writesR (root := P.root) (out := slot P.root true n ".md".toList) (x := y)
    (S := S) (R := R) (G := G) hn
  have hGo := closed_goneR (root := P.root) hn
  unfold caseTask
  refine closed_mkdirs hQ.toClosedRest _ ⟨false, List.prefix_rfl⟩ ?_ _ _ (by rw [(baseDir_slot P).1]; rfl)
  refine closed_mkdirs hQ.toClosedRest _ ⟨true, List.prefix_rfl⟩ ?_ _ _ (by rw [(baseDir_slot P).2]; rfl)
  rw [(filePath_slot P _).1, (dirPath_slot P).2, dirPath_tmp]
  refine .look ?_
  refine closed_remove hQ.toClosedRest (res_slot _) ?_
  refine closed_remove hQ.toClosedRest ⟨true, _, Or.inr rfl, rfl⟩ ?_
  refine closed_outputs hQ _ _ _ ?_
  by_cases hy : y = some .dir
  · rw [if_pos hy]; exact hQ.done _ (by simp)
  · rw [if_neg hy]
    change WritesR _ _ _ _ _ _ (match runTest (P.env (textOf y)) (P.tests n).body with
      | none => .done .hangs
      | some s => filesTask P.out n (P.tests n).files (outputsTask P.out n s.out
          (s.rep.map (· ++ "\n".toList)).flatten (P.tests n).log
          (endTask P cfg n l (verdict (P.env (textOf y)) s) k)))
    generalize textOf y = snap at *
    cases hrun : runTest (P.env snap) (P.tests n).body with
    | none => exact hQ.done _ (by simp)
    | some s =>
      obtain ⟨hS, hacc, hoth⟩ := hk s hrun
      refine closed_files hQ.toClosedRest _ ?_
      have hM := closed_movesR (root := P.root) hn (R := R (verdict (P.env snap) s)) (G := G (verdict (P.env snap) s))
      have key : MovesR (slot P.root false n ".md".toList) (slot P.root true n ".md".toList)
          (R (verdict (P.env snap) s)) (G (verdict (P.env snap) s))
          (endTask P cfg n l (verdict (P.env snap) s) k) := by
        unfold endTask
        by_cases ha : Accepts cfg (verdict (P.env snap) s) l
        · obtain ⟨hg, hk⟩ := hacc ha
          refine moves_review hn cfg l _ (fun _ => hg) (fun q l _ => closed_save hGo _ (hk _ _)) ?_
          intro q l _
          split
          · exact closed_save hM _ (hoth _ _)
          · exact hoth _ _
        · rw [reviewTask_eq]
          cases hr : reviewed cfg l (verdict (P.env snap) s) with
          | none => exact hM.done _ (by simp)
          | some c =>
            obtain ⟨q, rest⟩ := c
            dsimp only
            rw [if_neg (fun hf => ha (reviewed_accepts hr hf))]
            split
            · exact closed_save hM _ (hoth _ _)
            · exact hoth _ _
      unfold outputsTask
      rw [(filePath_slot P _).2, (filePath_slot P _).2, (filePath_slot P _).2]
      refine .write (out_ne_exp hn) hS fun _ => ?_
      exact hM.act _ _ (write_run mem_txt (by decide) (by decide) _) fun _ =>
        hM.act _ _ (write_run mem_log (by decide) (by decide) _) fun _ => key

/-- What a test that is run with the snapshot prints. -/
def SaysOf (P : Project) (n : Str) (snap : Option Str) (text : Str) (v : Result) : Prop :=
  ∃ s, runTest (P.env snap) (P.tests n).body = some s ∧ text = s.out ∧ v = verdict (P.env snap) s

theorem accepts_not_fail {cfg : Config} {v : Result} {ans : List Str} (h : Accepts cfg v ans) : v ≠ .FAIL := by
  rintro rfl
  rcases h with ⟨-, hd⟩ | ⟨hd, -⟩ | ⟨hd, -⟩
  · have := List.find?_some hd
    revert this
    decide
  · cases hd
  · cases hd

theorem writesR_single (hn : PlainName n) (cfg : Config) (l : List Str) (y : Option Node) :
    WritesR (slot P.root false n ".md".toList) (slot P.root true n ".md".toList) y
      (SaysOf P n (textOf y)) (fun v r => r = v) (· ≠ .FAIL)
      (caseTask P cfg n l (fun r q _ => .done (.done r q))) := by
  refine writesR_case hn cfg l y ?_
  intro s hs
  refine ⟨⟨s, hs, rfl, rfl⟩, fun ha => ⟨accepts_not_fail ha, fun _ _ => .done _ (fun _ _ e => by cases e; rfl)⟩, fun q rest => .done _ ?_⟩
  intro r q' e
  cases e; rfl

theorem writesR_parallel (hn : PlainName n) (cfg : Config) (all : List Str) (index : Bool) (ans : Option (List Str))
    (y : Option Node) :
    WritesR (slot P.root false n ".md".toList) (slot P.root true n ".md".toList) y
      (SaysOf P n (textOf y)) (fun v r => r = v) (· ≠ .FAIL) (parallelTask P cfg all index ans n) := by
  have hGo := closed_goneR (root := P.root) hn
  refine writesR_case hn _ [] y ?_
  intro s hs
  refine ⟨⟨s, hs, rfl, rfl⟩, fun ha => ⟨accepts_not_fail ha, fun _ _ => ?_⟩, fun q rest => ?_⟩
  · rename_i q rest
    have hl : GoneR (slot P.root false n ".md".toList) (slot P.root true n ".md".toList) (laterTask P cfg n ans .OK q) := by
      cases ans with
      | none => exact .done _ (fun _ _ e => by cases e; rfl)
      | some ans => exact gone_review hn _ _ _ (fun _ _ _ => .done _ (fun _ _ e => by cases e; rfl))
    cases index with
    | false => exact hl
    | true => exact closed_index hGo _ hl
  · generalize verdict (P.env (textOf y)) s = v
    have hl : MovesR (slot P.root false n ".md".toList) (slot P.root true n ".md".toList) (fun r => r = v) (v ≠ .FAIL)
        (laterTask P cfg n ans v q) := by
      cases ans with
      | none =>
        refine .done _ ?_
        intro r q' e
        cases e; rfl
      | some ans =>
        refine moves_review hn _ _ _ accepts_not_fail (fun _ _ _ => .done _ (fun _ _ e => by cases e; rfl)) ?_
        intro q l _
        refine .done _ ?_
        intro r q' e
        cases e; rfl
    cases index with
    | false => exact hl
    | true => exact closed_index (closed_movesR hn) _ hl

/-! ### Reviews of many tests -/

theorem all_moves {t : Task} {R : Result → Prop} {G : Prop} (hR : ∀ r, R r)
    (h : All (fun o => OpAvoids exp o ∧ OpAvoids out o) t) : MovesR exp out R G t := by
  induction h with
  | done e => exact .done e (fun r _ _ => hR r)
  | act o k h1 _ ih => exact .act h1.1 h1.2 ih

theorem reviews_ops {fl : Durations} (cfg : Config) (pass : List Str) (cases : Option (List Str)) :
    ∀ (records : List (Rec fl)) (abort : Bool) (ans : List Str), (∀ r ∈ records, r.1 ∈ ns) →
      All (RunsOp P.root ns) (reviewsTask P cfg pass cases records abort ans) := by
  intro records
  induction records with
  | nil => intro abort ans _; exact .done _
  | cons w rest ih =>
    obtain ⟨m, res, d⟩ := w
    intro abort ans hsub
    have hm : m ∈ ns := hsub (m, res, d) (by simp)
    have hsub' : ∀ r ∈ rest, r.1 ∈ ns := fun r hr => hsub r (by simp [hr])
    rw [reviewsTask]
    split
    · exact closed_review (n := m) (closed_all (fun _ h => ⟨m, hm, Or.inl h⟩)).toClosedRest
        (fun k hk => .act _ k ⟨m, hm, Or.inr rfl⟩ hk) _ _ _ (fun _ _ _ => ih _ _ hsub') (fun _ _ _ => ih _ _ hsub')
    · exact ih _ _ hsub'

theorem reviews_other {fl : Durations} (hp : PlainNames ns) (hn : n ∈ ns) (cfg : Config) (pass : List Str)
    (cases : Option (List Str)) :
    ∀ (records : List (Rec fl)) (abort : Bool) (ans : List Str), (∀ r ∈ records, r.1 ∈ ns ∧ r.1 ≠ n) →
      All (fun o => OpAvoids (slot P.root false n ".md".toList) o ∧ OpAvoids (slot P.root true n ".md".toList) o)
        (reviewsTask P cfg pass cases records abort ans) := by
  intro records
  induction records with
  | nil => intro abort ans _; exact .done _
  | cons w rest ih =>
    obtain ⟨m, res, d⟩ := w
    intro abort ans hsub
    obtain ⟨hm, hmn⟩ : m ∈ ns ∧ m ≠ n := hsub (m, res, d) (by simp)
    have hsub' : ∀ r ∈ rest, r.1 ∈ ns ∧ r.1 ≠ n := fun r hr => hsub r (by simp [hr])
    have hav : ∀ o, CaseOp P.root m o → OpAvoids (slot P.root false n ".md".toList) o ∧
        OpAvoids (slot P.root true n ".md".toList) o := fun o ho =>
      ⟨other_avoids hp hm hn hmn ho (own_slot false (Or.inr mem_md)),
        other_avoids hp hm hn hmn ho (own_slot true (Or.inr mem_md))⟩
    rw [reviewsTask]
    split
    · exact closed_review (n := m) (closed_all (fun _ h => hav _ (Or.inl h))).toClosedRest
        (fun k hk => .act _ k (hav _ (Or.inr rfl)) hk) _ _ _ (fun _ _ _ => ih _ _ hsub') (fun _ _ _ => ih _ _ hsub')
    · exact ih _ _ hsub'

/-- What a review does to a test whose output is gone. -/
theorem reviews_gone {fl : Durations} (hp : PlainNames ns) (hn : n ∈ ns) (cfg : Config) (pass : List Str)
    (cases : Option (List Str)) :
    ∀ (records : List (Rec fl)) (abort : Bool) (ans : List Str), (∀ r ∈ records, r.1 ∈ ns) →
      GoneR (slot P.root false n ".md".toList) (slot P.root true n ".md".toList)
        (reviewsTask P cfg pass cases records abort ans) := by
  intro records
  induction records with
  | nil => intro abort ans _; exact .done _ (fun _ _ e => by cases e; rfl)
  | cons w rest ih =>
    obtain ⟨m, res, d'⟩ := w
    intro abort ans hsub
    have hsub' : ∀ r ∈ rest, r.1 ∈ ns := fun r hr => hsub r (by simp [hr])
    have hm : m ∈ ns := hsub (m, res, d') (by simp)
    rw [reviewsTask]
    split
    · by_cases hmn : m = n
      · subst hmn
        exact gone_review (hp.1 m hm) _ _ _ (fun _ _ _ => ih _ _ hsub')
      · have hQ : ClosedRest P.root m (GoneR (slot P.root false n ".md".toList) (slot P.root true n ".md".toList)) :=
          ⟨fun e he => .done e (fun r q h => absurd h (he r q)), fun o k h1 h2 => .act
            (other_avoids hp hm hn hmn (Or.inl (Or.inl h1)) (own_slot _ (Or.inr mem_md)))
            (other_avoids hp hm hn hmn (Or.inl (Or.inl h1)) (own_slot _ (Or.inr mem_md))) h2⟩
        exact closed_review hQ (fun k hk => .act
            (other_avoids hp hm hn hmn (Or.inr rfl) (own_slot _ (Or.inr mem_md)))
            (other_avoids hp hm hn hmn (Or.inr rfl) (own_slot _ (Or.inr mem_md))) hk) _ _ _
          (fun _ _ _ => ih _ _ hsub') (fun _ _ _ => ih _ _ hsub')
    · exact ih _ _ hsub'

/-- What a review does to a test whose record says `v`. -/
theorem reviews_moves {fl : Durations} (hp : PlainNames ns) (hn : n ∈ ns) (cfg : Config) (pass : List Str)
    (cases : Option (List Str)) (ans0 : List Str) {v : Result} {d : fl.D} :
    ∀ (records : List (Rec fl)) (abort : Bool) (ans : List Str), (∀ r ∈ records, r.1 ∈ ns) →
      (records.map (·.1)).Nodup → (n, v, d) ∈ records → ans <:+ ans0 →
      MovesR (slot P.root false n ".md".toList) (slot P.root true n ".md".toList) (fun _ => True)
        (∃ l, l <:+ ans0 ∧ Accepts cfg v l) (reviewsTask P cfg pass cases records abort ans) := by
  intro records
  induction records with
  | nil => intro abort ans _ _ h; cases h
  | cons w rest ih =>
    obtain ⟨m, res, d'⟩ := w
    intro abort ans hsub hnd hmem hans
    have hsub' : ∀ r ∈ rest, r.1 ∈ ns := fun r hr => hsub r (by simp [hr])
    have hm : m ∈ ns := hsub (m, res, d') (by simp)
    rw [List.map_cons, List.nodup_cons] at hnd
    rw [reviewsTask]
    rcases List.mem_cons.mp hmem with e | hmem
    · cases e
      have hother := reviews_other (P := P) hp hn cfg pass cases rest
      have hsub2 : ∀ r ∈ rest, r.1 ∈ ns ∧ r.1 ≠ n := fun r hr => ⟨hsub' r hr, fun hc => hnd.1
        (List.mem_map.mpr ⟨r, hr, hc⟩)⟩
      split
      · exact moves_review (hp.1 n hn) cfg ans v (fun ha => ⟨ans, hans, ha⟩)
          (fun _ _ _ => reviews_gone hp hn cfg pass cases rest _ _ hsub') (fun _ _ _ => all_moves (fun _ => trivial) (hother _ _ hsub2))
      · exact all_moves (fun _ => trivial) (hother _ _ hsub2)
    · have hmn : m ≠ n := fun hc => hnd.1 (by
        rw [hc]; exact List.mem_map.mpr ⟨_, hmem, rfl⟩)
      split
      · have hQ : ClosedRest P.root m (MovesR (slot P.root false n ".md".toList) (slot P.root true n ".md".toList)
            (fun _ => True) (∃ l, l <:+ ans0 ∧ Accepts cfg v l)) :=
          ⟨fun e _ => .done e (fun _ _ _ => trivial), fun o k h1 h2 => .act
            (other_avoids hp hm hn hmn (Or.inl (Or.inl h1)) (own_slot _ (Or.inr mem_md)))
            (other_avoids hp hm hn hmn (Or.inl (Or.inl h1)) (own_slot _ (Or.inr mem_md))) h2⟩
        exact closed_review hQ (fun k hk => .act
            (other_avoids hp hm hn hmn (Or.inr rfl) (own_slot _ (Or.inr mem_md)))
            (other_avoids hp hm hn hmn (Or.inr rfl) (own_slot _ (Or.inr mem_md))) hk) _ _ _
          (fun _ _ hl => ih _ _ hsub' hnd.2 hmem (hl.trans hans))
          (fun _ _ hl => ih _ _ hsub' hnd.2 hmem (hl.trans hans))
      · exact ih _ _ hsub' hnd.2 hmem hans

theorem snapshot_text (root : Path) (A : FS) (n : Str) :
    snapshot root A n = textOf (A.get (slot root false n ".md".toList)) := by
  unfold snapshot textOf
  rfl

/-- The output file and the snapshot are the same in both. -/
def SameMd (root : Path) (n : Str) (A B : FS) : Prop :=
  ∀ s, B.get (slot root s n ".md".toList) = A.get (slot root s n ".md".toList)

theorem same_step {A A' B : FS} {t t' : Task}
    (h : All (fun o => ∀ s, OpAvoids (slot root s n ".md".toList) o) t) (hB : SameMd root n B A)
    (hs : t.step A = some (A', t')) :
    All (fun o => ∀ s, OpAvoids (slot root s n ".md".toList) o) t' ∧ SameMd root n B A' := by
  refine ⟨all_step h hs, fun s => ?_⟩
  rw [← hB s]
  exact kept_step (h.mono (fun o ho => ho s)) hs

/-- What a review of the records does to the files of the tests. -/
theorem reviews_effect {fl : Durations} (hp : PlainNames ns) {fs g : FS} (h : SoundTree P.root ns fs)
    (cfg : Config) (pass : List Str) (cases : Option (List Str)) {records : List (Rec fl)}
    (hsub : ∀ r ∈ records, r.1 ∈ ns) (hnd : (records.map (·.1)).Nodup) (abort : Bool) (ans : List Str)
    {k : Nat} {t : Task} (hk : stepsOf k (fs, reviewsTask P cfg pass cases records abort ans) = some (g, t)) :
    SoundTree P.root ns g ∧ ∀ n ∈ ns, SameMd P.root n fs g ∨
      ∃ v d, (n, v, d) ∈ records ∧ (∃ l, l <:+ ans ∧ Accepts cfg v l) ∧
        ∃ text, fs.get (slot P.root true n ".md".toList) = some (.file text) ∧
          g.get (slot P.root false n ".md".toList) = some (.file text) ∧
          g.get (slot P.root true n ".md".toList) = none := by
  refine ⟨(steps_inv (I := fun A t => SoundTree P.root ns A ∧ All (RunsOp P.root ns) t)
    (fun A t A' t' hi hst => ⟨runs_sound hp hi.2 hi.1 hst, all_step hi.2 hst⟩) k _
    ⟨h, reviews_ops cfg pass cases records abort ans hsub⟩ hk).1, ?_⟩
  intro n hn
  by_cases hin : ∃ v d, (n, v, d) ∈ records
  · obtain ⟨v, d, hmem⟩ := hin
    cases ho : fs.get (slot P.root true n ".md".toList) with
    | none =>
      have fin := steps_inv (I := fun A t => GoneR (slot P.root false n ".md".toList)
          (slot P.root true n ".md".toList) t ∧
          A.get (slot P.root false n ".md".toList) = fs.get (slot P.root false n ".md".toList) ∧
          A.get (slot P.root true n ".md".toList) = none)
        (fun A t A' t' hi hst => by
          obtain ⟨g1, g2, g3⟩ := gone_step hi.1 hi.2.2 hst
          exact ⟨g1, by rw [g2, hi.2.1], g3⟩) k _
        ⟨reviews_gone hp hn cfg pass cases records abort ans hsub, rfl, ho⟩ hk
      refine Or.inl fun s => ?_
      cases s
      · exact fin.2.1
      · rw [fin.2.2, ho]
    | some m =>
      cases m with
      | dir => exact absurd ho (h.files n hn true _ mem_md (by decide))
      | file text =>
        have fin := steps_inv (I := fun A t => TracedR (slot P.root false n ".md".toList)
            (slot P.root true n ".md".toList) (fs.get (slot P.root false n ".md".toList))
            (fun text' v' => text' = text ∧ v' = v) (fun _ _ => True)
            (fun v => ∃ l, l <:+ ans ∧ Accepts cfg v l) False A t)
          (fun A t A' t' hi hst => hi.step hst) k _
          (Or.inr (Or.inl ⟨text, v, ⟨rfl, rfl⟩, rfl, ho,
            reviews_moves hp hn cfg pass cases ans records abort ans hsub hnd hmem List.suffix_rfl⟩)) hk
        rcases fin with ⟨hf, -⟩ | ⟨_, _, ⟨rfl, rfl⟩, h1, h2, -⟩ | ⟨_, _, ⟨rfl, rfl⟩, hG, h1, h2, -⟩
        · exact hf.elim
        · refine Or.inl fun s => ?_
          cases s
          · exact h1
          · rw [h2, ho]
        · exact Or.inr ⟨_, d, hmem, hG, _, rfl, h1, h2⟩
  · left
    refine (steps_inv (I := fun A t => All (fun o => ∀ s, OpAvoids (slot P.root s n ".md".toList) o) t ∧
      SameMd P.root n fs A) (fun A t A' t' hi hst => same_step hi.1 hi.2 hst) k _ ⟨?_, fun _ => rfl⟩ hk).2
    refine (reviews_other hp hn cfg pass cases records abort ans ?_).mono ?_
    · intro r hr
      refine ⟨hsub r hr, fun hc => hin ⟨r.2.1, r.2.2, ?_⟩⟩
      rw [← hc]; exact hr
    · intro o ho s
      cases s
      · exact ho.1
      · exact ho.2

/-- What the review of one result does. -/
theorem run_review (P : Project) (cfg : Config) (name : Str) (v : Result) (ans : List Str) (fs : FS)
    (yes no : Request → List Str → Task) {fs' : FS} {rv : Raw} {q : Request} {rest : List Str}
    (h : caseReview cfg P.root P.out name (.res v) ans fs = (fs', .done rv q, rest)) :
    (rv = .res .OK ∧ Accepts cfg v ans ∧ freezeCase P.root P.out name fs = (fs', none) ∧
      runTask fs (reviewTask P cfg name ans v yes no) = runTask fs' (yes q rest)) ∨
    (rv = .res v ∧ fs' = fs ∧ runTask fs (reviewTask P cfg name ans v yes no) = runTask fs' (no q rest)) := by
  rw [reviewTask_eq]
  unfold caseReview at h
  dsimp only at h
  have e0 : decide (Raw.res v ≠ Raw.res .OK) = decide (v ≠ .OK) := by
    by_cases h : v = .OK <;> simp [h]
  rw [e0] at h
  change (match reviewed cfg ans v with | none => _ | some (request, rest) => _) = _ at h
  cases hr : reviewed cfg ans v with
  | none => rw [hr] at h; cases h
  | some d =>
    obtain ⟨q', rest'⟩ := d
    rw [hr] at h
    dsimp only at h ⊢
    have e1 : (q' = .FREEZE ∨ (Raw.res v = .res .OK ∧ cfg.update = true) ∨
        (Raw.res v = .res .DIFF ∧ cfg.accept = true)) ↔
        (q' = .FREEZE ∨ (v = .OK ∧ cfg.update = true) ∨ (v = .DIFF ∧ cfg.accept = true)) := by
      simp only [Raw.res.injEq]
    by_cases hf : q' = .FREEZE ∨ (v = .OK ∧ cfg.update = true) ∨ (v = .DIFF ∧ cfg.accept = true)
    · rw [if_pos (e1.mpr hf)] at h
      rw [if_pos hf, run_freeze]
      rcases hz : freezeCase P.root P.out name fs with ⟨g, _ | x⟩
      · rw [hz] at h
        cases h
        exact Or.inl ⟨rfl, reviewed_accepts hr hf, rfl, rfl⟩
      · rw [hz] at h; cases h
    · rw [if_neg (fun hc => hf (e1.mp hc))] at h
      rw [if_neg hf]
      cases h
      exact Or.inr ⟨rfl, rfl, rfl⟩

/-- The operations of a review, one after the other, do what `reviewLoop` does. -/
theorem run_reviews {fl : Durations} (P : Project) (cfg : Config) (pass : List Str) (cases : Option (List Str)) :
    ∀ (records : List (Rec fl)) (abort : Bool) (fs : FS) (ans : List Str) {rs : List (Str × Raw × fl.D)},
      (reviewLoop fl cfg P.root P.out pass cases records abort fs ans).2.1 = some rs →
      runTask fs (reviewsTask P cfg pass cases records abort ans) =
        .ok ((reviewLoop fl cfg P.root P.out pass cases records abort fs ans).1, .done .OK .NONE) := by
  intro records
  induction records with
  | nil => intro abort fs ans rs _; rfl
  | cons w rest ih =>
    obtain ⟨m, res, d⟩ := w
    intro abort fs ans rs h
    rw [reviewLoop] at h ⊢
    rw [reviewsTask]
    by_cases hc : (!abort && isReviewed cfg pass cases m) = true
    · rw [if_pos hc] at h ⊢
      rw [if_pos hc]
      rcases hcr : caseReview cfg P.root P.out m (.res res) ans fs with ⟨fs', e, ans'⟩
      rw [hcr] at h
      cases e with
      | eof => cases h
      | error x => cases h
      | done rv q =>
        dsimp only at h ⊢
        obtain ⟨rs', h', -⟩ := Option.map_eq_some_iff.mp h
        have := ih _ _ _ h'
        rcases run_review P cfg m res ans fs
          (fun q l => reviewsTask P cfg pass cases rest (decide (q = .ABORT)) l)
          (fun q l => reviewsTask P cfg pass cases rest
            (decide (q = .ABORT) || (cfg.failFast && decide (res ≠ .OK))) l) hcr with ⟨rfl, -, -, e⟩ | ⟨rfl, rfl, e⟩
        · rw [e]
          simpa using this
        · rw [e]
          simpa using this
    · rw [if_neg hc] at h ⊢
      rw [if_neg hc]
      dsimp only at h ⊢
      obtain ⟨rs', h', -⟩ := Option.map_eq_some_iff.mp h
      exact ih _ _ _ h'

/-- Accepting takes the output away. -/
theorem freeze_out (hn : PlainName n) {fs fs' : FS}
    (hd : fs.get (slot P.root true n ".md".toList) ≠ some .dir)
    (h : freezeCase P.root P.out n fs = (fs', none)) : fs'.get (slot P.root true n ".md".toList) = none := by
  have hmd : ".md".toList = [] ∨ ".md".toList ∈ endings := Or.inr mem_md
  have hres : ([] : Str) ≠ ".md".toList := by decide
  have hne : slot P.root true n ".md".toList ≠ slot P.root false n ".md".toList := out_ne_exp hn
  unfold freezeCase freezeRemove freezeFile freezeDir at h
  rw [(dirPath_slot P).1, (dirPath_slot P).2, mdPath_eq, mdPath_eq, (mdFile_slot P).1, (mdFile_slot P).2] at h
  split at h
  · cases h
  · rename_i fs1 h1
    have e1 : fs1.get (slot P.root true n ".md".toList) = fs.get (slot P.root true n ".md".toList) := by
      split at h1
      · exact rmtree_frame h1 (not_prefix_slot hn (Or.inl rfl) hmd (Or.inr hres))
      · cases h1; rfl
    split at h
    · cases h
    · rename_i fs2 h2
      have e2 : fs2.get (slot P.root true n ".md".toList) = none := by
        rw [← e1] at hd
        unfold FS.rename at h2
        cases hg : fs1.get (slot P.root true n ".md".toList) with
        | none => rw [hg] at h2; cases h2
        | some m =>
          cases m with
          | dir => exact absurd hg hd
          | file c =>
            rw [hg] at h2
            dsimp only at h2
            rw [if_neg hne] at h2
            have hfil : FS.get ((slot P.root false n ".md".toList, Node.file c) ::
                fs1.filter (fun e => decide (e.1 ≠ slot P.root true n ".md".toList)))
                (slot P.root true n ".md".toList) = none := by
              rw [get_cons, if_neg hne, get_filter (fun r => decide (r ≠ slot P.root true n ".md".toList)),
                if_neg (by simp)]
            split at h2
            · cases h2
            · split at h2
              · cases h2
              · cases h2; exact hfil
      split at h
      · cases h
      · rename_i fs3 h3
        cases h
        rw [← e2]
        split at h3
        · exact rename_frame h3 (not_prefix_slot hn (Or.inl rfl) hmd (Or.inr hres))
            (not_prefix_slot hn (Or.inl rfl) hmd (Or.inr hres))
        · cases h3; rfl

/-- The results that a review collects. -/
theorem reviews_results {fl : Durations} (hp : PlainNames ns) (cfg : Config) (pass : List Str)
    (cases : Option (List Str)) :
    ∀ (records : List (Rec fl)) (abort : Bool) (fs : FS) (ans : List Str) {rs : List (Str × Raw × fl.D)},
      SoundTree P.root ns fs → (∀ r ∈ records, r.1 ∈ ns) → (records.map (·.1)).Nodup →
      (reviewLoop fl cfg P.root P.out pass cases records abort fs ans).2.1 = some rs →
      rs.map (·.1) = records.map (·.1) ∧ ∀ w ∈ rs, ∃ rec ∈ records, rec.1 = w.1 ∧ ∃ r, w.2.1 = .res r ∧
        (r = rec.2.1 ∨ (rec.2.1 ≠ .FAIL ∧
          (reviewLoop fl cfg P.root P.out pass cases records abort fs ans).1.get
            (slot P.root true w.1 ".md".toList) = none)) := by
  intro records
  induction records with
  | nil =>
    intro abort fs ans rs _ _ _ h
    rw [reviewLoop] at h
    cases h
    exact ⟨rfl, by simp⟩
  | cons w rest ih =>
    obtain ⟨m, res, d⟩ := w
    intro abort fs ans rs hS hsub hnd h
    have hm : m ∈ ns := hsub (m, res, d) (by simp)
    have hsub' : ∀ r ∈ rest, r.1 ∈ ns := fun r hr => hsub r (by simp [hr])
    rw [List.map_cons, List.nodup_cons] at hnd
    rw [reviewLoop] at h ⊢
    by_cases hc : (!abort && isReviewed cfg pass cases m) = true
    · rw [if_pos hc] at h ⊢
      rcases hcr : caseReview cfg P.root P.out m (.res res) ans fs with ⟨fs', e, ans'⟩
      rw [hcr] at h
      cases e with
      | eof => cases h
      | error x => cases h
      | done rv q =>
        dsimp only at h ⊢
        obtain ⟨rs', h', rfl⟩ := Option.map_eq_some_iff.mp h
        have hr := run_review P cfg m res ans fs (fun _ _ => .done (.done .OK .NONE))
          (fun _ _ => .done (.done .OK .NONE)) hcr
        have hrun : runTask fs (reviewTask P cfg m ans res (fun _ _ => .done (.done .OK .NONE))
            (fun _ _ => .done (.done .OK .NONE))) = .ok (fs', .done .OK .NONE) := by
          rcases hr with ⟨-, -, -, e⟩ | ⟨-, -, e⟩ <;> rw [e] <;> rfl
        have hS' : SoundTree P.root ns fs' := runTask_sound hp (closed_review (n := m)
          (closed_all (fun _ h => ⟨m, hm, Or.inl h⟩)).toClosedRest
          (fun k hk => .act _ k ⟨m, hm, Or.inr rfl⟩ hk) _ _ _ (fun _ _ _ => .done _) (fun _ _ _ => .done _)) hS hrun
        obtain ⟨i1, i2⟩ := ih _ _ _ hS' hsub' hnd.2 h'
        refine ⟨by rw [List.map_cons, List.map_cons, i1], ?_⟩
        intro w hw
        rcases List.mem_cons.mp hw with rfl | hw
        · refine ⟨(m, res, d), by simp, rfl, ?_⟩
          obtain ⟨j, hj⟩ := run_steps _ (run_reviews P cfg pass cases rest _ fs' ans' h')
          obtain ⟨-, heff⟩ := reviews_effect hp hS' cfg pass cases hsub' hnd.2 _ ans' hj
          dsimp only
          rcases hr with ⟨rfl, ha, hz, -⟩ | ⟨rfl, -, -⟩
          · refine ⟨.OK, rfl, Or.inr ⟨accepts_not_fail ha, ?_⟩⟩
            rcases heff m hm with hsame | ⟨v, d', hmem, -⟩
            · rw [hsame true]
              exact freeze_out (hp.1 m hm) (hS.files m hm true _ mem_md (by decide)) hz
            · exact absurd (List.mem_map.mpr ⟨_, hmem, rfl⟩) hnd.1
          · exact ⟨res, rfl, Or.inl rfl⟩
        · obtain ⟨rec, j1, j2⟩ := i2 w hw
          exact ⟨rec, by simp [j1], j2⟩
    · rw [if_neg hc] at h ⊢
      dsimp only at h ⊢
      obtain ⟨rs', h', rfl⟩ := Option.map_eq_some_iff.mp h
      obtain ⟨i1, i2⟩ := ih _ _ _ hS hsub' hnd.2 h'
      refine ⟨by rw [List.map_cons, List.map_cons, i1], ?_⟩
      intro w hw
      rcases List.mem_cons.mp hw with rfl | hw
      · exact ⟨(m, res, d), by simp, rfl, res, rfl, Or.inl rfl⟩
      · obtain ⟨rec, j1, j2⟩ := i2 w hw
        exact ⟨rec, by simp [j1], j2⟩

/-! ### Sequential runs -/

/-- What is known about a test that has ended with the result `r`: its output is there, or accepted. -/
def Ended (P : Project) (n : Str) (x : Option Node) (r : Result) (A : FS) : Prop :=
  (∃ text, SaysOf P n (textOf x) text r ∧ A.get (slot P.root false n ".md".toList) = x ∧
    A.get (slot P.root true n ".md".toList) = some (.file text)) ∨
  ∃ text v, SaysOf P n (textOf x) text v ∧ v ≠ .FAIL ∧ r = .OK ∧
    A.get (slot P.root false n ".md".toList) = some (.file text) ∧
    A.get (slot P.root true n ".md".toList) = none

theorem TracedR.ended {A : FS} {e : CaseEnd} {r : Result} {q : Request} {fresh : Prop}
    (h : TracedR (slot P.root false n ".md".toList) (slot P.root true n ".md".toList) x
      (SaysOf P n (textOf x)) (fun v r => r = v) (· ≠ .FAIL) fresh A (.done e)) (he : e = .done r q) :
    Ended P n x r A := by
  rcases h with ⟨-, -, h⟩ | ⟨text, v, hS, h1, h2, h3⟩ | ⟨text, v, hS, hG, h1, h2, ⟨_, h3⟩⟩
  · cases h with
    | done _ h => exact absurd he (h r q)
  · cases h3 with
    | done _ h => cases h r q he; exact Or.inl ⟨text, hS, h1, h2⟩
  · exact Or.inr ⟨text, v, hS, hG, h3 r q he, h1, h2⟩

theorem Ended.same {x : Option Node} {r : Result} {A B : FS} (h : Ended P n x r A) (hs : SameMd P.root n A B) :
    Ended P n x r B := by
  unfold Ended at *
  rw [hs true, hs false]
  exact h

/-- A test that is being executed, at any moment: what it does to its files and to those of others. -/
theorem during_case (hp : PlainNames ns) (hn : n ∈ ns) (cfg : Config) {fs g : FS} (h : SoundTree P.root ns fs)
    (ans : List Str) {k : Nat} {t : Task}
    (hk : stepsOf k (fs, caseTask P cfg n ans (fun r q _ => .done (.done r q))) = some (g, t)) :
    SoundTree P.root ns g ∧ (∀ m ∈ ns, m ≠ n → SameMd P.root m fs g) ∧
      TracedR (slot P.root false n ".md".toList) (slot P.root true n ".md".toList)
        (fs.get (slot P.root false n ".md".toList))
        (SaysOf P n (textOf (fs.get (slot P.root false n ".md".toList)))) (fun v r => r = v) (· ≠ .FAIL)
        True g t := by
  have hall : All (CaseOp P.root n) (caseTask P cfg n ans (fun r q _ => .done (.done r q))) :=
    closed_case (Q := All (CaseOp P.root n)) (closed_all (fun _ h => Or.inl h))
      (fun k hk => .act _ k (Or.inr rfl) hk) _ _ (fun _ _ _ _ => .done _)
  refine ⟨?_, ?_, ?_⟩
  · exact (steps_inv (I := fun A t => SoundTree P.root ns A ∧ All (RunsOp P.root ns) t)
      (fun A t A' t' hi hst => ⟨runs_sound hp hi.2 hi.1 hst, all_step hi.2 hst⟩) k _
      ⟨h, hall.mono (fun o ho => ⟨n, hn, ho⟩)⟩ hk).1
  · intro m hm hmn
    refine (steps_inv (I := fun A t => All (fun o => ∀ s, OpAvoids (slot P.root s m ".md".toList) o) t ∧
      SameMd P.root m fs A) (fun A t A' t' hi hst => same_step hi.1 hi.2 hst) k _ ⟨?_, fun _ => rfl⟩ hk).2
    exact hall.mono (fun o ho s => other_avoids hp hn hm (fun hc => hmn hc.symm) ho (own_slot s (Or.inr mem_md)))
  · exact steps_inv (I := fun A t => TracedR (slot P.root false n ".md".toList) (slot P.root true n ".md".toList)
        (fs.get (slot P.root false n ".md".toList))
        (SaysOf P n (textOf (fs.get (slot P.root false n ".md".toList)))) (fun v r => r = v) (· ≠ .FAIL) True A t)
      (fun A t A' t' hi hst => hi.step hst) k _
      (Or.inl ⟨trivial, rfl, writesR_single (hp.1 n hn) cfg ans _⟩) hk

/-- A test that has been executed. -/
theorem after_case (hp : PlainNames ns) (hn : n ∈ ns) (cfg : Config) {fs fs' : FS} (h : SoundTree P.root ns fs)
    (ans : List Str) {rest : List Str} {r : Result} {q : Request}
    (he : runCase P cfg n (fs, ans) = ((fs', rest), .done r q)) :
    SoundTree P.root ns fs' ∧ (∀ m ∈ ns, m ≠ n → SameMd P.root m fs fs') ∧
      Ended P n (fs.get (slot P.root false n ".md".toList)) r fs' := by
  have e := run_case P cfg n ans fs (fun r q _ => .done (.done r q)) h.cwd
  rw [he] at e
  obtain ⟨k, hk⟩ := run_steps _ e
  obtain ⟨h1, h2, h3⟩ := during_case hp hn cfg h ans hk
  exact ⟨h1, h2, h3.ended rfl⟩

theorem SameMd.trans {A B C : FS} (h : SameMd root n A B) (h' : SameMd root n B C) : SameMd root n A C :=
  fun s => (h' s).trans (h s)

theorem ranNames_append {fl : Durations} (a b : List (Ev fl)) : ranNames (a ++ b) = ranNames a ++ ranNames b := by
  simp [ranNames]

/-- A part of a sequential run in which no test was left by an exception. -/
theorem part_of_loop {fl : Durations} (hp : PlainNames ns) (cfg : Config) (dur : Str → fl.D)
    (st0 : FS × List Str) : ∀ (todo before : List Str) (rv : Result) (fails : Nat), (∀ m ∈ todo, m ∈ ns) →
      todo.Nodup → SoundTree P.root ns (runCases P cfg before st0).1 →
      ∀ p, p <+: (runLoop fl cfg (projectOutcome P cfg dur st0) before rv fails todo).1 →
      (∀ n o, Ev.exec n o ∈ p → o.isSome) →
      ranNames p <+: todo ∧ SoundTree P.root ns (runCases P cfg (before ++ ranNames p) st0).1 ∧
      (∀ n ∈ ns, n ∉ ranNames p →
        SameMd P.root n (runCases P cfg before st0).1 (runCases P cfg (before ++ ranNames p) st0).1) ∧
      (∀ n ∈ ranNames p, ∃ r, (n, r) ∈ execs p) ∧
      ∀ n r, (n, r) ∈ execs p → n ∈ ranNames p ∧
        Ended P n ((runCases P cfg before st0).1.get (slot P.root false n ".md".toList)) r
          (runCases P cfg (before ++ ranNames p) st0).1 := by
  intro todo
  induction todo with
  | nil =>
    intro before rv fails _ _ hS p hpre _
    rw [runLoop] at hpre
    rw [List.prefix_nil.mp hpre]
    refine ⟨List.prefix_rfl, by simpa [ranNames] using hS, ?_, by simp [ranNames], by simp [execs]⟩
    intro n _ _ s
    simp [ranNames]
  | cons n todo ih =>
    intro before rv fails hsub hnd hS p hpre hsome
    have hn := hsub n (by simp)
    have hsub' : ∀ m ∈ todo, m ∈ ns := fun a ha => hsub a (by simp [ha])
    rw [List.nodup_cons] at hnd
    have hnil : ranNames ([] : List (Ev fl)) = [] := rfl
    by_cases hp0 : p = []
    · subst hp0
      refine ⟨List.nil_prefix, by rw [hnil, List.append_nil]; exact hS, ?_, by simp [ranNames], by simp [execs]⟩
      intro m _ _ s
      rw [hnil, List.append_nil]
    have hnext : runCases P cfg (before ++ [n]) st0 = (runCase P cfg n (runCases P cfg before st0)).1 := by
      unfold runCases; rw [List.foldl_append]; rfl
    rw [runLoop] at hpre
    unfold projectOutcome at hpre
    cases hc : runCase P cfg n (runCases P cfg before st0) with
    | mk st e =>
      rw [hc] at hnext hpre
      have hbad : ∀ {l : List (Ev fl)}, p <+: .exec n none :: l → False := by
        intro l hl
        obtain ⟨y, p', rfl⟩ := List.exists_cons_of_ne_nil hp0
        obtain ⟨z, hz⟩ := hl
        rw [List.cons_append, List.cons.injEq] at hz
        have := hsome n none (by rw [hz.1]; simp)
        cases this
      cases e with
      | error x => exact (hbad hpre).elim
      | eof => exact (hbad hpre).elim
      | hangs => exact (hbad hpre).elim
      | done r q =>
        obtain ⟨a1, a2, a3⟩ := after_case (ans := (runCases P cfg before st0).2) hp hn cfg hS hc
        -- the rest of the trace
        have hrest : ∃ l, p <+: .exec n (some (r, q, dur n)) :: .write (n, r, dur n) :: l ∧
            (l = [] ∨ l = (runLoop fl cfg (projectOutcome P cfg dur st0) (before ++ [n]) (nextRv rv r)
              (nextFails fails r) todo).1) := by
          dsimp only at hpre
          split at hpre
          · exact ⟨[], hpre, Or.inl rfl⟩
          · exact ⟨_, hpre, Or.inr rfl⟩
        clear hpre
        obtain ⟨l, hpre, hl⟩ := hrest
        obtain ⟨y, p1, rfl⟩ := List.exists_cons_of_ne_nil hp0
        obtain ⟨z, hz⟩ := hpre
        rw [List.cons_append, List.cons.injEq] at hz
        obtain ⟨rfl, hz⟩ := hz
        -- what follows the execution
        have key : ∃ p2, ranNames p1 = ranNames p2 ∧ execs p1 = execs p2 ∧ (∀ m o, Ev.exec m o ∈ p2 → o.isSome) ∧
            p2 <+: l := by
          cases p1 with
          | nil => exact ⟨[], rfl, rfl, by simp, List.nil_prefix⟩
          | cons w p2 =>
            rw [List.cons_append, List.cons.injEq] at hz
            obtain ⟨rfl, hz⟩ := hz
            exact ⟨p2, rfl, rfl, fun m o hm => hsome m o (by simp [hm]), ⟨z, hz⟩⟩
        obtain ⟨p2, e1, e2, hsome2, hp2⟩ := key
        have r1 : ranNames (Ev.exec n (some (r, q, dur n)) :: p1) = n :: ranNames p2 := by
          rw [← e1]; rfl
        have r2 : execs (Ev.exec n (some (r, q, dur n)) :: p1) = (n, r) :: execs p2 := by
          rw [← e2]; rfl
        have r3 : before ++ n :: ranNames p2 = (before ++ [n]) ++ ranNames p2 := by simp
        have fin : ranNames p2 <+: todo ∧ SoundTree P.root ns (runCases P cfg ((before ++ [n]) ++ ranNames p2) st0).1 ∧
            (∀ m ∈ ns, m ∉ ranNames p2 →
              SameMd P.root m (runCases P cfg (before ++ [n]) st0).1
                (runCases P cfg ((before ++ [n]) ++ ranNames p2) st0).1) ∧
            (∀ m ∈ ranNames p2, ∃ r, (m, r) ∈ execs p2) ∧
            ∀ m r, (m, r) ∈ execs p2 → m ∈ ranNames p2 ∧
              Ended P m ((runCases P cfg (before ++ [n]) st0).1.get (slot P.root false m ".md".toList)) r
                (runCases P cfg ((before ++ [n]) ++ ranNames p2) st0).1 := by
          have hS1 : SoundTree P.root ns (runCases P cfg (before ++ [n]) st0).1 := by rw [hnext]; exact a1
          rcases hl with rfl | rfl
          · rw [List.prefix_nil.mp hp2]
            refine ⟨List.nil_prefix, by rw [hnil, List.append_nil]; exact hS1, ?_, by simp [ranNames], by simp [execs]⟩
            intro m _ _ s
            rw [hnil, List.append_nil]
          · exact ih (before ++ [n]) _ _ hsub' hnd.2 hS1 p2 hp2 hsome2
        obtain ⟨f1, f2, f3, f4, f5⟩ := fin
        rw [r1, r2, r3]
        have hn2 : n ∉ ranNames p2 := fun hc => hnd.1 (f1.subset hc)
        refine ⟨List.cons_prefix_cons.mpr ⟨rfl, f1⟩, f2, ?_, ?_, ?_⟩
        · intro m hm hnot
          rw [List.mem_cons, not_or] at hnot
          refine SameMd.trans ?_ (f3 m hm hnot.2)
          rw [hnext]
          exact a2 m hm hnot.1
        · intro m hm
          rcases List.mem_cons.mp hm with rfl | hm
          · exact ⟨r, by simp⟩
          · obtain ⟨r', hr'⟩ := f4 m hm
            exact ⟨r', by simp [hr']⟩
        · intro m r' hm
          rcases List.mem_cons.mp hm with e | hm
          · cases e
            refine ⟨by simp, Ended.same ?_ (f3 n hn hn2)⟩
            rw [hnext]
            exact a3
          · obtain ⟨g1, g2⟩ := f5 m r' hm
            refine ⟨by simp [g1], ?_⟩
            have hmn : m ≠ n := fun hc => hn2 (hc ▸ g1)
            have hmns : m ∈ ns := hsub' m (f1.subset g1)
            have := a2 m hmns hmn false
            rw [hnext] at g2
            dsimp only at g2
            rw [this] at g2
            exact g2

/-! ### Parallel runs -/

theorem caseTask_not_done (P : Project) (cfg : Config) (n : Str) (ans : List Str)
    (k : Result → Request → List Str → Task) (e : CaseEnd) : caseTask P cfg n ans k ≠ .done e := by
  have h2 : ∀ (cs : List Str) (base : Path) (t : Task), (∀ e, t ≠ .done e) → ∀ e, mkdirsTask base cs t ≠ .done e := by
    intro cs
    cases cs with
    | nil => intro base t ht; exact ht
    | cons c cs => intro base t _ e h; cases h
  unfold caseTask
  refine h2 _ _ _ (h2 _ _ _ ?_) e
  intro e h; cases h

/-- Any moment of a parallel run. -/
theorem during_parallel (hp : PlainNames ns) (cfg : Config) {fs g : FS} (h : SoundTree P.root ns fs)
    (all : List Str) {sel trace : List Str} {index : Str → Bool} {ans : Str → Option (List Str)} {t : Str → Task}
    (hsub : ∀ m ∈ sel, m ∈ ns)
    (H : Interleaved (fun n => parallelTask P cfg all (index n) (ans n) n) sel fs trace g t) :
    SoundTree P.root ns g ∧ (∀ m ∈ trace, m ∈ sel) ∧ (∀ m ∈ sel, All (CaseOp P.root m) (t m)) ∧
      ∀ n ∈ ns, (n ∉ trace → t n = parallelTask P cfg all (index n) (ans n) n ∧ SameMd P.root n fs g) ∧
      TracedR (slot P.root false n ".md".toList) (slot P.root true n ".md".toList)
        (fs.get (slot P.root false n ".md".toList))
        (SaysOf P n (textOf (fs.get (slot P.root false n ".md".toList)))) (fun v r => r = v) (· ≠ .FAIL)
        True g (t n) := by
  induction H with
  | init =>
    exact ⟨h, by simp, fun m _ => parallel_ops P cfg all (index m) (ans m) m, fun n hn => ⟨fun _ => ⟨rfl, fun _ => rfl⟩,
      Or.inl ⟨trivial, rfl, writesR_parallel (hp.1 n hn) cfg all (index n) (ans n) _⟩⟩⟩
  | step m H hm hst ih =>
    rename_i trace g g' t task
    obtain ⟨i1, i2, i3, i4⟩ := ih
    have hmn := hsub m hm
    have hops := i3 m hm
    refine ⟨runs_sound hp (hops.mono (fun o ho => ⟨m, hmn, ho⟩)) i1 hst, ?_, ?_, ?_⟩
    · intro a ha
      rcases List.mem_append.mp ha with ha | ha
      · exact i2 a ha
      · rw [List.mem_singleton.mp ha]; exact hm
    · intro m' hm'
      by_cases e : m' = m
      · subst e; simp only [if_true]; exact all_step hops hst
      · simp only [if_neg e]; exact i3 m' hm'
    · intro n hn
      obtain ⟨j1, j2⟩ := i4 n hn
      by_cases e : n = m
      · subst e
        simp only [if_true]
        exact ⟨fun hc => absurd (List.mem_append_right _ (by simp)) hc, j2.step hst⟩
      · simp only [if_neg e]
        have hav : ∀ s, g'.get (slot P.root s n ".md".toList) = g.get (slot P.root s n ".md".toList) := fun s =>
          kept_step (hops.mono (fun o ho => other_avoids hp hmn hn (fun hc => e hc.symm) ho
            (own_slot s (Or.inr mem_md)))) hst
        refine ⟨?_, j2.frame (hav false) (hav true)⟩
        intro hnot
        rw [List.mem_append, not_or] at hnot
        exact ⟨(j1 hnot.1).1, (j1 hnot.1).2.trans hav⟩

end Verif.Lemmas
