import Verif.Props.SameFiles

/-! # C124: parallel runs come to their end -/

namespace Verif.Props
open Verif.Py Verif.Model Verif.Spec Verif.Lemmas

variable {fl : Durations} {c : RConf fl} {fs : FS} {ans : List Str} {s s' : RSt fl} {ns : List Str} {σ : Nat → RSt fl}

/-! ### Single steps of workers -/

private theorem grows {l : List Str} {n : Str} : l ≠ l ++ [n] := by
  intro h
  have := congrArg List.length h
  simp at this

private theorem moves_irrefl (n : Str) : ¬ Moves n s s := by
  rintro (h | h | h | ⟨h1, h2⟩)
  · exact grows h
  · exact h rfl
  · exact h rfl
  · exact h1 h2

/-- What does not move a worker leaves it where it is. -/
private theorem still {n : Str} (h : RStep c s s') (hm : ¬ Moves n s s') :
    s'.work n = s.work n ∧ s'.reports n = s.reports n ∧ s'.indexed n = s.indexed n := by
  have h1 : s'.reports n = s.reports n := Classical.byContradiction fun e => hm (Or.inr (Or.inl e))
  have h2 : s'.indexed n = s.indexed n := Classical.byContradiction fun e => hm (Or.inr (Or.inr (Or.inl e)))
  refine ⟨?_, h1, h2⟩
  cases h with
  | works m g t hw hr ht =>
    dsimp only
    rw [if_neg]
    intro e
    exact hm (Or.inl (by rw [e]))
  | _ => rfl

/-- What a worker can do, if it does not end. -/
private theorem moved {n : Str} (h : RStep c s s') (hm : Moves n s s') (hn : n ∉ s'.run.ready) :
    (s.reports n = none ∧ s'.reports n = some []) ∨
    (s.reports n = some [] ∧ s'.reports n = some [] ∧ ∃ g, (s.work n).step s.fs = some (g, s'.work n)) ∨
    (s.reports n = some [] ∧ ∃ rec, s'.reports n = some [rec]) ∨
    (∃ rec, s.reports n = some [rec] ∧ s.indexed n = false ∧ s'.reports n = some [rec] ∧ s'.indexed n = true) := by
  have quiet : s'.ran = s.ran → s'.reports n = s.reports n → s'.indexed n = s.indexed n → False := by
    intro h1 h2 h3
    rcases hm with e | e | e | ⟨-, e⟩
    · rw [h1] at e; exact grows e
    · exact e h2
    · exact e h3
    · exact hn e
  cases h with
  | opens m hw hr =>
    by_cases e : n = m
    · subst e
      exact Or.inl ⟨hr, if_pos rfl⟩
    · exact (quiet rfl (if_neg e) rfl).elim
  | works m g t hw hr ht =>
    by_cases e : n = m
    · subst e
      refine Or.inr (Or.inl ⟨hr, hr, g, ?_⟩)
      dsimp only
      rw [if_pos rfl]
      exact ht
    · exfalso
      rcases hm with e' | e' | e' | ⟨-, e'⟩
      · have := List.append_cancel_left (show s.ran ++ [m] = s.ran ++ [n] from e')
        cases this
        exact e rfl
      · exact e' rfl
      · exact e' rfl
      · exact hn e'
  | writes m r q hw hr hd =>
    by_cases e : n = m
    · subst e
      exact Or.inr (Or.inr (Or.inl ⟨hr, _, if_pos rfl⟩))
    · exact (quiet rfl (if_neg e) rfl).elim
  | indexes m rec g a hw hr hi hx =>
    by_cases e : n = m
    · subst e
      exact Or.inr (Or.inr (Or.inr ⟨rec, hr, hi, hr, if_pos rfl⟩))
    · exact (quiet rfl rfl (if_neg e)).elim
  | _ => exact (quiet rfl rfl rfl).elim

/-! ### Executions -/

theorem fair_run_reach (hf : FairRun c fs ans σ) (i : Nat) : RReach c fs ans (σ i) := by
  induction i with
  | zero => rw [hf.init]; exact .init
  | succ i ih =>
    rcases hf.step i with h | h
    · exact ih.step h
    · rw [h]; exact ih

private theorem started_later (hf : FairRun c fs ans σ) {i : Nat} {n : Str} (hn : n ∈ (σ i).run.started) :
    ∀ d, n ∈ (σ (i + d)).run.started := by
  intro d
  induction d with
  | zero => exact hn
  | succ d ih =>
    show n ∈ (σ (i + d + 1)).run.started
    rcases hf.step (i + d) with h | h
    · rcases rstep_run (fair_run_reach hf (i + d)) h with e | e
      · rw [e]; exact ih
      · exact started_mono e ih
    · rw [h]; exact ih

private theorem first_move (hf : FairRun c fs ans σ) {n : Str} (d : Nat) : ∀ i, Moves n (σ (i + d)) (σ (i + d + 1)) →
    ∃ j, i ≤ j ∧ RStep c (σ j) (σ (j + 1)) ∧ Moves n (σ j) (σ (j + 1)) ∧ (σ j).work n = (σ i).work n ∧
      (σ j).reports n = (σ i).reports n ∧ (σ j).indexed n = (σ i).indexed n := by
  induction d with
  | zero =>
    intro i hm
    refine ⟨i, Nat.le_refl i, ?_, hm, rfl, rfl, rfl⟩
    rcases hf.step i with h | h
    · exact h
    · have hm : Moves n (σ i) (σ (i + 1)) := hm
      rw [h] at hm
      exact absurd hm (moves_irrefl n)
  | succ d ih =>
    intro i hm
    have hstep := hf.step i
    by_cases h0 : Moves n (σ i) (σ (i + 1))
    · refine ⟨i, Nat.le_refl i, ?_, h0, rfl, rfl, rfl⟩
      rcases hstep with h | h
      · exact h
      · rw [h] at h0
        exact absurd h0 (moves_irrefl n)
    · have same : (σ (i + 1)).work n = (σ i).work n ∧ (σ (i + 1)).reports n = (σ i).reports n ∧
          (σ (i + 1)).indexed n = (σ i).indexed n := by
        rcases hstep with h | h
        · exact still h h0
        · rw [h]; exact ⟨rfl, rfl, rfl⟩
      obtain ⟨j, h1, h2, h3, h4, h5, h6⟩ := ih (i + 1) (by
        rw [show i + 1 + d = i + (d + 1) by omega]; exact hm)
      exact ⟨j, by omega, h2, h3, h4.trans same.1, h5.trans same.2.1, h6.trans same.2.2⟩

/-- The next move of a worker that can do something. -/
private theorem next_move (hf : FairRun c fs ans σ) {i : Nat} {n : Str} (hw : (σ i).Works n)
    (he : ∃ s, RStep c (σ i) s ∧ Moves n (σ i) s) :
    ∃ j, i ≤ j ∧ RStep c (σ j) (σ (j + 1)) ∧ Moves n (σ j) (σ (j + 1)) ∧ (σ j).work n = (σ i).work n ∧
      (σ j).reports n = (σ i).reports n ∧ (σ j).indexed n = (σ i).indexed n := by
  obtain ⟨j, hj, hm⟩ := hf.workers i n hw he
  exact first_move hf (j - i) i (by rw [show i + (j - i) = j by omega]; exact hm)

/-! ### Workers end -/

private theorem over_moves {n : Str} (hw : s.Works n) (ho : Over c s n) : ∃ s', RStep c s s' ∧ Moves n s s' :=
  ⟨_, .ends s n hw ho, Or.inr (Or.inr (Or.inr ⟨hw.2, by simp⟩))⟩

private theorem report_moves {n : Str} (hw : s.Works n) {rec : Rec fl} (hr : s.reports n = some [rec]) :
    ∃ s', RStep c s s' ∧ Moves n s s' := by
  cases hi : s.indexed n with
  | true => exact over_moves hw (.whole hi)
  | false =>
    cases hx : (FsOp.write (c.P.root ++ ["index.md".toList]) (indexText c.all)).run s.fs with
    | error x => exact over_moves hw (.noIndex rec x hr hx)
    | ok r =>
      obtain ⟨g, a⟩ := r
      refine ⟨_, .indexes s n rec g a hw hr hi hx, Or.inr (Or.inr (Or.inl ?_))⟩
      dsimp only
      rw [if_pos rfl, hi]
      decide

/-- How a worker's test ends. -/
private theorem work_end (ht : Tidy c) (hq : NotAsking c.cfg) (hu : c.cfg.update = false) (hp : PlainNames ns)
    (hS : SoundTree c.P.root ns fs) (hsub : ∀ n ∈ c.todo, n ∈ ns) (H : RReach c (mkdirs fs c.P.out) ans s) {n : Str}
    (hn : n ∈ c.todo) (hk : n ∉ s.run.taken) {e : CaseEnd} (he : s.work n = .done e) :
    e = (caseSpec c.P c.cfg n (snapshot c.P.root fs n)).1 := by
  obtain ⟨k1, k2, -⟩ := mkOut_ok hp hS
  obtain ⟨hw, index, rv, trace, t, hfi⟩ := run_inv ht (fun _ _ => ⟨hq.2, hq.1⟩) H
  rw [← k2 n (hsub n hn)]
  refine (together_files (ans := ans) hq hu hp hsub ht.todo k1 hfi.inter).1 n hn e ?_
  rw [hfi.work n ?_]
  · exact he
  · cases hl : rv n with
    | none => rfl
    | some l => exact absurd (hfi.taken n l hl).1 hk

private theorem taken_ready (ht : Tidy c) (H : RReach c fs ans s) {n : Str} (hn : n ∈ s.run.taken) : n ∈ s.run.ready := by
  have hr := run_reach H
  obtain ⟨lost, hcount, -⟩ := (winv_reach (named_pconf ht) hr).count
  exact (inv_reach ht.todo hr).doneReady n (hcount.mem_iff.mp (by simp [hn]))

private theorem workers_end (ht : Tidy c) (hq : NotAsking c.cfg) (hu : c.cfg.update = false) (hp : PlainNames ns)
    (hS : SoundTree c.P.root ns fs) (hsub : ∀ n ∈ c.todo, n ∈ ns)
    (hh : ∀ n ∈ c.todo, runTest (c.P.env (snapshot c.P.root fs n)) (c.P.tests n).body ≠ none)
    (hf : FairRun c (mkdirs fs c.P.out) ans σ) {i : Nat} {n : Str} (hn : n ∈ (σ i).run.started) :
    ∃ j, n ∈ (σ j).run.ready := by
  refine Classical.byContradiction fun hno => ?_
  have hnr : ∀ j, n ∉ (σ j).run.ready := fun j hj => hno ⟨j, hj⟩
  have hw : ∀ a, i ≤ a → (σ a).Works n := by
    intro a ha
    have := started_later hf hn (a - i)
    rw [show i + (a - i) = a by omega] at this
    exact ⟨this, hnr a⟩
  have htodo : n ∈ c.todo := (inv_reach ht.todo (run_reach (fair_run_reach hf i))).sub n hn
  have p1 : ∀ a, i ≤ a → ∀ rec, (σ a).reports n = some [rec] → (σ a).indexed n = true → False := by
    intro a ha rec hr hi
    obtain ⟨j, j1, j2, j3, j4, j5, j6⟩ := next_move hf (hw a ha) (report_moves (hw a ha) hr)
    rcases moved j2 j3 (hnr _) with ⟨e, -⟩ | ⟨e, -⟩ | ⟨e, -⟩ | ⟨r, -, e, -⟩
    · rw [j5, hr] at e; cases e
    · rw [j5, hr] at e; cases e
    · rw [j5, hr] at e; cases e
    · rw [j6, hi] at e; cases e
  have p2 : ∀ a, i ≤ a → ∀ rec, (σ a).reports n = some [rec] → False := by
    intro a ha rec hr
    obtain ⟨j, j1, j2, j3, j4, j5, j6⟩ := next_move hf (hw a ha) (report_moves (hw a ha) hr)
    rcases moved j2 j3 (hnr _) with ⟨e, -⟩ | ⟨e, -⟩ | ⟨e, -⟩ | ⟨r, -, -, e1, e2⟩
    · rw [j5, hr] at e; cases e
    · rw [j5, hr] at e; cases e
    · rw [j5, hr] at e; cases e
    · exact p1 (j + 1) (by omega) r e1 e2
  have pdone : ∀ a, i ≤ a → (σ a).reports n = some [] → ∀ e, (σ a).work n = .done e → False := by
    intro a ha hr e he
    have e1 := work_end ht hq hu hp hS hsub (fair_run_reach hf a) htodo
      (fun h => hnr a (taken_ready ht (fair_run_reach hf a) h)) he
    have e2 : ∃ r q, e = .done r q := by
      rw [e1]
      rcases spec_end c.P c.cfg n (snapshot c.P.root fs n) with e2 | ⟨r, e2, -⟩
      · unfold caseSpec at e2
        cases hx : runTest (c.P.env (snapshot c.P.root fs n)) (c.P.tests n).body with
        | none => exact absurd hx (hh n htodo)
        | some y =>
          rw [hx] at e2
          dsimp only at e2
          split at e2 <;> cases e2
      · exact ⟨r, _, e2⟩
    obtain ⟨r, q, rfl⟩ := e2
    obtain ⟨j, j1, j2, j3, j4, j5, j6⟩ := next_move hf (hw a ha)
      ⟨_, .writes (σ a) n r q (hw a ha) hr he, Or.inr (Or.inl (by
        dsimp only
        rw [if_pos rfl, hr]
        intro h; cases h))⟩
    rcases moved j2 j3 (hnr _) with ⟨e, -⟩ | ⟨-, -, g, e⟩ | ⟨-, rec, e⟩ | ⟨r, e, -⟩
    · rw [j5, hr] at e; cases e
    · rw [j4, he] at e; cases e
    · exact p2 (j + 1) (by omega) rec e
    · rw [j5, hr] at e; cases e
  have p3 : ∀ t a, i ≤ a → (σ a).reports n = some [] → (σ a).work n = t → False := by
    intro t
    induction t with
    | done e => intro a ha hr he; exact pdone a ha hr e he
    | act o k ih =>
      intro a ha hr he
      have hen : ∃ s, RStep c (σ a) s ∧ Moves n (σ a) s := by
        cases hx : ((σ a).work n).step (σ a).fs with
        | none =>
          rw [he] at hx
          simp only [Task.step] at hx
          cases hy : o.run (σ a).fs <;> rw [hy] at hx <;> cases hx
        | some y => exact ⟨_, .works (σ a) n y.1 y.2 (hw a ha) hr hx, Or.inl rfl⟩
      obtain ⟨j, j1, j2, j3, j4, j5, j6⟩ := next_move hf (hw a ha) hen
      rcases moved j2 j3 (hnr _) with ⟨e, -⟩ | ⟨-, e1, g, e⟩ | ⟨-, rec, e⟩ | ⟨r, e, -⟩
      · rw [j5, hr] at e; cases e
      · rw [j4, he] at e
        simp only [Task.step] at e
        cases hy : o.run (σ j).fs with
        | error x =>
          rw [hy] at e
          have e2 : Task.done (.error x) = (σ (j + 1)).work n := by injection e with e; injection e
          exact pdone (j + 1) (by omega) e1 _ e2.symm
        | ok y =>
          rw [hy] at e
          have e2 : k y.2 = (σ (j + 1)).work n := by injection e with e; injection e
          exact ih y.2 (j + 1) (by omega) e1 e2.symm
      · exact p2 (j + 1) (by omega) rec e
      · rw [j5, hr] at e; cases e
  rcases report_shape' (fair_run_reach hf i) n with e | e | ⟨v, e⟩
  · have hi := hw i (Nat.le_refl i)
    obtain ⟨j, j1, j2, j3, j4, j5, j6⟩ := next_move hf hi
      ⟨_, .opens (σ i) n hi e, Or.inr (Or.inl (by
        dsimp only
        rw [if_pos rfl, e]
        intro h; cases h))⟩
    rcases moved j2 j3 (hnr _) with ⟨-, e'⟩ | ⟨e', -⟩ | ⟨e', -⟩ | ⟨r, e', -⟩
    · exact p3 _ (j + 1) (by omega) e' rfl
    · rw [j5, e] at e'; cases e'
    · rw [j5, e] at e'; cases e'
    · rw [j5, e] at e'; cases e'
  · exact p3 _ i (Nat.le_refl i) e rfl
  · exact p2 i (Nat.le_refl i) _ e

/-! ### Reviews end -/

private theorem review_done (ht : Tidy c) (hq : NotAsking c.cfg) (hu : c.cfg.update = false) (hp : PlainNames ns)
    (hS : SoundTree c.P.root ns fs) (hsub : ∀ n ∈ c.todo, n ∈ ns) (H : RReach c (mkdirs fs c.P.out) ans s) :
    ∀ v, s.review = some v → v.frozen = false ∧ ∃ x q, v.task = .done (.done x q) := by
  induction H with
  | init => intro v h; cases h
  | @step s s' H hs ih =>
    obtain ⟨hw, index, rv, trace, t, hfi⟩ := run_inv ht (fun _ _ => ⟨hq.2, hq.1⟩) H
    cases hs with
    | scheduler p h hr hy => exact ih
    | main p h hr hpr hy => exact ih
    | opens n hn h => exact ih
    | works n g t' hn h ht' => exact ih
    | writes n r q hn h hd => exact ih
    | indexes n rec g a hn h hi hx => exact ih
    | ends n hn ho => exact ih
    | takes r q v rest h hq' hv =>
      intro w hw'
      cases hw'
      have hr := run_reach H
      obtain ⟨lost, hcount, -⟩ := (winv_reach (named_pconf ht) hr).count
      have hi := inv_reach ht.todo hr
      have hnd : (s.run.taken ++ s.run.queue.map (·.1)).Nodup := by
        have := (hcount.nodup_iff).mpr hi.parts.1
        exact (List.nodup_append.mp (List.nodup_append.mp this).1).1
      have hin : r ∈ s.run.queue := by rw [hq']; exact List.mem_cons_self ..
      have hk : r.1 ∉ s.run.taken := fun h =>
        absurd rfl ((List.nodup_append.mp hnd).2.2 _ h r.1 (List.mem_map_of_mem hin))
      have htodo : r.1 ∈ c.todo := by
        refine hi.sub _ ((hi.mem_started _).mpr (Or.inl (hcount.mem_iff.mp ?_)))
        have := List.mem_map_of_mem (f := fun x : PRec fl => x.1) hin
        simp only [List.mem_append]
        exact Or.inl (Or.inl (Or.inr this))
      have hno : ¬ (r.2.1 = .res .DIFF ∧ c.cfg.accept = true) := by
        rintro ⟨e1, e2⟩
        obtain ⟨q', e3⟩ := (hw.recs r (Or.inl hin)).1 _ e1
        have e4 := work_end ht hq hu hp hS hsub H htodo hk e3
        rcases spec_end c.P c.cfg r.1 (snapshot c.P.root fs r.1) with e5 | ⟨x, e5, e6⟩
        · rw [e5] at e4; cases e4
        · rw [e5] at e4
          cases e4
          exact e6 e2 rfl
      unfold startReview at hv
      rw [hq.1, hq.2, Bool.and_false, Bool.or_false, if_neg (by decide)] at hv
      dsimp only at hv
      rw [if_neg (by
        rintro (e | ⟨-, e⟩ | e)
        · cases e
        · rw [hu] at e; cases e
        · exact hno e)] at hv
      cases hv
      exact ⟨rfl, _, _, rfl⟩
    | takesEof r q h hq' hv => intro w hw'; cases hw'
    | reviews r v g t' h hv ht' =>
      obtain ⟨-, _, _, he⟩ := ih v hv
      rw [he] at ht'
      cases ht'
    | reviewed r v res x q h hv ht' hf' => intro w hw'; cases hw'
    | reviewedText r v m x q h hv ht' hf' => intro w hw'; cases hw'
    | reviewRaises r h hv => intro w hw'; cases hw'
    | interrupt r h => intro w hw'; cases hw'

/-! ### The scheduler of such a run -/

/-- Workers leave a record, and reviews end. -/
private def calmConf (c : RConf fl) : PConf fl :=
  { c.pconf with leaves := Leaves c, review := fun _ rv _ => ∃ res, rv = .res res, reviewRaises := fun _ => False }

private theorem plan_calm (c : RConf fl) (done order : List Str) (r : List Nat) :
    plan (calmConf c) done order r = plan c.pconf done order r := by
  induction order generalizing r with
  | nil => rfl
  | cons n ns ih =>
    unfold plan
    rw [ih, ih]
    rfl

private theorem quiet_calm {p q : PSt fl} (h : PStep c.pconf p q) (hy : q.ready = p.ready)
    (hrpc : q.rpc = p.rpc ∨ ∀ r, p.rpc ≠ .reviewing r) : PStep (calmConf c) p q := by
  have no : ∀ r : PRec fl, p.rpc = .reviewing r → q.rpc ≠ .reviewing r → False := by
    intro r h1 h2
    rcases hrpc with e | e
    · rw [e] at h2; exact h2 h1
    · exact e r h1
  cases h with
  | planned order l h1 hd ha ho hl => exact .planned p order l h1 hd ha ho (by rw [plan_calm]; exact hl)
  | stop h1 hd => exact .stop p h1 hd
  | start n ns h1 hn => exact .start p n ns h1 hn
  | skip n ns h1 hn => exact .skip p n ns h1 hn
  | startedAll h1 => exact .startedAll p h1
  | again h1 ha => exact .again p h1 ha
  | leave d h1 hd => exact .leave p d h1 hd
  | seeReady n rest d h1 hr => exact .seeReady p n rest d h1 hr
  | seeBusy n rest d h1 hr => exact .seeBusy p n rest d h1 hr
  | swept d h1 => exact .swept p d h1
  | collected d d' rs h1 hp hr => exact .collected p d d' rs h1 hp hr
  | crash d d' h1 hp hr => exact .crash p d d' h1 hp hr
  | publish rs h1 => exact .publish p rs h1
  | finish n b h1 hr hb => exact absurd (show p.ready ++ [n] = p.ready from hy).symm grows
  | more h1 hn => exact .more p h1 hn
  | noMore h1 hn => exact .noMore p h1 hn
  | take r q h1 hq => exact .take p r q h1 hq
  | reviewed r res ab h1 hv => exact (no r h1 (fun e => by cases e)).elim
  | reviewedText r t ab h1 hv => exact (no r h1 (fun e => by cases e)).elim
  | reviewRaises r h1 hv => exact (no r h1 (fun e => by cases e)).elim
  | interrupt h1 => exact .interrupt p h1
  | recordLeft k x n res d h1 hq => exact .recordLeft p k x n res d h1 hq
  | recordLeftText k x n t d h1 hq => exact .recordLeftText p k x n t d h1 hq
  | finished k x h1 hq => exact .finished p k x h1 hq

private theorem calm_step (ht : Tidy c) (hq : NotAsking c.cfg) (hu : c.cfg.update = false) (hff : NeverStops c.P c.cfg fs c.todo)
    (hp : PlainNames ns) (hS : SoundTree c.P.root ns fs) (hsub : ∀ n ∈ c.todo, n ∈ ns)
    (hb : ∀ n b, ¬ c.breaks n b) (H : RReach c (mkdirs fs c.P.out) ans s) (h : RStep c s s') :
    PStep (calmConf c) s.run s'.run ∨ s'.run = s.run := by
  have hc := calmly ht hq hu hff hp hS hsub hb (H.step h)
  cases h with
  | scheduler p h hr hy => exact Or.inl (quiet_calm h hy (Or.inl hr))
  | main p h hr _ hy => exact Or.inl (quiet_calm h hy (Or.inr hr))
  | ends n hn ho =>
    refine Or.inl (PStep.finish (c := calmConf c) s.run n _ hn.1 hn.2 ?_)
    obtain ⟨r, e⟩ := leaves_end ht hq hu hp hS hsub hb H hn ho
    exact ⟨r, by rw [e]; rfl⟩
  | takes r q v rest h hq hv => exact Or.inl (PStep.take s.run r q h hq)
  | takesEof r q h hq hv => exact Or.inl (PStep.take s.run r q h hq)
  | reviewed r v res x q h hv ht hf => exact Or.inl (PStep.reviewed (c := calmConf c) s.run r res _ h ⟨res, rfl⟩)
  | reviewedText r v t x q h hv ht hf => exact absurd rfl (hc.left 0)
  | reviewRaises r h hv => exact absurd rfl (hc.left 0)
  | interrupt r h => exact Or.inl (PStep.interrupt (c := calmConf c) s.run (Or.inr (Or.inr ⟨r, h⟩)))
  | _ => exact Or.inr rfl

/-- After the end of the main thread nothing is recorded anymore. -/
private theorem ended_stays {s t : RSt fl} {x : Bool} (h : RStep c s t) (hx : s.run.rpc = .ended x) :
    t.run.rpc = .ended x ∧ t.run.recorded = s.run.recorded ∧ t.run.exitCode = s.run.exitCode := by
  have hp : ∀ p, PStep c.pconf s.run p →
      p.rpc = .ended x ∧ p.recorded = s.run.recorded ∧ p.exitCode = s.run.exitCode := by
    intro p hp
    cases hp with
    | more h1 => rw [hx] at h1; cases h1
    | noMore h1 => rw [hx] at h1; cases h1
    | take r q h1 => rw [hx] at h1; cases h1
    | reviewed r res ab h1 => rw [hx] at h1; cases h1
    | reviewedText r t ab h1 => rw [hx] at h1; cases h1
    | reviewRaises r h1 => rw [hx] at h1; cases h1
    | interrupt h1 =>
      rw [hx] at h1
      rcases h1 with h1 | h1 | ⟨r, h1⟩ <;> cases h1
    | recordLeft k y n res d h1 => rw [hx] at h1; cases h1
    | recordLeftText k y n t d h1 => rw [hx] at h1; cases h1
    | finished k y h1 => rw [hx] at h1; cases h1
    | _ => exact ⟨hx, rfl, rfl⟩
  cases h with
  | scheduler p h1 => exact hp p h1
  | main p h1 => exact hp p h1
  | takes r q v rest h1 => rw [hx] at h1; cases h1
  | takesEof r q h1 => rw [hx] at h1; cases h1
  | reviews r v g t h1 => rw [hx] at h1; cases h1
  | reviewed r v res y q h1 => rw [hx] at h1; cases h1
  | reviewedText r v t y q h1 => rw [hx] at h1; cases h1
  | reviewRaises r h1 => rw [hx] at h1; cases h1
  | interrupt r h1 => rw [hx] at h1; cases h1
  | _ => exact ⟨hx, rfl, rfl⟩

/-- **C124**: every execution of a parallel run comes to its end, if no process is kept waiting forever, nobody
interrupts it, the dependencies of the tests have no cycle, no test hangs, nothing but operations of tests can fail, and
nobody is asked (`-u` is not given, and `-f` stops nothing). Then, whenever the main thread has come to its end, every test is
recorded, and the run leaves the files, the records and the exit code of a sequential run. -/
theorem C124_ends (ht : Tidy c) (hq : NotAsking c.cfg) (hu : c.cfg.update = false) (hff : NeverStops c.P c.cfg fs c.todo)
    (hU : c.u = c.P.u) (hp : PlainNames ns) (hS : SoundTree c.P.root ns fs) (hsub : ∀ n ∈ c.todo, n ∈ ns)
    (hb : ∀ n b, ¬ c.breaks n b) {rank : Str → Nat} (hr : ∀ n ∈ c.todo, ∀ d ∈ c.deps n, d ∈ c.todo → rank d < rank n)
    (hh : ∀ n ∈ c.todo, runTest (c.P.env (snapshot c.P.root fs n)) (c.P.tests n).body ≠ none)
    {selected : List Str} {file : Option Bytes} {old : List (Rec fl)}
    (hold : ofFile c.u fl file = some old) (htodo : c.todo = toRun c.cfg old selected)
    (hf : FairRun c (mkdirs fs c.P.out) ans σ) (ans' : List Str) :
    let r := runProject c.P c.cfg c.dur c.all selected fs ans' file
    (∃ i x, (σ i).run.rpc = .ended x) ∧ ∀ i x, (σ i).run.rpc = .ended x →
    x = false ∧ ((σ i).run.recorded.map (·.1)).Perm c.todo ∧
    (∃ g, (σ i).finish c = .ok g ∧ ∀ p, g.get p = r.fs.get p) ∧
    (∃ ps ss, ofFile c.u fl (some (parallelReport c.pconf old (σ i).run)) = some ps ∧ ofFile c.u fl r.report = some ss ∧
      (ps.map key).Perm (ss.map key)) ∧
    ∃ v, r.result = some v ∧ exitCode v = (σ i).run.exitCode := by
  have hB : Behaved (calmConf c) := by
    refine ⟨ht.todo, ht.batches, ?_⟩
    rintro n hn b ⟨r, rfl⟩
    exact ⟨_, collect_complete _ (ht.names n hn) r _, rfl⟩
  have hC : Calm (calmConf c) := ⟨fun _ _ _ _ _ _ _ h => h, fun _ _ _ _ _ h => h⟩
  have hF : Fair (calmConf c) (fun i => (σ i).run) := by
    refine ⟨by rw [hf.init]; rfl, ?_, hf.undisturbed, ?_, hf.scheduler, ?_⟩
    · intro i
      rcases hf.step i with h | h
      · exact calm_step ht hq hu hff hp hS hsub hb (fair_run_reach hf i) h
      · exact Or.inr (by rw [h])
    · intro i n hn
      exact workers_end ht hq hu hp hS hsub hh hf hn
    · intro i h1 h2
      obtain ⟨j, hj, e⟩ := hf.main i h1 h2
      rcases e with e | ⟨v, t, e1, e2, -⟩
      · exact ⟨j, hj, e⟩
      · obtain ⟨-, _, _, e3⟩ := review_done ht hq hu hp hS hsub (fair_run_reach hf j) v e1
        rw [e3] at e2
        cases e2
  obtain ⟨i, m, e1, e2, e3, e4, e5, e6⟩ := fair_leaves_loop (c := calmConf c) (rank := rank) hr hB hC hF
  have hall : ∀ n ∈ c.todo, ∃ r d, (n, r, d) ∈ (σ i).run.recorded := by
    intro n hn
    obtain ⟨x, hx, rfl⟩ := List.mem_map.mp (e6.mem_iff.mpr hn)
    exact ⟨_, _, hx⟩
  obtain ⟨-, -, v, a3, a4⟩ := C123_same_files_partial ht hq hu hff hU hp hS hsub hold htodo (fair_run_reach hf i) hall ans'
  refine ⟨⟨m, _, e3⟩, fun j x hj => ?_⟩
  have hx : x = false := by
    cases x with
    | false => rfl
    | true => exact absurd hj (C123_complete ht hq hu hff hp hS hsub hb (fair_run_reach hf j)).1
  have stays : ∀ a b y, a ≤ b → (σ a).run.rpc = .ended y →
      (σ b).run.rpc = .ended y ∧ (σ b).run.recorded = (σ a).run.recorded ∧ (σ b).run.exitCode = (σ a).run.exitCode := by
    intro a b y hab ha
    induction hab with
    | refl => exact ⟨ha, rfl, rfl⟩
    | step _ ih =>
      obtain ⟨h1, h2, h3⟩ := ih
      rcases hf.step _ with h | h
      · obtain ⟨g1, g2, g3⟩ := ended_stays h h1
        exact ⟨g1, g2.trans h2, g3.trans h3⟩
      · rw [h]; exact ⟨h1, h2, h3⟩
  have e7 : (σ j).run.recorded = (σ m).run.recorded ∧ (σ j).run.exitCode = (σ m).run.exitCode := by
    rcases Nat.le_total j m with h | h
    · obtain ⟨-, h2, h3⟩ := stays j m x h hj
      exact ⟨h2.symm, h3.symm⟩
    · obtain ⟨-, h2, h3⟩ := stays m j _ h e3
      exact ⟨h2, h3⟩
  obtain ⟨a1, a2, -⟩ := C123_same_files_partial ht hq hu hff hU hp hS hsub hold htodo (fair_run_reach hf j)
    (by rw [e7.1, e4]; exact hall) ans'
  exact ⟨hx, by rw [e7.1, e4]; exact e6, a1, a2, v, a3, by rw [e7.2, e5]; exact a4 (Or.inl e1)⟩

/-! ### A fair execution -/

/-- Executions that nobody interrupts. -/
inductive Undisturbed (c : RConf fl) (fs : FS) (ans : List Str) : RSt fl → Prop
  | init : Undisturbed c fs ans (RSt.init c fs ans)
  | step {s t : RSt fl} : Undisturbed c fs ans s → RStep c s t → (t.run.abort = true → ∃ x, t.run.rpc = .ended x) →
      Undisturbed c fs ans t

private theorem undisturbed_works (H : Undisturbed c fs ans s) (ha : s.run.abort = false) (n : Str) (hw : s.Works n)
    (hr : s.reports n = some []) :
    ∀ (k : Nat) {g : FS} {t : Task}, stepsOf k (s.fs, s.work n) = some (g, t) →
      Undisturbed c fs ans { s with
        fs := g
        work := fun m => if m = n then t else s.work m
        ran := s.ran ++ List.replicate k n } := by
  intro k
  induction k generalizing s with
  | zero =>
    intro g t h
    cases h
    have e : (fun m => if m = n then s.work n else s.work m) = s.work := by
      funext m
      split
      · rename_i e; rw [e]
      · rfl
    rw [e, List.replicate_zero, List.append_nil]
    exact H
  | succ k ih =>
    intro g t h
    rw [stepsOf] at h
    cases hst : (s.work n).step s.fs with
    | none => rw [hst] at h; cases h
    | some x =>
      obtain ⟨g1, t1⟩ := x
      rw [hst] at h
      have := ih (H.step (.works s n g1 t1 hw hr hst) (fun e => by
        have e : s.run.abort = true := e
        rw [ha] at e; cases e)) ha hw hr (g := g) (t := t) (by simpa using h)
      have e : (fun m => if m = n then t else if m = n then t1 else s.work m) =
          fun m => if m = n then t else s.work m := by
        funext m
        split <;> rfl
      rw [List.append_assoc, e] at this
      exact this

/-- An execution that has come to its end is fair. -/
private theorem fair_of_end (H : Undisturbed c fs ans s) (hs : s.run.spc = .stopped) (hr : s.run.rpc = .ended false)
    (hd : ∀ n ∈ s.run.started, n ∈ s.run.ready) : ∃ σ, FairRun c fs ans σ := by
  have path : ∃ (σ : Nat → RSt fl) (N : Nat), σ 0 = RSt.init c fs ans ∧
      (∀ i, RStep c (σ i) (σ (i + 1)) ∨ σ (i + 1) = σ i) ∧
      (∀ i, (σ i).run.abort = true → ∃ x, (σ i).run.rpc = .ended x) ∧ ∀ i, N ≤ i → σ i = s := by
    clear hs hr hd
    induction H with
    | init => exact ⟨fun _ => RSt.init c fs ans, 0, rfl, fun _ => Or.inr rfl, fun _ h => (by cases h), fun _ _ => rfl⟩
    | @step s t H hst hab ih =>
      obtain ⟨σ, N, h1, h2, h3, h4⟩ := ih
      refine ⟨fun i => if i ≤ N then σ i else t, N + 1, (if_pos (Nat.zero_le N)).trans h1, ?_, ?_, ?_⟩
      · intro i
        dsimp only
        by_cases hi : i + 1 ≤ N
        · rw [if_pos hi, if_pos (by omega)]; exact h2 i
        · rw [if_neg hi]
          by_cases hi' : i ≤ N
          · rw [if_pos hi', h4 i (by omega)]; exact Or.inl hst
          · rw [if_neg hi']; exact Or.inr rfl
      · intro i
        dsimp only
        split
        · exact h3 i
        · exact hab
      · intro i hi
        dsimp only
        rw [if_neg (by omega)]
  obtain ⟨σ, N, h1, h2, h3, h4⟩ := path
  have hreach : ∀ i, RReach c fs ans (σ i) := by
    intro i
    induction i with
    | zero => rw [h1]; exact .init
    | succ i ih =>
      rcases h2 i with h | h
      · exact ih.step h
      · rw [h]; exact ih
  refine ⟨σ, h1, h2, h3, ?_, ?_, ?_⟩
  · intro i n hw _
    have hst : ∀ d, n ∈ (σ (i + d)).run.started := by
      intro d
      induction d with
      | zero => exact hw.1
      | succ d ih =>
        show n ∈ (σ (i + d + 1)).run.started
        rcases h2 (i + d) with h | h
        · rcases rstep_run (hreach (i + d)) h with e | e
          · rw [e]; exact ih
          · exact started_mono e ih
        · rw [h]; exact ih
    have hend : n ∈ (σ (i + N)).run.ready := by
      have := hst N
      rw [h4 _ (by omega)] at this ⊢
      exact hd n this
    have find : ∀ d, n ∈ (σ (i + d)).run.ready → ∃ j, i ≤ j ∧ Moves n (σ j) (σ (j + 1)) := by
      intro d
      induction d with
      | zero => intro h; exact absurd h hw.2
      | succ d ih =>
        intro h
        by_cases hx : n ∈ (σ (i + d)).run.ready
        · exact ih hx
        · exact ⟨i + d, by omega, Or.inr (Or.inr (Or.inr ⟨hx, h⟩))⟩
    exact find N hend
  · intro i hi _
    refine ⟨i + N, by omega, ?_⟩
    rw [h4 (i + N) (by omega), hs]
    exact fun e => hi e.symm
  · intro i hi _
    refine ⟨i + N, by omega, Or.inl ?_⟩
    rw [h4 (i + N) (by omega), hr]
    exact fun e => hi _ e.symm

/-! ### Fair executions exist -/

theorem undisturbed_reach (H : Undisturbed c fs ans s) : RReach c fs ans s := by
  induction H with
  | init => exact .init
  | step _ h _ ih => exact ih.step h

/-- The result of the test, if it is executed alone. -/
private def Own (c : RConf fl) (fs : FS) (n : Str) (r : Result) : Prop :=
  (caseSpec c.P c.cfg n (snapshot c.P.root fs n)).1 = .done r .NONE

/-- Workers leave the result of their test, and reviews keep it. -/
private def ownConf (c : RConf fl) (fs : FS) : PConf fl :=
  { c.pconf with
    leaves := fun n b => n ∈ c.todo ∧ ∃ r, Own c fs n r ∧ b = some (encode (toText fl [(n, r, c.dur n)]))
    review := fun r rv ab => ab = false ∧ ∃ res, rv = .res res ∧ r.2.1 = .res res
    reviewRaises := fun _ => False }

private theorem plan_own (c : RConf fl) (fs : FS) (done order : List Str) (r : List Nat) :
    plan (ownConf c fs) done order r = plan c.pconf done order r := by
  induction order generalizing r with
  | nil => rfl
  | cons n ns ih =>
    unfold plan
    rw [ih, ih]
    rfl

private theorem own_result (hh : ∀ n ∈ c.todo, runTest (c.P.env (snapshot c.P.root fs n)) (c.P.tests n).body ≠ none)
    {n : Str} (hn : n ∈ c.todo) : ∃ r, Own c fs n r := by
  rcases spec_end c.P c.cfg n (snapshot c.P.root fs n) with e2 | ⟨r, e2, -⟩
  · unfold caseSpec at e2
    cases hx : runTest (c.P.env (snapshot c.P.root fs n)) (c.P.tests n).body with
    | none => exact absurd hx (hh n hn)
    | some y =>
      rw [hx] at e2
      dsimp only at e2
      split at e2 <;> cases e2
  · exact ⟨r, e2⟩

/-- A worker can go on until it ends. -/
private theorem worker_finishes (ht : Tidy c) (hq : NotAsking c.cfg) (hu : c.cfg.update = false) (hp : PlainNames ns)
    (hS : SoundTree c.P.root ns fs) (hsub : ∀ n ∈ c.todo, n ∈ ns) {n : Str} {r : Result} (hr : Own c fs n r)
    (H : Undisturbed c (mkdirs fs c.P.out) ans s) (ha : s.run.abort = false) (hw : s.Works n) :
    ∃ s', Undisturbed c (mkdirs fs c.P.out) ans s' ∧ s'.run = { s.run with
      ready := s.run.ready ++ [n],
      files := fun x => if x = batchName n then some (encode (toText fl [(n, r, c.dur n)])) else s.run.files x } := by
  have calm : ∀ {s' : RSt fl}, s'.run.abort = false → (s'.run.abort = true → ∃ x, s'.run.rpc = .ended x) := by
    intro s' h h'; rw [h] at h'; cases h'
  have p0 : ∀ s : RSt fl, Undisturbed c (mkdirs fs c.P.out) ans s → s.run.abort = false → s.Works n →
      s.reports n = some [(n, r, c.dur n)] → s.indexed n = true →
      ∃ s', Undisturbed c (mkdirs fs c.P.out) ans s' ∧ s'.run = { s.run with
        ready := s.run.ready ++ [n],
        files := fun x => if x = batchName n then some (encode (toText fl [(n, r, c.dur n)])) else s.run.files x } := by
    intro s H ha hw hrep hi
    refine ⟨_, H.step (.ends s n hw (.whole hi)) (calm ha), ?_⟩
    rw [hrep]; rfl
  have p1 : ∀ s : RSt fl, Undisturbed c (mkdirs fs c.P.out) ans s → s.run.abort = false → s.Works n →
      s.reports n = some [(n, r, c.dur n)] →
      ∃ s', Undisturbed c (mkdirs fs c.P.out) ans s' ∧ s'.run = { s.run with
        ready := s.run.ready ++ [n],
        files := fun x => if x = batchName n then some (encode (toText fl [(n, r, c.dur n)])) else s.run.files x } := by
    intro s H ha hw hrep
    cases hi : s.indexed n with
    | true => exact p0 s H ha hw hrep hi
    | false =>
      cases hx : (FsOp.write (c.P.root ++ ["index.md".toList]) (indexText c.all)).run s.fs with
      | error x =>
        refine ⟨_, H.step (.ends s n hw (.noIndex _ x hrep hx)) (calm ha), ?_⟩
        rw [hrep]; rfl
      | ok y =>
        obtain ⟨g, a⟩ := y
        have H' := H.step (.indexes s n _ g a hw hrep hi hx) (calm ha)
        obtain ⟨s', e1, e2⟩ := p0 _ H' ha hw hrep (if_pos rfl)
        exact ⟨s', e1, e2⟩
  have p2 : ∀ (t : Task) (s : RSt fl), Undisturbed c (mkdirs fs c.P.out) ans s → s.run.abort = false → s.Works n →
      s.reports n = some [] → s.work n = t →
      ∃ s', Undisturbed c (mkdirs fs c.P.out) ans s' ∧ s'.run = { s.run with
        ready := s.run.ready ++ [n],
        files := fun x => if x = batchName n then some (encode (toText fl [(n, r, c.dur n)])) else s.run.files x } := by
    have pd : ∀ (e : CaseEnd) (s : RSt fl), Undisturbed c (mkdirs fs c.P.out) ans s → s.run.abort = false →
        s.Works n → s.reports n = some [] → s.work n = .done e →
        ∃ s', Undisturbed c (mkdirs fs c.P.out) ans s' ∧ s'.run = { s.run with
          ready := s.run.ready ++ [n],
          files := fun x => if x = batchName n then some (encode (toText fl [(n, r, c.dur n)])) else s.run.files x } := by
      intro e s H ha hw hrep he
      have htodo : n ∈ c.todo := (inv_reach ht.todo (run_reach (undisturbed_reach H))).sub n hw.1
      have e1 := work_end ht hq hu hp hS hsub (undisturbed_reach H) htodo
        (fun h => hw.2 (taken_ready ht (undisturbed_reach H) h)) he
      rw [hr] at e1
      rw [e1] at he
      have H' := H.step (.writes s n r .NONE hw hrep he) (calm ha)
      obtain ⟨s', e1, e2⟩ := p1 _ H' ha hw (if_pos rfl)
      exact ⟨s', e1, e2⟩
    intro t
    induction t with
    | done e => exact pd e
    | act o k ih =>
      intro s H ha hw hrep he
      cases hy : o.run s.fs with
      | error x =>
        have hx : (s.work n).step s.fs = some (s.fs, .done (.error x)) := by
          rw [he]; simp only [Task.step]; rw [hy]
        have H' := H.step (.works s n _ _ hw hrep hx) (calm ha)
        obtain ⟨s', e1, e2⟩ := pd (.error x) _ H' ha hw hrep (if_pos rfl)
        exact ⟨s', e1, e2⟩
      | ok y =>
        have hx : (s.work n).step s.fs = some (y.1, k y.2) := by
          rw [he]; simp only [Task.step]; rw [hy]
        have H' := H.step (.works s n _ _ hw hrep hx) (calm ha)
        obtain ⟨s', e1, e2⟩ := ih y.2 _ H' ha hw hrep (if_pos rfl)
        exact ⟨s', e1, e2⟩
  obtain ⟨hwk, -⟩ := run_inv ht (fun _ _ => ⟨hq.2, hq.1⟩) (undisturbed_reach H)
  rcases hwk.reports n with e | e | ⟨v, q, e, e'⟩
  · have H' := H.step (.opens s n hw e) (calm ha)
    obtain ⟨s', e1, e2⟩ := p2 _ _ H' ha hw (if_pos rfl) rfl
    exact ⟨s', e1, e2⟩
  · exact p2 _ _ H ha hw e rfl
  · have htodo : n ∈ c.todo := (inv_reach ht.todo (run_reach (undisturbed_reach H))).sub n hw.1
    have e1 := work_end ht hq hu hp hS hsub (undisturbed_reach H) htodo
      (fun h => hw.2 (taken_ready ht (undisturbed_reach H) h)) e'
    rw [hr] at e1
    cases e1
    exact p1 _ H ha hw e

/-- The steps of the scheduler, of the main thread and of the workers can be done with their files. -/
private theorem own_step (ht : Tidy c) (hq : NotAsking c.cfg) (hu : c.cfg.update = false) (hff : NeverStops c.P c.cfg fs c.todo)
    (hp : PlainNames ns) (hS : SoundTree c.P.root ns fs) (hsub : ∀ n ∈ c.todo, n ∈ ns) (hb : ∀ n b, ¬ c.breaks n b)
    (H : Undisturbed c (mkdirs fs c.P.out) ans s) (ha : s.run.abort = false) {p : PSt fl}
    (h : PStep (ownConf c fs) s.run p) (hpa : p.abort = false) :
    ∃ s', Undisturbed c (mkdirs fs c.P.out) ans s' ∧ s'.run = p := by
  have calm : ∀ {s' : RSt fl}, s'.run.abort = false → (s'.run.abort = true → ∃ x, s'.run.rpc = .ended x) := by
    intro s' h h'; rw [h] at h'; cases h'
  have hc := calmly ht hq hu hff hp hS hsub hb (undisturbed_reach H)
  have sched : ∀ {p : PSt fl}, PStep c.pconf s.run p → p.rpc = s.run.rpc → p.ready = s.run.ready → p.abort = false →
      ∃ s', Undisturbed c (mkdirs fs c.P.out) ans s' ∧ s'.run = p :=
    fun h1 h2 h3 h4 => ⟨_, H.step (.scheduler s _ h1 h2 h3) (calm h4), rfl⟩
  have main : ∀ {p : PSt fl}, PStep c.pconf s.run p → (∀ r, s.run.rpc ≠ .reviewing r) → (∀ r, p.rpc ≠ .reviewing r) →
      p.ready = s.run.ready → p.abort = false → ∃ s', Undisturbed c (mkdirs fs c.P.out) ans s' ∧ s'.run = p :=
    fun h1 h2 h3 h4 h5 => ⟨_, H.step (.main s _ h1 h2 h3 h4) (calm h5), rfl⟩
  cases h with
  | planned order l h1 hd ha' ho hl =>
    exact sched (.planned _ order l h1 hd ha' ho (by rw [← plan_own]; exact hl)) rfl rfl ha
  | stop h1 hd => exact sched (.stop _ h1 hd) rfl rfl ha
  | start n ns h1 hn => exact sched (.start _ n ns h1 hn) rfl rfl ha
  | skip n ns h1 hn => exact sched (.skip _ n ns h1 hn) rfl rfl ha
  | startedAll h1 => exact sched (.startedAll _ h1) rfl rfl ha
  | again h1 ha' => exact sched (.again _ h1 ha') rfl rfl ha
  | leave d h1 hd => exact sched (.leave _ d h1 hd) rfl rfl ha
  | seeReady n rest d h1 hr => exact sched (.seeReady _ n rest d h1 hr) rfl rfl ha
  | seeBusy n rest d h1 hr => exact sched (.seeBusy _ n rest d h1 hr) rfl rfl ha
  | swept d h1 => exact sched (.swept _ d h1) rfl rfl ha
  | collected d d' rs h1 hp' hr => exact sched (.collected _ d d' rs h1 hp' hr) rfl rfl ha
  | crash d d' h1 hp' hr => exact sched (.crash _ d d' h1 hp' hr) rfl rfl ha
  | publish rs h1 => exact sched (.publish _ rs h1) rfl rfl ha
  | finish n b h1 hr hb' =>
    obtain ⟨-, r, e1, rfl⟩ := hb'
    exact worker_finishes ht hq hu hp hS hsub e1 H ha ⟨h1, hr⟩
  | more h1 hn => exact main (.more _ h1 hn) (in_check h1) (in_waiting rfl) rfl ha
  | noMore h1 hn => exact main (.noMore _ h1 hn) (in_check h1) (in_leftover rfl) rfl ha
  | take r q h1 hq' =>
    obtain ⟨v, rest, e1, -⟩ := unasked_review (P := c.P) hq r.1 r.2.1 s.ans
    exact ⟨_, H.step (.takes s r q v rest h1 hq' e1) (calm ha), rfl⟩
  | reviewed r res ab h1 hv =>
    obtain ⟨rfl, _, e1, e2⟩ := hv
    cases e1
    obtain ⟨v, e3⟩ := hc.review r h1
    obtain ⟨e4, x, q, e5⟩ := review_done ht hq hu hp hS hsub (undisturbed_reach H) v e3
    have e6 : v.final r.2.1 = .res res := by
      unfold PReview.final
      rw [e4, e2]; rfl
    have hok := never_stops ht hq hu hff hp hS hsub
      ((undisturbed_reach H).step (.reviewed s r v res x q h1 e3 e5 e6)) (List.mem_append_right _ (List.mem_singleton.mpr rfl))
    refine ⟨_, H.step (.reviewed s r v res x q h1 e3 e5 e6) (calm ?_), ?_⟩
    · dsimp only
      rw [ha, hc.request v e3, hok]; rfl
    · dsimp only
      rw [hc.request v e3, hok]; rfl
  | reviewedText r t ab h1 hv =>
    obtain ⟨-, _, e1, -⟩ := hv
    cases e1
  | reviewRaises r h1 hv => exact hv.elim
  | interrupt h1 => cases hpa
  | recordLeft k x n res d h1 hq' => exact main (.recordLeft _ k x n res d h1 hq') (in_leftover h1) (in_leftover rfl) rfl ha
  | recordLeftText k x n t d h1 hq' => cases hpa
  | finished k x h1 hq' => cases hpa

/-- A run that comes to its end. -/
theorem undisturbed_end (ht : Tidy c) (hq : NotAsking c.cfg) (hu : c.cfg.update = false) (hff : NeverStops c.P c.cfg fs c.todo)
    (hp : PlainNames ns) (hS : SoundTree c.P.root ns fs) (hsub : ∀ n ∈ c.todo, n ∈ ns)
    (hb : ∀ n b, ¬ c.breaks n b) {rank : Str → Nat} (hr : ∀ n ∈ c.todo, ∀ d ∈ c.deps n, d ∈ c.todo → rank d < rank n)
    (hh : ∀ n ∈ c.todo, runTest (c.P.env (snapshot c.P.root fs n)) (c.P.tests n).body ≠ none) :
    ∃ s, Undisturbed c (mkdirs fs c.P.out) ans s ∧ s.run.spc = .stopped ∧ s.run.rpc = .ended false ∧
      ∀ n ∈ s.run.started, n ∈ s.run.ready := by
  have hB : Behaved (ownConf c fs) := by
    refine ⟨ht.todo, ht.batches, ?_⟩
    rintro n hn b ⟨-, r, -, rfl⟩
    exact ⟨_, collect_complete _ (ht.names n hn) r _, rfl⟩
  have hA : Able (ownConf c fs) := by
    refine ⟨fun n hn => ?_, fun r hg => ?_⟩
    · obtain ⟨r, e⟩ := own_result hh hn
      exact ⟨_, hn, r, e, rfl⟩
    · obtain ⟨b, ⟨hn, r0, -, rfl⟩, e⟩ := hg
      rw [collect_complete _ (ht.names _ hn)] at e
      have e1 : r.2.1 = .res r0 := by injection e with e; rw [← e]
      exact ⟨r0, rfl, r0, rfl, e1⟩
  obtain ⟨L, f, k0, k1, k2, k3, k4, k5⟩ := run_exists (c := ownConf c fs) (rank := rank) hr hB hA (s := PSt.init (ownConf c fs)) .init rfl
    (Or.inl rfl)
  have path : ∀ i, i ≤ L → ∃ s, Undisturbed c (mkdirs fs c.P.out) ans s ∧ s.run = f i := by
    intro i
    induction i with
    | zero => intro _; exact ⟨_, .init, k0.symm⟩
    | succ i ih =>
      intro hi
      obtain ⟨s, h1, h2⟩ := ih (by omega)
      exact own_step ht hq hu hff hp hS hsub hb h1 (by rw [h2]; exact k2 i (by omega))
        (by rw [h2]; exact k1 i (by omega)) (k2 (i + 1) hi)
  obtain ⟨s, h1, h2⟩ := path L (Nat.le_refl L)
  obtain ⟨g1, g2, g3, g4, g5⟩ := loop_end (c := ownConf c fs) (rank := rank) hr hB k3 (k2 L (Nat.le_refl L)) k4 k5
  rw [← h2] at g1 g2 g3 g4 g5 k4 k5
  have hab : s.run.abort = false := by rw [h2]; exact k2 L (Nat.le_refl L)
  have hstop : ∃ s, Undisturbed c (mkdirs fs c.P.out) ans s ∧ (∀ n ∈ s.run.started, n ∈ s.run.ready) ∧
      s.run.spc = .stopped ∧ s.run.queue = [] ∧ s.run.rpc = .check ∧ hasNext s.run = false ∧ s.run.abort = false := by
    rcases g2 with e | e
    · refine ⟨_, h1.step (.scheduler s _ (.stop _ e (fun h => g5 h.1)) rfl rfl) (fun h => ?_), g1, rfl, g3, k4, k5, hab⟩
      exact absurd (hab.symm.trans h) (by decide)
    · exact ⟨s, h1, g1, e, g3, k4, k5, hab⟩
  obtain ⟨s, h1, g1, g2, g3, k4, k5, hab⟩ := hstop
  have h3 := h1.step (.main s _ (.noMore _ k4 k5) (in_check k4) (in_leftover rfl) rfl)
    (fun h => absurd (hab.symm.trans h) (by decide))
  have h4 := h3.step (.main _ _ (.finished _ 0 false rfl (by
    show s.run.queue[0]? = none
    rw [g3]; rfl)) (in_leftover rfl) (in_ended rfl) rfl) (fun _ => ⟨_, rfl⟩)
  exact ⟨_, h4, g2, rfl, g1⟩

/-- **C124**: under these conditions there are such executions. -/
theorem C124_exists (ht : Tidy c) (hq : NotAsking c.cfg) (hu : c.cfg.update = false) (hff : NeverStops c.P c.cfg fs c.todo)
    (hp : PlainNames ns) (hS : SoundTree c.P.root ns fs) (hsub : ∀ n ∈ c.todo, n ∈ ns)
    (hb : ∀ n b, ¬ c.breaks n b) {rank : Str → Nat} (hr : ∀ n ∈ c.todo, ∀ d ∈ c.deps n, d ∈ c.todo → rank d < rank n)
    (hh : ∀ n ∈ c.todo, runTest (c.P.env (snapshot c.P.root fs n)) (c.P.tests n).body ≠ none) :
    ∃ σ, FairRun c (mkdirs fs c.P.out) ans σ := by
  obtain ⟨s, h1, h2, h3, h4⟩ := undisturbed_end (ans := ans) ht hq hu hff hp hS hsub hb hr hh
  exact fair_of_end h1 h2 h3 h4

private def prints (x : String) : Project where
  u := ascii
  pointErrorPos := false
  refmt := some
  root := ["books".toList]
  tests := fun n => ⟨⟨[.header "# t".toList, .tln (x.toList ++ n)], none⟩, [], [], none⟩

private theorem empty_sound (ns : List Str) : SoundTree ["books".toList] ns [([], .dir)] := by
  have g : ∀ p, FS.get [([], .dir)] p = if p = [] then some .dir else none := by
    intro p; rw [get_cons]; rfl
  refine ⟨?_, rfl, ?_, ?_, ?_, ?_, ?_⟩
  · intro p c h; rw [g, if_neg (by simp)] at h; cases h
  · intro n _ o q _ t; rw [g]; split <;> simp
  · intro n _ o x hx _; rw [g, if_neg (slot_ne_nil _ o n (Or.inr hx))]; simp
  · intro n _ o x hx t; rw [g]; split <;> simp
  · decide
  · intro q _ t; rw [g]; split <;> simp

private def both : List Str := ["t/a".toList, "t/b".toList]

private theorem both_plain : PlainNames both := by
  refine ⟨?_, ?_⟩
  · intro n hn
    simp only [both, List.mem_cons, List.not_mem_nil, or_false] at hn
    rcases hn with rfl | rfl
    · exact ⟨by decide, by decide, by decide⟩
    · exact ⟨by decide, by decide, by decide⟩
  · unfold NotNested; decide

/-- Two tests, about which nobody is asked. -/
private def pairOf (cfg : Config) : RConf strokes where
  u := ascii
  P := prints "x"
  cfg := cfg
  all := both
  todo := both
  deps := fun _ => []
  res := fun _ => []
  zero := (0 : Nat)
  dur := fun _ => (1 : Nat)
  breaks := fun _ _ => False

private theorem pair_tidy (cfg : Config) : Tidy (pairOf cfg) :=
  ⟨(by decide : both.Nodup), (by decide : ∀ a ∈ both, ∀ b ∈ both, batchName a = batchName b → a = b),
    (by unfold CleanName; decide : ∀ n ∈ both, CleanName n)⟩

/-- Two tests are executed at the same time until the run is over. -/
private theorem pair_fair : ∃ σ, FairRun (pairOf { accept := true, failFast := true }) (mkdirs [([], .dir)] (prints "x").out) [] σ := by
  have h0 : Undisturbed (pairOf { accept := true, failFast := true }) (mkdirs [([], .dir)] (prints "x").out) [] _ := .init
  have h1 := h0.step (.scheduler _ _ (.planned _ both both rfl (by decide) rfl (by decide) (by decide)) rfl rfl) (fun e => by cases e)
  have h2 := h1.step (.scheduler _ _ (.start _ _ _ rfl (by decide)) rfl rfl) (fun e => by cases e)
  have h3 := h2.step (.scheduler _ _ (.start _ _ _ rfl (by decide)) rfl rfl) (fun e => by cases e)
  have h4 := h3.step (.opens _ "t/a".toList ⟨by decide, by decide⟩ rfl) (fun e => by cases e)
  have h5 := undisturbed_works h4 rfl "t/a".toList ⟨by decide, by decide⟩ rfl 7 rfl
  have h6 := h5.step (.opens _ "t/b".toList ⟨by decide, by decide⟩ rfl) (fun e => by cases e)
  have h7 := undisturbed_works h6 rfl "t/b".toList ⟨by decide, by decide⟩ rfl 5 rfl
  have h8 := undisturbed_works h7 rfl "t/a".toList ⟨by decide, by decide⟩ rfl 11 rfl
  have h9 := h8.step (.writes _ "t/a".toList .OK .NONE ⟨by decide, by decide⟩ rfl rfl) (fun e => by cases e)
  have h10 := h9.step (.indexes _ "t/a".toList _ _ _ ⟨by decide, by decide⟩ rfl rfl rfl) (fun e => by cases e)
  have h11 := h10.step (.scheduler _ _ (.startedAll _ rfl) rfl rfl) (fun e => by cases e)
  have h12 := undisturbed_works h11 rfl "t/b".toList ⟨by decide, by decide⟩ rfl 13 rfl
  have h13 := h12.step (.writes _ "t/b".toList .OK .NONE ⟨by decide, by decide⟩ rfl rfl) (fun e => by cases e)
  have h14 := h13.step (.indexes _ "t/b".toList _ _ _ ⟨by decide, by decide⟩ rfl rfl rfl) (fun e => by cases e)
  have h15 := h14.step (.ends _ "t/b".toList ⟨by decide, by decide⟩ (.whole rfl)) (fun e => by cases e)
  have h16 := h15.step (.scheduler _ _ (.again _ rfl rfl) rfl rfl) (fun e => by cases e)
  have h17 := h16.step (.scheduler _ _ (.seeBusy _ _ _ _ rfl (by decide)) rfl rfl) (fun e => by cases e)
  have h18 := h17.step (.scheduler _ _ (.seeReady _ _ _ _ rfl (by decide)) rfl rfl) (fun e => by cases e)
  have h19 := h18.step (.scheduler _ _ (.swept _ _ rfl) rfl rfl) (fun e => by cases e)
  have h20 := h19.step (.scheduler _ _ (.leave _ _ rfl (Or.inl (by decide))) rfl rfl) (fun e => by cases e)
  have h21 := h20.step (.scheduler _ _ (.collected _ _ ["t/b".toList]
    [("t/b".toList, .res .OK, (1 : Nat))] rfl (by decide) (by decide +kernel)) rfl rfl) (fun e => by cases e)
  have h22 := h21.step (.scheduler _ _ (.publish _ _ rfl) rfl rfl) (fun e => by cases e)
  have h23 := h22.step (.main _ _ (.more _ rfl (by decide)) (in_check rfl) (in_waiting rfl) rfl) (fun e => by cases e)
  have h24 := h23.step (.takes _ ("t/b".toList, .res .OK, (1 : Nat)) [] _ _ rfl (by decide) rfl) (fun e => by cases e)
  have h26 := h24.step (.ends _ "t/a".toList ⟨by decide, by decide⟩ (.whole rfl)) (fun e => by cases e)
  have h27 := h26.step (.reviewed _ _ _ .OK _ _ rfl rfl rfl rfl) (fun e => by cases e)
  have h28 := h27.step (.scheduler _ _ (.planned _ [] [] rfl (by decide) rfl (by decide) (by decide)) rfl rfl) (fun e => by cases e)
  have h29 := h28.step (.scheduler _ _ (.startedAll _ rfl) rfl rfl) (fun e => by cases e)
  have h30 := h29.step (.scheduler _ _ (.again _ rfl rfl) rfl rfl) (fun e => by cases e)
  have h31 := h30.step (.scheduler _ _ (.seeReady _ "t/a".toList [] _ rfl (by decide)) rfl rfl) (fun e => by cases e)
  have h32 := h31.step (.scheduler _ _ (.swept _ _ rfl) rfl rfl) (fun e => by cases e)
  have h33 := h32.step (.scheduler _ _ (.leave _ _ rfl (Or.inl (by decide))) rfl rfl) (fun e => by cases e)
  have h34 := h33.step (.scheduler _ _ (.collected _ _ ["t/a".toList]
    [("t/a".toList, .res .OK, (1 : Nat))] rfl (by decide) (by decide +kernel)) rfl rfl) (fun e => by cases e)
  have h35 := h34.step (.main _ _ (.more _ rfl (by decide)) (in_check rfl) (in_waiting rfl) rfl) (fun e => by cases e)
  have h36 := h35.step (.scheduler _ _ (.publish _ _ rfl) rfl rfl) (fun e => by cases e)
  have h37 := h36.step (.takes _ ("t/a".toList, .res .OK, (1 : Nat)) [] _ _ rfl (by decide) rfl) (fun e => by cases e)
  have h38 := h37.step (.reviewed _ _ _ .OK _ _ rfl rfl rfl rfl) (fun e => by cases e)
  have h39 := h38.step (.main _ _ (.noMore _ rfl (by decide)) (in_check rfl) (in_leftover rfl) rfl) (fun e => by cases e)
  have h40 := h39.step (.main _ _ (.finished _ 0 false rfl rfl) (in_leftover rfl) (in_ended rfl) rfl) (fun _ => ⟨_, rfl⟩)
  have h41 := h40.step (.scheduler _ _ (.stop _ rfl (by decide)) rfl rfl) (fun _ => ⟨_, rfl⟩)
  exact fair_of_end h41 rfl rfl (by decide)

private theorem pair_never : NeverStops (prints "x") { accept := true, failFast := true } [([], .dir)] both := by
  intro _ n hn s hs
  refine Or.inr (Or.inr ⟨?_, rfl⟩)
  rcases List.mem_cons.mp hn with rfl | hn
  · cases hs
    decide +kernel
  · cases List.mem_singleton.mp hn
    cases hs
    decide +kernel

/-- Two tests whose run ends as C124 says; `-f` is given and stops nothing. -/
example : ∃ (c : RConf strokes) (fs : FS) (σ : Nat → RSt strokes) (ns : List Str), Tidy c ∧ NotAsking c.cfg ∧
    c.cfg.update = false ∧ NeverStops c.P c.cfg fs c.todo ∧ c.u = c.P.u ∧ PlainNames ns ∧ SoundTree c.P.root ns fs ∧
    (∀ n ∈ c.todo, n ∈ ns) ∧ (∀ n b, ¬ c.breaks n b) ∧
    (∀ n ∈ c.todo, ∀ d ∈ c.deps n, d ∈ c.todo → (0 : Nat) < 0) ∧
    (∀ n ∈ c.todo, runTest (c.P.env (snapshot c.P.root fs n)) (c.P.tests n).body ≠ none) ∧
    ofFile c.u strokes none = some [] ∧ c.todo = toRun c.cfg ([] : List (Rec strokes)) both ∧ c.todo = both ∧
    FairRun c (mkdirs fs c.P.out) [] σ := by
  obtain ⟨σ, h⟩ := pair_fair
  refine ⟨pairOf { accept := true, failFast := true }, _, σ, both, pair_tidy _, ⟨rfl, rfl⟩, rfl, pair_never, rfl, both_plain, empty_sound _,
    fun _ h => h, fun _ _ h => h, fun _ _ _ h => (by cases h), ?_, rfl, by decide, rfl, h⟩
  intro n hn
  rcases List.mem_cons.mp hn with rfl | hn
  · exact fun e => absurd (congrArg Option.isSome e) (by decide +kernel)
  · rw [List.mem_singleton.mp hn]
    exact fun e => absurd (congrArg Option.isSome e) (by decide +kernel)

end Verif.Props
