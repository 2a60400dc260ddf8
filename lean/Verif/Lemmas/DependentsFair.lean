import Verif.Lemmas.DependentsWorkers

/-! # Fair executions of parallel runs of tests with dependencies (C129) -/

namespace Verif.Lemmas
open Verif.Py Verif.Model Verif.Spec Verif.Props

variable {fl : Durations} {c : DConf fl} {size : Nat} {fs : FS} {ans : List Str} {ns : List Str} {val : Str → Option Str}
  {σ : Nat → DSt fl}

/-- A task does not go on with itself. -/
private theorem load_ne : ∀ (t : DTask) (d : Str) (k : Loaded Str → DTask), t = .load d k → ∀ v, k v ≠ t := by
  intro t
  induction t with
  | task r t => intro d k h; cases h
  | act o k ih => intro d k h; cases h
  | load d k ih =>
    intro d' k' h v e
    injection h with h1 h2
    rw [← h2] at e
    exact ih v d k e v rfl

/-- A worker can do something, unless its test hangs. -/
private theorem can_move (h : DSetting c ns fs val) {s : DSt fl} {W : Str → Task} (hs : Sim c ns fs ans val s W) (hb : Bounded s)
    {n : Str} (hw : s.r.Works n) : (∃ s', DStep c s s' ∧ MovesD n s s') ∨
      (s.r.reports n = some [] ∧ s.r.indexed n = false ∧ (W n = .done .hangs ∨ W n = .done .eof)) := by
  have runner : ∀ {r : RSt fl}, RStep (c.conf c.D.dirs) s.r r → r.ran = s.r.ran → Spec.Moves n s.r r →
      ∃ s', DStep c s s' ∧ MovesD n s s' := fun h1 h2 h3 => ⟨_, .runner s _ h1 h2, Or.inl h3⟩
  have ends : ∀ (_ : Over (c.conf c.D.dirs) s.r n), ∃ s', DStep c s s' ∧ MovesD n s s' := fun ho =>
    runner (.ends s.r n hw ho) rfl (Or.inr (Or.inr (Or.inr ⟨hw.2, by simp⟩)))
  cases hi : s.r.indexed n with
  | true => exact Or.inl (ends (.whole hi))
  | false =>
    obtain ⟨hinv, -⟩ := run_inv h.tidyP (fun _ _ => ⟨h.quiet.2, h.quiet.1⟩) hs.reach
    rcases hinv.reports n with e | e | ⟨r, q, e, -⟩
    · have e : s.r.reports n = none := e
      refine Or.inl (runner (.opens s.r n hw e) rfl (Or.inr (Or.inl ?_)))
      dsimp only
      rw [if_pos rfl, e]
      exact fun x => by cases x
    · have e : s.r.reports n = some [] := e
      cases hp : s.proc n with
      | none =>
        obtain ⟨b, hb⟩ := hb
        refine Or.inl ⟨_, .take s n b hw hp (fun a ha => absurd (hb a b ha) (Nat.lt_irrefl _)), Or.inr (Or.inl ?_)⟩
        dsimp only
        rw [if_pos rfl, hp]
        exact fun x => by cases x
      | some p =>
        cases hc : s.call n with
        | load d k =>
          refine Or.inl ⟨_, .loads s n p d k hw hp e hc, Or.inr (Or.inr ?_)⟩
          show (if n = n then _ else _) ≠ _
          rw [if_pos rfl, hc]
          exact load_ne _ d k rfl _
        | act o k =>
          cases hx : o.run s.r.fs with
          | ok y =>
            obtain ⟨g, a⟩ := y
            exact Or.inl ⟨_, .acts s n p o k g a hw hp e hc hx, Or.inl (Or.inl rfl)⟩
          | error x => exact Or.inl ⟨_, .fails s n p o k x hw hp e hc hx, Or.inl (Or.inl rfl)⟩
        | task ret t =>
          cases t with
          | act o k =>
            cases hst : (Task.act o k).step s.r.fs with
            | none =>
              simp only [Task.step] at hst
              cases hx : o.run s.r.fs with
              | ok y => rw [hx] at hst; cases hst
              | error x => rw [hx] at hst; cases hst
            | some y =>
              obtain ⟨g, t'⟩ := y
              exact Or.inl ⟨_, .works s n p ret _ t' g hw hp e hc hst, Or.inl (Or.inl rfl)⟩
          | done x =>
            have hr : s.r.work n = .done x := by rw [hs.rest n, hc]; rfl
            have hW : W n = .done x := follows_rest (hs.call n) (by rw [hc]; rfl)
            cases x with
            | eof => exact Or.inr ⟨e, rfl, Or.inr hW⟩
            | hangs => exact Or.inr ⟨e, rfl, Or.inl hW⟩
            | error y => exact Or.inl (ends (.raised y hr))
            | done r q =>
              refine Or.inl (runner (.writes s.r n r q hw e hr) rfl (Or.inr (Or.inl ?_)))
              dsimp only
              rw [if_pos rfl, e]
              exact fun x => by cases x
    · obtain ⟨rec, e⟩ : ∃ rec, s.r.reports n = some [rec] := ⟨_, e⟩
      cases hx : (FsOp.write ((c.conf c.D.dirs).P.root ++ ["index.md".toList]) (indexText (c.conf c.D.dirs).all)).run s.r.fs with
      | error x => exact Or.inl (ends (.noIndex rec x e hx))
      | ok y =>
        obtain ⟨g, a⟩ := y
        refine Or.inl (runner (.indexes s.r n rec g a hw e hi hx) rfl (Or.inr (Or.inr (Or.inl ?_))))
        dsimp only
        rw [if_pos rfl, hi]
        exact fun x => by cases x

/-- What a worker does that is not seen in the run. -/
private theorem unseen {s s' : DSt fl} {n : Str} (h : DStep c s s') (hm : ¬ Spec.Moves n s.r s'.r) :
    (s'.proc n = s.proc n ∧ s'.call n = s.call n) ∨
    (s.proc n = none ∧ (∃ p, s'.proc n = some p) ∧ s'.call n = s.call n) ∨
    (∃ p d k, s.r.Works n ∧ s.proc n = some p ∧ s'.proc n = some p ∧ s.call n = .load d k ∧
      s'.call n = k (loadResult (s.cache p) (storeOf c.D.dirs.out s.r.fs) d).1) := by
  cases h with
  | runner r hr hran => exact Or.inl ⟨rfl, rfl⟩
  | take m p hw hn hp =>
    by_cases e : n = m
    · refine Or.inr (Or.inl ⟨by rw [e]; exact hn, ⟨p, ?_⟩, rfl⟩)
      dsimp only
      rw [if_pos e]
    · refine Or.inl ⟨?_, rfl⟩
      dsimp only
      rw [if_neg e]
  | acts m p o k g a hw hp hrep hc hx =>
    by_cases e : n = m
    · exact absurd (Or.inl (by rw [e]; rfl)) hm
    · exact Or.inl ⟨rfl, if_neg e⟩
  | fails m p o k x hw hp hrep hc hx =>
    by_cases e : n = m
    · exact absurd (Or.inl (by rw [e]; rfl)) hm
    · exact Or.inl ⟨rfl, if_neg e⟩
  | works m p ret t t' g hw hp hrep hc hst =>
    by_cases e : n = m
    · exact absurd (Or.inl (by rw [e]; rfl)) hm
    · exact Or.inl ⟨rfl, if_neg e⟩
  | loads m p d k hw hp hrep hc =>
    by_cases e : n = m
    · rw [e]
      exact Or.inr (Or.inr ⟨p, d, k, hw, hp, hp, hc, if_pos rfl⟩)
    · exact Or.inl ⟨rfl, if_neg e⟩

private theorem bounded_step {s s' : DSt fl} (hb : Bounded s) (h : DStep c s s') : Bounded s' := by
  obtain ⟨b, hb⟩ := hb
  cases h with
  | take m p hw hn hp =>
    refine ⟨max b (p + 1), ?_⟩
    intro a q hq
    dsimp only at hq
    split at hq
    · cases hq; omega
    · have := hb a q hq; omega
  | _ => exact ⟨b, hb⟩

theorem fairD_reach (hf : FairRunD c size fs ans σ) (i : Nat) : DReach c size fs ans (σ i) := by
  induction i with
  | zero => rw [hf.init]; exact .init
  | succ i ih =>
    rcases hf.step i with h | h
    · exact ih.step h
    · rw [h]; exact ih

/-- A fair execution of tests with dependencies is one of the tests that are called with the values. -/
theorem fair_values (h : DSetting c ns fs val) (hsize : 0 < size) (hf : FairRunD c size (mkdirs fs c.D.dirs.out) ans σ) :
    ∃ τ : Nat → RSt fl, FairRun (c.conf (filledP c.D val)) (mkdirs fs c.D.dirs.out) ans τ ∧
      ∀ i, ({ (σ i).r with work := (τ i).work } : RSt fl) = τ i := by
  have hb : ∀ i, Bounded (σ i) := by
    intro i
    induction i with
    | zero => rw [hf.init]; exact ⟨0, fun n p e => by cases e⟩
    | succ i ih =>
      rcases hf.step i with e | e
      · exact bounded_step ih e
      · rw [e]; exact ih
  have start : Sim c ns fs ans val (σ 0) (RSt.init (c.conf (filledP c.D val)) (mkdirs fs c.D.dirs.out) ans).work := by
    rw [hf.init]
    exact ⟨.init, fun n => follows_case val, fun n => rfl, fun p => empty_sure (c := .lru size []) ⟨hsize, rfl⟩ _ _ _⟩
  have next : ∀ i W, Sim c ns fs ans val (σ i) W → ∃ W', Sim c ns fs ans val (σ (i + 1)) W' ∧
      (RStep (c.conf (filledP c.D val)) { (σ i).r with work := W } { (σ (i + 1)).r with work := W' } ∨
        ({ (σ i).r with work := W } : RSt fl) = { (σ (i + 1)).r with work := W' }) := by
    intro i W hs
    rcases hf.step i with e | e
    · exact sim_step h hs e
    · rw [e]; exact ⟨W, hs, Or.inr rfl⟩
  let f : (i : Nat) → { W : Str → Task // Sim c ns fs ans val (σ i) W } := fun i =>
    Nat.rec (motive := fun i => { W : Str → Task // Sim c ns fs ans val (σ i) W }) ⟨_, start⟩
      (fun i x => ⟨Classical.choose (next i x.1 x.2), (Classical.choose_spec (next i x.1 x.2)).1⟩) i
  have hstep : ∀ i, RStep (c.conf (filledP c.D val)) { (σ i).r with work := (f i).1 } { (σ (i + 1)).r with work := (f (i + 1)).1 } ∨
      ({ (σ i).r with work := (f i).1 } : RSt fl) = { (σ (i + 1)).r with work := (f (i + 1)).1 } :=
    fun i => (Classical.choose_spec (next i (f i).1 (f i).2)).2
  refine ⟨fun i => { (σ i).r with work := (f i).1 }, ⟨?_, ?_, hf.undisturbed, ?_, hf.scheduler, hf.main⟩, fun i => rfl⟩
  · show ({ (σ 0).r with work := (RSt.init (c.conf (filledP c.D val)) (mkdirs fs c.D.dirs.out) ans).work } : RSt fl) = _
    rw [hf.init]
    rfl
  · intro i
    rcases hstep i with e | e
    · exact Or.inl e
    · exact Or.inr e.symm
  · intro i n hw hen
    refine Classical.byContradiction fun hno => ?_
    have hm : ∀ j, i ≤ j → ¬ Spec.Moves n (σ j).r (σ (j + 1)).r := fun j hj hx => hno ⟨j, hj, hx⟩
    -- the worker stays where it is
    have stays : ∀ d, (σ (i + d)).r.Works n ∧ (σ (i + d)).r.reports n = (σ i).r.reports n ∧
        (σ (i + d)).r.indexed n = (σ i).r.indexed n ∧ (f (i + d)).1 n = (f i).1 n := by
      intro d
      induction d with
      | zero => exact ⟨hw, rfl, rfl, rfl⟩
      | succ d ih =>
        obtain ⟨i1, i2, i3, i4⟩ := ih
        have hmd := hm (i + d) (Nat.le_add_right i d)
        show (σ (i + d + 1)).r.Works n ∧ (σ (i + d + 1)).r.reports n = _ ∧ (σ (i + d + 1)).r.indexed n = _ ∧ (f (i + d + 1)).1 n = _
        have r1 : (σ (i + d + 1)).r.reports n = (σ (i + d)).r.reports n :=
          Classical.byContradiction fun e => hmd (Or.inr (Or.inl e))
        have r2 : (σ (i + d + 1)).r.indexed n = (σ (i + d)).r.indexed n :=
          Classical.byContradiction fun e => hmd (Or.inr (Or.inr (Or.inl e)))
        have r3 : n ∉ (σ (i + d + 1)).r.run.ready := fun e => hmd (Or.inr (Or.inr (Or.inr ⟨i1.2, e⟩)))
        refine ⟨⟨?_, r3⟩, r1.trans i2, r2.trans i3, ?_⟩
        · rcases hstep (i + d) with e | e
          · rcases rstep_run (f (i + d)).2.reach e with e' | e'
            · rw [show (σ (i + d + 1)).r.run = (σ (i + d)).r.run from e']; exact i1.1
            · exact started_mono e' i1.1
          · rw [show (σ (i + d + 1)).r.run = (σ (i + d)).r.run from (congrArg RSt.run e).symm]; exact i1.1
        · rw [← i4]
          rcases hstep (i + d) with e | e
          · generalize hs1 : ({ (σ (i + d)).r with work := (f (i + d)).1 } : RSt fl) = s1 at e
            generalize hs2 : ({ (σ (i + d + 1)).r with work := (f (i + d + 1)).1 } : RSt fl) = s2 at e
            have q1 : (f (i + d)).1 = s1.work := by rw [← hs1]
            have q2 : (f (i + d + 1)).1 = s2.work := by rw [← hs2]
            have q3 : ¬ Spec.Moves n s1 s2 := by rw [← hs1, ← hs2]; exact hmd
            rw [q1, q2]
            cases e with
            | works m g t hw hr ht =>
              dsimp only
              rw [if_neg]
              intro e
              exact q3 (Or.inl (by rw [e]))
            | _ => rfl
          · exact (congrFun (congrArg RSt.work e) n).symm
    have stay : ∀ j, i ≤ j → (σ j).r.Works n ∧ (σ j).r.reports n = (σ i).r.reports n ∧
        (σ j).r.indexed n = (σ i).r.indexed n ∧ (f j).1 n = (f i).1 n := by
      intro j hj
      have := stays (j - i)
      rw [show i + (j - i) = j by omega] at this
      exact this
    -- it does not hang
    have nohang : ¬ ((σ i).r.reports n = some [] ∧ (σ i).r.indexed n = false ∧
        ((f i).1 n = .done .hangs ∨ (f i).1 n = .done .eof)) := by
      rintro ⟨e1, e2, e3⟩
      obtain ⟨s', h1, h2⟩ := hen
      have hW : ∀ g t, ((f i).1 n).step (σ i).r.fs ≠ some (g, t) := by
        intro g t e
        rcases e3 with e3 | e3 <;> (rw [e3] at e; cases e)
      have quiet : ∀ {s' : RSt fl}, Spec.Moves n { (σ i).r with work := (f i).1 } s' → s'.ran = (σ i).r.ran →
          s'.reports n = (σ i).r.reports n → s'.indexed n = (σ i).r.indexed n → s'.run.ready = (σ i).r.run.ready → False := by
        intro s' hmv a1 a2 a3 a4
        rcases hmv with b | b | b | ⟨b1, b2⟩
        · rw [a1] at b
          have := congrArg List.length b
          simp at this
        · exact b a2
        · exact b a3
        · rw [a4] at b2; exact b1 b2
      cases h1 with
      | scheduler p hp hr hy => exact quiet h2 rfl rfl rfl hy
      | main p hp hr hpr hy => exact quiet h2 rfl rfl rfl hy
      | opens m hw' hr =>
        by_cases e : n = m
        · rw [← e] at hr
          have hr : (σ i).r.reports n = none := hr
          rw [e1] at hr; cases hr
        · exact quiet h2 rfl (if_neg e) rfl rfl
      | works m g t hw' hr ht =>
        by_cases e : n = m
        · rw [← e] at ht
          exact hW g t ht
        · rcases h2 with b | b | b | ⟨b1, b2⟩
          · have b : (σ i).r.ran ++ [m] = (σ i).r.ran ++ [n] := b
            have := List.append_cancel_left b
            injection this with this
            exact e this.symm
          · exact b rfl
          · exact b rfl
          · exact b1 b2
      | writes m r q hw' hr hd =>
        by_cases e : n = m
        · rw [← e] at hd
          have hd : (f i).1 n = .done (.done r q) := hd
          rcases e3 with e3 | e3 <;> (rw [e3] at hd; cases hd)
        · exact quiet h2 rfl (if_neg e) rfl rfl
      | indexes m rec g a hw' hr hi hx =>
        by_cases e : n = m
        · rw [← e] at hr
          have hr : (σ i).r.reports n = some [rec] := hr
          rw [e1] at hr; cases hr
        · exact quiet h2 rfl rfl (if_neg e) rfl
      | ends m hw' ho =>
        by_cases e : n = m
        · rw [← e] at ho
          cases ho with
          | whole hx =>
            have hx : (σ i).r.indexed n = true := hx
            rw [e2] at hx; cases hx
          | noIndex rec x hx hx' =>
            have hx : (σ i).r.reports n = some [rec] := hx
            rw [e1] at hx; cases hx
          | raised x hx =>
            have hx : (f i).1 n = .done (.error x) := hx
            rcases e3 with e3 | e3 <;> (rw [e3] at hx; cases hx)
          | broken hx => exact h.breaks _ _ hx
        · rcases h2 with b | b | b | ⟨b1, b2⟩
          · have := congrArg List.length b
            simp at this
          · exact b rfl
          · exact b rfl
          · refine b1 ?_
            dsimp only at b2
            rcases List.mem_append.mp b2 with b2 | b2
            · exact b2
            · exact absurd (List.mem_singleton.mp b2) e
      | takes r q v rest hx hq hv => exact quiet h2 rfl rfl rfl rfl
      | takesEof r q hx hq hv => exact quiet h2 rfl rfl rfl rfl
      | reviews r v g t hx hv ht => exact quiet h2 rfl rfl rfl rfl
      | reviewed r v res x q hx hv ht hf => exact quiet h2 rfl rfl rfl rfl
      | reviewedText r v t x q hx hv ht hf => exact quiet h2 rfl rfl rfl rfl
      | reviewRaises r hx hv => exact quiet h2 rfl rfl rfl rfl
      | interrupt r hx => exact quiet h2 rfl rfl rfl rfl
    -- what it does next
    have first : ∀ d j, i ≤ j → MovesD n (σ (j + d)) (σ (j + d + 1)) → ∃ m, i ≤ m ∧ DStep c (σ m) (σ (m + 1)) ∧
        MovesD n (σ m) (σ (m + 1)) ∧ (σ m).call n = (σ j).call n ∧ (σ m).proc n = (σ j).proc n := by
      intro d
      induction d with
      | zero =>
        intro j hj hmv
        refine ⟨j, hj, ?_, hmv, rfl, rfl⟩
        rcases hf.step j with e | e
        · exact e
        · have hmv : MovesD n (σ j) (σ (j + 1)) := hmv
          rw [e] at hmv
          rcases hmv with b | b | b
          · exfalso
            rcases b with b | b | b | ⟨b1, b2⟩
            · have := congrArg List.length b
              simp at this
            · exact b rfl
            · exact b rfl
            · exact b1 b2
          · exact absurd rfl b
          · exact absurd rfl b
      | succ d ih =>
        intro j hj hmv
        by_cases hx : MovesD n (σ j) (σ (j + 1))
        · refine ⟨j, hj, ?_, hx, rfl, rfl⟩
          rcases hf.step j with e | e
          · exact e
          · rw [e] at hx
            rcases hx with b | b | b
            · exfalso
              rcases b with b | b | b | ⟨b1, b2⟩
              · have := congrArg List.length b
                simp at this
              · exact b rfl
              · exact b rfl
              · exact b1 b2
            · exact absurd rfl b
            · exact absurd rfl b
        · obtain ⟨m, a1, a2, a3, a4, a5⟩ := ih (j + 1) (by omega) (by
            rw [show j + 1 + d = j + (d + 1) by omega]; exact hmv)
          refine ⟨m, a1, a2, a3, a4.trans ?_, a5.trans ?_⟩
          · exact Classical.byContradiction fun e => hx (Or.inr (Or.inr e))
          · exact Classical.byContradiction fun e => hx (Or.inr (Or.inl e))
    have after : ∀ j, i ≤ j →
        (∃ m, i ≤ m ∧ (σ j).proc n = none ∧ (∃ p, (σ m).proc n = some p) ∧ (σ m).call n = (σ j).call n) ∨
        (∃ m p d k, i ≤ m ∧ (σ j).proc n = some p ∧ (σ m).proc n = some p ∧ (σ j).call n = .load d k ∧
          (σ m).call n = k (answer (val d))) := by
      intro j hj
      obtain ⟨t1, t2, t3, t4⟩ := stay j hj
      rcases can_move h (f j).2 (hb j) t1 with hx | hx
      · obtain ⟨m, b1, b2⟩ := hf.workers j n t1 hx
        obtain ⟨m, a1, a2, a3, a4, a5⟩ := first (m - j) j hj (by rw [show j + (m - j) = m by omega]; exact b2)
        rcases unseen a2 (hm m a1) with ⟨e1, e2⟩ | ⟨e1, e2, e3⟩ | ⟨p, d, k, e1, e2, e3, e4, e5⟩
        · rcases a3 with b | b | b
          · exact absurd b (hm m a1)
          · exact absurd e1 b
          · exact absurd e2 b
        · exact Or.inl ⟨m + 1, by omega, a5 ▸ e1, e2, e3.trans a4⟩
        · refine Or.inr ⟨m + 1, p, d, k, by omega, a5 ▸ e2, e3, a4 ▸ e4, ?_⟩
          rw [e5, ((f m).2.loaded h p e1 e4).1]
      · refine absurd ?_ nohang
        obtain ⟨x1, x2, x3⟩ := hx
        rw [t2] at x1
        rw [t3] at x2
        rw [t4] at x3
        exact ⟨x1, x2, x3⟩
    have taken : ∀ {d : DTask} {t : Task}, Follows val (c.D.deps n) ((filledP c.D val).tests n).returns d t →
        ∀ j p, i ≤ j → (σ j).proc n = some p → (σ j).call n = d → False := by
      intro d t hfol
      induction hfol with
      | load d k t hd _ ih =>
        intro j p hj hp hc
        rcases after j hj with ⟨m, -, e, -⟩ | ⟨m, p', d', k', e1, e2, e3, e4, e5⟩
        · rw [hp] at e; cases e
        · rw [hc] at e4
          injection e4 with e4 e4'
          rw [← e4, ← e4'] at e5
          exact ih m p' e1 e3 e5
      | _ =>
        intro j p hj hp hc
        rcases after j hj with ⟨m, -, e, -⟩ | ⟨m, p', d', k', e1, e2, e3, e4, e5⟩
        · rw [hp] at e; cases e
        · rw [hc] at e4; cases e4
    rcases after i (Nat.le_refl i) with ⟨m, e1, -, ⟨p, e2⟩, -⟩ | ⟨m, p, d, k, e1, e2, e3, e4, e5⟩
    · exact taken ((f m).2.call n) m p e1 e2 rfl
    · exact taken ((f m).2.call n) m p e1 e3 rfl

/-- An execution that has come to its end is fair. -/
theorem fairD_of_end {s : DSt fl} (H : UndisturbedD c size fs ans s) (hs : s.r.run.spc = .stopped) (hr : s.r.run.rpc = .ended false)
    (hd : ∀ n ∈ s.r.run.started, n ∈ s.r.run.ready)
    (hmono : ∀ s s', DReach c size fs ans s → DStep c s s' → ∀ n ∈ s.r.run.started, n ∈ s'.r.run.started) :
    ∃ σ, FairRunD c size fs ans σ := by
  have path : ∃ (σ : Nat → DSt fl) (N : Nat), σ 0 = DSt.init c size fs ans ∧
      (∀ i, DStep c (σ i) (σ (i + 1)) ∨ σ (i + 1) = σ i) ∧
      (∀ i, (σ i).r.run.abort = true → ∃ x, (σ i).r.run.rpc = .ended x) ∧ ∀ i, N ≤ i → σ i = s := by
    clear hs hr hd
    induction H with
    | init => exact ⟨fun _ => DSt.init c size fs ans, 0, rfl, fun _ => Or.inr rfl, fun _ h => (by cases h), fun _ _ => rfl⟩
    | @step s t H hst hab ih =>
      obtain ⟨σ, N, h1, h2, h3, h4⟩ := ih
      refine ⟨fun i => if i ≤ N then σ i else t, N + 1, (if_pos (Nat.zero_le N)).trans h1, ?_, ?_, ?_⟩
      · intro i
        dsimp only
        by_cases hi : i + 1 ≤ N
        · rw [if_pos hi, if_pos (by omega)]; exact h2 i
        · rw [if_neg hi]
          by_cases hi' : i ≤ N
          · rw [if_pos hi', h4 i (by omega)]; exact Or.inl hst
          · rw [if_neg hi']; exact Or.inr rfl
      · intro i
        dsimp only
        split
        · exact h3 i
        · exact hab
      · intro i hi
        dsimp only
        rw [if_neg (by omega)]
  obtain ⟨σ, N, h1, h2, h3, h4⟩ := path
  have hreach : ∀ i, DReach c size fs ans (σ i) := by
    intro i
    induction i with
    | zero => rw [h1]; exact .init
    | succ i ih =>
      rcases h2 i with h | h
      · exact ih.step h
      · rw [h]; exact ih
  refine ⟨σ, h1, h2, h3, ?_, ?_, ?_⟩
  · intro i n hw _
    have hst : ∀ d, n ∈ (σ (i + d)).r.run.started := by
      intro d
      induction d with
      | zero => exact hw.1
      | succ d ih =>
        show n ∈ (σ (i + d + 1)).r.run.started
        rcases h2 (i + d) with h | h
        · exact hmono _ _ (hreach _) h n ih
        · rw [h]; exact ih
    have hend : n ∈ (σ (i + N)).r.run.ready := by
      have := hst N
      rw [h4 _ (by omega)] at this ⊢
      exact hd n this
    have find : ∀ d, n ∈ (σ (i + d)).r.run.ready → ∃ j, i ≤ j ∧ MovesD n (σ j) (σ (j + 1)) := by
      intro d
      induction d with
      | zero => intro h; exact absurd h hw.2
      | succ d ih =>
        intro h
        by_cases hx : n ∈ (σ (i + d)).r.run.ready
        · exact ih hx
        · exact ⟨i + d, Nat.le_add_right i d, Or.inl (Or.inr (Or.inr (Or.inr ⟨hx, h⟩)))⟩
    exact find N hend
  · intro i hi _
    refine ⟨i + N, Nat.le_add_right i N, ?_⟩
    rw [h4 _ (by omega), hs]
    exact fun e => hi e.symm
  · intro i hi _
    refine ⟨i + N, Nat.le_add_right i N, Or.inl ?_⟩
    rw [h4 _ (by omega), hr]
    exact fun e => hi _ e.symm

end Verif.Lemmas
