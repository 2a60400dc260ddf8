import Verif.Props.ReviewLater
import Verif.Props.ExecWorkers

/-! # C138: a review is the dialogue with the user in the order of the report -/

namespace Verif.Props
open Verif.Py Verif.Model Verif.Spec Verif.Lemmas

variable {fl : Durations} {P : Project} {cfg : Config} {ns selected : List Str} {fs : FS}

/-- The records of some tests are replaced. -/
private def weave (p : Str → Bool) : List (Rec fl) → List (Rec fl) → List (Rec fl)
  | [], _ => []
  | x :: xs, new =>
    if p x.1 then new.head?.toList ++ weave p xs new.tail else x :: weave p xs new

private def toRaw (x : Rec fl) : Str × Raw × fl.D := (x.1, .res x.2.1, x.2.2)

private theorem toRaw_inj {x y : Rec fl} (h : toRaw x = toRaw y) : x = y := by
  obtain ⟨a, b, c⟩ := x
  obtain ⟨a', b', c'⟩ := y
  unfold toRaw at h
  injection h with h1 h2
  injection h2 with h2 h3
  injection h2 with h2
  dsimp only at h1 h2 h3
  subst h1 h2 h3
  rfl

private theorem weave_facts (p : Str → Bool) : ∀ (recs new : List (Rec fl)),
    new.map (·.1) = (recs.filter (fun x => p x.1)).map (·.1) →
    (weave p recs new).map (·.1) = recs.map (·.1) ∧ (weave p recs new).filter (fun x => p x.1) = new ∧
    (weave p recs new).filter (fun x => !p x.1) = recs.filter (fun x => !p x.1) := by
  intro recs
  induction recs with
  | nil =>
    intro new h
    cases new with
    | nil => exact ⟨rfl, rfl, rfl⟩
    | cons y ys => simp at h
  | cons x xs ih =>
    intro new h
    by_cases hp : p x.1 = true
    · rw [List.filter_cons, if_pos hp, List.map_cons] at h
      cases new with
      | nil => simp at h
      | cons y ys =>
        rw [List.map_cons] at h
        injection h with h1 h2
        obtain ⟨k1, k2, k3⟩ := ih ys h2
        have hy : p y.1 = true := by rw [h1]; exact hp
        rw [weave, if_pos hp]
        show (y :: weave p xs ys).map (·.1) = _ ∧ (y :: weave p xs ys).filter _ = _ ∧ (y :: weave p xs ys).filter _ = _
        refine ⟨by rw [List.map_cons, List.map_cons, k1, h1], by rw [List.filter_cons, if_pos hy, k2], ?_⟩
        rw [List.filter_cons, if_neg (by rw [hy]; decide), k3, List.filter_cons, if_neg (by rw [hp]; decide)]
    · rw [List.filter_cons, if_neg hp] at h
      obtain ⟨k1, k2, k3⟩ := ih new h
      have hp' : p x.1 = false := by rw [← Bool.not_eq_true]; exact hp
      rw [weave, if_neg hp]
      refine ⟨by rw [List.map_cons, List.map_cons, k1], by rw [List.filter_cons, if_neg hp, k2], ?_⟩
      rw [List.filter_cons, if_pos (by rw [hp']; rfl), k3, List.filter_cons, if_pos (by rw [hp']; rfl)]

/-- Records that are not looked at do not matter. -/
private theorem loop_weave (exp out : Path) (passed : List Str) (cases : Option (List Str)) :
    ∀ (recs new : List (Rec fl)) (abort : Bool) (fs fs' : FS) (lines : List Str) (log : List Reviewed),
    reviewLoop fl cfg exp out passed cases (recs.filter (fun x => isReviewed cfg passed cases x.1)) abort fs lines =
      (fs', some (new.map toRaw), log) →
    reviewLoop fl cfg exp out passed cases recs abort fs lines =
      (fs', some ((weave (isReviewed cfg passed cases) recs new).map toRaw), log) := by
  intro recs
  induction recs with
  | nil =>
    intro new abort fs fs' lines log h
    have h : (fs, some [], []) = (fs', some (new.map toRaw), log) := h
    injection h with h1 h2
    injection h2 with _ h3
    rw [← h1, ← h3]
    rfl
  | cons x xs ih =>
    intro new abort fs fs' lines log h
    obtain ⟨n, res, d⟩ := x
    by_cases hp : isReviewed cfg passed cases n = true
    · rw [List.filter_cons, if_pos hp] at h
      rw [weave, if_pos hp]
      cases abort with
      | true =>
        rw [reviewLoop, if_neg (by simp)] at h ⊢
        dsimp only at h ⊢
        injection h with h1 h2
        injection h2 with h2 h3
        obtain ⟨rest, h4, h5⟩ := Option.map_eq_some_iff.mp h2
        cases new with
        | nil => cases h5
        | cons y ys =>
          rw [List.map_cons] at h5
          injection h5 with h5 h6
          have hy : (n, res, d) = y := toRaw_inj h5
          subst hy
          subst h6
          have k := ih ys true fs fs' lines log (Prod.ext h1 (Prod.ext h4 h3))
          rw [k]
          rfl
      | false =>
        rw [reviewLoop, if_pos (by rw [hp]; rfl)] at h ⊢
        cases hc : caseReview cfg exp out n (.res res) lines fs with
        | mk g e =>
        obtain ⟨e, lines'⟩ := e
        rw [hc] at h
        cases e with
        | done rv q =>
          dsimp only at h ⊢
          injection h with h1 h2
          injection h2 with h2 h3
          obtain ⟨rest, h4, h5⟩ := Option.map_eq_some_iff.mp h2
          cases new with
          | nil => cases h5
          | cons y ys =>
            rw [List.map_cons] at h5
            injection h5 with h5 h6
            subst h6
            have k := ih ys _ g fs' lines' _ (Prod.ext h1 (Prod.ext h4 rfl))
            rw [k]
            dsimp only
            rw [Option.map_some, h5, ← h3]
            rfl
        | _ => cases h
    · rw [List.filter_cons, if_neg hp] at h
      have hp' : isReviewed cfg passed cases n = false := by rw [← Bool.not_eq_true]; exact hp
      rw [weave, if_neg hp, reviewLoop, if_neg (by rw [hp', Bool.and_false]; decide)]
      rw [ih new abort fs fs' lines log h]
      rfl

/-- Records that are not looked at do not matter if the user gives no answer. -/
private theorem loop_none (exp out : Path) (passed : List Str) (cases : Option (List Str)) :
    ∀ (recs : List (Rec fl)) (abort : Bool) (fs : FS) (lines : List Str),
    (reviewLoop fl cfg exp out passed cases (recs.filter (fun x => isReviewed cfg passed cases x.1)) abort fs lines).2.1 = none →
    (reviewLoop fl cfg exp out passed cases recs abort fs lines).2.1 = none := by
  intro recs
  induction recs with
  | nil => intro abort fs lines h; exact h
  | cons x xs ih =>
    intro abort fs lines h
    obtain ⟨n, res, d⟩ := x
    by_cases hp : isReviewed cfg passed cases n = true
    · rw [List.filter_cons, if_pos hp] at h
      cases abort with
      | true =>
        rw [reviewLoop, if_neg (by simp)] at h ⊢
        dsimp only at h ⊢
        rw [ih true fs lines (Option.map_eq_none_iff.mp h)]
        rfl
      | false =>
        rw [reviewLoop, if_pos (by rw [hp]; rfl)] at h ⊢
        cases hc : caseReview cfg exp out n (.res res) lines fs with
        | mk g e =>
        obtain ⟨e, lines'⟩ := e
        rw [hc] at h
        cases e with
        | done rv q =>
          dsimp only at h ⊢
          rw [ih _ g lines' (Option.map_eq_none_iff.mp h)]
          rfl
        | _ => rfl
    · rw [List.filter_cons, if_neg hp] at h
      have hp' : isReviewed cfg passed cases n = false := by rw [← Bool.not_eq_true]; exact hp
      rw [reviewLoop, if_neg (by rw [hp', Bool.and_false]; decide)]
      dsimp only
      rw [ih abort fs lines h]
      rfl

/-- From the loop over the records that are looked at to the review. -/
theorem review_of_loop (hcont : cfg.cont = false) (records : List (Rec fl)) {lines tail : List Str} {d : Dialogue} {fs' : FS}
    {log : List Reviewed}
    (htail : d.ends.map (·.1) ++ tail = (records.filter (fun x => selected.contains x.1)).map (·.1))
    (k1 : reviewLoop fl cfg P.root P.out (passed records) (some selected) (records.filter (fun x => selected.contains x.1)) false fs lines =
      (fs', some (((d.ends ++ ((records.filter (fun x => selected.contains x.1)).drop d.ends.length).map key).zip
        ((records.filter (fun x => selected.contains x.1)).map (·.2.2))).map (fun x => (x.1.1, .res x.1.2, x.2))), log)) :
    ∃ reviewed code, review fl cfg P.root P.out none (some selected) records lines fs = (fs', some (reviewed, code), log) ∧
      reviewed.map (·.1) = records.map (·.1) ∧
      (reviewed.filter (fun x => selected.contains x.1)).map key = d.ends ++
        ((records.filter (fun x => selected.contains x.1)).drop d.ends.length).map key ∧
      reviewed.filter (fun x => !selected.contains x.1) = records.filter (fun x => !selected.contains x.1) ∧
      (code = 0 ↔ ∀ x ∈ reviewed, x.2.1 = .OK) := by
  have hrev : isReviewed cfg (passed records) (some selected) = fun n => selected.contains n := by
    funext n
    unfold isReviewed
    rw [hcont]
    simp
  generalize hsel : records.filter (fun x => selected.contains x.1) = mine at k1 htail
  have hlen := congrArg List.length htail
  rw [List.length_append, List.length_map, List.length_map] at hlen
  have hzl : (d.ends ++ (mine.drop d.ends.length).map key).length = (mine.map (·.2.2)).length := by simp; omega
  let new : List (Rec fl) := ((d.ends ++ (mine.drop d.ends.length).map key).zip (mine.map (·.2.2))).map (fun x => (x.1.1, x.1.2, x.2))
  have hnew : new.map key = d.ends ++ (mine.drop d.ends.length).map key := by
    show (((d.ends ++ (mine.drop d.ends.length).map key).zip (mine.map (·.2.2))).map (fun x => ((x.1.1, x.1.2, x.2) : Rec fl))).map key = _
    rw [List.map_map]
    have : (key (fl := fl) ∘ fun x : (Str × Result) × fl.D => (x.1.1, x.1.2, x.2)) = Prod.fst := rfl
    rw [this, List.map_fst_zip]
    omega
  have hnames : new.map (·.1) = mine.map (·.1) := by
    have h1 : ∀ l : List (Rec fl), l.map (·.1) = (l.map key).map (·.1) := fun l => by rw [List.map_map]; rfl
    have h2 : ((mine.drop d.ends.length).map key).map (·.1) = (mine.drop d.ends.length).map (·.1) := by rw [List.map_map]; rfl
    rw [h1 new, hnew, List.map_append, h2, List.map_drop, ← htail, List.drop_left' (by simp)]
  have hw := loop_weave (cfg := cfg) P.root P.out (passed records) (some selected) records new false fs fs' lines log (by
    rw [hrev, hsel, k1]
    show _ = (fs', some ((((d.ends ++ (mine.drop d.ends.length).map key).zip (mine.map (·.2.2))).map
      (fun x => ((x.1.1, x.1.2, x.2) : Rec fl))).map toRaw), log)
    rw [List.map_map]
    rfl)
  rw [hrev] at hw
  obtain ⟨w1, w2, w3⟩ := weave_facts (fun n => selected.contains n) records new (by rw [hsel]; exact hnames)
  generalize weave (fun n => selected.contains n) records new = reviewed at hw w1 w2 w3
  have hmapM : ∀ l : List (Rec fl), (l.map toRaw).mapM rawRec = some l := by
    intro l
    induction l with
    | nil => rfl
    | cons x xs ih => rw [List.map_cons, List.mapM_cons, ih]; rfl
  refine ⟨reviewed, if (reviewed.map toRaw).any (fun x => decide (x.2.1 ≠ .res .OK)) then -1 else 0, ?_, w1,
    by rw [w2, hnew], w3, ?_⟩
  · unfold review
    dsimp only
    rw [Option.getD_none, hw]
    dsimp only
    rw [hmapM]
    rfl
  · split
    · rename_i h
      rw [List.any_eq_true] at h
      obtain ⟨y, hy, hne⟩ := h
      obtain ⟨x, hx, rfl⟩ := List.mem_map.mp hy
      refine ⟨fun h => absurd h (by decide), fun h => ?_⟩
      have hne := of_decide_eq_true hne
      exact absurd (congrArg Raw.res (h x hx)) hne
    · rename_i h
      refine ⟨fun _ x hx => ?_, fun _ => rfl⟩
      apply Decidable.byContradiction
      intro hne
      exact h (List.any_eq_true.mpr ⟨_, List.mem_map_of_mem hx, decide_eq_true (fun hy => hne (by injection hy))⟩)

private theorem review_core (hcont : cfg.cont = false) (hp : PlainNames ns) (hS : SoundTree P.root ns fs) {snaps : Str → Option Str}
    (hsn : ∀ m ∈ ns, snapshot P.root fs m = snaps m) (records : List (Rec fl))
    (hnd : ((records.filter (fun x => selected.contains x.1)).map (·.1)).Nodup)
    (hsub : ∀ x ∈ records, x.1 ∈ selected → x.1 ∈ ns)
    (hout : ∀ x ∈ records, x.1 ∈ selected → ∃ s,
      runTest (P.env (snaps x.1)) (P.tests x.1).body = some s ∧
      x.2.1 = verdict (P.env (snaps x.1)) s ∧ Waits P.root x.1 s.out fs)
    (lines : List Str) {d : Dialogue}
    (hd : dialogue P cfg ((records.filter (fun x => selected.contains x.1)).map (·.1)) snaps lines = some d) :
    ∃ fs' reviewed code log, review fl cfg P.root P.out none (some selected) records lines fs =
        (fs', some (reviewed, code), log) ∧
      (∀ m ∈ ns, snapshot P.root fs' m = d.snaps m) ∧ reviewed.map (·.1) = records.map (·.1) ∧
      (reviewed.filter (fun x => selected.contains x.1)).map key = d.ends ++
        ((records.filter (fun x => selected.contains x.1)).drop d.ends.length).map key ∧
      reviewed.filter (fun x => !selected.contains x.1) = records.filter (fun x => !selected.contains x.1) ∧
      (code = 0 ↔ ∀ x ∈ reviewed, x.2.1 = .OK) ∧ SoundTree P.root ns fs' := by
  have hrev : isReviewed cfg (passed records) (some selected) = fun n => selected.contains n := by
    funext n
    unfold isReviewed
    rw [hcont]
    simp
  have hmem : ∀ x ∈ records.filter (fun x => selected.contains x.1), x ∈ records ∧ x.1 ∈ selected := by
    intro x hx
    obtain ⟨h1, h2⟩ := List.mem_filter.mp hx
    exact ⟨h1, by simpa using h2⟩
  obtain ⟨fs', log, k1, k2, k3⟩ := reviewLoop_dialogue (P := P) (cfg := cfg) hp (passed records) (some selected)
    (records.filter (fun x => selected.contains x.1)) fs lines snaps d hnd
    (fun x hx => ⟨hsub x (hmem x hx).1 (hmem x hx).2, by rw [hrev]; simpa using (hmem x hx).2⟩) hS hsn
    (fun x hx => hout x (hmem x hx).1 (hmem x hx).2) hd
  obtain ⟨tail, htail⟩ := dialogue_names _ _ _ d hd
  obtain ⟨reviewed, code, r1, r2, r3, r4, r5⟩ := review_of_loop hcont records htail k1
  exact ⟨fs', reviewed, code, log, r1, k2, r2, r3, r4, r5, k3⟩

theorem review_none_of_loop (hcont : cfg.cont = false) (records : List (Rec fl)) (lines : List Str)
    (k : (reviewLoop fl cfg P.root P.out (passed records) (some selected) (records.filter (fun x => selected.contains x.1)) false fs
      lines).2.1 = none) :
    (review fl cfg P.root P.out none (some selected) records lines fs).2.1 = none := by
  have hrev : isReviewed cfg (passed records) (some selected) = fun n => selected.contains n := by
    funext n
    unfold isReviewed
    rw [hcont]
    simp
  have k' := loop_none (cfg := cfg) P.root P.out (passed records) (some selected) records false fs lines (by rw [hrev]; exact k)
  unfold review
  dsimp only
  rw [Option.getD_none]
  generalize reviewLoop fl cfg P.root P.out (passed records) (some selected) records false fs lines = z at k'
  obtain ⟨z1, z2, z3⟩ := z
  dsimp only at k'
  subst k'
  rfl

private theorem review_no_answer (hcont : cfg.cont = false) (hp : PlainNames ns) (hS : SoundTree P.root ns fs) {snaps : Str → Option Str}
    (hsn : ∀ m ∈ ns, snapshot P.root fs m = snaps m) (records : List (Rec fl))
    (hnd : ((records.filter (fun x => selected.contains x.1)).map (·.1)).Nodup)
    (hsub : ∀ x ∈ records, x.1 ∈ selected → x.1 ∈ ns)
    (hout : ∀ x ∈ records, x.1 ∈ selected → ∃ s,
      runTest (P.env (snaps x.1)) (P.tests x.1).body = some s ∧
      x.2.1 = verdict (P.env (snaps x.1)) s ∧ Waits P.root x.1 s.out fs)
    (lines : List Str)
    (hd : dialogue P cfg ((records.filter (fun x => selected.contains x.1)).map (·.1)) snaps lines = none) :
    (review fl cfg P.root P.out none (some selected) records lines fs).2.1 = none := by
  have hrev : isReviewed cfg (passed records) (some selected) = fun n => selected.contains n := by
    funext n
    unfold isReviewed
    rw [hcont]
    simp
  have hmem : ∀ x ∈ records.filter (fun x => selected.contains x.1), x ∈ records ∧ x.1 ∈ selected := by
    intro x hx
    obtain ⟨h1, h2⟩ := List.mem_filter.mp hx
    exact ⟨h1, by simpa using h2⟩
  have k := reviewLoop_no_dialogue (P := P) (cfg := cfg) hp (passed records) (some selected)
    (records.filter (fun x => selected.contains x.1)) fs lines snaps hnd
    (fun x hx => ⟨hsub x (hmem x hx).1 (hmem x hx).2, by rw [hrev]; simpa using (hmem x hx).2⟩) hS hsn
    (fun x hx => hout x (hmem x hx).1 (hmem x hx).2) hd
  exact review_none_of_loop hcont records lines k

/-- **C138**: a review ends only if the user answers what the dialogue asks. -/
theorem C138_no_answer (hcont : cfg.cont = false) (hp : PlainNames ns) (hS : SoundTree P.root ns fs) (records : List (Rec fl))
    (hnd : ((records.filter (fun x => selected.contains x.1)).map (·.1)).Nodup)
    (hsub : ∀ x ∈ records, x.1 ∈ selected → x.1 ∈ ns)
    (hout : ∀ x ∈ records, x.1 ∈ selected → ∃ s,
      runTest (P.env (snapshot P.root fs x.1)) (P.tests x.1).body = some s ∧
      x.2.1 = verdict (P.env (snapshot P.root fs x.1)) s ∧ Waits P.root x.1 s.out fs)
    (lines : List Str)
    (hd : dialogue P cfg ((records.filter (fun x => selected.contains x.1)).map (·.1)) (snapshot P.root fs) lines = none) :
    (review fl cfg P.root P.out none (some selected) records lines fs).2.1 = none :=
  review_no_answer hcont hp hS (fun _ _ => rfl) records hnd hsub hout lines hd

/-- **C138**: whatever has been run before: if the outputs of the recorded tests that are selected are there, with the results
that are recorded, then a review is the dialogue with the user about these tests, in the order of their records: it ends if
the dialogue does, leaves the snapshots of the dialogue, and records its results in place of the old ones; the records of
tests that the dialogue does not reach, and of tests that are not selected, are as before. -/
theorem C138_review (hcont : cfg.cont = false) (hp : PlainNames ns) (hS : SoundTree P.root ns fs) (records : List (Rec fl))
    (hnd : ((records.filter (fun x => selected.contains x.1)).map (·.1)).Nodup)
    (hsub : ∀ x ∈ records, x.1 ∈ selected → x.1 ∈ ns)
    (hout : ∀ x ∈ records, x.1 ∈ selected → ∃ s,
      runTest (P.env (snapshot P.root fs x.1)) (P.tests x.1).body = some s ∧
      x.2.1 = verdict (P.env (snapshot P.root fs x.1)) s ∧ Waits P.root x.1 s.out fs)
    (lines : List Str) {d : Dialogue}
    (hd : dialogue P cfg ((records.filter (fun x => selected.contains x.1)).map (·.1)) (snapshot P.root fs) lines = some d) :
    ∃ fs' reviewed code log, review fl cfg P.root P.out none (some selected) records lines fs =
        (fs', some (reviewed, code), log) ∧
      (∀ m ∈ ns, snapshot P.root fs' m = d.snaps m) ∧ reviewed.map (·.1) = records.map (·.1) ∧
      (reviewed.filter (fun x => selected.contains x.1)).map key = d.ends ++
        ((records.filter (fun x => selected.contains x.1)).drop d.ends.length).map key ∧
      reviewed.filter (fun x => !selected.contains x.1) = records.filter (fun x => !selected.contains x.1) ∧
      (code = 0 ↔ ∀ x ∈ reviewed, x.2.1 = .OK) ∧ SoundTree P.root ns fs' :=
  review_core hcont hp hS (fun _ _ => rfl) records hnd hsub hout lines hd

/-! ### After a run with workers -/

private theorem sound_get {root : Path} {g : FS} (h : ∀ p, g.get p = fs.get p) (hS : SoundTree root ns fs) :
    SoundTree root ns g := by
  refine ⟨?_, by rw [h]; exact hS.cwd, fun n hn o q hq t => by rw [h]; exact hS.ways n hn o q hq t,
    fun n hn o x hx hx' => by rw [h]; exact hS.files n hn o x hx hx', fun n hn o x hx t => by rw [h]; exact hS.dirs n hn o x hx t,
    by rw [h]; exact hS.index, fun q hq t => by rw [h]; exact hS.base q hq t⟩
  intro p c hx
  rw [h] at hx ⊢
  exact hS.wf p c hx

private theorem snapshot_get {root : Path} {g : FS} (h : ∀ p, g.get p = fs.get p) (n : Str) :
    snapshot root g n = snapshot root fs n := by
  unfold snapshot
  rw [h]

private theorem waits_get {root : Path} {g : FS} {n out : Str} (h : ∀ p, g.get p = fs.get p) (hw : Waits root n out fs) :
    Waits root n out g :=
  ⟨fun o => by rw [h]; exact hw.dir o, by rw [h]; exact hw.out⟩

/-- **C138**: after `booktest -p TESTS` without questions, however its workers are scheduled, `booktest -w TESTS` with any of
`-i`, `-I`, `-a`, `-u`, `-f` is the dialogue with the user about these tests in the order in which they have been recorded,
starting from the snapshots before both commands. -/
theorem C138_workers (S : Site) (w : World) (args : List Str) (later : Command fl) (dur : Str → fl.D) (zero : fl.D)
    (breaks : Str → Bool → Prop) (uses uses' : List (Str × CVal)) (cases : Option (List Str))
    (hr : Reads S.N (testChoices S.names) args uses cases) (hr' : Reads S.N (testChoices S.names) later.args uses' cases)
    (hn' : AsksFor uses' "--review".toList) (hc' : ¬ On S.P.u w.settings uses' "continue".toList)
    (hplain : ∀ key ∈ ["interactive".toList, "always_interactive".toList, "update".toList, "accept".toList,
      "fail_fast".toList, "continue".toList], ¬ On S.P.u w.settings uses key)
    (hset : ReadableSettings S.P.u w.settings) (hdef : cases = none → ReadableDefaults S.P.u w.settings)
    (hd : ∀ c ∈ S.suite.cases, (S.suite.info c.2.fn).deps = none) (hf : 0 < S.fuel)
    (hp : PlainNames S.names) (hcl : ∀ n ∈ S.names, CleanName n)
    (hbatch : ∀ a ∈ S.names, ∀ b ∈ S.names, batchName a = batchName b → a = b)
    (ht : SoundTree S.P.root S.names w.fs) (hb : ∀ n b, ¬ breaks n b)
    (hends : ∀ n ∈ S.names, resultOf S.P (snapshot S.P.root w.fs n) n ≠ none)
    {c : RConf fl} {old : List (Rec fl)} (hrun : workersRun S args dur zero breaks w = some (c, old)) (ans : List Str)
    (σ : Nat → RSt fl) (hσ : FairRun c (mkdirs w.fs S.P.out) ans σ) (i : Nat) (x : Bool) (hi : (σ i).run.rpc = .ended x) :
    let e := workersEnd w c old (σ i)
    let r := booktest S later.args later.answers later.dur e.world
    ∃ cfg selection selected records names, ConfigSaid S.P.u w.settings uses' cfg ∧ Selection S.P.u w.settings cases selection ∧
      selectedNames S.suite selection none S.fuel = some selected ∧
      ofFile S.P.u fl e.world.report = some records ∧
      (records.filter (fun x => selected.contains x.1)).map (·.1) = names ∧ names.Perm selected ∧
      ofFile S.P.u fl w.report = some old ∧ ((records.filter (fun x => !selected.contains x.1)).map key).Perm
        ((old.filter (fun x => !selected.contains x.1)).map key) ∧
      (dialogue S.P cfg names (snapshot S.P.root w.fs) later.answers = none → r.status = .raises) ∧
      ∀ d, dialogue S.P cfg names (snapshot S.P.root w.fs) later.answers = some d →
        (∀ m ∈ S.names, snapshot S.P.root r.world.fs m = d.snaps m) ∧
        ∃ reviewed, ofFile S.P.u fl r.world.report = some reviewed ∧ reviewed.map (·.1) = records.map (·.1) ∧
          (reviewed.filter (fun x => selected.contains x.1)).map key = d.ends ++
            (names.drop d.ends.length).filterMap (fun n => (resultOf S.P (snapshot S.P.root w.fs n) n).map (n, ·)) ∧
          reviewed.filter (fun x => !selected.contains x.1) = records.filter (fun x => !selected.contains x.1) ∧
          (r.status.code = some 0 ↔ ∀ x ∈ reviewed, x.2.1 = .OK) ∧ SoundTree S.P.root S.names r.world.fs ∧
          r.world.settings = w.settings := by
  intro e r
  have hends2 : ∀ n ∈ S.names, runTest (S.P.env (snapshot S.P.root w.fs n)) (S.P.tests n).body ≠ none := by
    intro n hn h
    refine hends n hn ?_
    unfold resultOf
    rw [h]
    rfl
  obtain ⟨config, sel, selected, hprep, hrn, -, -, -, hall⟩ := workers_core hr (hplain _ (by simp)) (hplain _ (by simp))
    (hplain _ (by simp)) (fun _ _ h => absurd h (hplain _ (by simp))) hp hcl hbatch ht hb
    (fun names ha n hn => hends2 n (about_in ha n hn)) hrun ans
  obtain ⟨-, f2, f3, f4, f5, ps, ss, f6, f7, f8⟩ := (hall σ hσ).2 i x hi [] config rfl
  obtain ⟨run, g1, g2, g3, g4⟩ := select_free hd sel (storedIn S.P config w.fs) none hf
  rw [hprep.names] at g1
  cases g1
  have hsel := selection_said hr hprep.said hprep.chosen
  have hsub : ∀ n ∈ selected, n ∈ S.names := g4
  have fals : ∀ {b : Bool} {p : Prop}, (b = true ↔ p) → ¬ p → b = false := by
    intro b p h1 h2
    rw [← Bool.not_eq_true, h1]
    exact h2
  have said := config_on hprep
  have hplainrun : PlainRun (configOf config) :=
    ⟨⟨fals said.alwaysInteractive (hplain _ (by simp)), fals said.interactive (hplain _ (by simp))⟩,
     fals said.update (hplain _ (by simp)), fals said.accept (hplain _ (by simp)),
     fals said.failFast (hplain _ (by simp)), fals said.cont (hplain _ (by simp))⟩
  obtain ⟨p1, p2, p3, new, p4, p5, p6⟩ := plain_left (P := S.P) hplainrun hp ht g3 hsub (fun n hn => hcl n (hsub n hn))
    hprep.records dur S.names [] (fun n hn => hends n (hsub n hn))
  have f7' : ofFile S.P.u fl (runProject S.P (configOf config) dur S.names selected w.fs [] w.report).report = some ss := f7
  rw [p6] at f7'
  injection f7' with f7'
  have f5' : ∀ p, e.world.fs.get p = (runProject S.P (configOf config) dur S.names selected w.fs [] w.report).fs.get p := f5
  have hS := sound_get f5' p1
  have hsn : ∀ m ∈ S.names, snapshot S.P.root e.world.fs m = snapshot S.P.root w.fs m :=
    fun m hm => (snapshot_get f5' m).trans (p2 m hm)
  -- the records of the tests
  have hfs : ss.filter (fun x => selected.contains x.1) = new := by
    rw [← f7', List.filter_append, List.filter_eq_nil_iff.mpr, List.nil_append, List.filter_eq_self]
    · intro y hy
      have : y.1 ∈ selected := by rw [← p4]; exact List.mem_map_of_mem hy
      simpa using this
    · intro y hy
      have := (List.mem_filter.mp hy).2
      simpa using this
  have hperm : ((ps.filter (fun x => selected.contains x.1)).map key).Perm (new.map key) := by
    have h1 : ∀ l : List (Rec fl), (l.filter (fun x => selected.contains x.1)).map key =
        (l.map key).filter (fun k => selected.contains k.1) := by
      intro l
      rw [List.filter_map]
      rfl
    rw [h1, ← hfs, h1]
    exact f8.filter _
  have hfo : ss.filter (fun x => !selected.contains x.1) = old.filter (fun x => !selected.contains x.1) := by
    rw [← f7', List.filter_append, List.filter_filter, (List.filter_eq_nil_iff (l := new)).mpr, List.append_nil]
    · simp only [Bool.and_self]
    · intro y hy
      have : y.1 ∈ selected := by rw [← p4]; exact List.mem_map_of_mem hy
      simpa using this
  have hoperm : ((ps.filter (fun x => !selected.contains x.1)).map key).Perm
      ((old.filter (fun x => !selected.contains x.1)).map key) := by
    have h1 : ∀ l : List (Rec fl), (l.filter (fun x => !selected.contains x.1)).map key =
        (l.map key).filter (fun k => !selected.contains k.1) := by
      intro l
      rw [List.filter_map]
      rfl
    rw [h1, ← hfo, h1]
    exact f8.filter _
  have hnperm : ((ps.filter (fun x => selected.contains x.1)).map (·.1)).Perm selected := by
    have h1 : ∀ l : List (Rec fl), l.map (·.1) = (l.map key).map (·.1) := fun l => by rw [List.map_map]; rfl
    have h2 := hperm.map (·.1)
    rw [← h1, ← h1, p4] at h2
    exact h2
  have hres : ∀ y ∈ ps, y.1 ∈ selected → resultOf S.P (snapshot S.P.root w.fs y.1) y.1 = some y.2.1 := by
    intro y hy hys
    have h1 : key y ∈ (ps.filter (fun x => selected.contains x.1)).map key :=
      List.mem_map_of_mem (List.mem_filter.mpr ⟨hy, by simpa using hys⟩)
    obtain ⟨z, hz, ez⟩ := List.mem_map.mp (hperm.mem_iff.mp h1)
    have h2 := p5 z hz
    have e1 : z.1 = y.1 := congrArg (Prod.fst (β := Result)) ez
    have e2 : z.2.1 = y.2.1 := congrArg (Prod.snd (α := Str)) ez
    rw [e1, e2] at h2
    exact h2
  -- the review
  have hw : e.world.settings = w.settings := rfl
  obtain ⟨config', cmd', said', -, hcmd', e'⟩ := command_free (w := e.world) hr' later.answers later.dur hset hdef f6 hd hf hsel g2
  have hmet : e.world.metrics = true := rfl
  have er : r = _ := e'
  rw [(hcmd' _).mpr hn', review_is, hmet, if_pos rfl] at er
  have hendm : ∀ y ∈ ps, y.1 ∈ selected → ∃ s, runTest (S.P.env (snapshot S.P.root w.fs y.1)) (S.P.tests y.1).body = some s ∧
      y.2.1 = verdict (S.P.env (snapshot S.P.root w.fs y.1)) s ∧ Waits S.P.root y.1 s.out e.world.fs := by
    intro y hy hys
    have h1 := hres y hy hys
    unfold resultOf at h1
    obtain ⟨s, h2, h3⟩ := Option.map_eq_some_iff.mp h1
    exact ⟨s, h2, h3.symm, waits_get f5' (p3 y.1 hys s h2)⟩
  refine ⟨configOf config', sel, selected, ps, _, said', hsel, g2, f6, rfl, hnperm, hprep.records, hoperm, ?_, fun d hdl => ?_⟩
  · intro hdl
    have := review_no_answer (P := S.P) (cfg := configOf config') (fals said'.cont hc') hp hS hsn ps (hnperm.nodup_iff.mpr g3)
      (fun y _ hys => hsub _ hys) hendm later.answers hdl
    rw [er]
    generalize review fl (configOf config') S.P.root S.P.out none (some selected) ps later.answers e.world.fs = z at this
    obtain ⟨z1, z2, z3⟩ := z
    dsimp only at this
    subst this
    rfl
  obtain ⟨fs', reviewed, code, log, q1, q2, q3, q4, q5, q6, q7⟩ := review_core (P := S.P) (cfg := configOf config')
    (fals said'.cont hc') hp hS hsn ps (hnperm.nodup_iff.mpr g3) (fun y _ hys => hsub _ hys) hendm later.answers hdl
  rw [q1] at er
  have hclean : ∀ y ∈ reviewed, CleanName y.1 := by
    intro y hy
    have : y.1 ∈ reviewed.map (·.1) := List.mem_map_of_mem hy
    rw [q3] at this
    obtain ⟨z, hz, ez⟩ := List.mem_map.mp this
    rw [← ez]
    exact ofFile_clean S.P.u fl f6 z hz
  rw [er]
  refine ⟨q2, reviewed, ?_, q3, ?_, q5, ?_, q7, rfl⟩
  · show ofFile S.P.u fl (applyEvs (some []) (reviewed.map (Ev.write (fl := fl)))) = some reviewed
    rw [applyEvs_some _ _ (fun hc => by obtain ⟨q, -, hq⟩ := List.mem_map.mp hc; cases hq), List.nil_append, writes_map,
      C23_round_trip _ _ _ hclean]
  · rw [q4, List.append_cancel_left_eq, ← List.map_drop]
    have hin : ∀ y ∈ (ps.filter (fun x => selected.contains x.1)).drop d.ends.length,
        resultOf S.P (snapshot S.P.root w.fs y.1) y.1 = some y.2.1 := by
      intro y hy
      obtain ⟨h1, h2⟩ := List.mem_filter.mp (List.mem_of_mem_drop hy)
      exact hres y h1 (by simpa using h2)
    generalize (ps.filter (fun x => selected.contains x.1)).drop d.ends.length = l at hin
    induction l with
    | nil => rfl
    | cons y ys ih =>
      rw [List.map_cons, List.map_cons, List.filterMap_cons, hin y List.mem_cons_self, ih (fun z hz => hin z (List.mem_cons_of_mem _ hz))]
      rfl
  · rw [← q6]
    show some (exitStatus (some code)) = some 0 ↔ _
    rcases review_code q1 with rfl | rfl
    · decide
    · decide

/-! ### A case that meets the hypotheses -/

private def greets (x : String) : TestFn := ⟨⟨[.header "# t".toList, .tln x.toList], none⟩, [], [], none⟩

/-- A new project with three tests. -/
private def three : Site where
  N := ⟨fun _ => none, fun _ => false⟩
  P := ⟨ascii, false, some, ["books".toList], fun n => if n = "test/a".toList then greets "a" else greets "b"⟩
  suite := { cases := [("test/a".toList, ⟨none, 0⟩), ("test/b".toList, ⟨none, 1⟩), ("test/c".toList, ⟨none, 2⟩)]
             info := fun _ => {}
             isInstance := fun _ _ => false }
  fuel := 10
  cpuCount := 4
  viewer := fun _ => 0
  coverage := ([], [])

private def fresh : World := ⟨⟨fun _ => none, [], []⟩, [([], .dir)], none, false⟩

private theorem silent (key : Str) (v : CVal) :
    ¬ Chosen ascii fresh.settings "~/.booktest".toList [] {} key (some v) := by
  intro h
  have h' := C58_priority_partial ascii fresh.settings [] (by simp [Dict.keys]) {} [] rfl key
  have := C58_unique ascii fresh.settings _ [] (by simp [Dict.keys]) {} key _ _ h h'
  cases this

private theorem on_mem {uses : List (Str × CVal)} {key : Str} (h : On ascii fresh.settings uses key) : key ∈ uses.map (·.1) := by
  obtain ⟨v, h, -⟩ := h
  cases h with
  | said _ h1 => exact List.mem_map_of_mem (f := (·.1)) (finally_mem h1)
  | unsaid _ _ h2 => exact absurd h2 (silent key v)

private theorem reads_p : Reads three.N (testChoices three.names) ["-p".toList] [("parallel".toList, .bool true)] none :=
  .options _ _ (.cons ["-p".toList] [] [("parallel".toList, .bool true)] []
    (.alone "-p".toList "-p".toList _ _ ⟨by decide, List.prefix_rfl, .inl rfl⟩ (.switch _ _ _ (by decide))) .nil)

private theorem reads_wi : Reads three.N (testChoices three.names) ["-w".toList, "-i".toList]
    [("command".toList, .str "--review".toList), ("interactive".toList, .bool true)] none :=
  .options _ _ (.cons ["-w".toList] ["-i".toList] [("command".toList, .str "--review".toList)] _
    (.alone "-w".toList "-w".toList _ _ ⟨by decide, List.prefix_rfl, .inl rfl⟩ (.command _ _ (by decide)))
    (.cons ["-i".toList] [] [("interactive".toList, .bool true)] []
      (.alone "-i".toList "-i".toList _ _ ⟨by decide, List.prefix_rfl, .inl rfl⟩ (.switch _ _ _ (by decide))) .nil))

private theorem fresh_sound (ns : List Str) : SoundTree ["books".toList] ns [([], .dir)] := by
  have g : ∀ p, FS.get [([], .dir)] p = if p = [] then some .dir else none := by
    intro p; rw [get_cons]; rfl
  refine ⟨?_, rfl, ?_, ?_, ?_, ?_, ?_⟩
  · intro p c h; rw [g, if_neg (by simp)] at h; cases h
  · intro n _ o q _ t; rw [g]; split <;> simp
  · intro n _ o x hx _; rw [g, if_neg (slot_ne_nil _ o n (Or.inr hx))]; simp
  · intro n _ o x hx t; rw [g]; split <;> simp
  · decide
  · intro q _ t; rw [g]; split <;> simp

private theorem three_plain : PlainNames three.names := by
  refine ⟨?_, by unfold NotNested; decide⟩
  intro n hn
  change n ∈ ["test/a".toList, "test/b".toList, "test/c".toList] at hn
  simp only [List.mem_cons, List.not_mem_nil, or_false] at hn
  rcases hn with rfl | rfl | rfl
  · exact ⟨by decide, by decide, by decide⟩
  · exact ⟨by decide, by decide, by decide⟩
  · exact ⟨by decide, by decide, by decide⟩

/-- `booktest -p` in a new project comes to an end, and `booktest -w -i` with the lines `a` and `q` afterwards is the dialogue
about the three tests, in some order. -/
example : ∃ c old, workersRun (fl := strokes) three ["-p".toList] (fun _ => (0 : Nat)) (0 : Nat)
      (fun _ _ => False) fresh = some (c, old) ∧
    ∃ σ, FairRun c (mkdirs fresh.fs three.P.out) [] σ ∧ ∃ i x, (σ i).run.rpc = .ended x ∧
    ∃ cfg names, cfg.interactive = true ∧ names.Perm ["test/a".toList, "test/b".toList, "test/c".toList] ∧
    ∀ d, dialogue three.P cfg names (snapshot three.P.root fresh.fs) ["a".toList, "q".toList] = some d →
      ∀ m ∈ three.names, snapshot three.P.root (booktest (fl := strokes) three ["-w".toList, "-i".toList]
        ["a".toList, "q".toList] (fun _ => (0 : Nat)) (workersEnd fresh c old (σ i)).world).world.fs m = d.snaps m := by
  have hr : Reads three.N (testChoices three.names) [] [] none := .options _ _ .nil
  have off : ∀ key, ¬ On ascii fresh.settings [] key := fun key h => absurd (on_mem h) (by simp)
  have hset : ReadableSettings three.P.u fresh.settings := fun line hl _ => by
    have : line ∈ ([] : List Str) := hl
    cases this
  have hdef : (none : Option (List Str)) = none → ReadableDefaults three.P.u fresh.settings :=
    fun _ v hv => absurd hv (silent _ v)
  have hclean : ∀ n ∈ three.names, CleanName n := by unfold CleanName; decide
  have hbatch : ∀ a ∈ three.names, ∀ b ∈ three.names, batchName a = batchName b → a = b := by decide
  have hends : ∀ n ∈ three.names, resultOf three.P (snapshot three.P.root fresh.fs n) n ≠ none := by decide +kernel
  have hh : ∀ n ∈ three.names, runTest (three.P.env (snapshot three.P.root fresh.fs n)) (three.P.tests n).body ≠ none := by
    intro n hn h
    refine hends n hn ?_
    unfold resultOf
    rw [h]
    rfl
  obtain ⟨c, old, h1, ⟨σ, h2⟩, h3⟩ := C125_option (fl := strokes) three fresh [] [] [] (fun _ => (0 : Nat)) (0 : Nat)
    (fun _ _ => False) [] none hr (fun c h => absurd (finally_mem h) (by simp))
    (starts_free hset hdef rfl (fun _ _ => rfl) (by decide)) (by decide) (by simp) (off _) (off _) (off _) (off _) (off _)
    (fun _ _ h => absurd h (off _)) three_plain hclean hbatch (fresh_sound _) (fun _ _ h => h) hh
  obtain ⟨i, x, h4⟩ := (h3 σ h2).1
  obtain ⟨cfg, selection, selected, records, names, k1, k2, k3, -, -, k6, -, -, -, k7⟩ := C138_workers (fl := strokes) three fresh ["-p".toList]
    ⟨["-w".toList, "-i".toList], ["a".toList, "q".toList], fun _ => (0 : Nat)⟩ (fun _ => (0 : Nat)) (0 : Nat) (fun _ _ => False)
    _ _ none reads_p reads_wi ⟨[], _, [_], rfl, rfl, fun y hy v' => by rw [List.mem_singleton.mp hy]; intro h; cases h⟩
    (fun h => absurd (on_mem h) (by decide)) (fun key hk h => by
      have := on_mem h
      rw [List.map_cons, List.map_nil, List.mem_singleton] at this
      subst this
      revert hk
      decide) hset hdef (fun _ _ => rfl) (by decide) three_plain hclean hbatch (fresh_sound _) (fun _ _ h => h) hends h1 []
    σ h2 i x h4
  refine ⟨c, old, h1, σ, h2, i, x, h4, cfg, names, k1.interactive.mpr ?_, ?_, fun d hd => (k7 d hd).1⟩
  · exact ⟨.bool true, .said _ ⟨[_], _, [], rfl, rfl, by simp⟩ ⟨by decide, by decide, by decide⟩,
      ⟨by decide, by decide, by decide⟩⟩
  · have hsel : selection = ["test".toList, "book".toList] := by
      cases k2 with
      | configured s h => exact absurd h (silent _ _)
      | usual _ => rfl
    subst hsel
    have : selectedNames three.suite ["test".toList, "book".toList] none three.fuel =
      some ["test/a".toList, "test/b".toList, "test/c".toList] := by decide +kernel
    change selectedNames three.suite ["test".toList, "book".toList] none three.fuel = _ at k3
    rw [this] at k3
    injection k3 with k3
    rw [k3]
    exact k6

/-- If `test/b` has been recorded first, then it is the one that is accepted. -/
example : (dialogue three.P ⟨false, true, false, false, false, false⟩ ["test/b".toList, "test/a".toList, "test/c".toList]
      (snapshot three.P.root fresh.fs) ["a".toList, "q".toList]).map (·.ends) =
    some [("test/b".toList, .OK), ("test/a".toList, .DIFF)] := by decide +kernel

end Verif.Props
