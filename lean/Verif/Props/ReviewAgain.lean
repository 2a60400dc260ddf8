import Verif.Props.ReviewPass

/-! # C140: a review can be continued by another one -/

namespace Verif.Props
open Verif.Py Verif.Model Verif.Spec Verif.Lemmas

variable {fl : Durations} {P : Project} {cfg : Config} {ns selected : List Str} {fs : FS}

/-- The recorded result is the one that the test has with its snapshot, and if it is not OK, then its output is there. -/
def Reviewable (P : Project) (snaps : Str → Option Str) (fs : FS) (x : Str × Result) : Prop :=
  ∃ s, runTest (P.env (snaps x.1)) (P.tests x.1).body = some s ∧ x.2 = verdict (P.env (snaps x.1)) s ∧
    (x.2 ≠ .OK → Waits P.root x.1 s.out fs)

private theorem putSnap_self (snaps : Str → Option Str) (n : Str) : putSnap snaps n (snaps n) = snaps := by
  funext m
  unfold putSnap
  split
  · rename_i h; rw [h]
  · rfl

private theorem review_step (hI : cfg.alwaysInteractive = false) (hu : cfg.update = false) (hp : PlainNames ns) {n : Str}
    {v r : Result} {q : Request} {snaps : Str → Option Str} {t : Option Str} {lines rest : List Str} (hn : n ∈ ns)
    (hS : SoundTree P.root ns fs) (hsn : ∀ m ∈ ns, snapshot P.root fs m = snaps m)
    (hr : RepeatableTest P.u (P.tests n).body) (ho : Reviewable P snaps fs (n, v))
    (hc : caseAsked P cfg n (snaps n) lines = some ((r, q), t, rest)) :
    ∃ f1, caseReview cfg P.root P.out n (.res v) lines fs = (f1, .done (.res r) q, rest) ∧ SoundTree P.root ns f1 ∧
      (∀ m ∈ ns, snapshot P.root f1 m = putSnap snaps n t m) ∧ Reviewable P (putSnap snaps n t) f1 (n, r) ∧
      ∀ m ∈ ns, m ≠ n → ∀ v', Reviewable P snaps fs (m, v') → Reviewable P (putSnap snaps n t) f1 (m, v') := by
  obtain ⟨s, ht, hv, hw⟩ := ho
  dsimp only at ht hv hw
  have hc2 := hc
  unfold caseAsked at hc2
  rw [ht] at hc2
  dsimp only at hc2
  rw [← hv] at hc2
  cases hz : (if IsAsked cfg v then reply v lines else some (.NONE, lines)) with
  | none => rw [hz] at hc2; cases hc2
  | some z =>
    obtain ⟨q', rest'⟩ := z
    rw [hz] at hc2
    dsimp only at hc2
    by_cases ha : q' = .FREEZE ∨ AutoAccepted cfg v
    · have hne : v ≠ .OK := by
        intro hvo
        rcases ha with h | h
        · rw [if_neg (by unfold IsAsked; rw [hI, hvo]; simp)] at hz
          injection hz with hz
          injection hz with hz
          rw [h] at hz
          cases hz
        · rcases h with ⟨-, h⟩ | ⟨h, -⟩
          · rw [hu] at h; cases h
          · rw [hvo] at h; cases h
      obtain ⟨f1, e1, e2, e3, e4⟩ := caseReview_dialogue hp hn hS hsn ht hv (hw hne) hc
      refine ⟨f1, e1, e2, e3, ?_, ?_⟩
      · rw [if_pos ha] at hc2
        injection hc2 with hc2
        injection hc2 with h1 h2
        injection h1 with h1 _
        subst h1
        obtain ⟨s', g1, g2⟩ := fine_passes (fine_case hr hc)
        refine ⟨s', ?_, ?_, fun h => absurd rfl h⟩
        · show runTest (P.env (putSnap snaps n t n)) _ = _
          rw [putSnap, if_pos rfl]
          exact g1
        · show Result.OK = verdict (P.env (putSnap snaps n t n)) s'
          rw [putSnap, if_pos rfl]
          exact g2.symm
      · rintro m hm hmn v' ⟨s', g1, g2, g3⟩
        have e : putSnap snaps n t m = snaps m := by unfold putSnap; rw [if_neg hmn]
        refine ⟨s', ?_, ?_, fun h => (g3 h).other hp hm hn hmn hS e4⟩
        · show runTest (P.env (putSnap snaps n t m)) _ = _
          rw [e]
          exact g1
        · show v' = verdict (P.env (putSnap snaps n t m)) s'
          rw [e]
          exact g2
    · rw [if_neg ha] at hc2
      injection hc2 with hc2
      injection hc2 with h1 h2
      injection h1 with h1 h3
      injection h2 with h2 h4
      subst h1 h2 h3 h4
      rw [putSnap_self]
      refine ⟨fs, ?_, hS, hsn, ⟨s, ht, hv, hw⟩, fun _ _ _ _ h => h⟩
      rw [caseReview_asked hz, if_neg ha]

private theorem reviewLoop_again (hI : cfg.alwaysInteractive = false) (hu : cfg.update = false) (hp : PlainNames ns)
    (passed : List Str) (cases : Option (List Str)) :
    ∀ (recs : List (Rec fl)) (fs : FS) (lines : List Str) (snaps : Str → Option Str) (d : Dialogue),
    (recs.map (·.1)).Nodup → (∀ x ∈ recs, x.1 ∈ ns ∧ isReviewed cfg passed cases x.1 = true) → SoundTree P.root ns fs →
    (∀ m ∈ ns, snapshot P.root fs m = snaps m) → (∀ x ∈ recs, RepeatableTest P.u (P.tests x.1).body) →
    (∀ x ∈ recs, Reviewable P snaps fs (key x)) → dialogue P cfg (recs.map (·.1)) snaps lines = some d →
    ∃ fs' log, reviewLoop fl cfg P.root P.out passed cases recs false fs lines =
        (fs', some (((d.ends ++ (recs.drop d.ends.length).map key).zip (recs.map (·.2.2))).map
          (fun x => (x.1.1, .res x.1.2, x.2))), log) ∧
      (∀ m ∈ ns, snapshot P.root fs' m = d.snaps m) ∧ SoundTree P.root ns fs' ∧
      (∀ x ∈ d.ends ++ (recs.drop d.ends.length).map key, Reviewable P d.snaps fs' x) ∧
      ∀ m ∈ ns, m ∉ recs.map (·.1) → ∀ v, Reviewable P snaps fs (m, v) → Reviewable P d.snaps fs' (m, v) := by
  intro recs
  induction recs with
  | nil =>
    intro fs lines snaps d _ _ hS hsn _ _ hd
    cases hd
    exact ⟨fs, [], rfl, hsn, hS, fun x hx => absurd hx (by simp), fun _ _ _ _ h => h⟩
  | cons x recs ih =>
    obtain ⟨n, v, du⟩ := x
    intro fs lines snaps d hnd hin hS hsn hrep hw hd
    rw [List.map_cons, List.nodup_cons] at hnd
    obtain ⟨hn, hrev⟩ := hin (n, v, du) (by simp)
    dsimp only at hn hrev
    rw [List.map_cons] at hd
    unfold dialogue at hd
    have hne : ∀ y ∈ recs, y.1 ≠ n := fun y hy e => hnd.1 (List.mem_map.mpr ⟨y, hy, e⟩)
    cases hc : caseAsked P cfg n (snaps n) lines with
    | none => rw [hc] at hd; cases hd
    | some z =>
      obtain ⟨⟨r, q⟩, t, rest⟩ := z
      rw [hc] at hd
      dsimp only at hd
      obtain ⟨f1, e1, h1, s1, o1, o2⟩ := review_step hI hu hp hn hS hsn (hrep (n, v, du) (by simp)) (hw (n, v, du) (by simp)) hc
      unfold reviewLoop
      rw [if_pos (by rw [hrev]; rfl), e1]
      dsimp only
      by_cases hst : q = .ABORT ∨ (cfg.failFast = true ∧ r ≠ .OK)
      · rw [if_pos hst] at hd
        cases hd
        have hb : (decide (q = .ABORT) || (cfg.failFast && decide (Raw.res r ≠ .res .OK))) = true := by
          rcases hst with h | ⟨h, h'⟩
          · simp [h]
          · simp [h, h']
        rw [hb, reviewLoop_over]
        refine ⟨f1, [(n, .res r, q)], ?_, s1, h1, ?_, ?_⟩
        · simp only [Option.map_some, List.length_singleton, List.drop_succ_cons, List.drop_zero, List.map_cons,
            List.cons_append, List.nil_append, List.zip_cons_cons]
          rw [List.zip_map', List.map_map]
          rfl
        · intro y hy
          change y ∈ (n, r) :: recs.map key at hy
          rcases List.mem_cons.mp hy with rfl | hy
          · exact o1
          · obtain ⟨z, hz, rfl⟩ := List.mem_map.mp hy
            exact o2 z.1 (hin z (by simp [hz])).1 (hne z hz) z.2.1 (hw z (by simp [hz]))
        · intro m hm hmn v' h
          rw [List.map_cons, List.mem_cons, not_or] at hmn
          exact o2 m hm hmn.1 v' h
      · rw [if_neg hst] at hd
        have hb : (decide (q = .ABORT) || (cfg.failFast && decide (Raw.res r ≠ .res .OK))) = false := by
          rw [not_or] at hst
          rw [Bool.or_eq_false_iff]
          refine ⟨by simp [hst.1], ?_⟩
          cases hf : cfg.failFast with
          | false => rfl
          | true =>
            have : r = .OK := Decidable.of_not_not (fun h => hst.2 ⟨hf, h⟩)
            simp [this]
        rw [hb]
        cases hd' : dialogue P cfg (recs.map (·.1)) (putSnap snaps n t) rest with
        | none => rw [hd'] at hd; cases hd
        | some d' =>
          rw [hd'] at hd
          cases hd
          obtain ⟨f2, log, k1, k2, k3, k4, k5⟩ := ih f1 rest (putSnap snaps n t) d' hnd.2 (fun y hy => hin y (by simp [hy])) h1 s1
            (fun y hy => hrep y (by simp [hy]))
            (fun y hy => o2 y.1 (hin y (by simp [hy])).1 (hne y hy) y.2.1 (hw y (by simp [hy]))) hd'
          rw [k1]
          refine ⟨f2, (n, .res r, q) :: log, rfl, k2, k3, ?_, ?_⟩
          · intro y hy
            change y ∈ (n, r) :: (d'.ends ++ (recs.drop d'.ends.length).map key) at hy
            rcases List.mem_cons.mp hy with rfl | hy
            · exact k5 n hn hnd.1 r o1
            · exact k4 y hy
          · intro m hm hmn v' h
            rw [List.map_cons, List.mem_cons, not_or] at hmn
            exact k5 m hm hmn.2 v' (o2 m hm hmn.1 v' h)

/-- **C140**: a review with `-i`, `-a` and `-f` or without them is the dialogue about the recorded tests that are selected, also
if some of them have been accepted before, so that their outputs are gone; and when it ends, it leaves a state in which this
is so again. The tests have to be repeatable (see C08). -/
theorem C140_again_partial (hcont : cfg.cont = false) (hI : cfg.alwaysInteractive = false) (hu : cfg.update = false)
    (hp : PlainNames ns) (hS : SoundTree P.root ns fs) (records : List (Rec fl))
    (hnd : ((records.filter (fun x => selected.contains x.1)).map (·.1)).Nodup)
    (hsub : ∀ x ∈ records, x.1 ∈ selected → x.1 ∈ ns)
    (hr : ∀ x ∈ records, x.1 ∈ selected → RepeatableTest P.u (P.tests x.1).body)
    (hout : ∀ x ∈ records, x.1 ∈ selected → Reviewable P (snapshot P.root fs) fs (key x)) (lines : List Str) {d : Dialogue}
    (hd : dialogue P cfg ((records.filter (fun x => selected.contains x.1)).map (·.1)) (snapshot P.root fs) lines = some d) :
    ∃ fs' reviewed code log, review fl cfg P.root P.out none (some selected) records lines fs =
        (fs', some (reviewed, code), log) ∧
      (∀ m ∈ ns, snapshot P.root fs' m = d.snaps m) ∧ reviewed.map (·.1) = records.map (·.1) ∧
      (reviewed.filter (fun x => selected.contains x.1)).map key = d.ends ++
        ((records.filter (fun x => selected.contains x.1)).drop d.ends.length).map key ∧
      reviewed.filter (fun x => !selected.contains x.1) = records.filter (fun x => !selected.contains x.1) ∧
      (code = 0 ↔ ∀ x ∈ reviewed, x.2.1 = .OK) ∧ SoundTree P.root ns fs' ∧
      ∀ x ∈ reviewed, x.1 ∈ selected → Reviewable P (snapshot P.root fs') fs' (key x) := by
  have hmem : ∀ x ∈ records.filter (fun x => selected.contains x.1), x ∈ records ∧ x.1 ∈ selected := by
    intro x hx
    obtain ⟨h1, h2⟩ := List.mem_filter.mp hx
    exact ⟨h1, by simpa using h2⟩
  have hrev : isReviewed cfg (passed records) (some selected) = fun n => selected.contains n := by
    funext n
    unfold isReviewed
    rw [hcont]
    simp
  obtain ⟨fs', log, k1, k2, k3, k4, -⟩ := reviewLoop_again (P := P) hI hu hp (passed records) (some selected)
    (records.filter (fun x => selected.contains x.1)) fs lines (snapshot P.root fs) d hnd
    (fun x hx => ⟨hsub x (hmem x hx).1 (hmem x hx).2, by rw [hrev]; simpa using (hmem x hx).2⟩) hS (fun _ _ => rfl)
    (fun x hx => hr x (hmem x hx).1 (hmem x hx).2) (fun x hx => hout x (hmem x hx).1 (hmem x hx).2) hd
  obtain ⟨tail, htail⟩ := dialogue_names _ _ _ d hd
  obtain ⟨reviewed, code, r1, r2, r3, r4, r5⟩ := review_of_loop (P := P) hcont records htail k1
  refine ⟨fs', reviewed, code, log, r1, k2, r2, r3, r4, r5, k3, ?_⟩
  intro x hx hxs
  have h1 : key x ∈ (reviewed.filter (fun x => selected.contains x.1)).map key :=
    List.mem_map_of_mem (List.mem_filter.mpr ⟨hx, by simpa using hxs⟩)
  rw [r3] at h1
  obtain ⟨s, g1, g2, g3⟩ := k4 _ h1
  have hxn : x.1 ∈ ns := by
    have : x.1 ∈ reviewed.map (·.1) := List.mem_map_of_mem hx
    rw [r2] at this
    obtain ⟨y, hy, ey⟩ := List.mem_map.mp this
    rw [← ey]
    exact hsub y hy (by rw [ey]; exact hxs)
  have e : snapshot P.root fs' (key x).1 = d.snaps (key x).1 := k2 _ hxn
  exact ⟨s, by rw [e]; exact g1, by rw [e]; exact g2, g3⟩

private theorem reviewLoop_again_none (hI : cfg.alwaysInteractive = false) (hu : cfg.update = false) (hp : PlainNames ns)
    (passed : List Str) (cases : Option (List Str)) :
    ∀ (recs : List (Rec fl)) (fs : FS) (lines : List Str) (snaps : Str → Option Str),
    (recs.map (·.1)).Nodup → (∀ x ∈ recs, x.1 ∈ ns ∧ isReviewed cfg passed cases x.1 = true) → SoundTree P.root ns fs →
    (∀ m ∈ ns, snapshot P.root fs m = snaps m) → (∀ x ∈ recs, RepeatableTest P.u (P.tests x.1).body) →
    (∀ x ∈ recs, Reviewable P snaps fs (key x)) → dialogue P cfg (recs.map (·.1)) snaps lines = none →
    (reviewLoop fl cfg P.root P.out passed cases recs false fs lines).2.1 = none := by
  intro recs
  induction recs with
  | nil => intro fs lines snaps _ _ _ _ _ _ hd; cases hd
  | cons x recs ih =>
    obtain ⟨n, v, du⟩ := x
    intro fs lines snaps hnd hin hS hsn hrep hw hd
    rw [List.map_cons, List.nodup_cons] at hnd
    obtain ⟨hn, hrev⟩ := hin (n, v, du) (by simp)
    dsimp only at hn hrev
    obtain ⟨s, ht, hv, -⟩ := hw (n, v, du) (by simp)
    dsimp only [key] at ht hv
    rw [List.map_cons] at hd
    unfold dialogue at hd
    unfold reviewLoop
    rw [if_pos (by rw [hrev]; rfl)]
    cases hc : caseAsked P cfg n (snaps n) lines with
    | none =>
      have hr : (if IsAsked cfg v then reply v lines else some (.NONE, lines)) = none := by
        unfold caseAsked at hc
        rw [ht] at hc
        dsimp only at hc
        rw [← hv] at hc
        cases hr : (if IsAsked cfg v then reply v lines else some (.NONE, lines)) with
        | none => rfl
        | some z =>
          rw [hr] at hc
          dsimp only at hc
          split at hc <;> cases hc
      rw [caseReview_none hr]
    | some z =>
      obtain ⟨⟨r, q⟩, t, rest⟩ := z
      rw [hc] at hd
      dsimp only at hd
      obtain ⟨f1, e1, h1, s1, -, o2⟩ := review_step hI hu hp hn hS hsn (hrep (n, v, du) (by simp)) (hw (n, v, du) (by simp)) hc
      rw [e1]
      dsimp only
      by_cases hst : q = .ABORT ∨ (cfg.failFast = true ∧ r ≠ .OK)
      · rw [if_pos hst] at hd
        cases hd
      · rw [if_neg hst] at hd
        have hb : (decide (q = .ABORT) || (cfg.failFast && decide (Raw.res r ≠ .res .OK))) = false := by
          rw [not_or] at hst
          rw [Bool.or_eq_false_iff]
          refine ⟨by simp [hst.1], ?_⟩
          cases hf : cfg.failFast with
          | false => rfl
          | true =>
            have : r = .OK := Decidable.of_not_not (fun h => hst.2 ⟨hf, h⟩)
            simp [this]
        rw [hb]
        have hne : ∀ y ∈ recs, y.1 ≠ n := fun y hy e => hnd.1 (List.mem_map.mpr ⟨y, hy, e⟩)
        rw [ih f1 rest (putSnap snaps n t) hnd.2 (fun y hy => hin y (by simp [hy])) h1 s1
          (fun y hy => hrep y (by simp [hy]))
          (fun y hy => o2 y.1 (hin y (by simp [hy])).1 (hne y hy) y.2.1 (hw y (by simp [hy]))) (Option.map_eq_none_iff.mp hd)]
        rfl

/-- **C140**: such a review ends only if the user answers what the dialogue asks. -/
theorem C140_no_answer_partial (hcont : cfg.cont = false) (hI : cfg.alwaysInteractive = false) (hu : cfg.update = false)
    (hp : PlainNames ns) (hS : SoundTree P.root ns fs) (records : List (Rec fl))
    (hnd : ((records.filter (fun x => selected.contains x.1)).map (·.1)).Nodup)
    (hsub : ∀ x ∈ records, x.1 ∈ selected → x.1 ∈ ns)
    (hr : ∀ x ∈ records, x.1 ∈ selected → RepeatableTest P.u (P.tests x.1).body)
    (hout : ∀ x ∈ records, x.1 ∈ selected → Reviewable P (snapshot P.root fs) fs (key x)) (lines : List Str)
    (hd : dialogue P cfg ((records.filter (fun x => selected.contains x.1)).map (·.1)) (snapshot P.root fs) lines = none) :
    (review fl cfg P.root P.out none (some selected) records lines fs).2.1 = none := by
  have hmem : ∀ x ∈ records.filter (fun x => selected.contains x.1), x ∈ records ∧ x.1 ∈ selected := by
    intro x hx
    obtain ⟨h1, h2⟩ := List.mem_filter.mp hx
    exact ⟨h1, by simpa using h2⟩
  have hrev : isReviewed cfg (passed records) (some selected) = fun n => selected.contains n := by
    funext n
    unfold isReviewed
    rw [hcont]
    simp
  exact review_none_of_loop hcont records lines (reviewLoop_again_none (P := P) hI hu hp (passed records) (some selected)
    (records.filter (fun x => selected.contains x.1)) fs lines (snapshot P.root fs) hnd
    (fun x hx => ⟨hsub x (hmem x hx).1 (hmem x hx).2, by rw [hrev]; simpa using (hmem x hx).2⟩) hS (fun _ _ => rfl)
    (fun x hx => hr x (hmem x hx).1 (hmem x hx).2) (fun x hx => hout x (hmem x hx).1 (hmem x hx).2) hd)

/-- Reviews one after the other, each of them of the records that the one before has left. Each of them is the dialogue about
the selected tests in the order of the records, with the snapshots that are there; what does not belong to a selected test
stays. At the end there is `Q`. -/
def Sittings {fl : Durations} (P : Project) (ns selected : List Str) (Q : FS → List (Rec fl) → Prop) :
    List (Config × List Str) → FS → List (Rec fl) → Prop
  | [], fs, records => Q fs records
  | x :: xs, fs, records =>
    ∀ d, dialogue P x.1 ((records.filter (fun x => selected.contains x.1)).map (·.1)) (snapshot P.root fs) x.2 = some d →
    ∃ fs' reviewed code log, review fl x.1 P.root P.out none (some selected) records x.2 fs = (fs', some (reviewed, code), log) ∧
      (∀ m ∈ ns, snapshot P.root fs' m = d.snaps m) ∧ reviewed.map (·.1) = records.map (·.1) ∧
      (reviewed.filter (fun x => selected.contains x.1)).map key = d.ends ++
        ((records.filter (fun x => selected.contains x.1)).drop d.ends.length).map key ∧
      reviewed.filter (fun x => !selected.contains x.1) = records.filter (fun x => !selected.contains x.1) ∧
      (code = 0 ↔ ∀ x ∈ reviewed, x.2.1 = .OK) ∧ Sittings P ns selected Q xs fs' reviewed

/-- If all records of the selected tests are OK, then these tests pass, again and again. -/
def PassIfOk {fl : Durations} (P : Project) (selected : List Str) (fs : FS) (records : List (Rec fl)) : Prop :=
  (∀ x ∈ records, x.1 ∈ selected → x.2.1 = .OK) →
    ∀ (report : Option Bytes) (old : List (Rec fl)), ofFile P.u fl report = some old → ∀ (all : List Str) (runs : List (Rerun fl)),
    (∀ x ∈ runs, NotAsking x.cfg ∧ x.cfg.update = false ∧ x.selected.Nodup ∧
      ∀ n ∈ x.selected, n ∈ (records.filter (fun x => selected.contains x.1)).map (·.1)) →
    PassOn P ((records.filter (fun x => selected.contains x.1)).map (·.1)) all runs fs report

private theorem fine_ok {n : Str} {t : Option Str} {s : St} (h1 : runTest (P.env t) (P.tests n).body = some s)
    (h2 : verdict (P.env t) s = .OK) : Fine P n t := by
  intro cfg hu
  unfold caseSpec
  rw [h1]
  dsimp only
  rw [h2, if_neg]
  rintro (h | h)
  · rw [hu] at h; cases h.2
  · cases h.1

private theorem sound_sub {root : Path} {ms : List Str} (h : ∀ n ∈ ms, n ∈ ns) (hS : SoundTree root ns fs) : SoundTree root ms fs :=
  ⟨hS.wf, hS.cwd, fun n hn => hS.ways n (h n hn), fun n hn => hS.files n (h n hn), fun n hn => hS.dirs n (h n hn), hS.index, hS.base⟩

private theorem plain_sub {ms : List Str} (h : ∀ n ∈ ms, n ∈ ns) (hp : PlainNames ns) : PlainNames ms :=
  ⟨fun n hn => hp.1 n (h n hn), fun a ha b hb => hp.2 a (h a ha) b (h b hb)⟩

private theorem names_kept {a b : List (Rec fl)} (h : a.map (·.1) = b.map (·.1)) :
    (a.filter (fun x => selected.contains x.1)).map (·.1) = (b.filter (fun x => selected.contains x.1)).map (·.1) := by
  have e : ∀ l : List (Rec fl), (l.filter (fun x => selected.contains x.1)).map (·.1) =
      (l.map (·.1)).filter (fun n => selected.contains n) := by
    intro l
    rw [List.filter_map]
    rfl
  rw [e, e, h]

/-- **C140**: any number of reviews one after the other, with `-i`, `-a` and `-f` or without them, and with any answers: each of
them is the dialogue about the recorded tests that are selected, and if these tests are all recorded as OK in the end,
then they pass from then on. The tests have to be repeatable (see C08). -/
theorem C140_sittings_partial (hp : PlainNames ns) (hcl : ∀ n ∈ ns, CleanName n)
    (xs : List (Config × List Str))
    (hx : ∀ x ∈ xs, x.1.cont = false ∧ x.1.alwaysInteractive = false ∧ x.1.update = false) :
    ∀ (fs : FS) (records : List (Rec fl)), SoundTree P.root ns fs →
    ((records.filter (fun x => selected.contains x.1)).map (·.1)).Nodup →
    (∀ x ∈ records, x.1 ∈ selected → x.1 ∈ ns) →
    (∀ x ∈ records, x.1 ∈ selected → RepeatableTest P.u (P.tests x.1).body) →
    (∀ x ∈ records, x.1 ∈ selected → Reviewable P (snapshot P.root fs) fs (key x)) →
    Sittings P ns selected (PassIfOk P selected) xs fs records := by
  induction xs with
  | nil =>
    intro fs records hS hnd hsub _ hout hok report old hrep all runs hruns
    have hmem : ∀ n ∈ (records.filter (fun x => selected.contains x.1)).map (·.1), ∃ x ∈ records, x.1 ∈ selected ∧ x.1 = n := by
      intro n hn
      obtain ⟨x, hx, rfl⟩ := List.mem_map.mp hn
      obtain ⟨h1, h2⟩ := List.mem_filter.mp hx
      exact ⟨x, h1, by simpa using h2, rfl⟩
    have hin : ∀ n ∈ (records.filter (fun x => selected.contains x.1)).map (·.1), n ∈ ns := by
      intro n hn
      obtain ⟨x, h1, h2, rfl⟩ := hmem n hn
      exact hsub x h1 h2
    refine passes_on (plain_sub hin hp) (fun n hn => hcl n (hin n hn)) runs _ _ _ (sound_sub hin hS) hrep ?_
    intro x hm
    obtain ⟨h1, h2, h3, h4⟩ := hruns x hm
    refine ⟨h1, h3, h4, fun n hn => ?_⟩
    obtain ⟨y, g1, g2, rfl⟩ := hmem n hn
    obtain ⟨s, a1, a2, -⟩ := hout y g1 g2
    exact fine_ok a1 (a2.symm.trans (hok y g1 g2)) x.cfg h2
  | cons x xs ih =>
    intro fs records hS hnd hsub hr hout d hd
    obtain ⟨h1, h2, h3⟩ := hx x (by simp)
    obtain ⟨fs', reviewed, code, log, k1, k2, k3, k4, k5, k6, k7, k8⟩ :=
      C140_again_partial h1 h2 h3 hp hS records hnd hsub hr hout x.2 hd
    have hthere : ∀ y ∈ reviewed, ∃ z ∈ records, z.1 = y.1 := by
      intro y hy
      have : y.1 ∈ reviewed.map (·.1) := List.mem_map_of_mem hy
      rw [k3] at this
      exact List.mem_map.mp this
    refine ⟨fs', reviewed, code, log, k1, k2, k3, k4, k5, k6, ih (fun y hy => hx y (by simp [hy])) fs' reviewed k7 ?_ ?_ ?_ k8⟩
    · rw [names_kept k3]
      exact hnd
    · intro y hy hs
      obtain ⟨z, hz, e⟩ := hthere y hy
      rw [← e] at hs ⊢
      exact hsub z hz hs
    · intro y hy hs
      obtain ⟨z, hz, e⟩ := hthere y hy
      rw [← e] at hs ⊢
      exact hr z hz hs

/-- **C140**: after a run without questions, any number of reviews of its tests are dialogues one after the other. -/
theorem C140_run_partial {cfg0 : Config} (h0 : PlainRun cfg0) (hp : PlainNames ns) (hcl : ∀ n ∈ ns, CleanName n)
    (hS : SoundTree P.root ns fs) (hnd : selected.Nodup) (hsub : ∀ n ∈ selected, n ∈ ns) {report : Option Bytes}
    {old : List (Rec fl)} (hrep : ofFile P.u fl report = some old) (dur : Str → fl.D) (all lines0 : List Str)
    (hends : ∀ n ∈ selected, resultOf P (snapshot P.root fs n) n ≠ none)
    (hr : ∀ n ∈ selected, RepeatableTest P.u (P.tests n).body) (xs : List (Config × List Str))
    (hx : ∀ x ∈ xs, x.1.cont = false ∧ x.1.alwaysInteractive = false ∧ x.1.update = false) :
    let r := runProject P cfg0 dur all selected fs lines0 report
    ∃ records, ofFile P.u fl r.report = some records ∧
      (records.filter (fun x => selected.contains x.1)).map (·.1) = selected ∧
      Sittings P ns selected (PassIfOk P selected) xs r.fs records := by
  intro r
  obtain ⟨p1, p2, p3, new, p4, p5, p6⟩ := plain_left h0 hp hS hnd hsub (fun n hn => hcl n (hsub n hn)) hrep dur all lines0 hends
  have hnew : ∀ x ∈ new, x.1 ∈ selected := fun x hx => by rw [← p4]; exact List.mem_map_of_mem hx
  have e : (old.filter (fun x => !selected.contains x.1) ++ new).filter (fun x => selected.contains x.1) = new := by
    rw [List.filter_append, List.filter_eq_nil_iff.mpr, List.filter_eq_self.mpr, List.nil_append]
    · intro x hx
      simpa using hnew x hx
    · intro x hx
      simpa using (List.mem_filter.mp hx).2
  have hmem : ∀ x ∈ old.filter (fun x => !selected.contains x.1) ++ new, x.1 ∈ selected → x ∈ new := by
    intro x hx hs
    rw [← e]
    exact List.mem_filter.mpr ⟨hx, by simpa using hs⟩
  refine ⟨_, p6, by rw [e, p4], C140_sittings_partial hp hcl xs hx _ _ p1 (by rw [e, p4]; exact hnd)
    (fun x _ hs => hsub _ hs) (fun x _ hs => hr _ hs) ?_⟩
  intro x hx hs
  have h := p5 x (hmem x hx hs)
  unfold resultOf at h
  obtain ⟨s, a1, a2⟩ := Option.map_eq_some_iff.mp h
  have e1 : snapshot P.root r.fs (key x).1 = snapshot P.root fs x.1 := p2 _ (hsub _ hs)
  exact ⟨s, by rw [e1]; exact a1, by rw [e1]; exact a2.symm, fun _ => p3 _ hs s a1⟩

/-! ### A case that meets the hypotheses -/

private def greets (x : String) : TestFn := ⟨⟨[.header "# t".toList, .tln x.toList], none⟩, [], [], none⟩

/-- A new project with three tests. -/
private def three : Site where
  N := ⟨fun _ => none, fun _ => false⟩
  P := ⟨ascii, false, some, ["books".toList], fun n => if n = "test/a".toList then greets "a" else greets "b"⟩
  suite := { cases := [("test/a".toList, ⟨none, 0⟩), ("test/b".toList, ⟨none, 1⟩), ("test/c".toList, ⟨none, 2⟩)]
             info := fun _ => {}
             isInstance := fun _ _ => false }
  fuel := 10
  cpuCount := 4
  viewer := fun _ => 0
  coverage := ([], [])

private def fresh : World := ⟨⟨fun _ => none, [], []⟩, [([], .dir)], none, false⟩

private theorem fresh_sound (ns : List Str) : SoundTree ["books".toList] ns [([], .dir)] := by
  have g : ∀ p, FS.get [([], .dir)] p = if p = [] then some .dir else none := by
    intro p; rw [get_cons]; rfl
  refine ⟨?_, rfl, ?_, ?_, ?_, ?_, ?_⟩
  · intro p c h; rw [g, if_neg (by simp)] at h; cases h
  · intro n _ o q _ t; rw [g]; split <;> simp
  · intro n _ o x hx _; rw [g, if_neg (slot_ne_nil _ o n (Or.inr hx))]; simp
  · intro n _ o x hx t; rw [g]; split <;> simp
  · decide
  · intro q _ t; rw [g]; split <;> simp

private theorem three_plain : PlainNames three.names := by
  refine ⟨?_, by unfold NotNested; decide⟩
  intro n hn
  change n ∈ ["test/a".toList, "test/b".toList, "test/c".toList] at hn
  simp only [List.mem_cons, List.not_mem_nil, or_false] at hn
  rcases hn with rfl | rfl | rfl
  · exact ⟨by decide, by decide, by decide⟩
  · exact ⟨by decide, by decide, by decide⟩
  · exact ⟨by decide, by decide, by decide⟩

private theorem three_repeatable : ∀ n ∈ three.names, RepeatableTest three.P.u (three.P.tests n).body := by
  intro n hn
  change n ∈ ["test/a".toList, "test/b".toList, "test/c".toList] at hn
  simp only [List.mem_cons, List.not_mem_nil, or_false] at hn
  rcases hn with rfl | rfl | rfl
  · exact ⟨rfl, ⟨Or.inr rfl, trivial, trivial⟩, ⟨_, rfl, by decide⟩, by decide⟩
  · exact ⟨rfl, ⟨Or.inr rfl, trivial, trivial⟩, ⟨_, rfl, by decide⟩, by decide⟩
  · exact ⟨rfl, ⟨Or.inr rfl, trivial, trivial⟩, ⟨_, rfl, by decide⟩, by decide⟩

/-- Three new tests: in the first review the user accepts one and quits; in the second review, which does not ask about it, the
user skips the next and accepts the last; the third one accepts what is left. -/
example : let r := runProject (fl := strokes) three.P {} (fun _ => (0 : Nat)) three.names three.names fresh.fs [] none
    let i : Config := { interactive := true }
    ∃ records, ofFile three.P.u strokes r.report = some records ∧
      Sittings three.P three.names three.names (PassIfOk three.P three.names)
        [(i, ["a".toList, "q".toList]), (i, ["c".toList, "a".toList]), ({ accept := true }, [])] r.fs records ∧
    (let a := review strokes i three.P.root three.P.out none (some three.names) records ["a".toList, "q".toList] r.fs
     ∃ first, a.2.1 = some (first, -1) ∧ first.map (fun x => decide (x.2.1 = .OK)) = [true, false, false] ∧
      let b := review strokes i three.P.root three.P.out none (some three.names) first ["c".toList, "a".toList] a.1
      ∃ second, b.2.1 = some (second, -1) ∧ second.map (fun x => decide (x.2.1 = .OK)) = [true, false, true] ∧
      (review strokes { accept := true } three.P.root three.P.out none (some three.names) second [] b.1).2.1.map (·.2) = some 0) := by
  intro r i
  obtain ⟨records, h1, h2, h3⟩ := C140_run_partial (fl := strokes) (P := three.P) (cfg0 := {}) (ns := three.names)
    (selected := three.names) (fs := fresh.fs) (report := none) (old := []) ⟨⟨rfl, rfl⟩, rfl, rfl, rfl, rfl⟩ three_plain
    (by unfold CleanName; decide) (fresh_sound _) (by decide) (fun _ h => h) rfl (fun _ => (0 : Nat)) three.names []
    (by decide +kernel) three_repeatable
    [(i, ["a".toList, "q".toList]), (i, ["c".toList, "a".toList]), ({ accept := true }, [])] (by
      intro x hx
      simp only [List.mem_cons, List.not_mem_nil, or_false] at hx
      rcases hx with rfl | rfl | rfl <;> exact ⟨rfl, rfl, rfl⟩)
  have e : ofFile three.P.u strokes r.report = some [("test/a".toList, .DIFF, (0 : Nat)), ("test/b".toList, .DIFF, (0 : Nat)),
    ("test/c".toList, .DIFF, (0 : Nat))] := by
    change (ofFile ascii strokes r.report : Option (List (Str × Result × Nat))) = some _
    decide +kernel
  have e' := e.symm.trans h1
  injection e' with e'
  subst e'
  refine ⟨_, e, h3, [("test/a".toList, .OK, (0 : Nat)), ("test/b".toList, .DIFF, (0 : Nat)), ("test/c".toList, .DIFF, (0 : Nat))],
    by decide +kernel, by decide, [("test/a".toList, .OK, (0 : Nat)), ("test/b".toList, .DIFF, (0 : Nat)),
    ("test/c".toList, .OK, (0 : Nat))], by decide +kernel, by decide, by decide +kernel⟩

end Verif.Props
