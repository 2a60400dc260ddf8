import Verif.Lemmas.Afterwards
import Verif.Lemmas.SameFiles
import Verif.Lemmas.ParallelRun

/-! # Lemmas about parallel runs in which the user is asked (C135) -/

namespace Verif.Lemmas
open Verif.Py Verif.Model Verif.Spec

variable {P : Project} {cfg : Config} {ns all : List Str} {fs : FS} {n : Str}

theorem askedOf_reply (cfg : Config) (v : Result) (lines : List Str) :
    askedOf cfg v lines = if IsAsked cfg v then reply v lines else some (.NONE, lines) := by
  unfold askedOf
  rw [interact_reply]
  have : ((cfg.alwaysInteractive || (decide (v ≠ .OK) && cfg.interactive)) = true) ↔ IsAsked cfg v := by
    unfold IsAsked
    simp
  by_cases h : IsAsked cfg v
  · rw [if_pos h, if_pos (this.mpr h)]
  · rw [if_neg h, if_neg (fun x => h (this.mp x))]

/-- The review of a test whose output is there. -/
theorem later_alone (hu : cfg.update = false) (ha : cfg.accept = false) (hp : PlainNames ns) (hn : n ∈ ns)
    (h : SoundTree P.root ns fs) {t : Str} (hw : Waits P.root n t fs) (v : Result) (lines : List Str) :
    ∃ B, runTask fs (laterTask P cfg n (some lines) v .NONE) = .ok (B, match askedOf cfg v lines with
        | none => .eof
        | some (q, _) => .done (if Freezes cfg v q then .OK else v) q) ∧
      snapshot P.root B n = (match askedOf cfg v lines with
        | none => snapshot P.root fs n
        | some (q, _) => if Freezes cfg v q then some t else snapshot P.root fs n) := by
  unfold laterTask reviewTask
  dsimp only
  change ∃ B, runTask fs (match askedOf cfg v lines with
    | none => .done .eof
    | some (request, rest) =>
      if Freezes cfg v request then freezeTask P.root P.out n (.done (.done .OK request)) else .done (.done v request)) = _ ∧ _
  cases askedOf cfg v lines with
  | none => exact ⟨fs, rfl, rfl⟩
  | some x =>
    obtain ⟨q, rest⟩ := x
    dsimp only
    by_cases hf : Freezes cfg v q
    · rw [if_pos hf, if_pos hf, if_pos hf, run_freeze]
      obtain ⟨f1, e1, l1, t1, -, g1⟩ := freeze_live P (hp.1 n hn) (hw.live hn h) hw.out
      rw [e1]
      refine ⟨f1, rfl, ?_⟩
      unfold snapshot
      rw [t1]
    · rw [if_neg hf, if_neg hf, if_neg hf]
      exact ⟨fs, rfl, rfl⟩

/-- What the worker of a test and the review of its result leave, if they are alone. -/
theorem asked_alone (hu : cfg.update = false) (ha : cfg.accept = false) (hp : PlainNames ns) (hn : n ∈ ns)
    (h : SoundTree P.root ns fs) (i : Bool) (rv : Option (List Str)) :
    ∃ B e, runTask fs (parallelTask P cfg all i rv n) = .ok (B, e) ∧
      match runTest (P.env (snapshot P.root fs n)) (P.tests n).body with
      | none => e = .hangs
      | some s =>
        let v := verdict (P.env (snapshot P.root fs n)) s
        match rv with
        | none => e = .done v .NONE ∧ snapshot P.root B n = snapshot P.root fs n
        | some lines =>
          (e = match askedOf cfg v lines with
            | none => .eof
            | some (q, _) => .done (if Freezes cfg v q then .OK else v) q) ∧
          snapshot P.root B n = (match askedOf cfg v lines with
            | none => snapshot P.root fs n
            | some (q, _) => if Freezes cfg v q then some s.out else snapshot P.root fs n) := by
  have hc : NotAsking (jobConfig cfg) := ⟨rfl, rfl⟩
  have hno : ∀ v, ¬ AutoAccepted (jobConfig cfg) v := by
    intro v hv
    unfold AutoAccepted jobConfig at hv
    simp only [hu, ha] at hv
    simp at hv
  unfold parallelTask
  rw [run_case P _ n [] fs _ h.cwd]
  cases ht : runTest (P.env (snapshot P.root fs n)) (P.tests n).body with
  | none =>
    obtain ⟨f1, e1, -⟩ := runCase_ok (P := P) hc hp hn h []
    have hspec : (caseSpec P (jobConfig cfg) n (snapshot P.root fs n)).1 = .hangs := by
      unfold caseSpec
      rw [ht]
    rw [hspec] at e1
    rw [e1]
    exact ⟨f1, .hangs, rfl, rfl⟩
  | some s =>
    obtain ⟨f1, e1, s1, n1, -, w1⟩ := runCase_left hc hp hn h [] ht (hno _)
    rw [e1]
    unfold goOn
    dsimp only
    have key : ∀ f2, SoundTree P.root ns f2 → snapshot P.root f2 n = snapshot P.root fs n → Waits P.root n s.out f2 →
        ∃ B e, runTask f2 (laterTask P cfg n rv (verdict (P.env (snapshot P.root fs n)) s) .NONE) = .ok (B, e) ∧
        match rv with
        | none => e = .done (verdict (P.env (snapshot P.root fs n)) s) .NONE ∧ snapshot P.root B n = snapshot P.root fs n
        | some lines =>
          (e = match askedOf cfg (verdict (P.env (snapshot P.root fs n)) s) lines with
            | none => .eof
            | some (q, _) => .done (if Freezes cfg (verdict (P.env (snapshot P.root fs n)) s) q then .OK
              else verdict (P.env (snapshot P.root fs n)) s) q) ∧
          snapshot P.root B n = (match askedOf cfg (verdict (P.env (snapshot P.root fs n)) s) lines with
            | none => snapshot P.root fs n
            | some (q, _) => if Freezes cfg (verdict (P.env (snapshot P.root fs n)) s) q then some s.out
              else snapshot P.root fs n) := by
      intro f2 hS hsn hw
      cases rv with
      | none => exact ⟨f2, _, rfl, rfl, hsn⟩
      | some lines =>
        obtain ⟨B, b1, b2⟩ := later_alone hu ha hp hn hS hw (verdict (P.env (snapshot P.root fs n)) s) lines
        refine ⟨B, _, b1, rfl, ?_⟩
        rw [b2, hsn]
    cases i with
    | false => exact key f1 s1 n1 w1
    | true =>
      rw [if_pos rfl, indexTask, run_write]
      have hroot : f1.get P.root = some .dir := by
        have hpre : P.root <+: slotDir P.root false n := by
          rw [slotDir, booksDir]
          simp
        obtain ⟨z, hz⟩ := hpre
        exact above_dir s1.wf z P.root (by rw [hz]; exact w1.dir false)
      obtain ⟨f2, e2, s2, n2⟩ := index_ok hp s1 hroot (indexText all)
      have ew := openW_ok (fs := f1) (p := P.root ++ ["index.md".toList]) s1.index
        (by rw [List.dropLast_concat]; exact hroot) (indexText all)
      rw [e2]
      refine key f2 s2 ((n2 n hn).trans n1) ?_
      rw [ew] at e2
      cases e2
      have g : ∀ p, p ≠ indexFile P.root → (f1.write (P.root ++ ["index.md".toList]) (indexText all)).get p = f1.get p := by
        intro p hpi
        unfold FS.write
        rw [get_cons]
        exact if_neg hpi
      refine ⟨fun o => ?_, ?_⟩
      · rw [g, w1.dir o]
        intro e
        exact above_index (hp.1 n hn) (show Above P.root n (indexFile P.root) from ⟨o, by rw [← e]; exact List.prefix_rfl⟩)
      · rw [g, w1.out]
        intro e
        exact own_index (hp.1 n hn) (show Own P.root n (indexFile P.root) from
          ⟨true, _, Or.inr mem_md, by rw [← e]; exact List.prefix_rfl⟩)

/-- The tests have ended as they do when they are alone. -/
theorem asked_together (hu : cfg.update = false) (ha : cfg.accept = false) (hp : PlainNames ns) {sel trace : List Str}
    {index : Str → Bool} {rv : Str → Option (List Str)} {t : Str → Task} {g : FS} (hsub : ∀ n ∈ sel, n ∈ ns)
    (h : SoundTree P.root ns fs)
    (H : Interleaved (fun n => parallelTask P cfg all (index n) (rv n) n) sel fs trace g t) (hn : n ∈ sel)
    {v : Result} {q : Request} (e : t n = .done (.done v q)) :
    ∃ B, runTask fs (parallelTask P cfg all (index n) (rv n) n) = .ok (B, .done v q) ∧
      snapshot P.root g n = snapshot P.root B n := by
  obtain ⟨h1, -⟩ := alone_inv hp hsub h (fun n hn => parallel_local (hp.1 n (hsub n hn)) (index n) (rv n))
    (fun n hn => by
      obtain ⟨B, e, b, -⟩ := asked_alone (all := all) hu ha hp (hsub n hn) h (index n) (rv n)
      exact ⟨_, b⟩) H
  obtain ⟨A, a1, -, a3⟩ := h1 n hn
  rw [e] at a3
  refine ⟨A, a3.symm, ?_⟩
  rw [snapshot_text, snapshot_text, a1.own]
  exact ⟨false, _, Or.inr mem_md, List.prefix_rfl⟩

/-- Reviews one after the other are a dialogue. -/
theorem threads_dialogue {E : Str → Result → Prop} {rv : Str → Option (List Str)} {ans mid : List Str}
    {l : List (Str × Result)} {b : Bool} (snaps : Str → Option Str)
    (hE : ∀ x ∈ l, ∀ v, E x.1 v → resultOf P (snaps x.1) x.1 = some v) (hd : (l.map (·.1)).Nodup)
    (H : Threads cfg E rv ans l mid b) :
    ∃ d, dialogue P cfg (l.map (·.1)) snaps ans = some d ∧ d.ends = l ∧ d.rest = mid ∧ d.whole = b ∧
      (∀ n, n ∉ l.map (·.1) → d.snaps n = snaps n) ∧
      ∀ x ∈ l, ∃ lines r q rest, rv x.1 = some lines ∧
        caseAsked P cfg x.1 (snaps x.1) lines = some ((r, q), d.snaps x.1, rest) := by
  have app : ∀ (ns : List Str) (snaps : Str → Option Str) (lines : List Str) (d : Dialogue) (n : Str),
      dialogue P cfg ns snaps lines = some d → d.whole = true →
      dialogue P cfg (ns ++ [n]) snaps lines = (dialogue P cfg [n] d.snaps d.rest).map
        (fun d' => ⟨d.ends ++ d'.ends, d'.snaps, d'.rest, d'.whole⟩) := by
    intro ns
    induction ns with
    | nil =>
      intro snaps lines d n h _
      cases h
      rw [List.nil_append]
      cases dialogue P cfg [n] snaps lines <;> rfl
    | cons m ns ih =>
      intro snaps lines d n h hw
      rw [List.cons_append]
      rw [dialogue] at h ⊢
      cases hc : caseAsked P cfg m (snaps m) lines with
      | none => rw [hc] at h; cases h
      | some z =>
        obtain ⟨⟨r, q⟩, s, rest⟩ := z
        rw [hc] at h
        dsimp only at h ⊢
        by_cases hs : q = .ABORT ∨ (cfg.failFast = true ∧ r ≠ .OK)
        · rw [if_pos hs] at h
          cases h
          cases hw
        · rw [if_neg hs] at h ⊢
          cases hd : dialogue P cfg ns (putSnap snaps m s) rest with
          | none => rw [hd] at h; cases h
          | some d1 =>
            rw [hd] at h
            cases h
            rw [ih _ _ d1 n hd hw]
            dsimp only
            cases dialogue P cfg [n] d1.snaps d1.rest <;> rfl
  induction H with
  | nil => exact ⟨_, rfl, rfl, rfl, rfl, fun _ _ => rfl, fun _ h => by cases h⟩
  | @snoc l mid rest n v res q H h1 h2 h3 h4 ih =>
    rw [List.map_append] at hd ⊢
    obtain ⟨nd1, -, nd3⟩ := List.nodup_append.mp hd
    have hnl : n ∉ l.map (·.1) := fun hc => nd3 n hc n (by simp) rfl
    obtain ⟨d, d1, d2, d3, d4, d5, d6⟩ := ih (fun x hx => hE x (List.mem_append_left _ hx)) nd1
    have hr := hE (n, res) (by simp) v h2
    dsimp only at hr
    obtain ⟨s, t1, t2⟩ : ∃ s, runTest (P.env (snaps n)) (P.tests n).body = some s ∧ verdict (P.env (snaps n)) s = v := by
      unfold resultOf at hr
      rw [Option.map_eq_some_iff] at hr
      exact hr
    have hca : caseAsked P cfg n (snaps n) mid =
        some ((res, q), if Freezes cfg v q then some s.out else snaps n, rest) := by
      unfold caseAsked
      rw [t1]
      dsimp only
      rw [t2, ← askedOf_reply, h3, h4]
      dsimp only
      by_cases hf : Freezes cfg v q
      · rw [if_pos hf, if_pos hf, if_pos (show q = .FREEZE ∨ AutoAccepted cfg v from hf)]
      · rw [if_neg hf, if_neg hf, if_neg (show ¬ (q = .FREEZE ∨ AutoAccepted cfg v) from hf)]
    have hone : dialogue P cfg [n] d.snaps d.rest = some ⟨[(n, res)],
        putSnap d.snaps n (if Freezes cfg v q then some s.out else snaps n), rest,
        !(decide (q = .ABORT) || (cfg.failFast && decide (res ≠ .OK)))⟩ := by
      rw [dialogue, d5 n hnl, d3, hca]
      dsimp only
      by_cases hs : q = .ABORT ∨ (cfg.failFast = true ∧ res ≠ .OK)
      · rw [if_pos hs]
        have : (!(decide (q = .ABORT) || (cfg.failFast && decide (res ≠ .OK)))) = false := by
          rcases hs with hs | ⟨h1, h2⟩
          · simp [hs]
          · simp [h1, h2]
        rw [this]
      · rw [if_neg hs]
        have : (!(decide (q = .ABORT) || (cfg.failFast && decide (res ≠ .OK)))) = true := by
          rw [Bool.not_eq_true', Bool.eq_false_iff]
          intro hc
          exact hs (by simpa using hc)
        rw [this]
        rfl
    refine ⟨_, (app _ snaps ans d n d1 d4).trans (by rw [hone]; rfl), by rw [d2], rfl, rfl, ?_, ?_⟩
    · intro m hm
      rw [List.mem_append, not_or] at hm
      show putSnap d.snaps n _ m = _
      unfold putSnap
      rw [if_neg (fun e => hm.2 (by simp [e])), d5 m hm.1]
    · intro x hx
      rcases List.mem_append.mp hx with hx | hx
      · obtain ⟨lines, r, q', rest', k1, k2⟩ := d6 x hx
        refine ⟨lines, r, q', rest', k1, ?_⟩
        show _ = some (_, putSnap d.snaps n _ x.1, _)
        unfold putSnap
        rw [if_neg (fun e : x.1 = n => hnl (e ▸ List.mem_map_of_mem (f := (·.1)) hx))]
        exact k2
      · rw [List.mem_singleton.mp hx]
        refine ⟨mid, res, q, rest, h1, ?_⟩
        show _ = some (_, putSnap d.snaps n _ n, _)
        unfold putSnap
        rw [if_pos rfl]
        exact hca

end Verif.Lemmas
