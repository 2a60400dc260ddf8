import Verif.Lemmas.AskedTogether
import Verif.Props.ParallelRun
import Verif.Props.Afterwards

/-! # C135: a parallel run with questions is the dialogue in the order in which its results are recorded -/

namespace Verif.Props
open Verif.Py Verif.Model Verif.Spec Verif.Lemmas

variable {fl : Durations} {c : RConf fl} {fs : FS} {ans ns : List Str} {s : RSt fl}

/-- **C135**: at any moment of a parallel run with `-i` or `-I`, the records are those of the dialogue with the user about
the tests in the order of the records, and then those of reports that the user has not been asked about (after `q`, after an
interrupt, or after an exception). The dialogue begins with the snapshots before the run, and each test has the snapshot that
the dialogue leaves. As long as the reviews go on, there are no other records, and the lines that the user has not been asked
for are those that the dialogue leaves. -/
theorem C135_dialogue (ht : Tidy c) (hr : AsksReported c) (hu : c.cfg.update = false) (ha : c.cfg.accept = false)
    (hp : PlainNames ns) (hS : SoundTree c.P.root ns fs) (hsub : ∀ n ∈ c.todo, n ∈ ns) (H : RReach c fs ans s) :
    ∃ (asked left : List (Rec fl)) (d : Dialogue), s.run.recorded = asked ++ left ∧
      dialogue c.P c.cfg (asked.map (·.1)) (snapshot c.P.root fs) ans = some d ∧ asked.map key = d.ends ∧
      (∀ x ∈ asked, snapshot c.P.root s.fs x.1 = d.snaps x.1) ∧
      (∀ x ∈ left, resultOf c.P (snapshot c.P.root fs x.1) x.1 = some x.2.1 ∧
        snapshot c.P.root s.fs x.1 = snapshot c.P.root fs x.1) ∧
      (s.run.rpc = .check ∨ s.run.rpc = .waiting → left = [] ∧ s.ans = d.rest) ∧
      (d.whole = false → s.run.abort = true) := by
  obtain ⟨hw, index, rv, trace, t, hf⟩ := run_inv ht hr H
  obtain ⟨g1, g2, -⟩ := C39_genuine (named_pconf ht) hw.reach
  obtain ⟨l, left, mid, b, o1, o2, o3, o4, o5, -, -⟩ := hf.order
  have hin : ∀ x ∈ s.run.recorded, x.1 ∈ c.todo := fun x hx => (g2 x hx).1
  have hE : ∀ n ∈ c.todo, ∀ v, Reported c fs n v → resultOf c.P (snapshot c.P.root fs n) n = some v := by
    rintro n hn v ⟨index', rv', trace', g', t', q, i1, i2, i3⟩
    obtain ⟨B, b1, -⟩ := asked_together hu ha hp hsub hS i1 hn i3
    obtain ⟨B', e', k1, k2⟩ := asked_alone (all := c.all) (cfg := c.cfg) hu ha hp (hsub n hn) hS (index' n) (rv' n)
    rw [b1] at k1
    injection k1 with k1
    injection k1 with k3 k4
    subst k4
    unfold resultOf
    cases e : runTest (c.P.env (snapshot c.P.root fs n)) (c.P.tests n).body with
    | none => rw [e] at k2; cases k2
    | some st =>
      rw [e, i2] at k2
      injection k2.1 with k2
      rw [k2]
      rfl
  have hmap : (l.map (fun x => (x.1, x.2.1))).map (·.1) = l.map (·.1) := by rw [List.map_map]; rfl
  have hnd : (l.map (·.1)).Nodup := by
    rw [o1, List.map_append] at g1
    exact (List.nodup_append.mp g1).1
  obtain ⟨d, d1, d2, d3, d4, -, d6⟩ := threads_dialogue (P := c.P) (snapshot c.P.root fs)
    (fun x hx => by
      obtain ⟨y, hy, rfl⟩ := List.mem_map.mp hx
      exact hE _ (hin y (by rw [o1]; exact List.mem_append_left _ hy))) (by rw [hmap]; exact hnd) o2
  rw [hmap] at d1
  refine ⟨l, left, d, o1, d1, d2.symm, ?_, ?_, ?_, ?_⟩
  · intro x hx
    have hxr : x ∈ s.run.recorded := by rw [o1]; exact List.mem_append_left _ hx
    obtain ⟨q, e⟩ := hf.recorded x hxr
    obtain ⟨lines, r, q', rest, k1, k2⟩ := d6 (x.1, x.2.1) (List.mem_map_of_mem (f := fun x : Rec fl => (x.1, x.2.1)) hx)
    dsimp only at k1 k2
    obtain ⟨B, b1, b2⟩ := asked_together hu ha hp hsub hS hf.inter (hin x hxr) e
    obtain ⟨B', e', j1, j2⟩ := asked_alone (all := c.all) (cfg := c.cfg) hu ha hp (hsub _ (hin x hxr)) hS (index x.1) (rv x.1)
    rw [b1] at j1
    injection j1 with j1
    injection j1 with j3 j4
    subst j3
    rw [b2]
    unfold caseAsked at k2
    cases ht : runTest (c.P.env (snapshot c.P.root fs x.1)) (c.P.tests x.1).body with
    | none => rw [ht] at k2; cases k2
    | some st =>
      rw [ht] at k2 j2
      rw [k1] at j2
      dsimp only at k2 j2
      rw [← askedOf_reply] at k2
      rw [j2.2]
      cases ho : askedOf c.cfg (verdict (c.P.env (snapshot c.P.root fs x.1)) st) lines with
      | none => rw [ho] at k2; cases k2
      | some z =>
        obtain ⟨q2, rest2⟩ := z
        rw [ho] at k2
        dsimp only at k2 ⊢
        by_cases hfr : Freezes c.cfg (verdict (c.P.env (snapshot c.P.root fs x.1)) st) q2
        · rw [if_pos (show q2 = .FREEZE ∨ AutoAccepted c.cfg _ from hfr)] at k2
          rw [if_pos hfr]
          injection k2 with k2
          injection k2 with _ k2
          injection k2 with k2 _
        · rw [if_neg (show ¬ (q2 = .FREEZE ∨ AutoAccepted c.cfg _) from hfr)] at k2
          rw [if_neg hfr]
          injection k2 with k2
          injection k2 with _ k2
          injection k2 with k2 _
  · intro x hx
    have hxr : x ∈ s.run.recorded := by rw [o1]; exact List.mem_append_right _ hx
    obtain ⟨q, e⟩ := hf.recorded x hxr
    refine ⟨hE _ (hin x hxr) _ ⟨index, rv, trace, s.fs, t, q, hf.inter, o3 x hx, e⟩, ?_⟩
    obtain ⟨B, b1, b2⟩ := asked_together hu ha hp hsub hS hf.inter (hin x hxr) e
    obtain ⟨B', e', j1, j2⟩ := asked_alone (all := c.all) (cfg := c.cfg) hu ha hp (hsub _ (hin x hxr)) hS (index x.1) (rv x.1)
    rw [b1] at j1
    injection j1 with j1
    injection j1 with j3 j4
    subst j3 j4
    rw [b2]
    cases ht : runTest (c.P.env (snapshot c.P.root fs x.1)) (c.P.tests x.1).body with
    | none => rw [ht] at j2; cases j2
    | some st =>
      rw [ht, o3 x hx] at j2
      exact j2.2
  · intro h
    obtain ⟨k1, k2⟩ := o4 h
    exact ⟨k1, k2.trans d3.symm⟩
  · intro h
    exact o5 (by rw [← d4]; exact h)

/-- **C135**: if the results of a parallel run are recorded in the order in which the tests are selected, and the reviews have
not been left, then a run of the same tests one after the other with the same answers gives the same results, leaves the same
snapshots, and asks for as many lines. -/
theorem C135_in_order (ht : Tidy c) (hr : AsksReported c) (hu : c.cfg.update = false) (ha : c.cfg.accept = false)
    (hcont : c.cfg.cont = false) (hp : PlainNames c.todo) (hS : SoundTree c.P.root c.todo fs) (H : RReach c fs ans s)
    (hc : s.run.rpc = .check ∨ s.run.rpc = .waiting) (ho : s.run.recorded.map (·.1) = c.todo)
    {report : Option Bytes} {old : List (Rec fl)} (hrep : ofFile c.P.u fl report = some old) (dur : Str → fl.D) :
    let r := runProject c.P c.cfg dur c.all c.todo fs ans report
    r.result = some (worst (s.run.recorded.map (·.2.1))) ∧ r.answers = s.ans ∧
    (∀ n ∈ c.todo, snapshot c.P.root r.fs n = snapshot c.P.root s.fs n) ∧
    ∃ new : List (Rec fl), new.map key = s.run.recorded.map key ∧
      ofFile c.P.u fl r.report = some (old.filter (fun x => !c.todo.contains x.1) ++ new) := by
  obtain ⟨l, left, d, o1, d1, d2, d3, -, d5, -⟩ := C135_dialogue ht hr hu ha hp hS (fun _ h => h) H
  obtain ⟨rfl, d6⟩ := d5 hc
  rw [List.append_nil] at o1
  subst o1
  have hto := toRun_all hcont old c.todo
  rw [ho] at d1
  obtain ⟨k1, k2, -, k4, new, k5, k6⟩ := C133_dialogue (cfg := c.cfg) hp hS (fun _ h => h) ht.names hrep dur c.all ans
    (by rw [hto]; exact d1)
  refine ⟨?_, k2.trans d6.symm, ?_, new, k5.trans d2.symm, by rw [hto] at k6; exact k6⟩
  · rw [k1, ← d2, List.map_map]
    rfl
  · intro n hn
    rw [k4 n hn]
    rw [← ho] at hn
    obtain ⟨x, hx, rfl⟩ := List.mem_map.mp hn
    exact (d3 x hx).symm

/-- **C135** is about the order of the records: the user who enters the same lines in a run of the same tests one after the
other accepts the output of another test. -/
theorem C135_order_refuted : ∃ (c : RConf strokes) (fs : FS) (ans : List Str) (s : RSt strokes) (d : Dialogue) (n : Str),
    Tidy c ∧ AsksReported c ∧ c.cfg.update = false ∧ c.cfg.accept = false ∧ PlainNames c.todo ∧
    SoundTree c.P.root c.todo fs ∧ RReach c fs ans s ∧ s.run.rpc = .ended false ∧
    (s.run.recorded.map (·.1)).Perm c.todo ∧ n ∈ c.todo ∧
    dialogue c.P c.cfg c.todo (snapshot c.P.root fs) ans = some d ∧ d.snaps n ≠ snapshot c.P.root s.fs n ∧
    ¬ (s.run.recorded.map key).Perm d.ends := by
  obtain ⟨c, s, d, h1, h2, h3, h4, h5, h6, h7, h8, h9, h10, h11, h12, h13, h14, h15, h16⟩ := overtaken
  have e : s.run.recorded.map (·.1) = ["t/b".toList, "t/a".toList] := by
    have := congrArg (List.map (·.1)) h10
    rw [List.map_map] at this
    exact this
  refine ⟨c, _, _, s, d, "t/b".toList, h1, h2, h3, h4, h5, h6, h7, h8, ?_, ?_, h13, ?_, ?_⟩
  · rw [e, h9]; decide
  · rw [h9]; decide
  · rw [h16, h11]; simp
  · rw [h14]
    intro hc
    have hc : List.Perm [("t/b".toList, Result.OK), ("t/a".toList, .DIFF)] [("t/a".toList, .OK), ("t/b".toList, .DIFF)] := by
      rw [← h10]; exact hc
    exact absurd hc (by decide)

/-- A run as in C135 in which the second test is recorded first. -/
example : ∃ (c : RConf strokes) (s : RSt strokes), Tidy c ∧ AsksReported c ∧ c.cfg.update = false ∧ c.cfg.accept = false ∧
    PlainNames c.todo ∧ SoundTree c.P.root c.todo [([], .dir)] ∧
    RReach c [([], .dir)] ["v".toList, "a".toList, "c".toList] s ∧
    s.run.recorded.map (fun x => (x.1, x.2.1)) = [("t/b".toList, .OK), ("t/a".toList, .DIFF)] := by
  obtain ⟨c, s, -, h1, h2, h3, h4, h5, h6, h7, -, -, h10, -⟩ := overtaken
  exact ⟨c, s, h1, h2, h3, h4, h5, h6, h7, h10⟩

/-- A run as in C135 in which the tests are recorded in their order. -/
example : ∃ (c : RConf strokes) (s : RSt strokes), Tidy c ∧ AsksReported c ∧ c.cfg.update = false ∧ c.cfg.accept = false ∧
    c.cfg.cont = false ∧ PlainNames c.todo ∧ SoundTree c.P.root c.todo [([], .dir)] ∧
    RReach c [([], .dir)] ["v".toList, "a".toList, "c".toList] s ∧ s.run.rpc = .check ∧
    s.run.recorded.map (·.1) = c.todo ∧ s.run.recorded.map (·.2.1) = [.OK, .DIFF] ∧
    ofFile c.P.u strokes none = some [] := by
  obtain ⟨c, s, h1, h2, h3, h4, h5, h6, h7, h8, h9, h10, h11, -⟩ := in_turn
  exact ⟨c, s, h1, h2, h3, h4, h5, h6, h7, h8, h9, h10, h11, rfl⟩

end Verif.Props
