import Verif.Lemmas.Afterwards
import Verif.Props.Asking

/-! # C134: a run without questions that is reviewed afterwards -/

namespace Verif.Props
open Verif.Py Verif.Model Verif.Spec Verif.Lemmas

variable {fl : Durations} {P : Project} {cfg : Config} {ns selected : List Str} {fs : FS}

theorem toRun_all (hc : cfg.cont = false) (old : List (Rec fl)) (selected : List Str) : toRun cfg old selected = selected := by
  unfold toRun
  rw [hc]
  simp

/-- The file system after a plain run. -/
theorem plain_left (hc : PlainRun cfg) (hp : PlainNames ns) (hS : SoundTree P.root ns fs) (hnd : selected.Nodup)
    (hsub : ∀ n ∈ selected, n ∈ ns) (hcl : ∀ n ∈ selected, CleanName n) {report : Option Bytes} {old : List (Rec fl)}
    (hrep : ofFile P.u fl report = some old) (dur : Str → fl.D) (all lines : List Str)
    (hends : ∀ n ∈ selected, resultOf P (snapshot P.root fs n) n ≠ none) :
    let r := runProject P cfg dur all selected fs lines report
    SoundTree P.root ns r.fs ∧ (∀ m ∈ ns, snapshot P.root r.fs m = snapshot P.root fs m) ∧
    (∀ n ∈ selected, ∀ s, runTest (P.env (snapshot P.root fs n)) (P.tests n).body = some s → Waits P.root n s.out r.fs) ∧
    ∃ new : List (Rec fl), new.map (·.1) = selected ∧
      (∀ x ∈ new, resultOf P (snapshot P.root fs x.1) x.1 = some x.2.1) ∧
      ofFile P.u fl r.report = some (old.filter (fun x => !selected.contains x.1) ++ new) := by
  obtain ⟨es, hd, hes, hres⟩ := dialogue_plain (P := P) hc lines (snapshot P.root fs) selected hends
  have hall := toRun_all hc.cont old selected
  have c := C133_dialogue hp hS hsub hcl hrep dur all lines (cfg := cfg) (d := ⟨es, snapshot P.root fs, lines, true⟩) (by rw [hall]; exact hd)
  obtain ⟨-, -, c3, c4, new, c5, c6⟩ := c
  rw [hall] at c6
  intro r
  refine ⟨c3, c4, ?_, new, ?_, ?_, c6⟩
  · obtain ⟨h0, s0, d0⟩ := mkOut_ok hp hS
    obtain ⟨g, evs, k1, k2, -, k4, -, -, -⟩ := loop_dialogue (cfg := cfg) dur hp selected [] (mkdirs fs P.out) lines
      (snapshot P.root fs) .OK 0 ⟨es, snapshot P.root fs, lines, true⟩ hsub rfl h0 s0 (fun _ => rfl) hd
    obtain ⟨g', l1, l2, -, -, l5⟩ := runCases_left hc hp lines selected (mkdirs fs P.out) hnd hsub h0
      (fun n hn => by rw [s0 n (hsub n hn)]; exact hends n hn)
    dsimp only at k4
    rw [List.nil_append, hes, l1] at k4
    cases k4
    have hran : ranNames (runAsync P.u fl cfg (projectOutcome P cfg dur (mkdirs fs P.out, lines)) selected report).1 = selected := by
      rw [async_open P.u cfg _ selected report hrep, hall, k1]
      dsimp only
      have : executed (Ev.truncate :: (keptRecords old selected).map .write ++ evs) = executed evs := by
        rw [executed_append]
        have : executed (Ev.truncate :: (keptRecords old selected).map (Ev.write (fl := fl))) =
          executed ((keptRecords old selected).map (Ev.write (fl := fl))) := rfl
        rw [this, executed_map, List.nil_append]
      exact this.trans (k2.trans hes)
    intro n hn s hs
    have hw := l5 n hn s (by rw [s0 n (hsub n hn)]; exact hs)
    have hfs : r.fs = g ∨ ∃ t, openW (P.root ++ ["index.md".toList]) t g = .ok r.fs := by
      change (runProject P cfg dur all selected fs lines report).fs = g ∨ ∃ t, openW (P.root ++ ["index.md".toList]) t g =
        .ok (runProject P cfg dur all selected fs lines report).fs
      unfold runProject
      dsimp only
      rw [hran, l1]
      cases (runAsync P.u fl cfg (projectOutcome P cfg dur (mkdirs fs P.out, lines)) selected report).2 with
      | none => exact Or.inl rfl
      | some rv =>
        dsimp only
        cases ho : openW (P.root ++ ["index.md".toList]) (indexText all) g with
        | error x => exact Or.inl rfl
        | ok f => exact Or.inr ⟨_, ho⟩
    rcases hfs with h | ⟨t, h⟩
    · rw [h]; exact hw
    · have hget : ∀ p, p ≠ P.root ++ ["index.md".toList] → r.fs.get p = g.get p := by
        intro p hne
        have : r.fs = g.write (P.root ++ ["index.md".toList]) t := by
          unfold openW at h
          split at h
          · cases h
          · split at h
            · injection h with h; exact h.symm
            · cases h
        rw [this]
        unfold FS.write
        rw [get_cons, if_neg hne]
      have hplain := hp.1 n (hsub n hn)
      constructor
      · intro o
        by_cases he : slotDir P.root o n = P.root ++ ["index.md".toList]
        · exfalso
          have h1 : fs.get (P.root ++ ["index.md".toList]) ≠ some .dir := hS.index
          have h2 := l2.index
          exact h2 (by rw [← he]; exact hw.dir o)
        · rw [hget _ he]; exact hw.dir o
      · rw [hget]
        · exact hw.out
        · intro he
          exact slot_not_index hplain (Or.inr mem_md) (by rw [← he]; exact List.prefix_rfl)
  · have := congrArg (List.map Prod.fst) c5
    rw [List.map_map] at this
    exact this.trans hes
  · intro x hx
    have : key x ∈ es := by
      have h := List.mem_map_of_mem (f := key) hx
      rw [c5] at h
      exact h
    have h := hres (key x) this
    exact h

/-- **C134**: a run without questions followed by a review is a run with questions: if an interactive run comes to an end,
then a plain run of the same tests, followed by a review with the same options and the same lines of the user, leaves the
same snapshots, and in the report the same results — followed by the results of those tests that the interactive run has
not reached (after `q`, or with `-f`), as they are without a review. -/
theorem C134_review_later {cfg0 : Config} (h0 : PlainRun cfg0) (hcont : cfg.cont = false) (hp : PlainNames ns) (hS : SoundTree P.root ns fs)
    (hnd : selected.Nodup) (hsub : ∀ n ∈ selected, n ∈ ns) (hcl : ∀ n ∈ selected, CleanName n)
    {report : Option Bytes} {old : List (Rec fl)} (hrep : ofFile P.u fl report = some old)
    (dur dur' : Str → fl.D) (all lines lines0 : List Str)
    (hends : ∀ n ∈ selected, resultOf P (snapshot P.root fs n) n ≠ none)
    (hasked : (runProject P cfg dur' all selected fs lines report).result ≠ none) :
    let r := runProject P cfg0 dur all selected fs lines0 report
    let i := runProject P cfg dur' all selected fs lines report
    ∃ records, ofFile P.u fl r.report = some records ∧
    ∃ fs' reviewed code log, review fl cfg P.root P.out none (some selected) records lines r.fs = (fs', some (reviewed, code), log) ∧
      (∀ m ∈ ns, snapshot P.root fs' m = snapshot P.root i.fs m) ∧
      (∃ recorded, ofFile P.u fl i.report = some recorded ∧
        reviewed.map key = recorded.map key ++
          (selected.filter (fun n => !(recorded.map (·.1)).contains n)).filterMap
            (fun n => (resultOf P (snapshot P.root fs n) n).map (n, ·))) ∧
      (code = 0 ↔ ∀ x ∈ reviewed, x.2.1 = .OK) := by
  intro r i
  obtain ⟨p1, p2, p3, new, p4, p5, p6⟩ := plain_left h0 hp hS hnd hsub hcl hrep dur all lines0 hends
  have hall := toRun_all hcont old selected
  cases hd : dialogue P cfg selected (snapshot P.root fs) lines with
  | none => exact absurd (C133_no_answer hp hS hsub hrep dur' all lines (by rw [hall]; exact hd)) hasked
  | some d =>
    obtain ⟨-, -, -, c4, inew, c5, c6⟩ := C133_dialogue hp hS hsub hcl hrep dur' all lines (by rw [hall]; exact hd)
    rw [hall] at c6
    refine ⟨_, p6, ?_⟩
    have hrev : ∀ n, isReviewed cfg (passed (old.filter (fun x => !selected.contains x.1) ++ new)) (some selected) n =
        selected.contains n := by
      intro n
      unfold isReviewed
      rw [hcont]
      simp
    obtain ⟨fs', log, k1, k2, -⟩ := reviewLoop_dialogue (P := P) (cfg := cfg) hp (passed (old.filter (fun x => !selected.contains x.1) ++ new))
      (some selected) new r.fs lines (snapshot P.root fs) d (by rw [p4]; exact hnd) (by
        intro x hx
        have hmem : x.1 ∈ selected := by rw [← p4]; exact List.mem_map_of_mem hx
        refine ⟨hsub _ hmem, ?_⟩
        rw [hrev]
        simpa using hmem) p1 p2 (by
        intro x hx
        have hmem : x.1 ∈ selected := by rw [← p4]; exact List.mem_map_of_mem hx
        have hr := p5 x hx
        unfold resultOf at hr
        cases ht : runTest (P.env (snapshot P.root fs x.1)) (P.tests x.1).body with
        | none => rw [ht] at hr; cases hr
        | some s =>
          rw [ht] at hr
          exact ⟨s, rfl, (Option.some.inj hr).symm, p3 x.1 hmem s ht⟩) (by rw [p4]; exact hd)
    -- the results
    have hlen : new.length = selected.length := by rw [← p4, List.length_map]
    obtain ⟨tail, htail⟩ := dialogue_names selected _ _ d hd
    have hdl : d.ends.length + tail.length = selected.length := by rw [← htail]; simp
    have hzl : (d.ends ++ (new.drop d.ends.length).map key).length = (new.map (·.2.2)).length := by simp; omega
    generalize hks : d.ends ++ (new.drop d.ends.length).map key = ks at k1 hzl
    let reviewed : List (Rec fl) := old.filter (fun x => !selected.contains x.1) ++
      (ks.zip (new.map (·.2.2))).map (fun x => (x.1.1, x.1.2, x.2))
    have hraw : (reviewLoop fl cfg P.root P.out (passed (old.filter (fun x => !selected.contains x.1) ++ new)) (some selected)
        (old.filter (fun x => !selected.contains x.1) ++ new) false r.fs lines) =
        (fs', some (reviewed.map (fun x => (x.1, .res x.2.1, x.2.2))), log) := by
      rw [reviewLoop_skip _ _ _ _ _ _ (fun x hx => by
        rw [hrev]
        have := (List.mem_filter.mp hx).2
        simpa using this), k1]
      simp only [Option.map_some, reviewed, List.map_append, List.map_map]
      rfl
    have hmapM : ∀ l : List (Rec fl), (l.map (fun x => ((x.1, .res x.2.1, x.2.2) : Str × Raw × fl.D))).mapM rawRec = some l := by
      intro l
      induction l with
      | nil => rfl
      | cons x xs ih => rw [List.map_cons, List.mapM_cons, ih]; rfl
    refine ⟨fs', reviewed, if (reviewed.map (fun x => ((x.1, .res x.2.1, x.2.2) : Str × Raw × fl.D))).any
      (fun x => decide (x.2.1 ≠ .res .OK)) then -1 else 0, log, ?_, ?_, ⟨_, c6, ?_⟩, ?_⟩
    · unfold review
      dsimp only
      rw [Option.getD_none, hraw]
      dsimp only
      rw [hmapM]
      rfl
    · intro m hm
      rw [k2 m hm]
      exact (c4 m hm).symm
    · have e1 : ((ks.zip (new.map (·.2.2))).map (fun x => ((x.1.1, x.1.2, x.2) : Rec fl))).map key = ks := by
        rw [List.map_map]
        have : (key (fl := fl) ∘ fun x : (Str × Result) × fl.D => (x.1.1, x.1.2, x.2)) = Prod.fst := rfl
        rw [this, List.map_fst_zip]
        omega
      show (old.filter (fun x => !selected.contains x.1) ++ (ks.zip (new.map (·.2.2))).map (fun x => (x.1.1, x.1.2, x.2))).map key = _
      rw [List.map_append, e1, List.map_append, c5, List.append_assoc, ← hks]
      congr 2
      -- the tests that were not reached
      have hin : inew.map (·.1) = d.ends.map (·.1) := by
        have := congrArg (List.map Prod.fst) c5
        rw [List.map_map] at this
        exact this
      have hnd' : (d.ends.map (·.1) ++ tail).Nodup := by rw [htail]; exact hnd
      have hfilter : selected.filter (fun n => !((old.filter (fun x => !selected.contains x.1) ++ inew).map (·.1)).contains n) = tail := by
        have hcond : ∀ n ∈ selected, (!((old.filter (fun x => !selected.contains x.1) ++ inew).map (·.1)).contains n) =
            (!(d.ends.map (·.1)).contains n) := by
          intro n hn
          rw [List.map_append, hin]
          congr 1
          rw [Bool.eq_iff_iff, List.contains_iff_mem, List.contains_iff_mem, List.mem_append]
          constructor
          · rintro (h | h)
            · obtain ⟨x, hx, rfl⟩ := List.mem_map.mp h
              have := (List.mem_filter.mp hx).2
              simp [hn] at this
            · exact h
          · exact Or.inr
        rw [List.filter_congr hcond]
        rw [← htail, List.filter_append]
        rw [List.filter_eq_nil_iff.mpr (by intro n hn; simpa using hn), List.nil_append]
        rw [List.filter_eq_self]
        intro n hn
        rw [List.nodup_append] at hnd'
        rw [Bool.not_eq_true', Bool.eq_false_iff]
        intro h
        rw [List.contains_iff_mem] at h
        exact hnd'.2.2 n h n hn rfl
      rw [hfilter]
      have hdrop : (new.drop d.ends.length).map (·.1) = tail := by
        rw [List.map_drop, p4, ← htail, List.drop_left' (by simp)]
      have hres : ∀ l : List (Rec fl), (∀ x ∈ l, resultOf P (snapshot P.root fs x.1) x.1 = some x.2.1) →
          l.map key = (l.map (·.1)).filterMap (fun n => (resultOf P (snapshot P.root fs n) n).map (n, ·)) := by
        intro l
        induction l with
        | nil => intro _; rfl
        | cons x xs ih =>
          intro h
          rw [List.map_cons, List.map_cons, List.filterMap_cons, h x (by simp), ih (fun y hy => h y (by simp [hy]))]
          rfl
      rw [hres _ (fun x hx => p5 x (List.mem_of_mem_drop hx)), hdrop]
    · split
      · rename_i h
        rw [List.any_eq_true] at h
        obtain ⟨y, hy, hne⟩ := h
        obtain ⟨x, hx, rfl⟩ := List.mem_map.mp hy
        refine ⟨fun h => absurd h (by decide), fun h => ?_⟩
        rw [h x hx] at hne
        simp at hne
      · rename_i h
        refine ⟨fun _ x hx => ?_, fun _ => rfl⟩
        apply Decidable.byContradiction
        intro hne
        exact h (List.any_eq_true.mpr ⟨_, List.mem_map_of_mem hx, by simpa using hne⟩)

/-! ### Examples -/

private def prints (x : String) : Project where
  u := ascii
  pointErrorPos := false
  refmt := some
  root := ["books".toList]
  tests := fun n => ⟨⟨[.header "# t".toList, .tln (x.toList ++ n)], none⟩, [], [], none⟩

private theorem empty_sound (ns : List Str) : SoundTree ["books".toList] ns [([], .dir)] := by
  have g : ∀ p, FS.get [([], .dir)] p = if p = [] then some .dir else none := by
    intro p; rw [get_cons]; rfl
  refine ⟨?_, rfl, ?_, ?_, ?_, ?_, ?_⟩
  · intro p c h; rw [g, if_neg (by simp)] at h; cases h
  · intro n _ o q _ t; rw [g]; split <;> simp
  · intro n _ o x hx _; rw [g, if_neg (slot_ne_nil _ o n (Or.inr hx))]; simp
  · intro n _ o x hx t; rw [g]; split <;> simp
  · decide
  · intro q _ t; rw [g]; split <;> simp

private def three : List Str := ["t/a".toList, "t/b".toList, "t/c".toList]

private theorem three_plain : PlainNames three := by
  refine ⟨?_, ?_⟩
  · intro n hn
    simp only [three, List.mem_cons, List.not_mem_nil, or_false] at hn
    rcases hn with rfl | rfl | rfl
    · exact ⟨by decide, by decide, by decide⟩
    · exact ⟨by decide, by decide, by decide⟩
    · exact ⟨by decide, by decide, by decide⟩
  · unfold NotNested; decide

/-- The user accepts the first of three new tests and quits at the second one: the hypotheses of C134 hold; the interactive
run records two tests, the plain run and its review three of them, and both store the same snapshot. -/
example : PlainRun {} ∧ PlainNames three ∧ three.Nodup ∧ SoundTree (prints "x").root three [([], .dir)] ∧ (∀ n ∈ three, CleanName n) ∧
    (∀ n ∈ three, resultOf (prints "x") (snapshot (prints "x").root [([], .dir)] n) n ≠ none) ∧
    (let i := runProject (fl := strokes) (prints "x") { interactive := true } (fun _ => (1 : Nat)) three three [([], .dir)]
      ["a".toList, "q".toList] none
    let r := runProject (fl := strokes) (prints "x") {} (fun _ => (1 : Nat)) three three [([], .dir)] [] none
    i.result ≠ none ∧
    (ofFile ascii strokes i.report).map (·.map key) = some [("t/a".toList, .OK), ("t/b".toList, .DIFF)] ∧
    snapshot ["books".toList] i.fs "t/a".toList = some "# t\n\nxt/a\n".toList ∧
    ∃ records, ofFile ascii strokes r.report = some records ∧
      ((review strokes { interactive := true } ["books".toList] ["books".toList, ".out".toList] none (some three) records
        ["a".toList, "q".toList] r.fs).2.1.map (fun x => (x.1.map key, x.2))) =
        some ([("t/a".toList, .OK), ("t/b".toList, .DIFF), ("t/c".toList, .DIFF)], -1) ∧
      snapshot ["books".toList] (review strokes { interactive := true } ["books".toList] ["books".toList, ".out".toList] none
        (some three) records ["a".toList, "q".toList] r.fs).1 "t/a".toList = some "# t\n\nxt/a\n".toList) := by
  refine ⟨⟨⟨rfl, rfl⟩, rfl, rfl, rfl, rfl⟩, three_plain, by decide, empty_sound _, by unfold CleanName; decide, by decide +kernel, ?_⟩
  refine ⟨by decide +kernel, by decide +kernel, by decide +kernel,
    [("t/a".toList, .DIFF, (1 : Nat)), ("t/b".toList, .DIFF, (1 : Nat)), ("t/c".toList, .DIFF, (1 : Nat))], ?_, ?_, ?_⟩
  all_goals decide +kernel

end Verif.Props
