import Verif.Lemmas.DependentsFair
import Verif.Props.Dependents

/-! # C129: parallel runs of tests with dependencies -/

namespace Verif.Props
open Verif.Py Verif.Model Verif.Spec Verif.Lemmas

variable {fl : Durations} {c : DConf fl} {size : Nat} {ns selected : List Str} {fs : FS} {ans : List Str} {s : DSt fl}
  {file : Option Bytes} {old : List (Rec fl)} {cache : Cache Str}

private theorem todo_sub (htodo : c.todo = toRun c.cfg old selected) : c.todo.Sublist selected := by
  rw [htodo]
  unfold toRun
  exact List.filter_sublist

/-- The values that a sequential run stores. -/
private theorem seq_values (h : Parallelizable c ns selected fs) (htodo : c.todo = toRun c.cfg old selected)
    (hc : EmptyCache cache) (ans' : List Str) :
    let val := storedValue c.D.root (runCasesD c.D c.cfg c.todo ((mkdirs fs c.D.dirs.out, ans'), cache)).1.1
    ∀ k ∈ ns, val k = storeOf c.D.dirs.out (runCases (filledP c.D val) c.cfg c.todo (mkdirs fs c.D.dirs.out, ans')).1 k := by
  intro val k hk
  have hsubl := todo_sub htodo
  have hS : SoundTree c.D.root ns (mkdirs fs c.D.dirs.out) := (mkOut_ok (P := c.D.dirs) h.plain h.sound).1
  have key := casesD_empty (D := c.D) h.quiet h.plain ans' (fun n hn => h.sub n (hsubl.subset hn)) (hsubl.nodup h.nodup) hS
    (depsFirst_sub h.first hsubl) hc val _ (Or.inl rfl) (fun k hk => rfl)
  show storeOf _ _ k = _
  rw [key.2]
  rfl

private theorem setting (h : Parallelizable c ns selected fs) (htodo : c.todo = toRun c.cfg old selected)
    (hc : EmptyCache cache) (ans' : List Str) :
    DSetting c ns fs (storedValue c.D.root (runCasesD c.D c.cfg c.todo ((mkdirs fs c.D.dirs.out, ans'), cache)).1.1) where
  tidy := h.names
  quiet := h.quiet
  update := h.update
  plain := h.plain
  sound := h.sound
  sub := fun n hn => h.sub n ((todo_sub htodo).subset hn)
  breaks := h.breaks
  first := depsFirst_sub h.first (todo_sub htodo)
  waits := h.waits
  val := ⟨ans', seq_values h htodo hc ans'⟩

/-- The sequential run of the tests with the values is the one of the tests with dependencies. -/
private theorem seq_run (h : Parallelizable c ns selected fs) (htodo : c.todo = toRun c.cfg old selected) (hc : EmptyCache cache)
    (ans' : List Str)
    (hran : ranNames (runAsync c.D.u fl c.cfg (projectOutcome (calledIn c fs ans' cache) c.cfg c.dur (mkdirs fs c.D.dirs.out, ans'))
      selected file).1 = c.todo) :
    runProject (calledIn c fs ans' cache) c.cfg c.dur c.all selected fs ans' file =
      runProjectD c.D c.cfg c.dur c.all selected fs ans' file cache := by
  refine (runs_filled h.quiet h.plain h.sound h.sub h.nodup h.first hc c.dur c.all ans' file
    (storedValue c.D.root (runCasesD c.D c.cfg c.todo ((mkdirs fs c.D.dirs.out, ans'), cache)).1.1) ?_).1
  intro k hk
  unfold calledIn Spec.DProject.with at hran
  rw [hran]
  exact seq_values h htodo hc ans' k hk

/-- **C129**: a parallel run of tests with dependencies in which every test has been recorded, and a sequential run of the
same tests from the same files leave the same text in every file and the same directories, record the same results and end
with the same status. Every process has a cache of its own, and nothing is known about which process takes which test. -/
theorem C129_same_files_partial (h : Parallelizable c ns selected fs) (hold : ofFile c.D.u fl file = some old)
    (htodo : c.todo = toRun c.cfg old selected) (hsize : 0 < size) (hc : EmptyCache cache) (ans' : List Str)
    (hf : NeverStops (calledIn c fs ans' cache) c.cfg fs c.todo)
    (H : DReach c size (mkdirs fs c.D.dirs.out) ans s) (hall : ∀ n ∈ c.todo, ∃ r d, (n, r, d) ∈ s.r.run.recorded) :
    let r := runProjectD c.D c.cfg c.dur c.all selected fs ans' file cache
    (∃ g, s.r.finish (c.conf c.D.dirs) = .ok g ∧ ∀ p, g.get p = r.fs.get p) ∧
    (∃ ps ss, ofFile c.D.u fl (some (parallelReport (c.conf c.D.dirs).pconf old s.r.run)) = some ps ∧
      ofFile c.D.u fl r.report = some ss ∧ (ps.map key).Perm (ss.map key)) ∧
    ∃ v, r.result = some v ∧ (InLoop s.r.run → exitCode v = s.r.run.exitCode) := by
  intro r
  have hset := setting h htodo hc ans'
  obtain ⟨W, hs⟩ := sim_reach hset hsize H
  have hran := same_ran (c := c.conf (calledIn c fs ans' cache)) hset.tidyP h.quiet h.update hf rfl h.plain h.sound hset.sub
    hold htodo hs.reach hall ans'
  have e := seq_run (file := file) h htodo hc ans' hran
  have key := C123_same_files_partial (c := c.conf (calledIn c fs ans' cache)) hset.tidyP h.quiet h.update hf rfl h.plain h.sound
    hset.sub hold htodo hs.reach hall ans'
  have e' : runProject (c.conf (calledIn c fs ans' cache)).P (c.conf (calledIn c fs ans' cache)).cfg
    (c.conf (calledIn c fs ans' cache)).dur (c.conf (calledIn c fs ans' cache)).all selected fs ans' file = r := e
  rw [e'] at key
  exact key

/-- **C129**: such a run is not left by an exception, and when it is over, unless it has been interrupted, every test has
been recorded. -/
theorem C129_complete (h : Parallelizable c ns selected fs)
    (htodo : c.todo = toRun c.cfg old selected) (hsize : 0 < size) (hc : EmptyCache cache) (ans' : List Str)
    (hf : NeverStops (calledIn c fs ans' cache) c.cfg fs c.todo)
    (H : DReach c size (mkdirs fs c.D.dirs.out) ans s) :
    s.r.run.rpc ≠ .ended true ∧ (∀ k, s.r.run.rpc ≠ .leftover k true) ∧ s.r.run.spc ≠ .crashed ∧
    (s.r.run.rpc = .check → hasNext s.r.run = false → ∀ n ∈ c.todo, ∃ r, (n, r, c.dur n) ∈ s.r.run.recorded) := by
  have hset := setting h htodo hc ans'
  obtain ⟨W, hs⟩ := sim_reach hset hsize H
  have := C123_complete (c := c.conf (calledIn c fs ans' cache)) hset.tidyP h.quiet h.update hf h.plain h.sound hset.sub h.breaks hs.reach
  exact this

/-- **C129**: if everybody who can go on does so, and no test hangs, then the run comes to its end. Every test has been
recorded then, and the files, the results and the status are those of a sequential run. -/
theorem C129_ends (h : Parallelizable c ns selected fs) (hold : ofFile c.D.u fl file = some old)
    (htodo : c.todo = toRun c.cfg old selected) (hsize : 0 < size) (hc : EmptyCache cache) (ans' : List Str)
    (hf : NeverStops (calledIn c fs ans' cache) c.cfg fs c.todo)
    {rank : Str → Nat} (hr : ∀ n ∈ c.todo, ∀ d ∈ c.waits n, d ∈ c.todo → rank d < rank n)
    (hh : ∀ n ∈ c.todo, runTest ((calledIn c fs ans' cache).env (snapshot c.D.root fs n)) ((calledIn c fs ans' cache).tests n).body ≠ none)
    {σ : Nat → DSt fl} (hσ : FairRunD c size (mkdirs fs c.D.dirs.out) ans σ) :
    let r := runProjectD c.D c.cfg c.dur c.all selected fs ans' file cache
    (∃ i x, (σ i).r.run.rpc = .ended x) ∧ ∀ i x, (σ i).r.run.rpc = .ended x →
    x = false ∧ ((σ i).r.run.recorded.map (·.1)).Perm c.todo ∧
    (∃ g, (σ i).r.finish (c.conf c.D.dirs) = .ok g ∧ ∀ p, g.get p = r.fs.get p) ∧
    (∃ ps ss, ofFile c.D.u fl (some (parallelReport (c.conf c.D.dirs).pconf old (σ i).r.run)) = some ps ∧
      ofFile c.D.u fl r.report = some ss ∧ (ps.map key).Perm (ss.map key)) ∧
    ∃ v, r.result = some v ∧ exitCode v = (σ i).r.run.exitCode := by
  intro r
  have hset := setting h htodo hc ans'
  obtain ⟨τ, hτ, he⟩ := fair_values hset hsize hσ
  have hrun : ∀ i, (τ i).run = (σ i).r.run := fun i => by rw [← he i]
  have hfs : ∀ i, (τ i).fs = (σ i).r.fs := fun i => by rw [← he i]
  obtain ⟨⟨i, x, hi⟩, hend⟩ := C124_ends (c := c.conf (calledIn c fs ans' cache)) hset.tidyP h.quiet h.update hf rfl h.plain h.sound
    hset.sub h.breaks hr hh hold htodo hτ ans'
  have hran : ranNames (runAsync c.D.u fl c.cfg (projectOutcome (calledIn c fs ans' cache) c.cfg c.dur (mkdirs fs c.D.dirs.out, ans'))
      selected file).1 = c.todo := by
    refine same_ran (c := c.conf (calledIn c fs ans' cache)) hset.tidyP h.quiet h.update hf rfl h.plain h.sound hset.sub
      hold htodo (fair_run_reach hτ i) ?_ ans'
    intro n hn
    obtain ⟨y, hy, rfl⟩ := List.mem_map.mp ((hend i x hi).2.1.mem_iff.mpr hn)
    exact ⟨_, _, hy⟩
  have e : runProject (c.conf (calledIn c fs ans' cache)).P (c.conf (calledIn c fs ans' cache)).cfg
    (c.conf (calledIn c fs ans' cache)).dur (c.conf (calledIn c fs ans' cache)).all selected fs ans' file = r :=
    seq_run (file := file) h htodo hc ans' hran
  rw [e] at hend
  refine ⟨⟨i, x, by rw [← hrun]; exact hi⟩, ?_⟩
  intro i x hi
  have := hend i x (by rw [hrun]; exact hi)
  unfold RSt.finish at this ⊢
  rw [hrun, hfs] at this
  exact this

/-- Executions in which everybody goes on. -/
theorem exists_fairD {val : Str → Option Str} (hset : DSetting c ns fs val) (hsize : 0 < size)
    (hf : NeverStops (filledP c.D val) c.cfg fs c.todo)
    {rank : Str → Nat} (hr : ∀ n ∈ c.todo, ∀ d ∈ c.waits n, d ∈ c.todo → rank d < rank n)
    (hh : ∀ n ∈ c.todo, runTest ((filledP c.D val).env (snapshot c.D.root fs n)) ((filledP c.D val).tests n).body ≠ none) :
    ∃ σ, FairRunD c size (mkdirs fs c.D.dirs.out) ans σ := by
  obtain ⟨r, h1, h2, h3, h4⟩ := undisturbed_end (c := c.conf (filledP c.D val)) (ans := ans) hset.tidyP hset.quiet hset.update hf
    hset.plain hset.sound hset.sub hset.breaks hr hh
  obtain ⟨s, g1, -, -, g4⟩ := sim_back hset hsize h1
  have g5 : s.r.run = r.run := by rw [← g4]
  rw [← g5] at h2 h3 h4
  refine fairD_of_end g1 h2 h3 h4 ?_
  intro s s' H hstep n hn
  obtain ⟨W, hs⟩ := sim_reach hset hsize H
  obtain ⟨W', -, e | e⟩ := sim_step hset hs hstep
  · rcases rstep_run hs.reach e with e' | e'
    · rw [show s'.r.run = s.r.run from e']; exact hn
    · exact started_mono e' hn
  · rw [show s'.r.run = s.r.run from (congrArg RSt.run e).symm]; exact hn

/-- **C129**: there are such executions. -/
theorem C129_exists (h : Parallelizable c ns selected fs) 
    (htodo : c.todo = toRun c.cfg old selected) (hsize : 0 < size) (hc : EmptyCache cache) (ans' : List Str)
    (hf : NeverStops (calledIn c fs ans' cache) c.cfg fs c.todo)
    {rank : Str → Nat} (hr : ∀ n ∈ c.todo, ∀ d ∈ c.waits n, d ∈ c.todo → rank d < rank n)
    (hh : ∀ n ∈ c.todo, runTest ((calledIn c fs ans' cache).env (snapshot c.D.root fs n)) ((calledIn c fs ans' cache).tests n).body ≠ none) :
    ∃ σ, FairRunD c size (mkdirs fs c.D.dirs.out) ans σ :=
  exists_fairD (setting h htodo hc ans') hsize hf hr hh

/-! ### Examples -/

private theorem empty_sound (ns : List Str) : SoundTree ["books".toList] ns [([], .dir)] := by
  have g : ∀ p, FS.get [([], .dir)] p = if p = [] then some .dir else none := by
    intro p; rw [get_cons]; rfl
  refine ⟨?_, rfl, ?_, ?_, ?_, ?_, ?_⟩
  · intro p c h; rw [g, if_neg (by simp)] at h; cases h
  · intro n _ o q _ t; rw [g]; split <;> simp
  · intro n _ o x hx _; rw [g, if_neg (slot_ne_nil _ o n (Or.inr hx))]; simp
  · intro n _ o x hx t; rw [g]; split <;> simp
  · decide
  · intro q _ t; rw [g]; split <;> simp

/-- `t/b` prints the value of `t/a`, `t/c` that of `t/b`. -/
private def line : DProject where
  u := ascii
  pointErrorPos := false
  refmt := some
  root := ["books".toList]
  deps := fun n => if n = "t/b".toList then ["t/a".toList] else if n = "t/c".toList then ["t/b".toList] else []
  fn := fun n vs => ⟨⟨[.header "# t".toList, .tln (match vs with | [some v] => v | _ => n)], none⟩, [], [],
    some (n ++ (match vs with | [some v] => v | _ => []))⟩
  missing := fun n d => (n ++ d, [])

private def three : List Str := ["t/a".toList, "t/b".toList, "t/c".toList]

private def lineConf : DConf strokes where
  D := line
  cfg := { accept := true, failFast := true }
  all := three
  todo := three
  waits := line.deps
  res := fun _ => []
  zero := (0 : Nat)
  dur := fun _ => (1 : Nat)
  breaks := fun _ _ => False

private theorem line_ok : Parallelizable lineConf three three [([], .dir)] where
  names := ⟨(by decide : three.Nodup), (by decide +kernel : ∀ a ∈ three, ∀ b ∈ three, batchName a = batchName b → a = b),
    (by unfold CleanName; decide : ∀ n ∈ three, CleanName n)⟩
  quiet := ⟨rfl, rfl⟩
  update := rfl
  plain := by
    refine ⟨?_, ?_⟩
    · intro n hn
      simp only [three, List.mem_cons, List.not_mem_nil, or_false] at hn
      rcases hn with rfl | rfl | rfl <;> exact ⟨by decide, by decide, by decide⟩
    · unfold NotNested; decide +kernel
  sound := empty_sound _
  sub := fun _ h => h
  nodup := by decide
  first := {
    names := (by decide +kernel : ∀ n ∈ three, ∀ d ∈ line.deps n, d ∈ three)
    before := by
      intro l1 n l2 e d hd
      match l1, e with
      | [], e =>
        injection e with e1 e2
        rw [← e1] at hd
        have hd : d ∈ ([] : List Str) := hd
        cases hd
      | [_], e =>
        injection e with _ e
        injection e with e1 e2
        rw [← e1] at hd ⊢
        rw [← e2]
        have hd : d ∈ ["t/a".toList] := hd
        rw [List.mem_singleton.mp hd]
        decide
      | [_, _], e =>
        injection e with _ e
        injection e with _ e
        injection e with e1 e2
        rw [← e1] at hd ⊢
        rw [← e2]
        have hd : d ∈ ["t/b".toList] := hd
        rw [List.mem_singleton.mp hd]
        decide
      | _ :: _ :: _ :: l1, e =>
        injection e with _ e
        injection e with _ e
        injection e with _ e
        exact absurd (congrArg List.length e) (by simp)
    returns := fun n _ d _ _ vs => by intro e; cases e }
  waits := fun n _ d hd _ => hd
  breaks := fun _ _ h => h

private theorem line_runs :
    NeverStops (calledIn lineConf [([], .dir)] [] (.lru 8 [])) lineConf.cfg [([], .dir)] three ∧
    ∀ n ∈ three, runTest ((calledIn lineConf [([], .dir)] [] (.lru 8 [])).env (snapshot line.root [([], .dir)] n))
      ((calledIn lineConf [([], .dir)] [] (.lru 8 [])).tests n).body ≠ none := by
  have h : ∀ n ∈ three, (match runTest ((calledIn lineConf [([], .dir)] [] (.lru 8 [])).env (snapshot line.root [([], .dir)] n))
      ((calledIn lineConf [([], .dir)] [] (.lru 8 [])).tests n).body with
      | some s => decide (verdict ((calledIn lineConf [([], .dir)] [] (.lru 8 [])).env (snapshot line.root [([], .dir)] n)) s = .DIFF)
      | none => false) = true := by decide +kernel
  constructor
  · intro _ n hn s hs
    have := h n hn
    rw [show runTest ((calledIn lineConf [([], .dir)] [] (.lru 8 [])).env (snapshot line.root [([], .dir)] n))
      ((calledIn lineConf [([], .dir)] [] (.lru 8 [])).tests n).body = some s from hs] at this
    exact Or.inr (Or.inr ⟨of_decide_eq_true this, rfl⟩)
  · intro n hn e
    have := h n hn
    rw [e] at this
    cases this

/-- The hypotheses of C129 are met by three tests, two of which get the value of the one before. -/
example : ∃ (c : DConf strokes) (ns selected : List Str) (fs : FS) (rank : Str → Nat) (σ : Nat → DSt strokes),
    Parallelizable c ns selected fs ∧ ofFile c.D.u strokes none = some [] ∧ c.todo = toRun c.cfg ([] : List (Rec strokes)) selected ∧
    EmptyCache (.lru 8 [] : Cache Str) ∧ NeverStops (calledIn c fs [] (.lru 8 [])) c.cfg fs c.todo ∧
    (∀ n ∈ c.todo, ∀ d ∈ c.waits n, d ∈ c.todo → rank d < rank n) ∧
    (∀ n ∈ c.todo, runTest ((calledIn c fs [] (.lru 8 [])).env (snapshot c.D.root fs n))
      ((calledIn c fs [] (.lru 8 [])).tests n).body ≠ none) ∧ c.todo = three ∧ (∃ n ∈ c.todo, c.D.deps n ≠ []) ∧
    FairRunD c 8 (mkdirs fs c.D.dirs.out) [] σ := by
  obtain ⟨hn, hh⟩ := line_runs
  have hr : ∀ n ∈ three, ∀ d ∈ line.deps n, d ∈ three → (fun n : Str => (n.getLastD ' ').toNat) d < (fun n : Str => (n.getLastD ' ').toNat) n := by
    decide +kernel
  obtain ⟨σ, hσ⟩ := C129_exists (ans := []) (size := 8) line_ok (old := []) (by decide +kernel) (by decide) (cache := .lru 8 []) ⟨by decide, rfl⟩ [] hn hr hh
  exact ⟨lineConf, three, three, _, _, σ, line_ok, rfl, by decide +kernel, ⟨by decide, rfl⟩, hn, hr, hh, rfl,
    ⟨"t/b".toList, by decide, by decide⟩, hσ⟩

end Verif.Props
