import Verif.Lemmas.Values
import Verif.Lemmas.SameFiles
import Verif.Lemmas.Runs
import Verif.Lemmas.Story
import Verif.Lemmas.Whole
import Verif.Spec.Dependents

/-! # Runs of tests with dependencies are runs of tests with given values -/

namespace Verif.Lemmas
open Verif.Py Verif.Model Verif.Spec

variable {D : DProject} {cfg : Config} {ns : List Str} {fs : FS} {n : Str}

/-! ### One test -/

theorem callCase_congr {g g' : Str → Values} (h : g n = g' n) (e : Env) (ans : List Str) (f : FS) :
    callCase (D.filled g) cfg n e ans f = callCase (D.filled g') cfg n e ans f := by
  have ht : (D.filled g).tests n = (D.filled g').tests n := by
    show D.given n (g n) = D.given n (g' n)
    rw [h]
  unfold callCase endCase
  rw [ht]
  rfl

theorem runCase_called (P : Project) (st : FS × List Str) :
    runCase P cfg n st =
      match purge P.out n (makeDirs P n st.1) with
      | .error x => ((makeDirs P n st.1, st.2), .error x)
      | .ok fs1 =>
        match writeOutputs P.out n [] [] [] fs1 with
        | .error x => ((fs1, st.2), .error x)
        | .ok fs2 =>
          if (makeDirs P n st.1).isDir (filePath P.root n ".md".toList) then ((fs2, st.2), .error .isADirectory)
          else callCase P cfg n (P.env (snapshotText (makeDirs P n st.1) (filePath P.root n ".md".toList))) st.2 fs2 := rfl

/-- The files when the results are loaded. -/
theorem started_ok (hp : PlainNames ns) (hn : n ∈ ns) (h : SoundTree D.root ns fs) :
    ∃ f1 f2, purge D.dirs.out n (makeDirs D.dirs n fs) = .ok f1 ∧ writeOutputs D.dirs.out n [] [] [] f1 = .ok f2 ∧
      (makeDirs D.dirs n fs).isDir (filePath D.root n ".md".toList) = false ∧
      ∀ d ∈ ns, d ≠ n → storeOf D.dirs.out f2 d = storeOf D.dirs.out fs d := by
  have hpl := hp.1 n hn
  obtain ⟨l0, g0⟩ := makeDirs_ok (P := D.dirs) hp hn h
  obtain ⟨f1, e1, l1, -, g1⟩ := purge_live D.dirs hpl l0
  obtain ⟨f2, e2, -, -, g2⟩ := writeOutputs_live D.dirs hpl l1 [] [] []
  refine ⟨f1, f2, e1, e2, ?_, ?_⟩
  · have := l0.files false _ mem_md (by decide)
    cases hd : (makeDirs D.dirs n fs).isDir (filePath D.root n ".md".toList) with
    | false => rfl
    | true => exact absurd ((isDir_iff _ _).mp hd) this
  · intro d hd hne
    have hown : Own D.root d (slot D.root true d ".bin".toList) := own_slot true (Or.inr mem_bin)
    have hno : ¬ Own D.root n (slot D.root true d ".bin".toList) := fun ho => hne (own_apart hp hd hn hown ho)
    have hab : ¬ Above D.root n (slot D.root true d ".bin".toList) := own_above hp hd hn hown
    have hneq : ∀ x, x ∈ endings → slot D.root true d ".bin".toList ≠ slot D.root true n x := by
      intro x hx e
      exact hno (e ▸ own_slot true (Or.inr hx))
    have e : f2.get (slot D.root true d ".bin".toList) = fs.get (slot D.root true d ".bin".toList) := by
      rw [g2 _ (hneq _ mem_md) (hneq _ mem_txt) (hneq _ mem_log), g1, g0, if_neg]
      · rintro (hx | hx)
        · exact hab ⟨false, hx⟩
        · exact hab ⟨true, hx⟩
      · exact fun hx => hno ⟨true, _, Or.inl rfl, hx⟩
      · exact fun hx => hno ⟨true, _, Or.inr (by decide), hx⟩
    show (match f2.get (slot D.root true d ".bin".toList) with | some (.file v) => some v | _ => none) = _
    rw [e]
    rfl

/-- A test with dependencies does what it does with the values that it loads. -/
theorem runCaseD_eq (hp : PlainNames ns) (hn : n ∈ ns) (h : SoundTree D.root ns fs) (ans : List Str) (c : Cache Str) :
    ∃ st, (∀ d ∈ ns, d ≠ n → st d = storeOf D.dirs.out fs d) ∧
      ∀ v c' g, loadEach st (D.deps n) c = (some v, c') → g n = v →
        runCaseD D cfg n ((fs, ans), c) = (runCase (D.filled g) cfg n (fs, ans),
          kept c' n ((D.filled g).tests n).returns (runCase (D.filled g) cfg n (fs, ans)).2) := by
  obtain ⟨f1, f2, e1, e2, e3, e4⟩ := started_ok hp hn h
  refine ⟨storeOf D.dirs.out f2, e4, ?_⟩
  intro v c' g hl hg
  have hr : runCase (D.filled g) cfg n (fs, ans) = callCase (D.filled fun _ => v) cfg n
      (D.dirs.env (snapshotText (makeDirs D.dirs n fs) (filePath D.root n ".md".toList))) ans f2 := by
    rw [runCase_called]
    show (match purge D.dirs.out n (makeDirs D.dirs n fs) with
      | .error x => ((makeDirs D.dirs n fs, ans), CaseEnd.error x)
      | .ok fs1 =>
        match writeOutputs D.dirs.out n [] [] [] fs1 with
        | .error x => ((fs1, ans), .error x)
        | .ok fs2 =>
          if (makeDirs D.dirs n fs).isDir (filePath D.root n ".md".toList) then ((fs2, ans), .error .isADirectory)
          else callCase (D.filled g) cfg n (D.dirs.env (snapshotText (makeDirs D.dirs n fs) (filePath D.root n ".md".toList))) ans fs2) = _
    rw [e1]
    dsimp only
    rw [e2]
    dsimp only
    rw [e3]
    exact callCase_congr (g := g) (g' := fun _ => v) hg _ _ _
  rw [hr]
  unfold runCaseD
  dsimp only
  rw [e1]
  dsimp only
  rw [e2]
  dsimp only
  rw [e3, hl]
  show _ = (_, kept c' n (D.given n (g n)).returns _)
  rw [hg]
  rfl

/-! ### The values that tests leave -/

theorem save_stored {P : Project} {v : Option Str} {f f' : FS} (h : saveValue P.out n v f = .ok f') :
    storeOf P.out f' n = v := by
  unfold storeOf
  unfold saveValue at h
  cases v with
  | none =>
    dsimp only at h
    by_cases he : f.exists_ (filePath P.out n ".bin".toList) = true
    · rw [if_pos he] at h
      unfold FS.remove at h
      split at h
      · cases h
      · cases h
      · cases h
        have e := get_filter (fun p => decide (p ≠ filePath P.out n ".bin".toList)) f (filePath P.out n ".bin".toList)
        rw [e]
        simp
    · rw [if_neg he] at h
      cases h
      unfold FS.exists_ at he
      cases hg : f.get (filePath P.out n ".bin".toList) with
      | none => rfl
      | some x => rw [hg] at he; exact absurd rfl he
  | some v =>
    dsimp only at h
    unfold openW at h
    split at h
    · cases h
    · split at h
      · cases h
        unfold FS.write
        rw [get_cons, if_pos rfl]
      · cases h

theorem value_after {P : Project} {st st' : FS × List Str} {r : Result} {q : Request}
    (h : runCase P cfg n st = (st', .done r q)) (hr : r ≠ .FAIL) : storeOf P.out st'.1 n = (P.tests n).returns := by
  rw [runCase_called] at h
  split at h
  · cases h
  · split at h
    · cases h
    · split at h
      · cases h
      · unfold callCase at h
        split at h
        · cases h
        · split at h
          · cases h
          · split at h
            · cases h
            · unfold endCase at h
              split at h
              · cases h
              · cases h
              · cases h
              · split at h
                · split at h
                  · cases h
                  · rename_i hs
                    cases h
                    exact save_stored hs
                · rename_i hx
                  cases h
                  exfalso
                  cases r with
                  | OK => exact hx (Or.inl rfl)
                  | DIFF => exact hx (Or.inr rfl)
                  | FAIL => exact hr rfl

/-- A test that has no values does not pass. -/
theorem missing_fails (e : Env) (m : Str × Str) {s : St} (h : runTest e ⟨[], some m⟩ = some s) : verdict e s = .FAIL := by
  unfold runTest at h
  simp only [execAll, List.foldlM_nil, bind, Option.bind_eq_some_iff, pure, Option.some.injEq] at h
  obtain ⟨s0, rfl, h⟩ := h
  unfold handler at h
  simp only [bind, Option.bind_eq_some_iff] at h
  obtain ⟨s1, -, s2, h2, h3⟩ := h
  have e2 := fail_then_iln e h2
  have e3 := (keepsErrors_iln e h3).1
  have : s.errors ≠ 0 := by omega
  simp [verdict, this]

/-! ### The cache -/

/-- The cache holds final values only, and no `None` for a test that others depend on. -/
structure Sure (val : Str → Option Str) (settled used : Str → Prop) (c : Cache Str) : Prop where
  holds : Holds c
  sound : Sound c
  held_ : ∀ k v, held c k = some v → settled k ∧ v = val k
  some_ : ∀ k, used k → held c k ≠ some none

theorem Sure.mono {val : Str → Option Str} {S S' U : Str → Prop} {c : Cache Str} (h : Sure val S U c)
    (hS : ∀ k, S k → S' k) : Sure val S' U c :=
  ⟨h.holds, h.sound, fun k v e => ⟨hS k (h.held_ k v e).1, (h.held_ k v e).2⟩, h.some_⟩

theorem Sure.load {val : Str → Option Str} {S U : Str → Prop} {c : Cache Str} {st : Store Str} (h : Sure val S U c)
    (hst : ∀ k, S k → st k = val k) {d : Str} (hd : S d) (hu : U d) :
    (loadResult c st d).1 = answer (val d) ∧ Sure val S U (loadResult c st d).2 := by
  have ha : ∀ k v, held c k = some v → v = st k := by
    intro k v e
    obtain ⟨h1, h2⟩ := h.held_ k v e
    rw [h2, hst k h1]
  have e := load_answer h.holds h.sound ha (h.some_ d hu)
  rw [hst d hd] at e
  obtain ⟨-, h2, h3, h4, h5⟩ := load_spec (key := d) h.holds h.sound ha
  refine ⟨e, h2, h3, ?_, ?_⟩
  · intro k v hk
    have hv := h4 k v hk
    have hS : S k := by
      by_cases hkd : k = d
      · rw [hkd]; exact hd
      · have := h5 k hkd (by rw [hk]; simp)
        obtain ⟨v', hv'⟩ := Option.ne_none_iff_exists'.mp this
        exact (h.held_ k v' hv').1
    exact ⟨hS, by rw [hv, hst k hS]⟩
  · intro k hk hn
    exact h.some_ k hk (load_none h.holds h.sound ha hn)

theorem Sure.set {val : Str → Option Str} {S U : Str → Prop} {c : Cache Str} (h : Sure val S U c) {k : Str}
    (hk : S k) (hu : U k → val k ≠ none) : Sure val S U (c.set k (val k)) := by
  refine ⟨set_holds h.holds _ _, set_sound h.sound _ _, ?_, ?_⟩
  · intro x v e
    rcases held_set h.sound e with ⟨rfl, rfl⟩ | ⟨-, e⟩
    · exact ⟨hk, rfl⟩
    · exact h.held_ x v e
  · intro x hx e
    rcases held_set h.sound e with ⟨rfl, e'⟩ | ⟨-, e⟩
    · exact hu hx e'.symm
    · exact h.some_ x hx e

theorem Sure.loadEach {val : Str → Option Str} {S U : Str → Prop} {st : Store Str}
    (hst : ∀ k, S k → st k = val k) : ∀ (ds : List Str) {c : Cache Str}, Sure val S U c → (∀ d ∈ ds, S d ∧ U d) →
    ∃ c', Model.loadEach st ds c = (some (valuesOf val ds), c') ∧ Sure val S U c' := by
  intro ds
  induction ds with
  | nil => intro c h _; exact ⟨c, rfl, h⟩
  | cons d ds ih =>
    intro c h hd
    obtain ⟨e, h1⟩ := h.load hst (hd d (by simp)).1 (hd d (by simp)).2
    unfold Model.loadEach valuesOf
    cases hv : val d with
    | none =>
      rw [hv] at e
      have e' : loadResult c st d = (.missing, (loadResult c st d).2) := Prod.ext e rfl
      rw [e']
      exact ⟨_, rfl, h1⟩
    | some v =>
      rw [hv] at e
      have e' : loadResult c st d = (.value (some v), (loadResult c st d).2) := Prod.ext e rfl
      obtain ⟨c', e1, h2⟩ := ih h1 (fun x hx => hd x (by simp [hx]))
      rw [e']
      dsimp only
      rw [e1]
      cases valuesOf val ds with
      | ok vs => exact ⟨c', rfl, h2⟩
      | error x => exact ⟨c', rfl, h2⟩

/-- Loading ends. -/
theorem loadEach_ends (st : Store Str) : ∀ (ds : List Str) {c : Cache Str}, Holds c →
    ∃ v c', Model.loadEach st ds c = (some v, c') ∧ Holds c' := by
  intro ds
  induction ds with
  | nil => intro c h; exact ⟨_, c, rfl, h⟩
  | cons d ds ih =>
    intro c h
    unfold Model.loadEach
    have hh : (loadResult c st d).1 ≠ .hangs ∧ Holds (loadResult c st d).2 := by
      unfold loadResult
      rw [contains_eq h]
      cases held c d with
      | some v =>
        dsimp only [Option.isSome]
        have hg := get_holds h d
        cases hcg : c.get d with
        | mk a b =>
          rw [hcg] at hg
          cases a with
          | none => exact ⟨by simp, hg⟩
          | some x => exact ⟨by simp, hg⟩
      | none =>
        dsimp only [Option.isSome]
        cases st d with
        | none => exact ⟨by simp, h⟩
        | some v =>
          dsimp only
          have hg := get_holds (set_holds h d (some v)) d
          cases hcg : (c.set d (some v)).get d with
          | mk a b =>
            rw [hcg] at hg
            cases a with
            | none => exact ⟨by simp, hg⟩
            | some x => exact ⟨by simp, hg⟩
    cases hl : loadResult c st d with
    | mk a b =>
      rw [hl] at hh
      cases a with
      | hangs => exact absurd rfl hh.1
      | missing => exact ⟨_, _, rfl, hh.2⟩
      | keyError => exact ⟨_, _, rfl, hh.2⟩
      | value v =>
        dsimp only
        obtain ⟨w, c', e, h'⟩ := ih hh.2
        rw [e]
        cases w with
        | ok vs => exact ⟨_, _, rfl, h'⟩
        | error x => exact ⟨_, _, rfl, h'⟩

theorem kept_holds {c : Cache Str} (h : Holds c) (n : Str) (v : Option Str) (e : CaseEnd) : Holds (kept c n v e) := by
  unfold kept
  split
  · exact h
  · exact set_holds h _ _
  · exact h

/-! ### Tests one after the other -/

/-- A test leaves the values of other tests. -/
theorem case_frame {P : Project} (hc : NotAsking cfg) (hp : PlainNames ns) (hn : n ∈ ns) (h : SoundTree P.root ns fs) (ans : List Str) :
    SoundTree P.root ns (runCase P cfg n (fs, ans)).1.1 ∧ (runCase P cfg n (fs, ans)).1.2 = ans ∧
    ∀ d ∈ ns, d ≠ n → storeOf P.out (runCase P cfg n (fs, ans)).1.1 d = storeOf P.out fs d := by
  obtain ⟨s1, s2⟩ := solo_sound (cfg := cfg) hc hp hn h
  rw [(solo_task hc hp hn h ans).2]
  refine ⟨s1, rfl, ?_⟩
  intro d hd hne
  have hown : Own P.root d (slot P.root true d ".bin".toList) := own_slot true (Or.inr mem_bin)
  have e := (s2 _ (fun ho => hne (own_apart hp hd hn hown ho))).2 (own_above hp hd hn hown)
  show (match (solo P cfg fs n).get (slot P.root true d ".bin".toList) with | some (.file v) => some v | _ => none) = _
  rw [e]
  rfl

theorem stepD (hc : NotAsking cfg) (hp : PlainNames ns) (hn : n ∈ ns) (h : SoundTree D.root ns fs) (ans : List Str)
    {c : Cache Str} (hh : Holds c) :
    SoundTree D.root ns (runCaseD D cfg n ((fs, ans), c)).1.1.1 ∧ (runCaseD D cfg n ((fs, ans), c)).1.1.2 = ans ∧
    Holds (runCaseD D cfg n ((fs, ans), c)).2 ∧
    ∀ d ∈ ns, d ≠ n → storeOf D.dirs.out (runCaseD D cfg n ((fs, ans), c)).1.1.1 d = storeOf D.dirs.out fs d := by
  obtain ⟨st, -, hst⟩ := runCaseD_eq (cfg := cfg) hp hn h ans c
  obtain ⟨v, c', e, h'⟩ := loadEach_ends st (D.deps n) hh
  rw [hst v c' (fun _ => v) e rfl]
  obtain ⟨f1, f2, f3⟩ := case_frame (P := D.filled fun _ => v) (cfg := cfg) hc hp hn h ans
  exact ⟨f1, f2, kept_holds h' _ _ _, f3⟩

theorem runCasesD_cons (D : DProject) (cfg : Config) (n : Str) (l : List Str) (st : (FS × List Str) × Cache Str) :
    runCasesD D cfg (n :: l) st = runCasesD D cfg l ((runCaseD D cfg n st).1.1, (runCaseD D cfg n st).2) := rfl

theorem casesD_frame (hc : NotAsking cfg) (hp : PlainNames ns) (ans : List Str) : ∀ (l : List Str) {fs : FS} {c : Cache Str},
    (∀ n ∈ l, n ∈ ns) → SoundTree D.root ns fs → Holds c →
    ∀ d ∈ ns, d ∉ l → storeOf D.dirs.out (runCasesD D cfg l ((fs, ans), c)).1.1 d = storeOf D.dirs.out fs d := by
  intro l
  induction l with
  | nil => intro fs c _ _ _ d _ _; rfl
  | cons n l ih =>
    intro fs c hl h hh d hd hne
    rw [List.mem_cons, not_or] at hne
    obtain ⟨h1, h2, h3, h4⟩ := stepD (D := D) hc hp (hl n (by simp)) h ans hh
    rw [runCasesD_cons]
    have e : (runCaseD D cfg n ((fs, ans), c)).1.1 = ((runCaseD D cfg n ((fs, ans), c)).1.1.1, ans) := Prod.ext rfl h2
    rw [e, ih (fun m hm => hl m (by simp [hm])) h1 h3 d hd hne.2, h4 d hd hne.1]

theorem cases_frame {P : Project} (hc : NotAsking cfg) (hp : PlainNames ns) (ans : List Str) (l : List Str) (hl : ∀ n ∈ l, n ∈ ns)
    (hnd : l.Nodup) (h : SoundTree P.root ns fs) :
    ∀ d ∈ ns, d ∉ l → storeOf P.out (runCases P cfg l (fs, ans)).1 d = storeOf P.out fs d := by
  intro d hd hne
  have hown : Own P.root d (slot P.root true d ".bin".toList) := own_slot true (Or.inr mem_bin)
  have e := ((cases_files hc hp l hl hnd h ans).2 _ (fun n hn ho => hne (own_apart hp hd (hl n hn) hown ho ▸ hn))).2
    (fun n hn => own_above hp hd (hl n hn) hown)
  show (match (runCases P cfg l (fs, ans)).1.get (slot P.root true d ".bin".toList) with | some (.file v) => some v | _ => none) = _
  rw [e]
  rfl

/-- Tests with dependencies, one after the other, do what they do with the values that are stored in the end. -/
theorem casesD_eq (hc : NotAsking cfg) (hp : PlainNames ns) (ans : List Str) (used : Str → Prop) (val : Str → Option Str) :
    ∀ (l : List Str) {fs : FS} {c : Cache Str}, (∀ n ∈ l, n ∈ ns) → l.Nodup → SoundTree D.root ns fs →
    (∀ n ∈ l, ∀ d ∈ D.deps n, d ∈ ns ∧ used d) →
    (∀ l1 n l2, l = l1 ++ n :: l2 → ∀ d ∈ D.deps n, d ∉ n :: l2) →
    (∀ n ∈ l, used n → ∀ vs, (D.fn n vs).returns ≠ none) →
    Sure val (fun k => k ∈ ns ∧ k ∉ l) used c →
    (E : FS × List Str) → (E = (runCasesD D cfg l ((fs, ans), c)).1 ∨
      E = runCases (D.filled fun n => valuesOf val (D.deps n)) cfg l (fs, ans)) →
    (∀ k ∈ ns, val k = storeOf D.dirs.out E.1 k) →
    ∀ l1 n l2, l = l1 ++ n :: l2 →
      (runCaseD D cfg n (runCasesD D cfg l1 ((fs, ans), c))).1 =
        runCase (D.filled fun n => valuesOf val (D.deps n)) cfg n
          (runCases (D.filled fun n => valuesOf val (D.deps n)) cfg l1 (fs, ans)) ∧
      (runCasesD D cfg (l1 ++ [n]) ((fs, ans), c)).1 =
        runCases (D.filled fun n => valuesOf val (D.deps n)) cfg (l1 ++ [n]) (fs, ans) := by
  intro l
  induction l with
  | nil =>
    intro fs c _ _ _ _ _ _ _ _ _ _ l1 n l2 e
    exact absurd (congrArg List.length e) (by simp)
  | cons m l ih =>
    intro fs c hl hnd h hdeps hbefore hret hs E hE hval l1 n l2 e
    have hm : m ∈ ns := hl m (by simp)
    obtain ⟨hnm, hnd'⟩ := List.nodup_cons.mp hnd
    obtain ⟨t1, t2, t3, t4⟩ := stepD (D := D) hc hp hm h ans hs.holds
    have est : (runCaseD D cfg m ((fs, ans), c)).1.1 = ((runCaseD D cfg m ((fs, ans), c)).1.1.1, ans) := Prod.ext rfl t2
    -- the step
    have hframe : ∀ d ∈ ns, d ∉ m :: l → storeOf D.dirs.out E.1 d = storeOf D.dirs.out fs d := by
      rcases hE with hE | hE
      · rw [hE]
        exact casesD_frame (D := D) (cfg := cfg) hc hp ans (m :: l) hl h hs.holds
      · rw [hE]
        exact cases_frame (P := D.filled fun n => valuesOf val (D.deps n)) hc hp ans (m :: l) hl hnd h
    obtain ⟨st, hst, hrun⟩ := runCaseD_eq (D := D) (cfg := cfg) hp hm h ans c
    have hagree : ∀ k, (k ∈ ns ∧ k ∉ m :: l) → st k = val k := by
      intro k hk
      rw [hst k hk.1 (fun he => hk.2 (by simp [he])), hval k hk.1, hframe k hk.1 hk.2]
    obtain ⟨c', e1, s1⟩ := hs.loadEach hagree (D.deps m)
      (fun d hd => ⟨⟨(hdeps m (by simp) d hd).1, hbefore [] m l rfl d hd⟩, (hdeps m (by simp) d hd).2⟩)
    have e2 := hrun _ c' (fun n => valuesOf val (D.deps n)) e1 rfl
    have hfirst : (runCaseD D cfg m ((fs, ans), c)).1 =
        runCase (D.filled fun n => valuesOf val (D.deps n)) cfg m (fs, ans) := by rw [e2]
    -- the state afterwards
    have hstep1 : (runCase (D.filled fun n => valuesOf val (D.deps n)) cfg m (fs, ans)).1 =
        ((runCaseD D cfg m ((fs, ans), c)).1.1.1, ans) := by rw [← hfirst]; exact est
    have er : ∀ l, runCases (D.filled fun n => valuesOf val (D.deps n)) cfg (m :: l) (fs, ans) =
        runCases (D.filled fun n => valuesOf val (D.deps n)) cfg l ((runCaseD D cfg m ((fs, ans), c)).1.1.1, ans) := by
      intro l
      rw [← hstep1]; rfl
    have hE' : E = (runCasesD D cfg l (((runCaseD D cfg m ((fs, ans), c)).1.1.1, ans), (runCaseD D cfg m ((fs, ans), c)).2)).1 ∨
        E = runCases (D.filled fun n => valuesOf val (D.deps n)) cfg l ((runCaseD D cfg m ((fs, ans), c)).1.1.1, ans) := by
      rw [runCasesD_cons, est, er] at hE
      exact hE
    have hvalm : val m = storeOf D.dirs.out (runCaseD D cfg m ((fs, ans), c)).1.1.1 m := by
      rw [hval m hm]
      rcases hE' with hE | hE
      · rw [hE]
        exact casesD_frame hc hp ans l (fun n hn => hl n (by simp [hn])) t1 t3 m hm hnm
      · rw [hE]
        exact cases_frame (P := D.filled fun n => valuesOf val (D.deps n)) hc hp ans l (fun n hn => hl n (by simp [hn])) hnd' t1 m hm hnm
    have hsure : Sure val (fun k => k ∈ ns ∧ k ∉ l) used (runCaseD D cfg m ((fs, ans), c)).2 := by
      have s2 := s1.mono (S' := fun k => k ∈ ns ∧ k ∉ l) (fun k hk => ⟨hk.1, fun hk' => hk.2 (by simp [hk'])⟩)
      rw [e2]
      cases hr : (runCase (D.filled fun n => valuesOf val (D.deps n)) cfg m (fs, ans)).2 with
      | eof => exact s2
      | error x => exact s2
      | hangs => exact s2
      | done r q =>
        by_cases hrf : r = .FAIL
        · rw [hrf]; exact s2
        · have hkept : ∀ v, kept c' m v (.done r q) = c'.set m v := by
            intro v
            cases r with
            | FAIL => exact absurd rfl hrf
            | OK => rfl
            | DIFF => rfl
          have ev := value_after (P := D.filled fun n => valuesOf val (D.deps n)) (cfg := cfg) (n := m) (st := (fs, ans))
            (st' := (runCase (D.filled fun n => valuesOf val (D.deps n)) cfg m (fs, ans)).1) (Prod.ext rfl hr) hrf
          have ev' : val m = ((D.filled fun n => valuesOf val (D.deps n)).tests m).returns := by
            rw [hvalm, hfirst]; exact ev
          dsimp only
          rw [hkept, ← ev']
          refine s2.set ⟨hm, hnm⟩ ?_
          intro hu
          rw [ev']
          show (D.given m (valuesOf val (D.deps m))).returns ≠ none
          cases hv : valuesOf val (D.deps m) with
          | ok vs => exact hret m (by simp) hu vs
          | error d =>
            exfalso
            have e3 := (solo_task (P := D.filled fun n => valuesOf val (D.deps n)) hc hp hm h ans).2
            rw [e3] at hr
            dsimp only at hr
            unfold caseSpec at hr
            have hb : ((D.filled fun n => valuesOf val (D.deps n)).tests m).body = ⟨[], some (D.missing m d)⟩ := by
              show (D.given m (valuesOf val (D.deps m))).body = _
              rw [hv]; rfl
            rw [hb] at hr
            split at hr
            · cases hr
            · rename_i s hs'
              have hf := missing_fails _ _ hs'
              dsimp only at hr
              rw [hf, if_neg (by rintro (⟨hx, -⟩ | ⟨hx, -⟩) <;> cases hx)] at hr
              injection hr with hr
              exact hrf hr.symm
    cases l1 with
    | nil =>
      rw [List.nil_append] at e
      injection e with e' e''
      subst e'
      refine ⟨hfirst, ?_⟩
      show (runCaseD D cfg m ((fs, ans), c)).1.1 = (runCase _ cfg m (fs, ans)).1
      rw [hfirst]
    | cons m' l1 =>
      rw [List.cons_append] at e
      injection e with e' e''
      subst e'
      have := ih (fs := (runCaseD D cfg m ((fs, ans), c)).1.1.1) (c := (runCaseD D cfg m ((fs, ans), c)).2)
        (fun n hn => hl n (by simp [hn])) hnd' t1 (fun n hn => hdeps n (by simp [hn]))
        (fun a b d hd => hbefore (m :: a) b d (by rw [hd]; rfl)) (fun n hn => hret n (by simp [hn])) hsure
        E hE' hval l1 n l2 e''
      rw [runCasesD_cons, est, List.cons_append, runCasesD_cons, est]
      rw [er, er]
      exact this

theorem empty_sure {c : Cache Str} (h : EmptyCache c) (val : Str → Option Str) (S U : Str → Prop) : Sure val S U c := by
  cases c with
  | dict d => cases h; exact ⟨trivial, trivial, fun k v e => (by cases e), fun k _ e => (by cases e)⟩
  | lru k d =>
    obtain ⟨h, rfl⟩ := h
    exact ⟨h, List.nodup_nil, fun k v e => (by cases e), fun k _ e => (by cases e)⟩
  | noCache => exact h.elim

/-- Some of the tests, in the same order. -/
theorem depsFirst_sub {l todo : List Str} (h : DepsFirst D ns todo) (hl : l.Sublist todo) : DepsFirst D ns l where
  names := fun n hn => h.names n (hl.subset hn)
  before := by
    intro l1 n l2 e d hd hm
    rw [e, List.append_sublist_iff] at hl
    obtain ⟨r1, r2, e1, -, h2⟩ := hl
    rw [List.cons_sublist_iff] at h2
    obtain ⟨s1, s2, e2, h3, h4⟩ := h2
    obtain ⟨t1, t2, e3⟩ := List.append_of_mem h3
    refine h.before (r1 ++ t1) n (t2 ++ s2) (by rw [e1, e2, e3]; simp) d hd ?_
    rcases List.mem_cons.mp hm with hm | hm
    · rw [hm]; simp
    · exact List.mem_cons_of_mem _ (List.mem_append_right _ (h4.subset hm))
  returns := fun n hn d hd hm => h.returns n (hl.subset hn) d hd (hl.subset hm)

/-- Tests with dependencies and an empty cache. -/
theorem casesD_empty (hc : NotAsking cfg) (hp : PlainNames ns) (ans : List Str) {l : List Str} {c : Cache Str}
    (hl : ∀ n ∈ l, n ∈ ns) (hnd : l.Nodup) (h : SoundTree D.root ns fs) (ho : DepsFirst D ns l) (hcache : EmptyCache c)
    (val : Str → Option Str) (E : FS × List Str) (hE : E = (runCasesD D cfg l ((fs, ans), c)).1 ∨
      E = runCases (D.filled fun n => valuesOf val (D.deps n)) cfg l (fs, ans))
    (hval : ∀ k ∈ ns, val k = storeOf D.dirs.out E.1 k) :
    (∀ l1 n l2, l = l1 ++ n :: l2 →
      (runCaseD D cfg n (runCasesD D cfg l1 ((fs, ans), c))).1 =
        runCase (D.filled fun n => valuesOf val (D.deps n)) cfg n
          (runCases (D.filled fun n => valuesOf val (D.deps n)) cfg l1 (fs, ans))) ∧
    (runCasesD D cfg l ((fs, ans), c)).1 = runCases (D.filled fun n => valuesOf val (D.deps n)) cfg l (fs, ans) := by
  have key := casesD_eq (D := D) hc hp ans (fun d => ∃ n ∈ l, d ∈ D.deps n) val l hl hnd h
    (fun n hn d hd => ⟨ho.names n hn d hd, n, hn, hd⟩) ho.before
    (fun n hn ⟨m, hm, hd⟩ => ho.returns m hm n hd hn) (empty_sure hcache _ _ _) E hE hval
  refine ⟨fun l1 n l2 e => (key l1 n l2 e).1, ?_⟩
  rcases List.eq_nil_or_concat l with e | ⟨l1, n, e⟩
  · rw [e]; rfl
  · have := (key l1 n [] (by rw [e, List.concat_eq_append])).2
    rw [e, List.concat_eq_append]
    exact this

/-! ### The loop -/

theorem runLoop_congr {fl : Durations} (cfg : Config) (o o' : List Str → Str → Outcome fl) :
    ∀ (todo ex : List Str) (rv : Result) (k : Nat),
    (∀ l1 n l2, ranNames (runLoop fl cfg o ex rv k todo).1 = l1 ++ n :: l2 → o (ex ++ l1) n = o' (ex ++ l1) n) →
    runLoop fl cfg o ex rv k todo = runLoop fl cfg o' ex rv k todo := by
  intro todo
  induction todo with
  | nil => intro ex rv k _; rfl
  | cons n ns ih =>
    intro ex rv k h
    have hran : ∃ l, ranNames (runLoop fl cfg o ex rv k (n :: ns)).1 = n :: l := by
      unfold runLoop
      cases o ex n with
      | none => exact ⟨_, rfl⟩
      | some x =>
        dsimp only
        split
        · exact ⟨_, rfl⟩
        · exact ⟨_, rfl⟩
    have h0 : o ex n = o' ex n := by
      obtain ⟨l, e⟩ := hran
      have := h [] n l e
      rwa [List.append_nil] at this
    unfold runLoop at h ⊢
    rw [← h0]
    cases ho : o ex n with
    | none => rfl
    | some x =>
      rw [ho] at h
      dsimp only at h ⊢
      split
      · rfl
      · rename_i hx
        rw [if_neg hx] at h
        rw [ih]
        intro l1 m l2 e
        have := h (n :: l1) m l2 (by
          dsimp only
          rw [ranNames_append, e]
          rfl)
        rw [List.append_assoc]
        exact this

/-- The tests that are run are the first ones of the tests to run. -/
theorem ran_prefix {fl : Durations} (cfg : Config) (o : List Str → Str → Outcome fl) :
    ∀ (todo ex : List Str) (rv : Result) (k : Nat), ranNames (runLoop fl cfg o ex rv k todo).1 <+: todo := by
  intro todo
  induction todo with
  | nil => intro ex rv k; exact List.prefix_refl _
  | cons n ns ih =>
    intro ex rv k
    unfold runLoop
    cases o ex n with
    | none => exact ⟨ns, rfl⟩
    | some x =>
      dsimp only
      split
      · exact ⟨ns, rfl⟩
      · rw [ranNames_append]
        obtain ⟨l, e⟩ := ih (ex ++ [n]) (nextRv rv x.1) (nextFails k x.1)
        exact ⟨l, congrArg (n :: ·) e⟩

end Verif.Lemmas
