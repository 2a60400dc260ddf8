import Mathlib.Data.List.Forall2
import Verif.Spec.Depends
import Verif.Lemmas.CacheRun
import Verif.Props.Selection
import Verif.Props.Parallel
import Verif.Model.Console
import Verif.Lemmas.Console

/-! # C94, C95: the arguments of tests and their resources -/

namespace Verif.Props
open Verif.Py Verif.Model Verif.Spec Verif.Lemmas

variable {V : Type}

/-- The cache agrees with the files. -/
structure Coherent (c : Cache V) (st : Store V) : Prop where
  holds : Holds c
  sound : Sound c
  held : ∀ k v, held c k = some v → v = st k

theorem coherent_load {c : Cache V} {st : Store V} (h : Coherent c st) (key : Str) :
    ((loadResult c st key).1 = .value (st key) ∨ (st key = none ∧ (loadResult c st key).1 = .missing)) ∧
    Coherent (loadResult c st key).2 st := by
  obtain ⟨h1, h2, h3, h4, -⟩ := load_spec (key := key) h.holds h.sound h.held
  exact ⟨h1, h2, h3, h4⟩

theorem coherent_save {c : Cache V} {st : Store V} (h : Coherent c st) (key : Str) (v : Option V) :
    Coherent (saveResult c st key v).1 (saveResult c st key v).2 := by
  refine ⟨set_holds h.holds _ _, set_sound h.sound _ _, ?_⟩
  intro k y hy
  rcases held_set h.sound hy with ⟨rfl, rfl⟩ | ⟨hk, hy⟩
  · simp [saveResult, Store.set]
  · simp only [saveResult, Store.set, if_neg hk]; exact h.held k y hy

/-- What `get_test_result` gives for the test that matches. -/
private def Answer (st : Store V) (b : Option Str) (r : Option (Loaded V)) : Prop :=
  match b with
  | none => r = none
  | some b => r = some (.value (st b)) ∨ (st b = none ∧ r = some .missing)

private theorem getTestResult_spec (w : DepWorld V) {c : Cache V} {st : Store V} (h : Coherent c st)
    (m : Meth) : Answer st (caseByMethod w.suite m) (getTestResult w c st m).1 ∧
      Coherent (getTestResult w c st m).2 st := by
  unfold getTestResult Answer
  cases caseByMethod w.suite m with
  | none => exact ⟨rfl, h⟩
  | some n =>
    obtain ⟨h1, h2⟩ := coherent_load h n
    refine ⟨?_, h2⟩
    rcases h1 with h1 | ⟨h1, h1'⟩
    · exact Or.inl (by dsimp only; rw [h1])
    · exact Or.inr ⟨h1, by dsimp only; rw [h1']⟩

private theorem depResult_spec (w : DepWorld V) {c : Cache V} {st : Store V} (h : Coherent c st)
    (m d : Meth) : Answer st (usedCase w.suite m d) (depResult w (decoratedSelf w.suite m) c st d).1 ∧
      Coherent (depResult w (decoratedSelf w.suite m) c st d).2 st := by
  unfold depResult usedCase
  cases decoratedSelf w.suite m with
  | none => exact getTestResult_spec w h d
  | some o =>
    obtain ⟨h1, h2⟩ := getTestResult_spec w h (bindTo o d)
    dsimp only
    cases hb : caseByMethod w.suite (bindTo o d) with
    | none =>
      rw [hb] at h1
      have e : getTestResult w c st (bindTo o d) = (none, (getTestResult w c st (bindTo o d)).2) :=
        Prod.ext h1 rfl
      rw [e]
      exact getTestResult_spec w h2 d
    | some b =>
      rw [hb] at h1
      rcases h1 with h1 | ⟨h0, h1⟩
      · have e : getTestResult w c st (bindTo o d) =
            (some (.value (st b)), (getTestResult w c st (bindTo o d)).2) := Prod.ext h1 rfl
        rw [e]
        exact ⟨Or.inl rfl, h2⟩
      · have e : getTestResult w c st (bindTo o d) =
            (some .missing, (getTestResult w c st (bindTo o d)).2) := Prod.ext h1 rfl
        rw [e]
        exact ⟨Or.inr ⟨h0, rfl⟩, h2⟩

private theorem depArgs_spec (w : DepWorld V) {st : Store V} (m : Meth) (ds : List (Dep V)) {c : Cache V}
    (h : Coherent c st) :
    (∃ vals c', depArgs w (decoratedSelf w.suite m) st c ds = (.ok vals, c') ∧ Coherent c' st ∧
      List.Forall₂ (Gives w.suite m st) ds vals) ∨
    (∃ e c', depArgs w (decoratedSelf w.suite m) st c ds = (.error e, c') ∧ Coherent c' st ∧
      ((∃ d, e = .notFound d) ∨ e = .missing) ∧ Lacks w.suite m st ds) := by
  induction ds generalizing c with
  | nil => exact Or.inl ⟨[], c, rfl, h, .nil⟩
  | cons d ds ih =>
    cases d with
    | resource i v =>
      unfold depArgs
      rcases ih h with ⟨vals, c', e, hc, hf⟩ | ⟨e, c', he, hc, hk, hl⟩
      · rw [e]
        exact Or.inl ⟨_, c', rfl, hc, .cons (.resource i v) hf⟩
      · rw [he]
        obtain ⟨x, hx, hl⟩ := hl
        exact Or.inr ⟨e, c', rfl, hc, hk, x, List.mem_cons_of_mem _ hx, hl⟩
    | method d =>
      unfold depArgs
      obtain ⟨h1, h2⟩ := depResult_spec w h m d
      generalize hr : depResult w (decoratedSelf w.suite m) c st d = r at h1 h2
      obtain ⟨r, c1⟩ := r
      cases hb : usedCase w.suite m d with
      | none =>
        rw [hb] at h1
        have h1 : r = none := h1
        subst h1
        exact Or.inr ⟨_, c1, rfl, h2, Or.inl ⟨d, rfl⟩, d, List.mem_cons_self,
          fun b hb' => by rw [hb] at hb'; cases hb'⟩
      | some b =>
        rw [hb] at h1
        rcases h1 with h1 | ⟨h0, h1⟩
        · have h1 : r = some (.value (st b)) := h1
          subst h1
          dsimp only
          rcases ih h2 with ⟨vals, c', e, hc, hf⟩ | ⟨e, c', he, hc, hk, hl⟩
          · rw [e]
            exact Or.inl ⟨_, c', rfl, hc, .cons (.method d b hb) hf⟩
          · rw [he]
            obtain ⟨x, hx, hl⟩ := hl
            exact Or.inr ⟨e, c', rfl, hc, hk, x, List.mem_cons_of_mem _ hx, hl⟩
        · have h1 : r = some .missing := h1
          subst h1
          exact Or.inr ⟨_, c1, rfl, h2, Or.inr rfl, d, List.mem_cons_self, fun b' hb' => by
            rw [hb] at hb'; injection hb' with hb'; rw [← hb']; exact h0⟩

theorem attr_none {w : DepWorld V} (hd : w.Decorated) (n : Nat) (m : Meth) (hm : m.self = none) :
    decoratedAttr w.suite (·.self) n m = none := by
  induction n generalizing m with
  | zero => exact hm
  | succ n ih =>
    unfold decoratedAttr
    rw [hm]
    dsimp only
    cases hk : w.kind m.fn with
    | plain => rw [(hd.plain _ hk).1]
    | dependsOn ds g => rw [(hd.dependsOn _ _ _ hk).2.1]; exact ih _ rfl
    | around g => rw [(hd.around _ _ hk).2.1]; exact ih _ rfl

theorem decoratedSelf_eq {w : DepWorld V} (hd : w.Decorated) (m : Meth) :
    decoratedSelf w.suite m = m.self := by
  unfold decoratedSelf
  cases hm : m.self with
  | none => exact attr_none hd _ m hm
  | some o =>
    cases m.fn with
    | zero => exact hm
    | succ n => unfold decoratedAttr; rw [hm]

private theorem callFn_layers {w : DepWorld V} (hd : w.Decorated) {st : Store V} {f g : Nat}
    {ls : List (List (Dep V))} (h : Layers w f ls g) {c : Cache V} (hc : Coherent c st) (m : Meth)
    (hbook : ∀ o, m.self = some o → w.isBook o = true) (extra : List (Arg V)) (n : Nat) (hn : f ≤ n) :
    (∃ vals c', callFn w st n c f (firstArgs m ++ extra) = (.called g (firstArgs m ++ vals), c') ∧
      Coherent c' st ∧ (ls = [] → vals = extra) ∧
      ∀ ds, ls.getLast? = some ds → List.Forall₂ (Gives w.suite m st) ds vals) ∨
    (∃ e c', callFn w st n c f (firstArgs m ++ extra) = (e, c') ∧ Coherent c' st ∧
      ((∃ d, e = .notFound d) ∨ e = .missing) ∧ ∃ ds ∈ ls, Lacks w.suite m st ds) := by
  induction h generalizing n c extra with
  | @plain f hk =>
    left
    refine ⟨extra, c, ?_, hc, fun _ => rfl, fun ds h => by cases h⟩
    cases n with
    | zero => rfl
    | succ n => unfold callFn; rw [hk]
  | @around f g h ls hk _ ih =>
    have := (hd.around _ _ hk).1
    cases n with
    | zero => omega
    | succ n =>
      unfold callFn
      rw [hk]
      exact ih hc extra n (by omega)
  | @dependsOn f g h ds ls hk _ ih =>
    have hlt := (hd.dependsOn _ _ _ hk).1
    cases n with
    | zero => omega
    | succ n =>
      have hargs := depArgs_spec w m ds hc
      rw [decoratedSelf_eq hd] at hargs
      have hcall : ∀ r, depArgs w m.self st c ds = r →
          callFn w st (n + 1) c f (firstArgs m ++ extra) = (match r with
            | (.ok vs, c) => callFn w st n c g (firstArgs m ++ vs)
            | (.error e, c) => (e, c)) := by
        rintro r rfl
        conv => lhs; unfold callFn
        rw [hk]
        unfold firstArgs
        cases hm : m.self with
        | none =>
          dsimp only [List.cons_append, List.nil_append]
          rcases depArgs w none st c ds with ⟨_ | _, _⟩ <;> rfl
        | some o =>
          dsimp only [List.cons_append, List.nil_append]
          rw [if_pos (hbook o hm)]
          rcases depArgs w (some o) st c ds with ⟨_ | _, _⟩ <;> rfl
      rcases hargs with ⟨vals, c', e, hc', hf⟩ | ⟨e, c', he, hc', hk', hl⟩
      · rw [hcall _ e]
        rcases ih hc' vals n (by omega) with ⟨vs, c2, e2, hc2, hnil, hlast⟩ | ⟨x, c2, e2, hc2, hk2, d2, hd2, hl2⟩
        · left
          refine ⟨vs, c2, e2, hc2, (fun h => by cases h), ?_⟩
          intro ds' hds'
          cases ls with
          | nil =>
            have hds' : some ds = some ds' := hds'
            injection hds' with hds'
            subst hds'
            rw [hnil rfl]
            exact hf
          | cons l ls => exact hlast ds' (by rw [← hds']; rfl)
        · exact Or.inr ⟨x, c2, e2, hc2, hk2, d2, List.mem_cons_of_mem _ hd2, hl2⟩
      · rw [hcall _ he]
        exact Or.inr ⟨e, c', rfl, hc', hk', ds, List.mem_cons_self, hl⟩

/-- What is claimed of the execution of a test after others. -/
private def EntryOk (w : DepWorld V) (st : Store V) (past : List (Entry V)) (e : Entry V) : Prop :=
  ∀ m, getCase w.suite e.name = some m → (∀ o, m.self = some o → w.isBook o = true) →
    ∀ ls g, Layers w m.fn ls g →
      (∃ vals, e.call = .called g (firstArgs m ++ vals) ∧ (ls = [] → vals = []) ∧
        ∀ ds, ls.getLast? = some ds → List.Forall₂ (Gives w.suite m (knownValue st past)) ds vals) ∨
      ((∀ f args, e.call ≠ .called f args) ∧ e.result = .FAIL ∧
        ∃ ds ∈ ls, Lacks w.suite m (knownValue st past) ds)

private theorem callFn_coherent (w : DepWorld V) {st : Store V} (n : Nat) {c : Cache V}
    (hc : Coherent c st) (f : Nat) (args : List (Arg V)) : Coherent (callFn w st n c f args).2 st := by
  have hargs : ∀ (self : Option Nat) (ds : List (Dep V)) (c : Cache V), Coherent c st →
      Coherent (depArgs w self st c ds).2 st := by
    intro self ds
    have hres : ∀ (c : Cache V) (d : Meth), Coherent c st → Coherent (depResult w self c st d).2 st := by
      intro c d hc
      unfold depResult
      cases self with
      | none => exact (getTestResult_spec w hc d).2
      | some o =>
        have := (getTestResult_spec w hc (bindTo o d)).2
        dsimp only
        split
        · rename_i r c' e; rw [e] at this; exact this
        · rename_i c' e; rw [e] at this; exact (getTestResult_spec w this d).2
    induction ds with
    | nil => exact fun c hc => hc
    | cons d ds ih =>
      intro c hc
      cases d with
      | resource i v =>
        unfold depArgs
        have := ih c hc
        split <;> rename_i e <;> rw [e] at this <;> exact this
      | method d =>
        unfold depArgs
        have h1 := hres c d hc
        split
        all_goals rename_i e; rw [e] at h1; try exact h1
        have := ih _ h1
        split <;> rename_i e <;> rw [e] at this <;> exact this
  induction n generalizing c f args with
  | zero => exact hc
  | succ n ih =>
    unfold callFn
    split
    · exact hc
    · exact ih hc _ _
    · rename_i ds g _
      split
      · rename_i o rest
        split
        · split
          · have := hargs (some o) ds c hc
            split <;> rename_i e <;> rw [e] at this
            · exact ih this _ _
            · exact this
          · exact hc
        · exact hc
      · have := hargs none ds c hc
        split <;> rename_i e <;> rw [e] at this
        · exact ih this _ _
        · exact this
      · exact hc

private theorem runEntry_spec {w : DepWorld V} (hd : w.Decorated)
    (body : Nat → List (Arg V) → Result × Option V) {c : Cache V} {st st0 : Store V} {past : List (Entry V)}
    (hc : Coherent c st) (hst : st = knownValue st0 past) {n : Str} {e : Entry V} {c' : Cache V}
    {st' : Store V} (h : runEntry w body c st n = some (e, c', st')) :
    e.name = n ∧ EntryOk w st0 past e ∧ Coherent c' st' ∧ st' = knownValue st0 (past ++ [e]) := by
  have hfail : ∀ e : Entry V, e.result = .FAIL → st = knownValue st0 (past ++ [e]) := by
    intro e he
    rw [hst]
    funext b
    unfold knownValue
    rw [List.filter_append, List.filter_cons, if_neg (by simp [he]), List.filter_nil, List.append_nil]
  unfold runEntry at h
  cases hm : getCase w.suite n with
  | none =>
    rw [hm] at h
    injection h with h
    injection h with h1 h2
    injection h2 with h2 h3
    subst h1 h2 h3
    refine ⟨rfl, ?_, hc, hfail _ rfl⟩
    intro m hm'
    rw [hm] at hm'
    cases hm'
  | some m =>
    rw [hm] at h
    dsimp only at h
    have hcoh := callFn_coherent w m.fn hc m.fn (firstArgs m)
    have hcall : callTest w st c m = callFn w st m.fn c m.fn (firstArgs m) := rfl
    -- the call itself
    have hok : ∀ (e : Entry V), e.name = n → e.call = (callTest w st c m).1 →
        ((∀ f args, e.call ≠ .called f args) → e.result = .FAIL) → EntryOk w st0 past e := by
      intro e he1 he2 he3 m' hm' hb
      rw [he1, hm] at hm'
      injection hm' with hm'
      subst hm'
      intro ls g hg
      have hcase := callFn_layers hd hg hc m hb [] m.fn (Nat.le_refl _)
      rw [List.append_nil] at hcase
      rcases hcase with ⟨vals, c2, e2, -, hnil, hf⟩ | ⟨x, c2, e2, -, hk, hl⟩
      · left
        refine ⟨vals, by rw [he2, hcall, e2], hnil, ?_⟩
        rw [← hst]; exact hf
      · right
        have hne : ∀ f args, e.call ≠ .called f args := by
          intro f args
          rw [he2, hcall, e2]
          rcases hk with ⟨d, rfl⟩ | rfl <;> exact fun hx => by cases hx
        exact ⟨hne, he3 hne, by rw [← hst]; exact hl⟩
    generalize hr : callTest w st c m = r at h hok
    obtain ⟨r, c1⟩ := r
    have hc1 : Coherent c1 st := by
      rw [← hcall, hr] at hcoh
      exact hcoh
    have herr : (∀ f args, r ≠ .called f args) → some (⟨n, r, .FAIL, none⟩, c1, st) = some (e, c', st') →
        e.name = n ∧ EntryOk w st0 past e ∧ Coherent c' st' ∧ st' = knownValue st0 (past ++ [e]) := by
      intro hne h
      injection h with h
      injection h with h1 h2
      injection h2 with h2 h3
      subst h1 h2 h3
      exact ⟨rfl, hok _ rfl rfl (fun _ => rfl), hc1, hfail _ rfl⟩
    cases r with
    | hangs => cases h
    | called f args =>
      dsimp only at h
      have hsave : ∀ (v : Option V) (res : Result), res ≠ .FAIL →
          some (⟨n, .called f args, res, v⟩, saveResult c1 st n v) = some (e, c', st') →
          e.name = n ∧ EntryOk w st0 past e ∧ Coherent c' st' ∧ st' = knownValue st0 (past ++ [e]) := by
        intro v res hres h
        injection h with h
        injection h with h1 h2
        subst h1
        refine ⟨rfl, hok _ rfl rfl (fun hne => absurd rfl (hne f args)), ?_, ?_⟩
        · have := coherent_save hc1 n v
          rw [h2] at this
          exact this
        · have h3 : st' = (saveResult c1 st n v).2 := by rw [h2]
          rw [h3]
          funext b
          simp only [saveResult, Store.set]
          unfold knownValue
          rw [List.filter_append, List.filter_cons]
          by_cases hb : b = n
          · subst hb
            rw [if_pos rfl, if_pos (by simp [hres])]
            simp
          · rw [if_neg hb, if_neg (by simp [Ne.symm hb]), List.filter_nil, List.append_nil, hst]
            rfl
      generalize hbody : body f args = rv at h
      obtain ⟨res, v⟩ := rv
      cases res with
      | FAIL =>
        injection h with h
        injection h with h1 h2
        injection h2 with h2 h3
        subst h1 h2 h3
        exact ⟨rfl, hok _ rfl rfl (fun hne => absurd rfl (hne f args)), hc1, hfail _ rfl⟩
      | OK => exact hsave v .OK (by decide) h
      | DIFF => exact hsave v .DIFF (by decide) h
    | notFound d => exact herr (by intro f args hx; cases hx) h
    | missing => exact herr (by intro f args hx; cases hx) h
    | keyError => exact herr (by intro f args hx; cases hx) h
    | noRun => exact herr (by intro f args hx; cases hx) h
    | noTest => exact herr (by intro f args hx; cases hx) h

private theorem runEntries_spec {w : DepWorld V} (hd : w.Decorated)
    (body : Nat → List (Arg V) → Result × Option V) {st0 : Store V} (ns : List Str) {c : Cache V}
    {st : Store V} {past es : List (Entry V)} (hc : Coherent c st) (hst : st = knownValue st0 past)
    (h : runEntries w body c st ns = some es) :
    es.map (·.name) = ns ∧ ∀ i (hi : i < es.length), EntryOk w st0 (past ++ es.take i) es[i] := by
  induction ns generalizing c st past es with
  | nil =>
    injection h with h
    subst h
    exact ⟨rfl, fun i hi => absurd hi (by simp)⟩
  | cons n ns ih =>
    unfold runEntries at h
    cases he : runEntry w body c st n with
    | none => rw [he] at h; cases h
    | some r =>
      obtain ⟨e, c', st'⟩ := r
      rw [he] at h
      obtain ⟨rest, hrest, rfl⟩ := Option.map_eq_some_iff.mp h
      obtain ⟨h1, h2, h3, h4⟩ := runEntry_spec hd body hc hst he
      obtain ⟨i1, i2⟩ := ih h3 h4 hrest
      refine ⟨by rw [List.map_cons, h1, i1], ?_⟩
      intro i hi
      cases i with
      | zero => simpa using h2
      | succ i =>
        have := i2 i (by simpa using hi)
        simpa [List.append_assoc] using this

theorem coherent_empty {c : Cache V} (st : Store V) (h1 : Holds c) (h2 : Sound c)
    (h3 : ∀ k, held c k = none) : Coherent c st :=
  ⟨h1, h2, fun k v hv => by rw [h3 k] at hv; cases hv⟩

/-! ### C94 -/

/-- **C94.** In a sequential run with a cache that can hold something, every test with one `depends_on`
(and any other decorators of booktest) is called exactly with the book, the test case, and in the order
in which they are declared the values of its resources and of its dependencies: for a dependency, the
value that its test returned when it was executed last without failing, in this run or before.
If there is no test or no value for a dependency, it may instead not be called and fail. A test without
`depends_on` is called with the book and the test case only. What is missing: several `depends_on`, see
`C94_layers`. -/
theorem C94_arguments_partial {w : DepWorld V} (hd : w.Decorated)
    (body : Nat → List (Arg V) → Result × Option V) {c : Cache V} (h1 : Holds c) (h2 : Sound c)
    (h3 : ∀ k, held c k = none) (st : Store V) {run : List Str} {es : List (Entry V)}
    (h : runEntries w body c st run = some es) :
    es.map (·.name) = run ∧ ∀ i (hi : i < es.length) m, getCase w.suite es[i].name = some m →
      (∀ o, m.self = some o → w.isBook o = true) →
      (∀ g, Bare w m.fn g → es[i].call = .called g (firstArgs m)) ∧
      ∀ ds g, DependsOnce w m.fn ds g →
        (∃ vals, es[i].call = .called g (firstArgs m ++ vals) ∧
          List.Forall₂ (Gives w.suite m (knownValue st (es.take i))) ds vals) ∨
        ((∀ f args, es[i].call ≠ .called f args) ∧ es[i].result = .FAIL ∧
          Lacks w.suite m (knownValue st (es.take i)) ds) := by
  obtain ⟨i1, i2⟩ := runEntries_spec hd body run (coherent_empty st h1 h2 h3) (past := [])
    (by funext b; rfl) h
  refine ⟨i1, fun i hi m hm hb => ⟨?_, ?_⟩⟩
  · intro g hg
    rcases i2 i hi m hm hb [] g hg with ⟨vals, e, hv, -⟩ | ⟨-, -, ds, hds, -⟩
    · rw [e, hv rfl, List.append_nil]
    · cases hds
  · intro ds g hg
    rcases i2 i hi m hm hb [ds] g hg with ⟨vals, e, -, hv⟩ | ⟨e1, e2, ds', hds, hl⟩
    · exact Or.inl ⟨vals, e, hv ds rfl⟩
    · rw [List.mem_singleton] at hds
      subst hds
      exact Or.inr ⟨e1, e2, hl⟩

/-- What happens with any number of `depends_on` on a function: it is called with the values of the
innermost one only, but fails without being called if one of them lacks a value. -/
theorem C94_layers {w : DepWorld V} (hd : w.Decorated)
    (body : Nat → List (Arg V) → Result × Option V) {c : Cache V} (h1 : Holds c) (h2 : Sound c)
    (h3 : ∀ k, held c k = none) (st : Store V) {run : List Str} {es : List (Entry V)}
    (h : runEntries w body c st run = some es) {i : Nat} (hi : i < es.length) {m : Meth}
    (hm : getCase w.suite es[i].name = some m) (hbook : ∀ o, m.self = some o → w.isBook o = true)
    {ls : List (List (Dep V))} {ds : List (Dep V)} {g : Nat} (hl : Layers w m.fn (ls ++ [ds]) g) :
    (∃ vals, es[i].call = .called g (firstArgs m ++ vals) ∧
      List.Forall₂ (Gives w.suite m (knownValue st (es.take i))) ds vals) ∨
    ((∀ f args, es[i].call ≠ .called f args) ∧ es[i].result = .FAIL ∧
      ∃ l ∈ ls ++ [ds], Lacks w.suite m (knownValue st (es.take i)) l) := by
  obtain ⟨-, i2⟩ := runEntries_spec hd body run (coherent_empty st h1 h2 h3) (past := [])
    (by funext b; rfl) h
  rcases i2 i hi m hm hbook _ g hl with ⟨vals, e, -, hv⟩ | h
  · exact Or.inl ⟨vals, e, hv ds (by simp)⟩
  · exact Or.inr h

theorem layers_info {w : DepWorld V} (hd : w.Decorated) {f g : Nat} {ls : List (List (Dep V))}
    (h : Layers w f ls g) : (w.suite.info f).deps = ls.head?.map depMethods ∧
      (w.suite.info f).resources = (ls.head?.map depResources).getD [] := by
  induction h with
  | plain hk => exact (hd.plain _ hk).2
  | around hk _ ih =>
    obtain ⟨-, -, h1, h2⟩ := hd.around _ _ hk
    exact ⟨h1.trans ih.1, h2.trans ih.2⟩
  | dependsOn hk _ _ => exact (hd.dependsOn _ _ _ hk).2.2

private theorem once_info {w : DepWorld V} (hd : w.Decorated) {f g : Nat} {ds : List (Dep V)}
    (h : DependsOnce w f ds g) :
    (w.suite.info f).deps = some (depMethods ds) ∧ (w.suite.info f).resources = depResources ds :=
  layers_info hd h

theorem mem_depMethods {ds : List (Dep V)} {m : Meth} (h : Dep.method m ∈ ds) :
    m ∈ depMethods ds := by
  induction ds with
  | nil => cases h
  | cons d ds ih =>
    rcases List.mem_cons.mp h with rfl | h'
    · exact List.mem_cons_self
    · cases d with
      | method _ => exact List.mem_cons_of_mem _ (ih h')
      | resource _ _ => exact ih h'

private theorem mem_depResources {ds : List (Dep V)} {i : Nat} {v : V} (h : Dep.resource i v ∈ ds) :
    i ∈ depResources ds := by
  induction ds with
  | nil => cases h
  | cons d ds ih =>
    rcases List.mem_cons.mp h with rfl | h'
    · exact List.mem_cons_self
    · cases d with
      | method _ => exact ih h'
      | resource _ _ => exact List.mem_cons_of_mem _ (ih h')

private theorem gives_at {s : Suite} {m : Meth} {val : Str → Option V} {ds : List (Dep V)}
    {vals : List (Arg V)} (h : List.Forall₂ (Gives s m val) ds vals) {k : Nat} {d : Meth}
    (hk : ds[k]? = some (.method d)) : ∃ b, usedCase s m d = some b ∧ vals[k]? = some (.value (val b)) := by
  induction h generalizing k with
  | nil => cases hk
  | cons h1 _ ih =>
    cases k with
    | zero =>
      have hk : some _ = some (Dep.method d) := hk
      injection hk with hk
      subst hk
      cases h1 with
      | method d b hb => exact ⟨b, hb, rfl⟩
    | succ k => exact ih hk

/-- **C94, for a run of selected tests.** When a test with a `depends_on` is called, then for every
dependency that the scheduler finds the value is the one that its test returned earlier in this run, if
it did not fail; or its test is not selected, has a stored result, and the value is the stored one. -/
theorem C94_dependency_partial {w : DepWorld V} (hd : w.Decorated) (hw : WellTyped w.suite)
    (body : Nat → List (Arg V) → Result × Option V) {c : Cache V} (h1 : Holds c) (h2 : Sound c)
    (h3 : ∀ k, held c k = none) (st : Store V) {sel run : List Str} {stored : Option (Str → Bool)}
    {fuel : Nat} (hs : selectedNames w.suite sel stored fuel = some run) {es : List (Entry V)}
    (h : runEntries w body c st run = some es) {i : Nat} (hi : i < es.length) {m : Meth}
    (hm : getCase w.suite es[i].name = some m) (hbook : ∀ o, m.self = some o → w.isBook o = true)
    {ds : List (Dep V)} {g : Nat} (hg : DependsOnce w m.fn ds g) {f : Nat} {args : List (Arg V)}
    (hc : es[i].call = .called f args) {k : Nat} {d : Meth} (hk : ds[k]? = some (.method d))
    (hr : (caseByMethod w.suite (bindIfUnbound w.suite m d)).isSome) :
    ∃ b v, usedCase w.suite m d = some b ∧
      args[(firstArgs (V := V) m).length + k]? = some (.value v) ∧
      ((∃ j, ∃ hj : j < i, es[j].name = b ∧ (es[j].result ≠ .FAIL → v = es[j].value)) ∨
        (isSelected b sel = false ∧ Stored stored b ∧ v = st b)) := by
  obtain ⟨e1, e2⟩ := C94_arguments_partial hd body h1 h2 h3 st h
  have hin : es[i].name ∈ run := by
    rw [← e1]; exact List.mem_map_of_mem (List.getElem_mem hi)
  have hmem : d ∈ depMethods ds := mem_depMethods (List.mem_of_getElem? hk)
  obtain ⟨b, hb, hor⟩ := C34_used_first_partial hw hs hin hm (once_info hd hg).1 hmem hr
  have hnd : run.Nodup := (C31_selected hs).1
  rcases (e2 i hi m hm hbook).2 ds g hg with ⟨vals, hcall, hf⟩ | ⟨hn, -, -⟩
  · rw [hc] at hcall
    injection hcall with hf1 hargs
    subst hf1 hargs
    obtain ⟨b', hb', hv⟩ := gives_at hf hk
    rw [hb] at hb'
    injection hb' with hb'
    subst hb'
    refine ⟨b, knownValue st (es.take i) b, hb, ?_, ?_⟩
    · rw [List.getElem?_append_right (by omega), Nat.add_sub_cancel_left]
      exact hv
    · rcases hor with ⟨l1, l2, hl, ha, hbl⟩ | ⟨hsel, hst⟩
      · left
        obtain ⟨j, hj, hjb⟩ := List.getElem_of_mem hbl
        -- the position of the test
        have hlen : i = l1.length := by
          have hi' : i < run.length := by rw [← e1, List.length_map]; exact hi
          have hl1 : l1.length < run.length := by rw [hl]; simp
          refine (List.getElem_inj (h₀ := hi') (h₁ := hl1) hnd).mp ?_
          have : run[i] = es[i].name := by simp only [← e1, List.getElem_map]
          rw [this]
          simp only [hl, List.getElem_append_right (Nat.le_refl _), Nat.sub_self, List.getElem_cons_zero]
        have hje : es[j].name = b := by
          have hjr : j < run.length := by rw [hl, List.length_append]; omega
          have : run[j] = es[j].name := by simp only [← e1, List.getElem_map]
          rw [← this]
          simp only [hl, List.getElem_append_left hj]
          exact hjb
        refine ⟨j, by omega, hje, ?_⟩
        intro hres
        have hjm : es[j] ∈ (es.take i).filter (fun e => e.name = b ∧ e.result ≠ .FAIL) := by
          refine List.mem_filter.mpr ⟨?_, by simp [hje, hres]⟩
          rw [List.mem_take_iff_getElem]
          exact ⟨j, by omega, rfl⟩
        unfold knownValue
        cases hgl : ((es.take i).filter (fun e => e.name = b ∧ e.result ≠ .FAIL)).getLast? with
        | none =>
          rw [List.getLast?_eq_none_iff] at hgl
          rw [hgl] at hjm
          cases hjm
        | some e =>
          have hem := List.mem_of_getLast? hgl
          obtain ⟨hem, hep⟩ := List.mem_filter.mp hem
          have hep : e.name = b := by
            have := of_decide_eq_true hep
            exact this.1
          have : e = es[j] := by
            obtain ⟨q, hq, rfl⟩ := List.getElem_of_mem (List.mem_of_mem_take hem)
            rw [← e1] at hnd
            have hq' : q < (es.map (·.name)).length := by rw [List.length_map]; exact hq
            have hj' : j < (es.map (·.name)).length := by rw [List.length_map]; omega
            have : q = j := (List.getElem_inj (h₀ := hq') (h₁ := hj') hnd).mp (by
              simp only [List.getElem_map]
              exact hep.trans hje.symm)
            subst this
            rfl
          rw [this]
      · right
        refine ⟨hsel, hst, ?_⟩
        have hnot : b ∉ run := by
          intro hbr
          rcases (selectedNames_spec hs).2.2 b hbr with h | h
          · rw [h.1] at hsel; cases hsel
          · exact h.1 hst
        unfold knownValue
        have : (es.take i).filter (fun e => e.name = b ∧ e.result ≠ .FAIL) = [] := by
          rw [List.filter_eq_nil_iff]
          intro e he hp
          have hp := of_decide_eq_true hp
          refine hnot ?_
          rw [← e1, ← hp.1]
          exact List.mem_map_of_mem (List.mem_of_mem_take he)
        rw [this]
        rfl
  · exact absurd hc (hn f args)

/-- A book with three tests, functions 0, 1 and 2; the third one, decorated as function 3 with an
environment and as function 4 with `depends_on(port 7, first, second)`. -/
def portBook : DepWorld Nat where
  suite :=
    { cases := [("book/third".toList, ⟨some 0, 4⟩), ("book/first".toList, ⟨some 0, 0⟩),
        ("book/second".toList, ⟨some 0, 1⟩)]
      info := fun n => match n with
        | 0 => { selfType := some 0 }
        | 1 => { selfType := some 0 }
        | 3 => { orig := some ⟨none, 2⟩ }
        | 4 => { orig := some ⟨none, 3⟩, deps := some [⟨none, 0⟩, ⟨none, 1⟩], resources := [7],
                 selfType := some 0 }
        | _ => {}
      isInstance := fun _ _ => true }
  kind := fun n => match n with
    | 3 => .around 2
    | 4 => .dependsOn [.resource 7 8080, .method ⟨none, 0⟩, .method ⟨none, 1⟩] 3
    | _ => .plain
  isBook := fun _ => true

theorem portBook_decorated : portBook.Decorated where
  plain := by
    intro f h
    match f with
    | 0 | 1 | 2 => exact ⟨rfl, rfl, rfl⟩
    | 3 | 4 => cases h
    | n + 5 => exact ⟨rfl, rfl, rfl⟩
  dependsOn := by
    intro f ds g h
    match f with
    | 0 | 1 | 2 | 3 => cases h
    | 4 => cases h; exact ⟨by decide, rfl, rfl, rfl⟩
    | n + 5 => cases h
  around := by
    intro f g h
    match f with
    | 0 | 1 | 2 | 4 => cases h
    | 3 => cases h; exact ⟨by decide, rfl, rfl, rfl⟩
    | n + 5 => cases h

/-- The first two tests return 100 and 101, the third one nothing. -/
def portBody : Nat → List (Arg Nat) → Result × Option Nat
  | 0, _ => (.OK, some 100)
  | 1, _ => (.DIFF, some 101)
  | _, _ => (.OK, none)

example : DependsOnce portBook 4 [.resource 7 8080, .method ⟨none, 0⟩, .method ⟨none, 1⟩] 2 ∧
    selectedNames portBook.suite ["*".toList] none 10 =
      some ["book/first".toList, "book/second".toList, "book/third".toList] ∧
    (runEntries portBook portBody (.lru 8 []) (fun _ => none)
      ["book/first".toList, "book/second".toList, "book/third".toList]).map
        (·.map (fun e => match e.call with | .called f args => some (f, args) | _ => none)) =
      some [some (0, [.self 0, .case]), some (1, [.self 0, .case]),
        some (2, [.self 0, .case, .value (some 8080), .value (some 100), .value (some 101)])] :=
  ⟨.dependsOn rfl (.around rfl (.plain rfl)), by decide, by decide⟩

/-- Three functions `a`, `b` (0 and 1) and 2, which is decorated first with `depends_on(b, resource 5)`
and then with `depends_on(a)`. -/
def stackedDeps : DepWorld Nat where
  suite :=
    { cases := [("m/c".toList, ⟨none, 4⟩), ("m/a".toList, ⟨none, 0⟩), ("m/b".toList, ⟨none, 1⟩),
        ("m/d".toList, ⟨none, 6⟩)]
      info := fun n => match n with
        | 3 => { orig := some ⟨none, 2⟩, deps := some [⟨none, 1⟩], resources := [5] }
        | 4 => { orig := some ⟨none, 3⟩, deps := some [⟨none, 0⟩] }
        | 6 => { orig := some ⟨none, 5⟩, deps := some [], resources := [5] }
        | _ => {}
      isInstance := fun _ _ => false }
  kind := fun n => match n with
    | 3 => .dependsOn [.method ⟨none, 1⟩, .resource 5 50] 2
    | 4 => .dependsOn [.method ⟨none, 0⟩] 3
    | 6 => .dependsOn [.resource 5 50] 5
    | _ => .plain
  isBook := fun _ => false

theorem stackedDeps_decorated : stackedDeps.Decorated where
  plain := by
    intro f h
    match f with
    | 0 | 1 | 2 | 5 => exact ⟨rfl, rfl, rfl⟩
    | 3 | 4 | 6 => cases h
    | n + 7 => exact ⟨rfl, rfl, rfl⟩
  dependsOn := by
    intro f ds g h
    match f with
    | 0 | 1 | 2 | 5 => cases h
    | 3 | 4 | 6 => cases h; exact ⟨by decide, rfl, rfl, rfl⟩
    | n + 7 => cases h
  around := by
    intro f g h
    match f with
    | 0 | 1 | 2 | 3 | 4 | 5 | 6 => cases h
    | n + 7 => cases h

example : Layers stackedDeps 4 ([[.method ⟨none, 0⟩]] ++ [[.method ⟨none, 1⟩, .resource 5 50]]) 2 :=
  .dependsOn rfl (.dependsOn rfl (.plain rfl))

/-- **C94 does not hold for two `depends_on` on one function.** The values of the outer one are not
passed on: the function is called with those of the inner one only.  And only the dependencies of the
outer one are scheduled, so that the test fails if the test of the inner one comes later. -/
theorem C94_stacked_refuted : stackedDeps.Decorated ∧
    stackedDeps.kind 4 = .dependsOn [.method ⟨none, 0⟩] 3 ∧
    stackedDeps.kind 3 = .dependsOn [.method ⟨none, 1⟩, .resource 5 50] 2 ∧
    (runEntries stackedDeps portBody (.dict []) (fun _ => none)
      ["m/a".toList, "m/b".toList, "m/c".toList]).map
        (·.map (fun e => match e.call with | .called f args => some (f, args) | _ => none)) =
      some [some (0, [.case]), some (1, [.case]), some (2, [.case, .value (some 101), .value (some 50)])] ∧
    selectedNames stackedDeps.suite ["m/c".toList] none 10 = some ["m/a".toList, "m/c".toList] ∧
    (runEntries stackedDeps portBody (.dict []) (fun _ => none) ["m/a".toList, "m/c".toList]).map
        (·.map (fun e => e.result)) = some [.OK, .FAIL] :=
  ⟨stackedDeps_decorated, rfl, rfl, by decide, by decide, by decide⟩

/-! ### C95 -/

/-- **C95.** Tests that run at the same time in a parallel run have no resource in common among those
that they declare with (one) `depends_on`, under any other decorators. -/
theorem C95_resources_partial {fl : Durations} {w : DepWorld V} (hd : w.Decorated) {base : PConf fl}
    {cases : List Str} (ht : cases.Nodup) {s : PSt fl} (h : PReach (base.ofSuite w.suite cases) s)
    {a b : Str} (ha : Running s a) (hb : Running s b) (hne : a ≠ b) {ma mb : Meth}
    (hma : getCase w.suite a = some ma) (hmb : getCase w.suite b = some mb)
    {da db : List (Dep V)} {fa fb : Nat} (hda : DependsOnce w ma.fn da fa)
    (hdb : DependsOnce w mb.fn db fb) {i j : Nat} {u v : V} (hi : Dep.resource i u ∈ da)
    (hj : Dep.resource j v ∈ db) : i ≠ j := by
  rintro rfl
  have key : ∀ {n m ds f x}, getCase w.suite n = some m → DependsOnce w m.fn ds f →
      Dep.resource i x ∈ ds → i ∈ (base.ofSuite w.suite cases).res n := by
    intro n m ds f x hm hds hx
    show i ∈ (match getCase w.suite n with
      | none => []
      | some m => methodResources w.suite m)
    rw [hm]
    show i ∈ (w.suite.info m.fn).resources
    rw [(once_info hd hds).2]
    exact mem_depResources hx
  exact C35_exclusive (c := base.ofSuite w.suite cases) ht h ha hb hne i (key hma hda hi) (key hmb hdb hj)

/-- Two tests that use port 7, and a third one. -/
def portTests : DepWorld Nat where
  suite :=
    { cases := [("m/a".toList, ⟨none, 1⟩), ("m/b".toList, ⟨none, 3⟩), ("m/c".toList, ⟨none, 5⟩)]
      info := fun n => match n with
        | 1 => { orig := some ⟨none, 0⟩, deps := some [], resources := [7] }
        | 3 => { orig := some ⟨none, 2⟩, deps := some [], resources := [7] }
        | 5 => { orig := some ⟨none, 4⟩, deps := some [], resources := [8] }
        | _ => {}
      isInstance := fun _ _ => false }
  kind := fun n => match n with
    | 1 => .dependsOn [.resource 7 8080] 0
    | 3 => .dependsOn [.resource 7 8080] 2
    | 5 => .dependsOn [.resource 8 8081] 4
    | _ => .plain
  isBook := fun _ => false

example : portTests.Decorated ∧ ∃ s, PReach (fourTests.ofSuite portTests.suite
    ["m/a".toList, "m/b".toList, "m/c".toList]) s ∧ Running s "m/a".toList ∧ Running s "m/c".toList ∧
    ¬ Running s "m/b".toList := by
  refine ⟨⟨?_, ?_, ?_⟩, ?_⟩
  · intro f h
    match f with
    | 0 | 2 | 4 => exact ⟨rfl, rfl, rfl⟩
    | 1 | 3 | 5 => cases h
    | n + 6 => exact ⟨rfl, rfl, rfl⟩
  · intro f ds g h
    match f with
    | 0 | 2 | 4 => cases h
    | 1 | 3 | 5 => cases h; exact ⟨by decide, rfl, rfl, rfl⟩
    | n + 6 => cases h
  · intro f g h
    match f with
    | 0 | 1 | 2 | 3 | 4 | 5 => cases h
    | n + 6 => cases h
  · have h0 : PReach (fourTests.ofSuite portTests.suite
        ["m/a".toList, "m/b".toList, "m/c".toList]) _ := .init
    have h1 := h0.step (.planned _ ["m/a".toList, "m/b".toList, "m/c".toList]
      ["m/a".toList, "m/c".toList] rfl (by decide) rfl (by decide) (by decide))
    have h2 := h1.step (.start _ _ _ rfl (by decide))
    have h3 := h2.step (.start _ _ _ rfl (by decide))
    exact ⟨_, h3, ⟨by decide, by decide⟩, ⟨by decide, by decide⟩, fun hr => by
      have := hr.1; revert this; decide⟩

/-- **C95 does not hold for two `depends_on` on one function.** The resource of the inner one is not
reserved, though the function is given it (`C94_stacked_refuted`): the test may run together with
another test that declares the resource. -/
theorem C95_stacked_refuted : ∃ (w : DepWorld Nat) (cases : List Str), w.Decorated ∧ cases.Nodup ∧
    getCase w.suite "m/c".toList = some ⟨none, 4⟩ ∧ w.kind 4 = .dependsOn [.method ⟨none, 0⟩] 3 ∧
    w.kind 3 = .dependsOn [.method ⟨none, 1⟩, .resource 5 50] 2 ∧
    getCase w.suite "m/d".toList = some ⟨none, 6⟩ ∧ w.kind 6 = .dependsOn [.resource 5 50] 5 ∧
    ∃ s, PReach (fourTests.ofSuite w.suite cases) s ∧ Running s "m/c".toList ∧
      Running s "m/d".toList := by
  refine ⟨stackedDeps, ["m/c".toList, "m/d".toList], stackedDeps_decorated, by decide, by decide, rfl,
    rfl, by decide, rfl, ?_⟩
  have h0 : PReach (fourTests.ofSuite stackedDeps.suite ["m/c".toList, "m/d".toList]) _ := .init
  have h1 := h0.step (.planned _ ["m/c".toList, "m/d".toList]
    ["m/c".toList, "m/d".toList] rfl (by decide) rfl (by decide) (by decide))
  have h2 := h1.step (.start _ _ _ rfl (by decide))
  have h3 := h2.step (.start _ _ _ rfl (by decide))
  exact ⟨_, h3, ⟨by decide, by decide⟩, ⟨by decide, by decide⟩⟩

/-- The resources of ports are those of the same port, and of no number. -/
theorem C95_ports (a b : Nat) (n : Int) : (portId a = portId b ↔ a = b) ∧ portId a ≠ .int n := by
  refine ⟨⟨?_, fun h => h ▸ rfl⟩, fun h => by cases h⟩
  intro h
  injection h with h
  have h := List.append_cancel_left h
  rw [← natText_read a, ← natText_read b, h]

/-- A resource given by a text may be the same as that of a port. -/
theorem C95_port_text_refuted : portId 80 = .str "port=80".toList := by decide

end Verif.Props
