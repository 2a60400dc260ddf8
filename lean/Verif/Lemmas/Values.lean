import Verif.Spec.Values
import Verif.Props.Depends

/-! # Calls of tests, one access after the other -/

namespace Verif.Lemmas
open Verif.Py Verif.Model Verif.Spec Verif.Props

variable {V : Type}

/-! ### Uninterrupted calls -/

theorem resultTask_run (w : DepWorld V) (c : Cache V) (st : Store V) (m : Meth)
    (k : Option (Loaded V) → Calling V) : (resultTask w m k).run c st =
      (k (getTestResult w c st m).1).run (getTestResult w c st m).2 st := by
  unfold resultTask getTestResult
  cases caseByMethod w.suite m <;> rfl

theorem depTask_run (w : DepWorld V) (self : Option Nat) (c : Cache V) (st : Store V) (d : Meth)
    (k : Option (Loaded V) → Calling V) : (depTask w self d k).run c st =
      (k (depResult w self c st d).1).run (depResult w self c st d).2 st := by
  unfold depTask depResult
  cases self with
  | none => exact resultTask_run w c st d k
  | some o =>
    dsimp only
    rw [resultTask_run]
    rcases getTestResult w c st (bindTo o d) with ⟨_ | r, c'⟩
    · exact resultTask_run w c' st d k
    · rfl

theorem argsTask_run (w : DepWorld V) (self : Option Nat) (st : Store V) (ds : List (Dep V)) (c : Cache V)
    (k : Except (Called V) (List (Arg V)) → Calling V) : (argsTask w self ds k).run c st =
      (k (depArgs w self st c ds).1).run (depArgs w self st c ds).2 st := by
  induction ds generalizing c k with
  | nil => rfl
  | cons d ds ih =>
    cases d with
    | resource i v =>
      unfold argsTask depArgs
      rw [ih]
      rcases depArgs w self st c ds with ⟨_ | _, _⟩ <;> rfl
    | method d =>
      unfold argsTask depArgs
      rw [depTask_run]
      rcases depResult w self c st d with ⟨_ | r, c'⟩
      · rfl
      · cases r with
        | value v =>
          dsimp only
          rw [ih]
          rcases depArgs w self st c' ds with ⟨_ | _, _⟩ <;> rfl
        | _ => rfl

theorem fnTask_run (w : DepWorld V) (st : Store V) (n : Nat) (c : Cache V) (f : Nat) (args : List (Arg V)) :
    (fnTask w n f args).run c st = callFn w st n c f args := by
  induction n generalizing c f args with
  | zero => rfl
  | succ n ih =>
    unfold fnTask callFn
    cases w.kind f with
    | plain => rfl
    | around g => exact ih c g args
    | dependsOn ds g =>
      dsimp only
      match args with
      | [] => rfl
      | .value _ :: _ => rfl
      | .case :: _ =>
        dsimp only
        rw [argsTask_run]
        rcases depArgs w none st c ds with ⟨_ | _, _⟩
        · rfl
        · exact ih _ _ _
      | .self o :: rest =>
        dsimp only
        cases w.isBook o with
        | false => rfl
        | true =>
          rw [if_pos rfl, if_pos rfl]
          match rest with
          | [] => rfl
          | .value _ :: _ => rfl
          | .self _ :: _ => rfl
          | .case :: _ =>
            dsimp only
            rw [argsTask_run]
            rcases depArgs w (some o) st c ds with ⟨_ | _, _⟩
            · rfl
            · exact ih _ _ _

theorem callTask_run (w : DepWorld V) (st : Store V) (c : Cache V) (m : Meth) :
    (callTask w m).run c st = callTest w st c m := fnTask_run w st _ c _ _

/-! ### The results that a call loads -/

/-- Only such results are loaded. -/
inductive Keys (P : Str → Prop) : Calling V → Prop
  | done (r : Called V) : Keys P (.done r)
  | load (key : Str) (k : Loaded V → Calling V) : P key → (∀ r, Keys P (k r)) → Keys P (.load key k)

theorem resultTask_keys {P : Str → Prop} (w : DepWorld V) (m : Meth) {k : Option (Loaded V) → Calling V}
    (hp : ∀ b, caseByMethod w.suite m = some b → P b) (hk : ∀ r, Keys P (k r)) :
    Keys P (resultTask w m k) := by
  unfold resultTask
  cases hb : caseByMethod w.suite m with
  | none => exact hk none
  | some b => exact .load _ _ (hp b hb) (fun r => hk _)

/-- The test whose value is given, for the instance `self`. -/
def usedFor (s : Suite) (self : Option Nat) (d : Meth) : Option Str :=
  match self with
  | some o =>
    match caseByMethod s (bindTo o d) with
    | some c => some c
    | none => caseByMethod s d
  | none => caseByMethod s d

theorem depTask_keys {P : Str → Prop} (w : DepWorld V) (self : Option Nat) (d : Meth)
    {k : Option (Loaded V) → Calling V} (hp : ∀ b, usedFor w.suite self d = some b → P b)
    (hk : ∀ r, Keys P (k r)) : Keys P (depTask w self d k) := by
  unfold depTask
  unfold usedFor at hp
  cases self with
  | none => exact resultTask_keys w d hp hk
  | some o =>
    dsimp only at hp ⊢
    unfold resultTask
    cases hb : caseByMethod w.suite (bindTo o d) with
    | none =>
      rw [hb] at hp
      exact resultTask_keys w d hp hk
    | some b =>
      rw [hb] at hp
      exact .load _ _ (hp b rfl) (fun r => hk _)

theorem argsTask_keys {P : Str → Prop} (w : DepWorld V) (self : Option Nat) (ds : List (Dep V))
    {k : Except (Called V) (List (Arg V)) → Calling V}
    (hp : ∀ d, Dep.method d ∈ ds → ∀ b, usedFor w.suite self d = some b → P b)
    (hk : ∀ r, Keys P (k r)) : Keys P (argsTask w self ds k) := by
  induction ds generalizing k with
  | nil => exact hk _
  | cons d ds ih =>
    have hp' := fun d' (h : Dep.method d' ∈ ds) => hp d' (List.mem_cons_of_mem _ h)
    cases d with
    | resource i v =>
      unfold argsTask
      refine ih hp' (fun r => ?_)
      cases r <;> exact hk _
    | method d =>
      unfold argsTask
      refine depTask_keys w self d (hp d List.mem_cons_self) (fun r => ?_)
      cases r with
      | none => exact hk _
      | some r =>
        cases r with
        | value v =>
          refine ih hp' (fun r => ?_)
          cases r <;> exact hk _
        | _ => exact hk _

theorem fnTask_keys {P : Str → Prop} {w : DepWorld V} (m : Meth) {f g : Nat} {ls : List (List (Dep V))}
    (h : Layers w f ls g)
    (hp : ∀ ds ∈ ls, ∀ d, Dep.method d ∈ ds → ∀ b, usedFor w.suite m.self d = some b → P b)
    (extra : List (Arg V)) (n : Nat) : Keys P (fnTask w n f (firstArgs m ++ extra)) := by
  induction h generalizing n extra with
  | plain hk =>
    cases n with
    | zero => exact .done _
    | succ n => unfold fnTask; rw [hk]; exact .done _
  | around hk _ ih =>
    cases n with
    | zero => exact .done _
    | succ n => unfold fnTask; rw [hk]; exact ih hp extra n
  | @dependsOn f g h ds ls hk _ ih =>
    cases n with
    | zero => exact .done _
    | succ n =>
      have ih' := ih (fun ds' h => hp ds' (List.mem_cons_of_mem _ h))
      have hd := hp ds List.mem_cons_self
      unfold fnTask
      rw [hk]
      unfold firstArgs at ih' ⊢
      cases hm : m.self with
      | none =>
        rw [hm] at ih' hd
        dsimp only [List.cons_append, List.nil_append] at ih' ⊢
        refine argsTask_keys w none ds hd (fun r => ?_)
        cases r with
        | ok vs => exact ih' vs n
        | error e => exact .done _
      | some o =>
        rw [hm] at ih' hd
        dsimp only [List.cons_append, List.nil_append] at ih' ⊢
        by_cases hb : w.isBook o = true
        · rw [if_pos hb]
          refine argsTask_keys w (some o) ds hd (fun r => ?_)
          cases r with
          | ok vs => exact ih' vs n
          | error e => exact .done _
        · rw [if_neg hb]; exact .done _

theorem layers_exist {w : DepWorld V} (hd : w.Decorated) (f : Nat) : ∃ ls g, Layers w f ls g := by
  induction f using Nat.strongRecOn with
  | _ f ih =>
    cases hk : w.kind f with
    | plain => exact ⟨_, _, .plain hk⟩
    | around g =>
      obtain ⟨ls, h, hl⟩ := ih g (hd.around _ _ hk).1
      exact ⟨_, _, .around hk hl⟩
    | dependsOn ds g =>
      obtain ⟨ls, h, hl⟩ := ih g (hd.dependsOn _ _ _ hk).1
      exact ⟨_, _, .dependsOn hk hl⟩

theorem usedCase_eq {w : DepWorld V} (hd : w.Decorated) (m d : Meth) :
    usedCase w.suite m d = usedFor w.suite m.self d := by
  unfold usedCase usedFor
  rw [decoratedSelf_eq hd]
  cases m.self <;> rfl

theorem callTask_keys {w : DepWorld V} (hd : w.Decorated) {n : Str} {m : Meth}
    (hm : getCase w.suite n = some m) : Keys (Uses w n) (callTask w m) := by
  obtain ⟨ls, g, hl⟩ := layers_exist hd m.fn
  have := fnTask_keys (P := Uses w n) m hl (fun ds hds d hdd b hb =>
    ⟨m, ls, g, ds, d, hm, hl, hds, hdd, by rw [usedCase_eq hd]; exact hb⟩) [] m.fn
  rw [List.append_nil] at this
  exact this

/-! ### What a call comes to, given the values of all tests -/

/-- What is loaded for a value. -/
def answer : Option V → Loaded V
  | some v => .value (some v)
  | none => .missing

/-- The end of a call, given the values. -/
def evalCall (val : Str → Option V) : Calling V → Called V
  | .done r => r
  | .load key k => evalCall val (k (answer (val key)))

theorem evalCall_congr {val val' : Str → Option V} {P : Str → Prop} {t : Calling V} (h : Keys P t)
    (hv : ∀ k, P k → val k = val' k) : evalCall val t = evalCall val' t := by
  induction h with
  | done => rfl
  | load key k hp _ ih =>
    unfold evalCall
    rw [hv key hp]
    exact ih _

theorem load_absent {c : Cache V} {st : Store V} {key : Str} (hc : Holds c) (hh : held c key = none)
    (hs : st key = none) : loadResult c st key = (.missing, c) := by
  unfold loadResult
  rw [contains_eq hc, hh]
  dsimp only [Option.isSome]
  rw [hs]

/-- Loading puts no `None` into the cache. -/
theorem load_none {c : Cache V} {st : Store V} (hc : Holds c) (hs : Sound c)
    (ha : ∀ k v, held c k = some v → v = st k) {key k : Str}
    (h : held (loadResult c st key).2 k = some none) : held c k = some none := by
  obtain ⟨-, -, -, h4, h5⟩ := load_spec (key := key) hc hs ha
  have hst : st k = none := (h4 k none h).symm
  by_cases hk : k = key
  · subst hk
    cases hh : held c k with
    | some v => rw [ha k v hh, hst]
    | none => rw [load_absent hc hh hst, hh] at h; cases h
  · cases hh : held c k with
    | some v => rw [ha k v hh, hst]
    | none => exact absurd hh (h5 k hk (by rw [h]; simp))

/-- What is loaded, if no `None` is in the cache. -/
theorem load_answer {c : Cache V} {st : Store V} (hc : Holds c) (hs : Sound c)
    (ha : ∀ k v, held c k = some v → v = st k) {key : Str} (hn : held c key ≠ some none) :
    (loadResult c st key).1 = answer (st key) := by
  obtain ⟨h1, -⟩ := load_spec (key := key) hc hs ha
  cases hst : st key with
  | some v =>
    rw [hst] at h1
    rcases h1 with h1 | ⟨h1, -⟩
    · exact h1
    · cases h1
  | none =>
    have hh : held c key = none := by
      cases hh : held c key with
      | none => rfl
      | some v => rw [ha key v hh, hst] at hh; exact absurd hh hn
    rw [load_absent hc hh hst]
    rfl

/-- A call during which nothing else happens. -/
theorem run_eval {P : Str → Prop} {t : Calling V} (hk : Keys P t) {c : Cache V} {st : Store V}
    (hc : Coherent c st) (hn : ∀ key, P key → held c key ≠ some none) :
    (t.run c st).1 = evalCall st t ∧ Coherent (t.run c st).2 st ∧
      ∀ k, held (t.run c st).2 k = some none → held c k = some none := by
  induction hk generalizing c with
  | done r => exact ⟨rfl, hc, fun _ h => h⟩
  | load key k hp _ ih =>
    have hnone : ∀ k, held (loadResult c st key).2 k = some none → held c k = some none :=
      fun k h => load_none hc.holds hc.sound hc.held h
    obtain ⟨-, hc'⟩ := coherent_load hc key
    obtain ⟨h1, h2, h3⟩ := ih (loadResult c st key).1 hc' (fun key' hp' h => hn key' hp' (hnone key' h))
    unfold Calling.run evalCall
    rw [load_answer hc.holds hc.sound hc.held (hn key hp)] at h1 h2 h3 ⊢
    exact ⟨h1, h2, fun k h => hnone k (h3 k h)⟩

/-! ### Sequential runs -/

/-- What a test comes to, given the values. -/
def entryOf (w : DepWorld V) (body : Nat → List (Arg V) → Result × Option V) (val : Str → Option V)
    (n : Str) : Option (Entry V) :=
  match getCase w.suite n with
  | none => some ⟨n, .noTest, .FAIL, none⟩
  | some m => endCall body n (evalCall val (callTask w m))

theorem endCall_name {body : Nat → List (Arg V) → Result × Option V} {n : Str} {r : Called V} {e : Entry V}
    (h : endCall body n r = some e) : e.name = n := by
  cases r <;> cases h <;> rfl

theorem entryOf_name {w : DepWorld V} {body : Nat → List (Arg V) → Result × Option V}
    {val : Str → Option V} {n : Str} {e : Entry V} (h : entryOf w body val n = some e) : e.name = n := by
  unfold entryOf at h
  cases hm : getCase w.suite n with
  | none => rw [hm] at h; cases h; rfl
  | some m => rw [hm] at h; exact endCall_name h

theorem entryOf_congr {w : DepWorld V} (hd : w.Decorated)
    {body : Nat → List (Arg V) → Result × Option V} {val val' : Str → Option V} {n : Str}
    (h : ∀ b, Uses w n b → val b = val' b) : entryOf w body val n = entryOf w body val' n := by
  unfold entryOf
  cases hm : getCase w.suite n with
  | none => rfl
  | some m => dsimp only; rw [evalCall_congr (callTask_keys hd hm) h]

theorem runEntry_eval {w : DepWorld V} (hd : w.Decorated)
    {body : Nat → List (Arg V) → Result × Option V} {c c' : Cache V} {st st' : Store V} {n : Str}
    {e : Entry V} (hc : Coherent c st) (hn : ∀ key, Uses w n key → held c key ≠ some none)
    (h : runEntry w body c st n = some (e, c', st')) :
    entryOf w body st n = some e ∧ Coherent c' st' ∧
      ((e.result = .FAIL ∧ st' = st) ∨ (e.result ≠ .FAIL ∧ st' = st.set n e.value)) ∧
      ∀ k, held c' k = some none → held c k = some none ∨ (k = n ∧ e.result ≠ .FAIL ∧ e.value = none) := by
  unfold runEntry at h
  unfold entryOf
  cases hm : getCase w.suite n with
  | none =>
    rw [hm] at h
    cases h
    exact ⟨rfl, hc, Or.inl ⟨rfl, rfl⟩, fun k h => Or.inl h⟩
  | some m =>
    rw [hm] at h
    dsimp only at h ⊢
    obtain ⟨h1, h2, h3⟩ := run_eval (callTask_keys hd hm) hc hn
    rw [callTask_run] at h1 h2 h3
    rw [← h1]
    generalize callTest w st c m = r at h h2 h3
    obtain ⟨r, c1⟩ := r
    dsimp only at h2 h3 ⊢
    have herr : some ((⟨n, r, .FAIL, none⟩ : Entry V), c1, st) = some (e, c', st') →
        (some ⟨n, r, .FAIL, none⟩ : Option (Entry V)) = some e ∧ Coherent c' st' ∧
        ((e.result = .FAIL ∧ st' = st) ∨ (e.result ≠ .FAIL ∧ st' = st.set n e.value)) ∧
        ∀ k, held c' k = some none → held c k = some none ∨
          (k = n ∧ e.result ≠ .FAIL ∧ e.value = none) := by
      intro h
      cases h
      exact ⟨rfl, h2, Or.inl ⟨rfl, rfl⟩, fun k h => Or.inl (h3 k h)⟩
    cases r with
    | hangs => cases h
    | called f args =>
      dsimp only [endCall] at h ⊢
      have hsave : ∀ res v, res ≠ Result.FAIL → body f args = (res, v) →
          some ((⟨n, .called f args, res, v⟩ : Entry V), saveResult c1 st n v) = some (e, c', st') →
          (some ⟨n, .called f args, (body f args).1, (body f args).2⟩ : Option (Entry V)) = some e ∧
          Coherent c' st' ∧
          ((e.result = .FAIL ∧ st' = st) ∨ (e.result ≠ .FAIL ∧ st' = st.set n e.value)) ∧
          ∀ k, held c' k = some none → held c k = some none ∨
            (k = n ∧ e.result ≠ .FAIL ∧ e.value = none) := by
        intro res v hres hb h
        rw [hb]
        have hco := coherent_save h2 n v
        injection h with h
        injection h with h4 h5
        subst h4
        have e1 : c' = (saveResult c1 st n v).1 := by rw [h5]
        have e2 : st' = (saveResult c1 st n v).2 := by rw [h5]
        subst e1 e2
        refine ⟨rfl, hco, Or.inr ⟨hres, rfl⟩, fun k hk => ?_⟩
        rcases held_set h2.sound hk with ⟨hk1, hk2⟩ | ⟨hk1, hk2⟩
        · exact Or.inr ⟨hk1, hres, hk2.symm⟩
        · exact Or.inl (h3 k hk2)
      generalize hb : body f args = rv at h
      obtain ⟨res, v⟩ := rv
      cases res with
      | FAIL =>
        cases h
        exact ⟨rfl, h2, Or.inl ⟨rfl, rfl⟩, fun k h => Or.inl (h3 k h)⟩
      | OK => rw [← hb]; exact hsave .OK v (by decide) hb h
      | DIFF => rw [← hb]; exact hsave .DIFF v (by decide) hb h
    | notFound d => exact herr h
    | missing => exact herr h
    | keyError => exact herr h
    | noRun => exact herr h
    | noTest => exact herr h

theorem knownValue_snoc (st : Store V) (past : List (Entry V)) (e : Entry V) (b : Str) :
    knownValue st (past ++ [e]) b =
      if e.name = b ∧ e.result ≠ .FAIL then e.value else knownValue st past b := by
  unfold knownValue
  rw [List.filter_append, List.filter_cons]
  by_cases h : e.name = b ∧ e.result ≠ .FAIL
  · rw [if_pos h, if_pos (by simpa using h)]
    simp
  · rw [if_neg h, if_neg (by simpa using h), List.filter_nil, List.append_nil]

theorem runEntries_eval {w : DepWorld V} (hd : w.Decorated)
    {body : Nat → List (Arg V) → Result × Option V} {st0 : Store V} {ns : List Str} {c : Cache V}
    {st : Store V} {past es : List (Entry V)} (hc : Coherent c st) (hst : st = knownValue st0 past)
    (hn : ∀ k, held c k = some none → ∃ e ∈ past, e.name = k ∧ e.result ≠ .FAIL ∧ e.value = none)
    (hret : ∀ e ∈ past ++ es, e.result ≠ .FAIL → e.value = none → ∀ n ∈ ns, ¬ Uses w n e.name)
    (h : runEntries w body c st ns = some es) :
    es.map (·.name) = ns ∧
    ∀ a e b, es = a ++ e :: b → entryOf w body (knownValue st0 (past ++ a)) e.name = some e := by
  induction ns generalizing c st past es with
  | nil =>
    cases h
    exact ⟨rfl, fun a e b h => by cases a <;> cases h⟩
  | cons n ns ih =>
    unfold runEntries at h
    cases he : runEntry w body c st n with
    | none => rw [he] at h; cases h
    | some r =>
      obtain ⟨e, c', st'⟩ := r
      rw [he] at h
      obtain ⟨rest, hrest, rfl⟩ := Option.map_eq_some_iff.mp h
      obtain ⟨h1, h2, h3, h4⟩ := runEntry_eval hd hc (fun key hu hk => by
        obtain ⟨x, hx, rfl, hx2, hx3⟩ := hn key hk
        exact hret x (List.mem_append.mpr (Or.inl hx)) hx2 hx3 n List.mem_cons_self hu) he
      have hname := entryOf_name h1
      have hst' : st' = knownValue st0 (past ++ [e]) := by
        funext b
        rw [knownValue_snoc]
        rcases h3 with ⟨h3, rfl⟩ | ⟨h3, rfl⟩
        · rw [if_neg (fun h => h.2 h3), hst]
        · unfold Store.set
          by_cases hb : b = n
          · rw [if_pos hb, if_pos ⟨hname.trans hb.symm, h3⟩]
          · rw [if_neg hb, if_neg (fun h => hb (h.1.symm.trans hname)), hst]
      obtain ⟨i1, i2⟩ := ih (past := past ++ [e]) h2 hst'
        (fun k hk => by
          rcases h4 k hk with hk | ⟨rfl, hk1, hk2⟩
          · obtain ⟨x, hx, hx2⟩ := hn k hk
            exact ⟨x, List.mem_append.mpr (Or.inl hx), hx2⟩
          · exact ⟨e, by simp, hname, hk1, hk2⟩)
        (fun x hx h1 h2 m hm => hret x (by simpa using hx) h1 h2 m (List.mem_cons_of_mem _ hm)) hrest
      refine ⟨by rw [List.map_cons, hname, i1], ?_⟩
      intro a x b hab
      cases a with
      | nil =>
        injection hab with hab1 hab2
        subst hab1
        rw [List.append_nil, ← hst, hname]
        exact h1
      | cons y a =>
        injection hab with hab1 hab2
        subst hab1
        have := i2 a x b hab2
        rwa [List.append_assoc] at this

theorem knownValue_later {st : Store V} {a b : List (Entry V)} {k : Str} (h : ∀ e ∈ b, e.name ≠ k) :
    knownValue st (a ++ b) k = knownValue st a k := by
  unfold knownValue
  rw [List.filter_append, (List.filter_eq_nil_iff (l := b)).mpr (by
    intro e he hp
    exact h e he (of_decide_eq_true hp).1), List.append_nil]

/-- The entries of a sequential run, given the values at its end. -/
theorem runEntries_final {w : DepWorld V} (hd : w.Decorated)
    {body : Nat → List (Arg V) → Result × Option V} {st : Store V} {ns : List Str} (hnd : ns.Nodup)
    (hord : ∀ n ∈ ns, ∀ b ∈ ns, Uses w n b → Before ns b n) {c : Cache V} {es : List (Entry V)}
    (h1 : Holds c) (h2 : Sound c) (h3 : ∀ k, held c k = none) (hret : Returning w ns es)
    (h : runEntries w body c st ns = some es) :
    es.map (·.name) = ns ∧ ∀ e ∈ es, entryOf w body (knownValue st es) e.name = some e := by
  obtain ⟨i1, i2⟩ := runEntries_eval (past := []) hd (coherent_empty st h1 h2 h3) rfl
    (fun k hk => by rw [h3 k] at hk; cases hk) (fun e he => hret e (by simpa using he)) h
  refine ⟨i1, fun e he => ?_⟩
  obtain ⟨a, b, hab⟩ := List.append_of_mem he
  rw [← i2 a e b hab]
  have hen : e.name ∈ ns := by rw [← i1]; exact List.mem_map_of_mem he
  refine entryOf_congr hd (fun k hk => ?_)
  conv => lhs; rw [hab]
  refine knownValue_later (fun x hx hxk => ?_)
  have hkn : k ∈ ns := by
    rw [← i1, ← hxk, hab]
    exact List.mem_map_of_mem (List.mem_append.mpr (Or.inr hx))
  obtain ⟨l1, l2, hl, -, hkl⟩ := hord _ hen k hkn hk
  have hsplit : ns = a.map (·.name) ++ e.name :: b.map (·.name) := by rw [← i1, hab]; simp
  -- the name occurs only once
  have hl1 : l1 = a.map (·.name) := by
    have hlen : l1.length = (a.map (·.name)).length := by
      refine (List.getElem_inj (h₀ := by rw [hl]; simp) (h₁ := by rw [hsplit]; simp) hnd).mp ?_
      have e1 : ns[l1.length]'(by rw [hl]; simp) = e.name := by simp [hl]
      have e2 : ns[(a.map (·.name)).length]'(by rw [hsplit]; simp) = e.name := by
        simp only [hsplit]; simp
      rw [e1, e2]
    exact (List.append_inj (hl.symm.trans hsplit) hlen).1
  rw [hl1] at hkl
  rw [hsplit, List.nodup_append] at hnd
  refine hnd.2.2 k hkl k ?_ rfl
  rw [← hxk]
  rcases List.mem_cons.mp hx with rfl | hx
  · exact List.mem_cons_self
  · exact List.mem_cons_of_mem _ (List.mem_map_of_mem hx)

/-! ### Parallel runs -/

variable {fl : Durations}

/-- The invariant of parallel runs, given the values at the end of a sequential one. -/
structure ValuesInv (c : PConf fl) (w : DepWorld V) (body : Nat → List (Arg V) → Result × Option V)
    (size : Nat) (st F : Store V) (s : VSt fl V) : Prop where
  reach : MReach c size st s.toMSt
  started : ∀ n, s.job n ≠ .waiting → n ∈ s.run.started
  ready : ∀ n ∈ s.run.ready, ∃ e, s.job n = .ended e
  calling : ∀ n p t, s.job n = .calling p t → Keys (Uses w n) t ∧
    entryOf w body F n = endCall body n (evalCall F t)
  saving : ∀ n p e, s.job n = .saving p e → entryOf w body F n = some e ∧ e.result ≠ .FAIL
  ended : ∀ n e, s.job n = .ended e → entryOf w body F n = some e ∧
    (e.result ≠ .FAIL → ∃ p, MemEv.save p n e.value ∈ s.hist)
  saved : ∀ p n v, MemEv.save p n v ∈ s.hist → ∃ e, s.job n = .ended e ∧ e.result ≠ .FAIL ∧ e.value = v
  none : ∀ p k, held (s.mem.cache p) k = some none → ∃ q, MemEv.save q k none ∈ s.hist

theorem current_saved {st : Store V} {key : Str} {h : List (MemEv V)} {v : Option V}
    (hs : ∃ p, MemEv.save p key v ∈ h) (ho : ∀ p x, MemEv.save p key x ∈ h → x = v) :
    current st key h = v := by
  have : ∀ (l : List (MemEv V)) x, (∀ p y, MemEv.save p key y ∈ l → y = v) →
      (x = v ∨ ∃ p, MemEv.save p key v ∈ l) → l.foldl (afterEv key) x = v := by
    intro l
    induction l with
    | nil =>
      rintro x - (h | ⟨p, h⟩)
      · exact h
      · cases h
    | cons e es ih =>
      intro x ho hx
      rw [List.foldl_cons]
      refine ih _ (fun p y h => ho p y (List.mem_cons_of_mem _ h)) ?_
      cases e with
      | save q k y =>
        by_cases hk : k = key
        · subst hk
          left
          show (if k = k then y else x) = v
          rw [if_pos rfl]
          exact ho q y List.mem_cons_self
        · show (if k = key then y else x) = v ∨ _
          rw [if_neg hk]
          rcases hx with hx | ⟨p, hx⟩
          · exact Or.inl hx
          · rcases List.mem_cons.mp hx with hx | hx
            · injection hx with _ h2 _
              exact absurd h2.symm hk
            · exact Or.inr ⟨p, hx⟩
      | load q k y =>
        show x = v ∨ _
        rcases hx with hx | ⟨p, hx⟩
        · exact Or.inl hx
        · rcases List.mem_cons.mp hx with hx | hx
          · cases hx
          · exact Or.inr ⟨p, hx⟩
  exact this h _ ho (Or.inr hs)

theorem knownValue_of {st : Store V} {es : List (Entry V)} (hnd : (es.map (·.name)).Nodup) {e : Entry V}
    (he : e ∈ es) : knownValue st es e.name = if e.result = .FAIL then st e.name else e.value := by
  obtain ⟨a, b, rfl⟩ := List.append_of_mem he
  rw [List.map_append, List.map_cons, List.nodup_append] at hnd
  obtain ⟨-, hnd2, hnd3⟩ := hnd
  rw [List.nodup_cons] at hnd2
  have ha : ∀ x ∈ a, x.name ≠ e.name := fun x hx =>
    hnd3 x.name (List.mem_map_of_mem hx) e.name List.mem_cons_self
  have hb : ∀ x ∈ b, x.name ≠ e.name := fun x hx h =>
    hnd2.1 (by rw [← h]; exact List.mem_map_of_mem hx)
  rw [show a ++ e :: b = (a ++ [e]) ++ b by simp, knownValue_later hb, knownValue_snoc]
  by_cases hr : e.result = .FAIL
  · rw [if_pos hr, if_neg (fun h => h.2 hr)]
    have := knownValue_later (st := st) (a := []) (b := a) (k := e.name) ha
    rw [List.nil_append] at this
    rw [this]
    rfl
  · rw [if_neg hr, if_pos ⟨rfl, hr⟩]

theorem knownValue_absent {st : Store V} {es : List (Entry V)} {k : Str} (h : k ∉ es.map (·.name)) :
    knownValue st es k = st k := by
  have := knownValue_later (st := st) (a := []) (b := es) (k := k)
    (fun e he hk => h (by rw [← hk]; exact List.mem_map_of_mem he))
  rw [List.nil_append] at this
  rw [this]
  rfl

/-- What is in the result files of tests that have ended, and of those that are not run. -/
theorem store_final {c : PConf fl} (ht : c.todo.Nodup) {w : DepWorld V}
    {body : Nat → List (Arg V) → Result × Option V} {size : Nat} (hsz : 0 < size) {st : Store V}
    {es : List (Entry V)} (hes : es.map (·.name) = c.todo)
    (hF : ∀ e ∈ es, entryOf w body (knownValue st es) e.name = some e)
    {s : VSt fl V} (hi : ValuesInv c w body size st (knownValue st es) s) {key : Str}
    (hk : (∃ e, s.job key = .ended e) ∨ key ∉ c.todo) : s.mem.store key = knownValue st es key := by
  have hm := meminv_reach ht hsz hi.reach
  have hpi := inv_reach ht hm.reach
  rw [hm.store key]
  have hno : (∀ p v, MemEv.save p key v ∉ s.hist) → current st key s.hist = st key :=
    fun h => foldl_nosave key h _
  by_cases hkt : key ∈ c.todo
  · rcases hk with ⟨e, he⟩ | hk
    · obtain ⟨h1, h2⟩ := hi.ended key e he
      obtain ⟨x, hx, hxk⟩ := List.mem_map.mp (hes ▸ hkt)
      have hxe : x = e := by
        have := hF x hx
        rw [hxk, h1] at this
        injection this with this
        exact this.symm
      subst hxe
      rw [← hxk, knownValue_of (by rw [hes]; exact ht) hx]
      have honly : ∀ p y, MemEv.save p key y ∈ s.hist → x.result ≠ .FAIL ∧ y = x.value := by
        intro p y hy
        obtain ⟨e', h1', h2', h3'⟩ := hi.saved p key y hy
        rw [he] at h1'
        injection h1' with h1'
        subst h1'
        exact ⟨h2', h3'.symm⟩
      rw [← hxk] at honly
      by_cases hr : x.result = .FAIL
      · rw [if_pos hr, hxk]
        rw [hxk] at honly
        exact hno (fun p v h => (honly p v h).1 hr)
      · rw [if_neg hr, hxk]
        rw [hxk] at honly
        exact current_saved (h2 hr) (fun p y h => (honly p y h).2)
    · exact absurd hkt hk
  · rw [knownValue_absent (by rw [hes]; exact hkt)]
    refine hno (fun p v h => hkt ?_)
    exact hpi.sub _ (hm.saved p key v h)

theorem setJob_self (job : Str → Job V) (n : Str) (j : Job V) : setJob job n j n = j := if_pos rfl

theorem setJob_other (job : Str → Job V) {n m : Str} (j : Job V) (h : m ≠ n) : setJob job n j m = job m :=
  if_neg h

theorem values_inv {c : PConf fl} (ht : c.todo.Nodup) {w : DepWorld V} (hd : w.Decorated)
    {body : Nat → List (Arg V) → Result × Option V} {size : Nat} (hsz : 0 < size) {st : Store V}
    {es : List (Entry V)} (hes : es.map (·.name) = c.todo)
    (hF : ∀ e ∈ es, entryOf w body (knownValue st es) e.name = some e)
    (hret : Returning w c.todo es)
    (hsched : ∀ n ∈ c.todo, ∀ b, Uses w n b → b ∈ c.deps n ∨ b ∉ c.todo)
    {s : VSt fl V} (h : VReach c w body size st s) :
    ValuesInv c w body size st (knownValue st es) s := by
  induction h with
  | init =>
    refine ⟨.init, fun n h => absurd rfl h, (fun n h => by cases h), (fun n p t h => by cases h),
      (fun n p e h => by cases h), (fun n e h => by cases h), (fun p n v h => by cases h), ?_⟩
    intro p k h
    cases h
  | @step s t _ hs ih =>
    have hm := meminv_reach ht hsz ih.reach
    have hpi := inv_reach ht hm.reach
    cases hs with
    | run t hp hf =>
      refine ⟨ih.reach.step (.run _ _ hp), fun n h => started_step hp (ih.started n h), ?_, ih.calling,
        ih.saving, ih.ended, ih.saved, ih.none⟩
      intro n hn
      rcases hf n hn with h | h
      · exact ih.ready n h
      · exact h
    | take n p hn hj hp =>
      have hother : ∀ m, m ≠ n → setJob s.job n (startJob w p n) m = s.job m :=
        fun m hm => setJob_other _ _ hm
      have hself : setJob s.job n (startJob w p n) n = startJob w p n := setJob_self _ _ _
      refine ⟨ih.reach, ?_, ?_, ?_, ?_, ?_, ?_, ih.none⟩ <;> dsimp only
      · intro m h
        by_cases hmn : m = n
        · rw [hmn]; exact hn
        · rw [hother m hmn] at h; exact ih.started m h
      · intro m h
        by_cases hmn : m = n
        · subst hmn
          obtain ⟨e, he⟩ := ih.ready m h
          rw [hj] at he; cases he
        · rw [hother m hmn]; exact ih.ready m h
      · intro m q t h
        by_cases hmn : m = n
        · subst hmn
          rw [hself] at h
          unfold startJob at h
          cases hg : getCase w.suite m with
          | none => rw [hg] at h; cases h
          | some x =>
            rw [hg] at h
            cases h
            refine ⟨callTask_keys hd hg, ?_⟩
            unfold entryOf
            rw [hg]
        · rw [hother m hmn] at h; exact ih.calling m q t h
      · intro m q e h
        by_cases hmn : m = n
        · subst hmn
          rw [hself] at h
          unfold startJob at h
          cases hg : getCase w.suite m <;> rw [hg] at h <;> cases h
        · rw [hother m hmn] at h; exact ih.saving m q e h
      · intro m e h
        by_cases hmn : m = n
        · subst hmn
          rw [hself] at h
          unfold startJob at h
          cases hg : getCase w.suite m with
          | none =>
            rw [hg] at h
            cases h
            refine ⟨?_, fun h => absurd rfl h⟩
            unfold entryOf
            rw [hg]
          | some x => rw [hg] at h; cases h
        · rw [hother m hmn] at h; exact ih.ended m e h
      · intro q m v h
        obtain ⟨e, he, h2⟩ := ih.saved q m v h
        have hmn : m ≠ n := by rintro rfl; rw [hj] at he; cases he
        exact ⟨e, by rw [hother m hmn]; exact he, h2⟩
    | load n p key k hj =>
      have hn : n ∈ s.run.started := ih.started n (by rw [hj]; exact fun h => by cases h)
      have hnr : n ∉ s.run.ready := by
        intro h
        obtain ⟨e, he⟩ := ih.ready n h
        rw [hj] at he; cases he
      obtain ⟨hk1, hk2⟩ := ih.calling n p _ hj
      have hkk : Uses w n key ∧ ∀ r, Keys (Uses w n) (k r) := by
        cases hk1 with
        | load _ _ h1 h2 => exact ⟨h1, h2⟩
      have hdep := hsched n (hpi.sub n hn) key hkk.1
      have hend : (∃ e, s.job key = .ended e) ∨ key ∉ c.todo := by
        rcases hdep with h | h
        · by_cases hkt : key ∈ c.todo
          · exact Or.inl (ih.ready key (hpi.doneReady _ (hpi.deps n hn key h hkt)))
          · exact Or.inr hkt
        · exact Or.inr h
      have hstore := store_final ht hsz hes hF ih hend
      have hnone : held (s.mem.cache p) key ≠ some none := by
        intro h
        obtain ⟨q, hq⟩ := ih.none p key h
        obtain ⟨e, he, he2, he3⟩ := ih.saved q key none hq
        have hen := (ih.ended key e he).1
        have hkt : key ∈ c.todo := hpi.sub _ (hm.saved q key none hq)
        obtain ⟨x, hx, hxk⟩ := List.mem_map.mp (hes ▸ hkt)
        have hxe : x = e := by
          have := hF x hx
          rw [hxk, hen] at this
          injection this with this
          exact this.symm
        subst hxe
        exact hret x hx he2 he3 n (hpi.sub n hn) (by rw [hxk]; exact hkk.1)
      have hans := load_answer (hm.agrees.holds p) (hm.agrees.sound p) (hm.agrees.held p) hnone
      have hother : ∀ j m, m ≠ n → setJob s.job n j m = s.job m := fun j m hm => setJob_other _ _ hm
      have hself : ∀ j, setJob s.job n j n = j := fun j => setJob_self _ _ _
      refine ⟨ih.reach.step (.load _ n p key hn hnr hdep), ?_, ?_, ?_, ?_, ?_, ?_, ?_⟩ <;> dsimp only
      · intro m h
        by_cases hmn : m = n
        · rw [hmn]; exact hn
        · rw [hother _ m hmn] at h; exact ih.started m h
      · intro m h
        have hmn : m ≠ n := by rintro rfl; exact hnr h
        rw [hother _ m hmn]; exact ih.ready m h
      · intro m q t h
        by_cases hmn : m = n
        · subst hmn
          rw [hself] at h
          cases h
          refine ⟨hkk.2 _, ?_⟩
          rw [hk2, hans, hstore]
          rfl
        · rw [hother _ m hmn] at h; exact ih.calling m q t h
      · intro m q e h
        by_cases hmn : m = n
        · subst hmn; rw [hself] at h; cases h
        · rw [hother _ m hmn] at h; exact ih.saving m q e h
      · intro m e h
        by_cases hmn : m = n
        · subst hmn; rw [hself] at h; cases h
        · rw [hother _ m hmn] at h
          obtain ⟨h1, h2⟩ := ih.ended m e h
          refine ⟨h1, fun h => ?_⟩
          obtain ⟨q, hq⟩ := h2 h
          exact ⟨q, List.mem_append.mpr (Or.inl hq)⟩
      · intro q m v h
        rcases List.mem_append.mp h with h | h
        · obtain ⟨e, he, h2⟩ := ih.saved q m v h
          have hmn : m ≠ n := by rintro rfl; rw [hj] at he; cases he
          exact ⟨e, by rw [hother _ m hmn]; exact he, h2⟩
        · rw [List.mem_singleton] at h; cases h
      · intro q x h
        have : held (s.mem.cache q) x = some none := by
          dsimp only [Mem.load] at h
          by_cases hq : q = p
          · subst hq
            rw [if_pos rfl] at h
            exact load_none (hm.agrees.holds q) (hm.agrees.sound q) (hm.agrees.held q) h
          · rw [if_neg hq] at h; exact h
        obtain ⟨q', hq'⟩ := ih.none q x this
        exact ⟨q', List.mem_append.mpr (Or.inl hq')⟩
    | called n p r e hj he =>
      obtain ⟨hk1, hk2⟩ := ih.calling n p _ hj
      have hn : n ∈ s.run.started := ih.started n (by rw [hj]; exact fun h => by cases h)
      have hent : entryOf w body (knownValue st es) n = some e := hk2.trans he
      have hother : ∀ j m, m ≠ n → setJob s.job n j m = s.job m := fun j m hm => setJob_other _ _ hm
      have hself : ∀ j, setJob s.job n j n = j := fun j => setJob_self _ _ _
      have hcase : (e.result = .FAIL ∧ endJob p e = .ended e) ∨
          (e.result ≠ .FAIL ∧ endJob p e = .saving p e) := by
        unfold endJob
        cases e.result with
        | FAIL => exact Or.inl ⟨rfl, rfl⟩
        | OK => exact Or.inr ⟨by decide, rfl⟩
        | DIFF => exact Or.inr ⟨by decide, rfl⟩
      refine ⟨ih.reach, ?_, ?_, ?_, ?_, ?_, ?_, ih.none⟩ <;> dsimp only
      · intro m h
        by_cases hmn : m = n
        · rw [hmn]; exact hn
        · rw [hother _ m hmn] at h; exact ih.started m h
      · intro m h
        have hmn : m ≠ n := by
          rintro rfl
          obtain ⟨e', he'⟩ := ih.ready m h
          rw [hj] at he'; cases he'
        rw [hother _ m hmn]; exact ih.ready m h
      · intro m q t h
        by_cases hmn : m = n
        · subst hmn
          rw [hself] at h
          rcases hcase with ⟨-, h'⟩ | ⟨-, h'⟩ <;> rw [h'] at h <;> cases h
        · rw [hother _ m hmn] at h; exact ih.calling m q t h
      · intro m q e' h
        by_cases hmn : m = n
        · subst hmn
          rw [hself] at h
          rcases hcase with ⟨-, h'⟩ | ⟨h0, h'⟩ <;> rw [h'] at h <;> cases h
          exact ⟨hent, h0⟩
        · rw [hother _ m hmn] at h; exact ih.saving m q e' h
      · intro m e' h
        by_cases hmn : m = n
        · subst hmn
          rw [hself] at h
          rcases hcase with ⟨h0, h'⟩ | ⟨h0, h'⟩ <;> rw [h'] at h <;> cases h
          exact ⟨hent, fun h => absurd h0 h⟩
        · rw [hother _ m hmn] at h; exact ih.ended m e' h
      · intro q m v h
        obtain ⟨e', he', h2⟩ := ih.saved q m v h
        have hmn : m ≠ n := by rintro rfl; rw [hj] at he'; cases he'
        exact ⟨e', by rw [hother _ m hmn]; exact he', h2⟩
    | save n p e hj =>
      have hn : n ∈ s.run.started := ih.started n (by rw [hj]; exact fun h => by cases h)
      have hnr : n ∉ s.run.ready := by
        intro h
        obtain ⟨e, he⟩ := ih.ready n h
        rw [hj] at he; cases he
      obtain ⟨hent, hres⟩ := ih.saving n p e hj
      have hother : ∀ j m, m ≠ n → setJob s.job n j m = s.job m := fun j m hm => setJob_other _ _ hm
      have hself : ∀ j, setJob s.job n j n = j := fun j => setJob_self _ _ _
      refine ⟨ih.reach.step (.save _ n p e.value hn hnr (fun q v h => ?_)), ?_, ?_, ?_, ?_, ?_, ?_, ?_⟩ <;>
        try dsimp only
      · obtain ⟨e', he', -⟩ := ih.saved q n v h
        rw [hj] at he'; cases he'
      · intro m h
        by_cases hmn : m = n
        · rw [hmn]; exact hn
        · rw [hother _ m hmn] at h; exact ih.started m h
      · intro m h
        have hmn : m ≠ n := by rintro rfl; exact hnr h
        rw [hother _ m hmn]; exact ih.ready m h
      · intro m q t h
        by_cases hmn : m = n
        · subst hmn; rw [hself] at h; cases h
        · rw [hother _ m hmn] at h; exact ih.calling m q t h
      · intro m q e' h
        by_cases hmn : m = n
        · subst hmn; rw [hself] at h; cases h
        · rw [hother _ m hmn] at h; exact ih.saving m q e' h
      · intro m e' h
        by_cases hmn : m = n
        · subst hmn
          rw [hself] at h
          cases h
          exact ⟨hent, fun _ => ⟨p, List.mem_append.mpr (Or.inr List.mem_cons_self)⟩⟩
        · rw [hother _ m hmn] at h
          obtain ⟨h1, h2⟩ := ih.ended m e' h
          refine ⟨h1, fun h => ?_⟩
          obtain ⟨q, hq⟩ := h2 h
          exact ⟨q, List.mem_append.mpr (Or.inl hq)⟩
      · intro q m v h
        rcases List.mem_append.mp h with h | h
        · obtain ⟨e', he', h2⟩ := ih.saved q m v h
          have hmn : m ≠ n := by rintro rfl; rw [hj] at he'; cases he'
          exact ⟨e', by rw [hother _ m hmn]; exact he', h2⟩
        · rw [List.mem_singleton] at h
          cases h
          exact ⟨e, hself _, hres, rfl⟩
      · intro q x h
        dsimp only [Mem.save, saveResult] at h
        by_cases hq : q = p
        · subst hq
          rw [if_pos rfl] at h
          rcases held_set (hm.agrees.sound q) h with ⟨rfl, hv⟩ | ⟨-, h⟩
          · exact ⟨q, List.mem_append.mpr (Or.inr (by rw [hv]; exact List.mem_cons_self))⟩
          · obtain ⟨q', hq'⟩ := ih.none q x h
            exact ⟨q', List.mem_append.mpr (Or.inl hq')⟩
        · rw [if_neg hq] at h
          obtain ⟨q', hq'⟩ := ih.none q x h
          exact ⟨q', List.mem_append.mpr (Or.inl hq')⟩

end Verif.Lemmas
