import Verif.Lemmas.Reports

/-! # Facts about the sequential run loop -/

namespace Verif.Lemmas
open Verif.Py Verif.Model Verif.Spec

theorem byName_head {fl : Durations} (rs : List (Rec fl)) (n : Str) :
    (byName rs n).head? = firstRecord rs n := by
  unfold byName firstRecord
  rw [List.head?_filter]

theorem firstOk_eq {fl : Durations} (rs : List (Rec fl)) (n : Str) :
    firstOk rs n = if (firstRecord rs n).map (·.2.1) = some .OK then firstRecord rs n else none := by
  rw [← byName_head]
  unfold firstOk
  cases byName rs n with
  | nil => simp
  | cons r rs' => simp

theorem doneAndTodo_eq {fl : Durations} (cfg : Config) (rs : List (Rec fl)) (cases : List Str) :
    (doneAndTodo cfg rs cases).2 = toRun cfg rs cases ∧
    (doneAndTodo cfg rs cases).1.map (·.1) =
      cases.filter (fun n => cfg.cont && decide ((firstRecord rs n).map (·.2.1) = some .OK)) := by
  unfold doneAndTodo toRun
  cases hc : cfg.cont with
  | false => simpa using (List.filter_eq_self.mpr (fun _ _ => rfl)).symm
  | true =>
    simp only [if_true, Bool.true_and]
    have key : ∀ (acc : List (Rec fl) × List Str),
        (cases.foldl (dtStep rs) acc).2 = acc.2 ++ cases.filter
            (fun n => !decide ((firstRecord rs n).map (·.2.1) = some .OK)) ∧
        (cases.foldl (dtStep rs) acc).1.map (·.1) = acc.1.map (·.1) ++ cases.filter
            (fun n => decide ((firstRecord rs n).map (·.2.1) = some .OK)) := by
      induction cases with
      | nil => intro acc; simp
      | cons n ns ih =>
        intro acc
        rw [List.foldl_cons]
        conv in (dtStep rs acc n) => unfold dtStep
        conv in (dtStep rs acc n) => unfold dtStep
        have hf := firstOk_eq rs n
        by_cases h : (firstRecord rs n).map (·.2.1) = some .OK
        · rw [if_pos h] at hf
          obtain ⟨r, hr, hr2⟩ := Option.map_eq_some_iff.mp h
          rw [hr] at hf
          have hn : r.1 = n := by
            have := List.find?_some hr
            simpa using this
          rw [hf]
          dsimp only
          obtain ⟨i1, i2⟩ := ih (acc.1 ++ [r], acc.2)
          rw [i1, i2, List.filter_cons, List.filter_cons]
          simp only [h, decide_true, Bool.not_true, Bool.false_eq_true, if_false, if_true]
          simp [hn]
        · rw [if_neg h] at hf
          rw [hf]
          dsimp only
          obtain ⟨i1, i2⟩ := ih (acc.1, acc.2 ++ [n])
          rw [i1, i2, List.filter_cons, List.filter_cons]
          simp only [h, decide_false, Bool.not_false, Bool.false_eq_true, if_false, if_true]
          simp
    simpa using key ([], [])

/-! ### Traces -/

/-- The records written in a trace. -/
def writes {fl : Durations} (evs : List (Ev fl)) : List (Rec fl) :=
  evs.filterMap fun
    | .write r => some r
    | _ => none

/-- The two events of a completed test. -/
def pair {fl : Durations} (x : Rec fl × Request) : List (Ev fl) :=
  [.exec x.1.1 (some (x.1.2.1, x.2, x.1.2.2)), .write x.1]

theorem writes_append {fl : Durations} (a b : List (Ev fl)) : writes (a ++ b) = writes a ++ writes b := by
  simp [writes]

theorem execs_append {fl : Durations} (a b : List (Ev fl)) : execs (a ++ b) = execs a ++ execs b := by
  simp [execs]

theorem executed_append {fl : Durations} (a b : List (Ev fl)) :
    executed (a ++ b) = executed a ++ executed b := by
  simp [executed]

theorem writes_map {fl : Durations} (rs : List (Rec fl)) : writes (rs.map Ev.write) = rs := by
  induction rs with
  | nil => rfl
  | cons r rs ih =>
    simp only [writes, List.map_cons, List.filterMap_cons] at ih ⊢
    rw [ih]

theorem execs_map {fl : Durations} (rs : List (Rec fl)) : execs (rs.map (Ev.write (fl := fl))) = [] := by
  induction rs with
  | nil => rfl
  | cons r rs ih => simp [execs]

theorem executed_map {fl : Durations} (rs : List (Rec fl)) :
    executed (rs.map (Ev.write (fl := fl))) = [] := by
  induction rs with
  | nil => rfl
  | cons r rs ih => simp [executed]

theorem writes_pairs {fl : Durations} (ds : List (Rec fl × Request)) :
    writes (ds.flatMap pair) = ds.map (·.1) := by
  induction ds with
  | nil => rfl
  | cons d ds ih =>
    rw [List.flatMap_cons, writes_append, ih]; rfl

theorem execs_pairs {fl : Durations} (ds : List (Rec fl × Request)) :
    execs (ds.flatMap pair) = ds.map (fun d => key d.1) := by
  induction ds with
  | nil => rfl
  | cons d ds ih =>
    rw [List.flatMap_cons, execs_append, ih]; rfl

theorem executed_pairs {fl : Durations} (ds : List (Rec fl × Request)) :
    executed (ds.flatMap pair) = ds.map (·.1.1) := by
  induction ds with
  | nil => rfl
  | cons d ds ih =>
    rw [List.flatMap_cons, executed_append, ih]; rfl

/-- What the loop does: complete tests, and perhaps one that is left by an exception. -/
theorem runLoop_shape (fl : Durations) (cfg : Config) (outcome : List Str → Str → Outcome fl)
    (ex : List Str) (rv : Result) (fails : Nat) (todo : List Str) :
    ∃ (ds : List (Rec fl × Request)) (tail : List (Ev fl)),
      (runLoop fl cfg outcome ex rv fails todo).1 = ds.flatMap pair ++ tail ∧
      (((∃ r, (runLoop fl cfg outcome ex rv fails todo).2 = some r) ∧ tail = [] ∧
          ds.map (·.1.1) <+: todo) ∨
        ((runLoop fl cfg outcome ex rv fails todo).2 = none ∧ ∃ n, tail = [.exec n none] ∧
          ds.map (·.1.1) ++ [n] <+: todo)) := by
  induction todo generalizing ex rv fails with
  | nil => exact ⟨[], [], rfl, Or.inl ⟨⟨rv, rfl⟩, rfl, by simp⟩⟩
  | cons n ns ih =>
    unfold runLoop
    cases ho : outcome ex n with
    | none => exact ⟨[], [.exec n none], rfl, Or.inr ⟨rfl, n, rfl, by simp⟩⟩
    | some o =>
      obtain ⟨res, request, d⟩ := o
      dsimp only
      split
      · exact ⟨[((n, res, d), request)], [], rfl, Or.inl ⟨⟨_, rfl⟩, rfl, by simp⟩⟩
      · obtain ⟨ds, tail, h1, h2⟩ := ih (ex ++ [n]) (nextRv rv res) (nextFails fails res)
        refine ⟨((n, res, d), request) :: ds, tail, ?_, ?_⟩
        · rw [h1]; rfl
        · rcases h2 with ⟨h2, h3, h4⟩ | ⟨h2, m, h3, h4⟩
          · exact Or.inl ⟨h2, h3, by simpa using h4⟩
          · exact Or.inr ⟨h2, m, h3, by simpa using h4⟩

/-- The aggregated result. -/
theorem runLoop_rv (fl : Durations) (cfg : Config) (outcome : List Str → Str → Outcome fl)
    (ex : List Str) (rv : Result) (fails : Nat) (todo : List Str) (r : Result)
    (h : (runLoop fl cfg outcome ex rv fails todo).2 = some r) :
    (r = .OK ↔ rv = .OK ∧ ∀ e ∈ execs (runLoop fl cfg outcome ex rv fails todo).1, e.2 = .OK) ∧
    (r = .FAIL ↔ rv = .FAIL ∨ ∃ e ∈ execs (runLoop fl cfg outcome ex rv fails todo).1, e.2 = .FAIL) := by
  induction todo generalizing ex rv fails with
  | nil =>
    simp only [runLoop, Option.some.injEq] at h
    subst h
    simp [runLoop, execs]
  | cons n ns ih =>
    unfold runLoop at h ⊢
    cases ho : outcome ex n with
    | none => rw [ho] at h; cases h
    | some o =>
      obtain ⟨res, request, d⟩ := o
      rw [ho] at h
      dsimp only at h ⊢
      generalize hrv : nextRv rv res = rv' at h ⊢
      generalize nextFails fails res = fails' at h ⊢
      have e1 : (rv' = .OK ↔ rv = .OK ∧ res = .OK) ∧ (rv' = .FAIL ↔ rv = .FAIL ∨ res = .FAIL) := by
        subst hrv; cases res <;> cases rv <;> simp [nextRv]
      have hev : ∀ t : List (Ev fl), execs ([Ev.exec n (some (res, request, d)),
          Ev.write (n, res, d)] ++ t) = (n, res) :: execs t := by intro t; rfl
      split at h
      · rename_i hc
        rw [if_pos hc]
        cases h
        have : execs [Ev.exec n (some (res, request, d)), Ev.write (n, res, d)] = [(n, res)] := rfl
        rw [this]
        simp [e1.1, e1.2]
      · rename_i hc
        rw [if_neg hc]
        obtain ⟨i1, i2⟩ := ih _ _ _ h
        rw [hev]
        rw [i1, i2, e1.1, e1.2]
        simp only [List.mem_cons, forall_eq_or_imp, exists_eq_or_imp, and_assoc, or_assoc, and_self]

/-- With fail fast, only the last executed test can have failed. -/
theorem runLoop_failFast (fl : Durations) (cfg : Config) (outcome : List Str → Str → Outcome fl)
    (hf : cfg.failFast = true) (ex : List Str) (rv : Result) (todo : List Str) :
    ∀ e ∈ (execs (runLoop fl cfg outcome ex rv 0 todo).1).dropLast, e.2 = .OK := by
  induction todo generalizing ex rv with
  | nil => simp [runLoop, execs]
  | cons n ns ih =>
    unfold runLoop
    cases ho : outcome ex n with
    | none => simp [execs]
    | some o =>
      obtain ⟨res, request, d⟩ := o
      dsimp only
      split
      · simp [execs]
      · rename_i hc
        have hres : res = .OK := by
          cases res <;> simp_all [nextFails]
        subst hres
        have e1 : nextRv rv .OK = rv := by simp [nextRv]
        have e2 : nextFails 0 .OK = 0 := by simp [nextFails]
        rw [e1, e2]
        have hev : ∀ t : List (Ev fl), execs ([Ev.exec n (some (Result.OK, request, d)),
          Ev.write (n, Result.OK, d)] ++ t) = (n, Result.OK) :: execs t := by intro t; rfl
        rw [hev]
        intro e he
        cases hx : execs (runLoop fl cfg outcome (ex ++ [n]) rv 0 ns).1 with
        | nil => rw [hx] at he; cases he
        | cons y ys =>
          rw [hx, List.dropLast_cons_of_ne_nil (by simp)] at he
          rcases List.mem_cons.mp he with rfl | he
          · rfl
          · exact ih _ _ e (by rw [hx]; exact he)

/-- With fail fast, nothing is left out before the first failure. -/
theorem runLoop_complete (fl : Durations) (cfg : Config) (outcome : List Str → Str → Outcome fl)
    (ex : List Str) (rv : Result) (fails : Nat) (todo : List Str)
    (h1 : ∀ e n, ∃ o, outcome e n = some o ∧ o.2.1 ≠ .ABORT)
    (h2 : cfg.failFast = true → fails = 0) 
    (h3 : cfg.failFast = true → ∀ e ∈ execs (runLoop fl cfg outcome ex rv fails todo).1, e.2 = .OK) :
    executed (runLoop fl cfg outcome ex rv fails todo).1 = todo := by
  induction todo generalizing ex rv fails with
  | nil => rfl
  | cons n ns ih =>
    obtain ⟨⟨res, request, d⟩, ho, ha⟩ := h1 ex n
    unfold runLoop at h3 ⊢
    rw [ho] at h3 ⊢
    dsimp only at h3 ha ⊢
    have hev : ∀ t : List (Ev fl), executed ([Ev.exec n (some (res, request, d)),
      Ev.write (n, res, d)] ++ t) = n :: executed t := by intro t; rfl
    have hres : cfg.failFast = true → res = .OK := by
      intro hf
      refine h3 hf (n, res) ?_
      split
      · simp [execs]
      · simp [execs]
    rw [if_neg] at h3 ⊢
    · rw [hev, ih]
      · intro hf
        rw [hres hf]
        simpa [nextFails] using h2 hf
      · intro hf e he
        refine h3 hf e ?_
        rw [execs_append]
        exact List.mem_append_right _ he
    · rintro (h | ⟨hf, h⟩)
      · exact ha h
      · rw [hres hf] at h
        simp [nextFails, h2 hf] at h
    · rintro (h | ⟨hf, h⟩)
      · exact ha h
      · rw [hres hf] at h
        simp [nextFails, h2 hf] at h

/-! ### The file -/

theorem applyEvs_some {fl : Durations} (b : Bytes) (evs : List (Ev fl))
    (h : Ev.truncate ∉ evs) :
    applyEvs (some b) evs = some (b ++ encode (toText fl (writes evs))) := by
  induction evs generalizing b with
  | nil => simp [applyEvs, writes, toText, encode]
  | cons e es ih =>
    simp only [List.mem_cons, not_or] at h
    cases e with
    | truncate => exact absurd rfl h.1
    | write r =>
      have := ih (b ++ encode (caseLine fl r)) h.2
      simp only [applyEvs, List.foldl_cons, applyEv, Option.getD_some] at this ⊢
      rw [this]
      simp only [writes, List.filterMap_cons, toText, List.map_cons, List.flatten_cons, encode_append,
        List.append_assoc]
    | exec n o =>
      have := ih b h.2
      simp only [applyEvs, List.foldl_cons, applyEv] at this ⊢
      rw [this]
      simp [writes]

/-- In every beginning of the loop's trace, each record written has its execution before it. -/
theorem writes_of_prefix {fl : Durations} (ds : List (Rec fl × Request)) (tail : List (Ev fl))
    (ht : writes tail = []) (p : List (Ev fl)) (hp : p <+: ds.flatMap pair ++ tail) :
    ∀ w ∈ writes p, key w ∈ execs p := by
  induction ds generalizing p with
  | nil =>
    rw [List.flatMap_nil, List.nil_append] at hp
    obtain ⟨q, rfl⟩ := hp
    rw [writes_append] at ht
    have := (List.append_eq_nil_iff.mp ht).1
    rw [this]; simp
  | cons d ds ih =>
    rw [List.flatMap_cons, List.append_assoc] at hp
    cases p with
    | nil => simp [writes]
    | cons a p =>
      obtain ⟨rfl, hp1⟩ := List.cons_prefix_cons.mp hp
      cases p with
      | nil => simp [writes]
      | cons b p =>
        obtain ⟨rfl, hp2⟩ := List.cons_prefix_cons.mp hp1
        have := ih p hp2
        intro w hw
        have e1 : writes (Ev.exec d.1.1 (some (d.1.2.1, d.2, d.1.2.2)) :: Ev.write d.1 :: p) =
          d.1 :: writes p := rfl
        have e2 : execs (Ev.exec d.1.1 (some (d.1.2.1, d.2, d.1.2.2)) :: Ev.write d.1 :: p) =
          key d.1 :: execs p := rfl
        rw [e1] at hw
        rw [e2]
        rcases List.mem_cons.mp hw with rfl | hw
        · exact List.mem_cons_self
        · exact List.mem_cons_of_mem _ (this w hw)

theorem latest_append_none {h e : List (Str × Result)} {n : Str} (hn : ∀ x ∈ e, x.1 ≠ n) :
    latest (h ++ e) n = latest h n := by
  unfold latest
  rw [List.filter_append]
  have : e.filter (fun x => x.1 = n) = [] := by
    rw [List.filter_eq_nil_iff]
    intro x hx
    simpa using hn x hx
  rw [this, List.append_nil]

theorem latest_append_mem {h e : List (Str × Result)} {n : Str} {r : Result} (hm : (n, r) ∈ e)
    (hnd : (e.map (·.1)).Nodup) : latest (h ++ e) n = some r := by
  unfold latest
  rw [List.filter_append]
  have : e.filter (fun x => x.1 = n) = [(n, r)] := by
    induction e with
    | nil => cases hm
    | cons x xs ih =>
      rw [List.map_cons, List.nodup_cons] at hnd
      rw [List.filter_cons]
      rcases List.mem_cons.mp hm with rfl | hm
      · simp only [decide_true, if_true, List.cons.injEq, true_and]
        rw [List.filter_eq_nil_iff]
        intro y hy
        simp only [decide_eq_true_eq]
        intro hc
        exact hnd.1 (List.mem_map.mpr ⟨y, hy, hc⟩)
      · have hx : x.1 ≠ n := fun hc => hnd.1 (hc ▸ List.mem_map_of_mem hm)
        rw [if_neg (by simpa using hx)]
        exact ih hm hnd.2
  rw [this]
  simp

end Verif.Lemmas
