import Verif.Spec.History
import Verif.Props.Run
import Verif.Props.Parallel
import Verif.Props.ReviewAll

/-! # C101: what `-c` skips, after any sequence of commands -/

namespace Verif.Props
open Verif.Py Verif.Model Verif.Spec Verif.Lemmas

variable {fl : Durations}

private theorem lastFact_other {h e : List Fact} {n : Str} (hn : ∀ x ∈ e, x.1 ≠ n) :
    lastFact (h ++ e) n = lastFact h n := by
  unfold lastFact
  rw [List.filter_append]
  have : e.filter (fun x => x.1 = n) = [] := by
    rw [List.filter_eq_nil_iff]
    intro x hx; simpa using hn x hx
  rw [this, List.append_nil]

private theorem lastFact_mem {h e : List Fact} {n : Str} {v : Option Result} (hm : (n, v) ∈ e)
    (hnd : (e.map (·.1)).Nodup) : lastFact (h ++ e) n = some v := by
  obtain ⟨a, b, rfl⟩ := List.append_of_mem hm
  have hb : ∀ x ∈ b, x.1 ≠ n := by
    intro x hx hxn
    rw [List.map_append, List.map_cons, List.nodup_append, List.nodup_cons] at hnd
    exact hnd.2.1.1 (List.mem_map.mpr ⟨x, hx, hxn⟩)
  have e1 : h ++ (a ++ (n, v) :: b) = (h ++ a ++ [(n, v)]) ++ b := by simp
  rw [e1, lastFact_other hb]
  unfold lastFact
  rw [List.filter_append]
  simp

/-- The invariant: no two records of a test, and OK is recorded only for tests whose latest fact it is. -/
private def Told (u : Unicode) (fl : Durations) (file : Option Bytes) (h : List Fact) : Prop :=
  ∀ rs, ofFile u fl file = some rs →
    (rs.map (·.1)).Nodup ∧ ∀ r ∈ rs, r.2.1 = .OK → lastFact h r.1 = some (some .OK)

/-- A report that has been written up to some byte. -/
private theorem told_written {u : Unicode} {ws : List (Rec fl)} {b : Bytes} {h : List Fact}
    (hcl : ∀ w ∈ ws, CleanName w.1) (hnd : (ws.map (·.1)).Nodup)
    (hok : ∀ w ∈ ws, w.2.1 = .OK → lastFact h w.1 = some (some .OK)) (hb : b <+: encode (toText fl ws)) :
    Told u fl (some b) h := by
  intro rs hrs
  obtain ⟨hkeys, -⟩ := C24_torn u fl ws hcl b hb rs hrs
  constructor
  · have h1 : rs.map (·.1) = (rs.map key).map (·.1) := by rw [List.map_map]; rfl
    have h2 : ws.map (·.1) = (ws.map key).map (·.1) := by rw [List.map_map]; rfl
    rw [h2] at hnd
    rw [h1]
    exact ((hkeys.map (·.1)).sublist).nodup hnd
  · intro r hr hrok
    obtain ⟨w, hw, hkw⟩ := List.mem_map.mp (hkeys.subset (List.mem_map_of_mem hr))
    have e1 : w.1 = r.1 := congrArg (fun x : Str × Result => x.1) hkw
    have e2 : w.2.1 = r.2.1 := congrArg (fun x : Str × Result => x.2) hkw
    rw [← e1]
    exact hok w hw (e2.trans hrok)

/-- A report that has not been touched, while facts were added about tests that are not recorded OK, or
with result OK. -/
private theorem told_same {u : Unicode} {file : Option Bytes} {h e : List Fact} (ht : Told u fl file h)
    (he : ∀ rs, ofFile u fl file = some rs → ∀ r ∈ rs, r.2.1 = .OK → ∀ x ∈ e, x.1 = r.1 → x.2 = some .OK) :
    Told u fl file (h ++ e) := by
  intro rs hrs
  refine ⟨(ht rs hrs).1, fun r hr hok => ?_⟩
  have h1 := (ht rs hrs).2 r hr hok
  have h2 := he rs hrs r hr hok
  clear he ht
  induction e generalizing h with
  | nil => rw [List.append_nil]; exact h1
  | cons x e ih =>
    have e1 : h ++ x :: e = (h ++ [x]) ++ e := by simp
    rw [e1]
    refine ih ?_ (fun y hy => h2 y (by simp [hy]))
    by_cases hx : x.1 = r.1
    · refine lastFact_mem (v := some .OK) ?_ (by simp)
      have := h2 x (by simp) hx
      rw [List.mem_singleton, ← this, ← hx]
    · rw [lastFact_other (by simpa using hx)]; exact h1

private theorem facts_append (a b : List (Ev fl)) : facts (a ++ b) = facts a ++ facts b := by
  simp [facts]

private theorem facts_names (evs : List (Ev fl)) : (facts evs).map (·.1) = executed evs := by
  induction evs with
  | nil => rfl
  | cons x xs ih =>
    have h1 : facts (x :: xs) = facts [x] ++ facts xs := facts_append [x] xs
    have h2 : executed (x :: xs) = executed [x] ++ executed xs := executed_append [x] xs
    rw [h1, h2, List.map_append, ih]
    cases x <;> rfl

private theorem facts_execs {evs : List (Ev fl)} {n : Str} {r : Result} (h : (n, r) ∈ execs evs) :
    (n, some r) ∈ facts evs := by
  unfold execs at h
  unfold facts
  rw [List.mem_filterMap] at h ⊢
  obtain ⟨x, hx, h1⟩ := h
  refine ⟨x, hx, ?_⟩
  cases x with
  | truncate => cases h1
  | write r => cases h1
  | exec m o =>
    cases o with
    | none => cases h1
    | some o =>
      simp only [Option.some.injEq, Prod.mk.injEq] at h1
      obtain ⟨rfl, rfl⟩ := h1
      rfl

/-- A sequential run, up to some point of its trace. -/
private theorem told_run {u : Unicode} {file : Option Bytes} {h : List Fact} (ht : Told u fl file h)
    {cfg : Config} {outcome : List Str → Str → Outcome fl} {selected : List Str} (hnd : selected.Nodup)
    (hcl : ∀ n ∈ selected, CleanName n) {old : List (Rec fl)} (ho : ofFile u fl file = some old)
    {p rest : List (Ev fl)} {b : Bytes} {more : List Fact}
    (hp : (keptRecords old (toRun cfg old selected)).map Ev.write ++
      (runLoop fl cfg outcome [] .OK 0 (toRun cfg old selected)).1 = p ++ rest)
    (hmore : more = [] ∨ ∃ n o rest', rest = .exec n o :: rest' ∧ more = [(n, none)])
    (hb : b <+: encode (toText fl (writes p))) : Told u fl (some b) (h ++ (facts p ++ more)) := by
  generalize htd : toRun cfg old selected = todo at hp
  have hndT : todo.Nodup := by rw [← htd]; exact hnd.filter _
  have hclT : ∀ n ∈ todo, CleanName n := by
    intro n hn
    rw [← htd] at hn
    exact hcl n (List.mem_filter.mp hn).1
  obtain ⟨ds, tail, h1, h2⟩ := runLoop_shape fl cfg outcome [] .OK 0 todo
  rw [h1] at hp
  have htail : writes tail = [] ∧ ds.map (·.1.1) ++ executed tail <+: todo := by
    rcases h2 with ⟨-, rfl, h4⟩ | ⟨-, n, rfl, h4⟩
    · exact ⟨rfl, by simpa [executed] using h4⟩
    · exact ⟨rfl, by simpa [executed] using h4⟩
  -- everything executed is to be run, and once
  have hexec : executed p ++ more.map (·.1) <+: todo := by
    refine List.IsPrefix.trans ?_ htail.2
    have h3 := congrArg executed hp
    rw [executed_append, executed_append, executed_append, executed_map, List.nil_append, executed_pairs]
      at h3
    rw [h3, List.prefix_append_right_inj]
    rcases hmore with rfl | ⟨n, o, rest', rfl, rfl⟩
    · simp
    · exact ⟨executed rest', by simp [executed]⟩
  have hE : ((facts p ++ more).map (·.1)).Nodup := by
    rw [List.map_append, facts_names]
    exact hexec.sublist.nodup hndT
  have hEsub : ∀ x ∈ facts p ++ more, x.1 ∈ todo := by
    intro x hx
    refine hexec.subset ?_
    rw [← facts_names, ← List.map_append]
    exact List.mem_map_of_mem hx
  have hsplit : p <+: (keptRecords old todo).map (Ev.write (fl := fl)) ∨
      ∃ p2, p = (keptRecords old todo).map (Ev.write (fl := fl)) ++ p2 ∧ p2 <+: ds.flatMap pair ++ tail := by
    have hpre : p <+: (keptRecords old todo).map (Ev.write (fl := fl)) ++ (ds.flatMap pair ++ tail) :=
      ⟨rest, hp.symm⟩
    rcases List.prefix_or_prefix_of_prefix hpre (List.prefix_append _ _) with h3 | ⟨p2, rfl⟩
    · exact Or.inl h3
    · rw [List.prefix_append_right_inj] at hpre
      exact Or.inr ⟨p2, rfl, hpre⟩
  have hkept : ∀ w ∈ keptRecords old todo, w ∈ old ∧ w.1 ∉ todo := by
    intro w hw
    obtain ⟨a1, a2⟩ := List.mem_filter.mp hw
    exact ⟨a1, by simpa using a2⟩
  have hkeptok : ∀ w ∈ keptRecords old todo, w.2.1 = .OK →
      lastFact (h ++ (facts p ++ more)) w.1 = some (some .OK) := by
    intro w hw hok
    rw [lastFact_other (n := w.1) (fun x hx hxw => (hkept w hw).2 (hxw ▸ hEsub x hx))]
    exact (ht old ho).2 w (hkept w hw).1 hok
  have hkeptnd : ((keptRecords old todo).map (·.1)).Nodup :=
    ((List.filter_sublist (p := fun r : Rec fl => !todo.contains r.1) (l := old)).map _).nodup (ht old ho).1
  rcases hsplit with h3 | ⟨p2, rfl, h3⟩
  · obtain ⟨q, hq⟩ := h3
    have hw : writes p ++ writes q = keptRecords old todo := by
      have := congrArg writes hq
      rwa [writes_append, writes_map] at this
    have hsub : (writes p).Sublist (keptRecords old todo) := by rw [← hw]; exact List.sublist_append_left _ _
    exact told_written (fun w hw => ofFile_clean u fl ho w (hkept w (hsub.subset hw)).1)
      ((hsub.map _).nodup hkeptnd) (fun w hw => hkeptok w (hsub.subset hw)) hb
  · rw [writes_append, writes_map] at hb
    have hw2 : (writes p2).map (·.1) <+: ds.map (·.1.1) := by
      obtain ⟨q, hq⟩ := h3
      have := congrArg writes hq
      rw [writes_append, writes_append, writes_pairs, htail.1, List.append_nil] at this
      refine ⟨(writes q).map (·.1), ?_⟩
      rw [← List.map_append, this, List.map_map]; rfl
    have hw2t : ∀ w ∈ writes p2, w.1 ∈ todo := fun w hw =>
      htail.2.subset (List.mem_append_left _ (hw2.subset (List.mem_map_of_mem hw)))
    refine told_written ?_ ?_ ?_ hb
    · intro w hw
      rcases List.mem_append.mp hw with hw | hw
      · exact ofFile_clean u fl ho w (hkept w hw).1
      · exact hclT _ (hw2t w hw)
    · rw [List.map_append, List.nodup_append]
      refine ⟨hkeptnd, (hw2.sublist.trans ((List.prefix_append _ _).trans htail.2).sublist).nodup hndT, ?_⟩
      intro a ha b' hb' hab
      obtain ⟨w, hw, rfl⟩ := List.mem_map.mp ha
      obtain ⟨w', hw', rfl⟩ := List.mem_map.mp hb'
      exact (hkept w hw).2 (hab ▸ hw2t w' hw')
    · intro w hw hok
      rcases List.mem_append.mp hw with hw | hw
      · exact hkeptok w hw hok
      · have hk := writes_of_prefix ds tail htail.1 p2 h3 w hw
        refine lastFact_mem ?_ hE
        refine List.mem_append_left _ ?_
        rw [facts_append]
        refine List.mem_append_right _ ?_
        have := facts_execs hk
        rwa [hok] at this

theorem run_shape_ne (cfg : Config) (outcome : List Str → Str → Outcome fl) (kept : List (Rec fl))
    (todo : List Str) :
    Ev.truncate ∉ kept.map (Ev.write (fl := fl)) ++ (runLoop fl cfg outcome [] .OK 0 todo).1 := by
  obtain ⟨ds, tail, h1, h2⟩ := runLoop_shape fl cfg outcome [] .OK 0 todo
  rw [h1]
  intro hc
  rcases List.mem_append.mp hc with hc | hc
  · obtain ⟨q, -, hq⟩ := List.mem_map.mp hc; cases hq
  · rcases List.mem_append.mp hc with hc | hc
    · obtain ⟨q, -, hq⟩ := List.mem_flatMap.mp hc
      simp [pair] at hq
    · rcases h2 with ⟨-, rfl, -⟩ | ⟨-, n, rfl, -⟩
      · cases hc
      · simp at hc

theorem runAsync_trace (u : Unicode) (cfg : Config) (outcome : List Str → Str → Outcome fl)
    (selected : List Str) (file : Option Bytes) (old : List (Rec fl)) (h : ofFile u fl file = some old) :
    (runAsync u fl cfg outcome selected file).1 =
      .truncate :: ((keptRecords old (toRun cfg old selected)).map .write ++
        (runLoop fl cfg outcome [] .OK 0 (toRun cfg old selected)).1) := by
  unfold runAsync
  rw [h]
  dsimp only
  rw [(doneAndTodo_eq cfg old selected).1]
  rfl

/-- What a review logs, and what it makes of the records. -/
private theorem reviewLoop_facts (cfg : Config) (exp out : Path) (pass : List Str)
    (cases : Option (List Str)) (records : List (Rec fl)) (abort : Bool) (fs : FS) (answers : List Str) :
    (∀ e ∈ (reviewLoop fl cfg exp out pass cases records abort fs answers).2.2, ∃ rec ∈ records,
      rec.1 = e.1 ∧ ∃ x, e.2.1 = .res x ∧ (rec.2.1 = .OK → x = .OK)) ∧
    (∀ reviews, (reviewLoop fl cfg exp out pass cases records abort fs answers).2.1 = some reviews →
      ∀ w ∈ reviews, w.2.1 = .res .OK →
        (∃ e ∈ (reviewLoop fl cfg exp out pass cases records abort fs answers).2.2,
          e.1 = w.1 ∧ e.2.1 = .res .OK) ∨ ∃ rec ∈ records, rec.1 = w.1 ∧ rec.2.1 = .OK) := by
  induction records generalizing abort fs answers with
  | nil =>
    refine ⟨by simp [reviewLoop], ?_⟩
    intro reviews h
    simp only [reviewLoop, Option.some.injEq] at h
    subst h; simp
  | cons x rest ih =>
    obtain ⟨n, res, d⟩ := x
    unfold reviewLoop
    by_cases hc : (!abort && isReviewed cfg pass cases n) = true
    · rw [if_pos hc]
      rcases hcr : caseReview cfg exp out n (.res res) answers fs with ⟨fs', e, answers'⟩
      cases e with
      | done rv request =>
        dsimp only
        obtain ⟨i1, i2⟩ := ih (decide (request = .ABORT) ||
          (cfg.failFast && decide (rv ≠ .res .OK))) fs' answers'
        generalize reviewLoop fl cfg exp out pass cases rest (decide (request = .ABORT) ||
          (cfg.failFast && decide (rv ≠ .res .OK))) fs' answers' = q at i1 i2
        obtain ⟨r, rfl, hr⟩ := caseReview_done hcr
        refine ⟨?_, ?_⟩
        · intro e he
          rcases List.mem_cons.mp he with rfl | he
          · refine ⟨(n, res, d), by simp, rfl, r, rfl, ?_⟩
            rintro rfl
            rcases hr with ⟨h1, -⟩ | ⟨h1, -⟩ <;> exact h1
          · obtain ⟨rec, h1, h2⟩ := i1 e he
            exact ⟨rec, by simp [h1], h2⟩
        · intro reviews h w hw hok
          obtain ⟨rv', h3, rfl⟩ := Option.map_eq_some_iff.mp h
          rcases List.mem_cons.mp hw with rfl | hw
          · exact Or.inl ⟨_, List.mem_cons_self .., rfl, hok⟩
          · rcases i2 rv' h3 w hw hok with ⟨e, h4, h5⟩ | ⟨rec, h4, h5⟩
            · exact Or.inl ⟨e, List.mem_cons_of_mem _ h4, h5⟩
            · exact Or.inr ⟨rec, List.mem_cons_of_mem _ h4, h5⟩
      | eof => exact ⟨by simp, by simp⟩
      | error x => exact ⟨by simp, by simp⟩
    · rw [if_neg hc]
      dsimp only
      obtain ⟨i1, i2⟩ := ih abort fs answers
      refine ⟨?_, ?_⟩
      · intro e he
        obtain ⟨rec, h1, h2⟩ := i1 e he
        exact ⟨rec, by simp [h1], h2⟩
      · intro reviews h w hw hok
        obtain ⟨rv', h3, rfl⟩ := Option.map_eq_some_iff.mp h
        rcases List.mem_cons.mp hw with rfl | hw
        · exact Or.inr ⟨(n, res, d), by simp, rfl, by simpa using hok⟩
        · rcases i2 rv' h3 w hw hok with ⟨e, h4, h5⟩ | ⟨rec, h4, h5⟩
          · exact Or.inl ⟨e, h4, h5⟩
          · exact Or.inr ⟨rec, List.mem_cons_of_mem _ h4, h5⟩

private theorem review_log (cfg : Config) (exp out : Path) (passed? cases : Option (List Str))
    (records : List (Rec fl)) (answers : List Str) (fs : FS) :
    (review fl cfg exp out passed? cases records answers fs).2.2 =
      (reviewLoop fl cfg exp out (passed?.getD (passed records)) cases records false fs answers).2.2 := by
  unfold review
  dsimp only
  split <;> rfl

private theorem eq_of_record {l : List (Rec fl)} (h : (l.map (·.1)).Nodup) {x y : Rec fl} (hx : x ∈ l)
    (hy : y ∈ l) (hn : x.1 = y.1) : x = y := by
  obtain ⟨i, hi, rfl⟩ := List.mem_iff_getElem.mp hx
  obtain ⟨j, hj, rfl⟩ := List.mem_iff_getElem.mp hy
  have hij : i = j := by
    refine (List.getElem_inj (h₀ := by simpa using hi) (h₁ := by simpa using hj) h).mp ?_
    simpa using hn
  subst hij; rfl

/-- Facts of a review about a test that is recorded OK. -/
private theorem review_keeps_ok (cfg : Config) (exp out : Path) (passed? cases : Option (List Str))
    {records : List (Rec fl)} (answers : List Str) (fs : FS) (hnd : (records.map (·.1)).Nodup)
    {r : Rec fl} (hr : r ∈ records) (hok : r.2.1 = .OK) :
    ∀ x ∈ reviewFacts (review fl cfg exp out passed? cases records answers fs).2.2, x.1 = r.1 →
      x.2 = some .OK := by
  intro x hx hxr
  rw [review_log] at hx
  obtain ⟨e, he, rfl⟩ := List.mem_map.mp hx
  obtain ⟨rec, h1, h2, y, h3, h4⟩ := (reviewLoop_facts cfg exp out _ cases records false fs answers).1 e he
  have : rec = r := eq_of_record hnd h1 hr (h2.trans hxr)
  subst this
  dsimp only
  rw [h3, h4 hok]

private theorem history_told (u : Unicode) {file : Option Bytes} {h : List Fact}
    (hh : History u fl file h) : Told u fl file h := by
  induction hh with
  | init => intro rs hrs; cases hrs; exact ⟨by simp, by simp⟩
  | @run file file' h cfg outcome selected evs hr hnd hcl hst ih =>
    cases ho : ofFile u fl file with
    | none =>
      simp only [runAsync, ho] at hst
      cases hst with
      | clean rest h0 =>
        have : evs = [] := (List.append_eq_nil_iff.mp h0.symm).1
        subst this
        rw [show facts ([] : List (Ev fl)) = [] from rfl, List.append_nil]
        exact ih
      | torn rest r b h0 hb => simp at h0
    | some old =>
      rw [runAsync_trace u cfg outcome selected file old ho] at hst
      rcases stops_file (run_shape_ne cfg outcome _ _) hst with
        ⟨rfl, rfl⟩ | ⟨evs', p, b, rfl, ⟨rest, hp⟩, rfl, hb, -, hex, -, ⟨q, rfl⟩⟩
      · rw [show facts ([] : List (Ev fl)) = [] from rfl, List.append_nil]
        exact ih
      · have := told_run ih hnd hcl ho hp.symm (Or.inl rfl) hb
        rw [List.append_nil] at this
        have hq : facts q = [] := by
          have h1 : executed (evs' ++ q) = executed evs' := hex
          rw [executed_append, List.append_right_eq_self, ← facts_names] at h1
          exact List.map_eq_nil_iff.mp h1
        rw [facts_append, hq, List.append_nil] at this
        exact this
  | @runDuring file h cfg outcome selected evs rest n o hr hnd hcl htr ih =>
    cases ho : ofFile u fl file with
    | none => simp [runAsync, ho] at htr
    | some old =>
      rw [runAsync_trace u cfg outcome selected file old ho] at htr
      cases evs with
      | nil => cases htr
      | cons e es =>
        rw [List.cons_append, List.cons.injEq] at htr
        obtain ⟨rfl, htr⟩ := htr
        have hne : Ev.truncate ∉ es := by
          intro hc
          exact run_shape_ne cfg outcome _ _ (by rw [htr]; exact List.mem_append_left _ hc)
        have hf : applyEvs file (Ev.truncate :: es) = some (encode (toText fl (writes es))) := by
          have : applyEvs file (Ev.truncate :: es) = applyEvs (some []) es := rfl
          rw [this, applyEvs_some _ _ hne, List.nil_append]
        rw [hf, List.append_assoc]
        change Told u fl _ (h ++ (facts es ++ [(n, none)]))
        exact told_run ih hnd hcl ho htr (Or.inr ⟨n, o, rest, rfl, rfl⟩) (List.prefix_rfl)
  | @parallel file h cfg selected old c s b hr hnd hcl ho htd hnm hreach hb ih =>
    rw [(doneAndTodo_eq cfg old selected).1] at htd
    obtain ⟨g1, g2, -⟩ := C39_genuine hnm hreach
    have hsub := (inv_reach hnm.todo hreach).sub
    have hkept : ∀ w ∈ keptRecords old c.todo, w ∈ old ∧ w.1 ∉ c.todo := by
      intro w hw
      obtain ⟨a1, a2⟩ := List.mem_filter.mp hw
      exact ⟨a1, by simpa using a2⟩
    refine told_written ?_ ?_ ?_ hb
    · intro w hw
      rcases List.mem_append.mp hw with hw | hw
      · exact ofFile_clean u fl ho w (hkept w hw).1
      · have := (g2 w hw).1
        rw [htd] at this
        exact hcl _ (List.mem_filter.mp this).1
    · rw [List.map_append, List.nodup_append]
      refine ⟨((List.filter_sublist (p := fun r : Rec fl => !c.todo.contains r.1) (l := old)).map _).nodup
        (ih old ho).1, g1, ?_⟩
      intro a ha b' hb' hab
      obtain ⟨w, hw, rfl⟩ := List.mem_map.mp ha
      obtain ⟨w', hw', rfl⟩ := List.mem_map.mp hb'
      exact (hkept w hw).2 (hab ▸ (g2 w' hw').1)
    · intro w hw hok
      rcases List.mem_append.mp hw with hw | hw
      · rw [List.append_assoc, lastFact_other (n := w.1)]
        · exact (ih old ho).2 w (hkept w hw).1 hok
        · intro x hx hxw
          apply (hkept w hw).2
          rw [← hxw]
          rcases List.mem_append.mp hx with hx | hx
          · obtain ⟨m, hm, rfl⟩ := List.mem_map.mp hx
            exact hsub m hm
          · obtain ⟨m, hm, rfl⟩ := List.mem_map.mp hx
            exact (g2 m hm).1
      · refine lastFact_mem ?_ ?_
        · rw [← hok]
          exact List.mem_map.mpr ⟨w, hw, rfl⟩
        · rw [List.map_map]; exact g1
  | @reviewing file h cfg exp out passed? cases records answers fs k hr ho ih =>
    refine told_same ih ?_
    intro rs hrs r hr' hok x hx hxr
    rw [ho] at hrs; cases hrs
    refine review_keeps_ok cfg exp out passed? cases answers fs (ih records ho).1 hr' hok x ?_ hxr
    unfold reviewFacts at hx ⊢
    rw [List.map_take] at hx
    exact List.mem_of_mem_take hx
  | @reviewed file h cfg exp out passed? cases records rs answers fs code b hr ho hrv hb ih =>
    obtain ⟨hF, -⟩ := C66_keeps_records fl cfg exp out passed? cases records rs answers fs code hrv
    have hnames : rs.map (·.1) = records.map (·.1) := by
      have hF' : List.Forall₂ (fun (a b : Rec fl) => b.1 = a.1) records rs := hF.imp (fun a b h => h.1)
      clear hrv hb ho ih hF
      induction hF' with
      | nil => rfl
      | cons h1 _ ih => rw [List.map_cons, List.map_cons, h1, ih]
    have hnd := (ih records ho).1
    refine told_written ?_ (by rw [hnames]; exact hnd) ?_ hb
    · intro w hw
      have : w.1 ∈ records.map (·.1) := by rw [← hnames]; exact List.mem_map_of_mem hw
      obtain ⟨r, hr', hrw⟩ := List.mem_map.mp this
      rw [← hrw]
      exact ofFile_clean u fl ho r hr'
    · intro w hw hok
      have hlognd : ((reviewFacts (review fl cfg exp out passed? cases records answers fs).2.2).map
          (·.1)).Nodup := by
        have h1 := (C66_abort fl cfg exp out passed? cases records answers fs).2
        unfold reviewFacts
        rw [List.map_map]
        exact h1.sublist.nodup (hnd.filter _)
      unfold review at hrv
      dsimp only at hrv
      obtain ⟨-, i2⟩ := reviewLoop_facts cfg exp out (passed?.getD (passed records)) cases records false fs
        answers
      split at hrv
      · cases hrv
      · rename_i reviews hloop
        obtain ⟨q, hq1, hq2⟩ := Option.map_eq_some_iff.mp hrv
        cases hq2
        have hwr : (w.1, Raw.res .OK, w.2.2) ∈ reviews := by
          clear i2 hloop hb hF hnames hrv
          induction reviews generalizing rs with
          | nil => simp at hq1; subst hq1; cases hw
          | cons y ys ihy =>
            rw [List.mapM_cons] at hq1
            obtain ⟨n, raw, d⟩ := y
            cases raw with
            | text t => simp [rawRec] at hq1
            | res r =>
              cases hys : ys.mapM rawRec with
              | none => simp [rawRec, hys] at hq1
              | some q =>
                simp only [rawRec, hys, Option.pure_def, Option.bind_eq_bind, Option.bind_some,
                  Option.some.injEq] at hq1
                subst hq1
                rcases List.mem_cons.mp hw with rfl | hw
                · dsimp only at hok ⊢; rw [hok]; simp
                · exact List.mem_cons_of_mem _ (ihy q hw hys)
        rw [← review_log cfg exp out passed? cases records answers fs] at i2
        rcases i2 reviews hloop _ hwr rfl with ⟨e, h4, h5, h6⟩ | ⟨rec, h4, h5, h6⟩
        · refine lastFact_mem (v := some .OK) ?_ hlognd
          refine List.mem_map.mpr ⟨e, h4, ?_⟩
          rw [h6, h5]
        · have := told_same ih (e := reviewFacts (review fl cfg exp out passed? cases records answers fs).2.2)
            (fun rs hrs r hr' hok' => by
              rw [ho] at hrs; cases hrs
              exact review_keeps_ok cfg exp out passed? cases answers fs hnd hr' hok')
          have := (this records ho).2 rec h4 h6
          rwa [h5] at this
  | @forget file file' h cases trace evs hr hf hst ih =>
    unfold Verif.Model.forget at hf
    obtain ⟨old, ho, rfl⟩ := Option.map_eq_some_iff.mp hf
    have hne : Ev.truncate ∉ (forgetRecords old cases).map (Ev.write (fl := fl)) := by
      intro hc
      obtain ⟨q, -, hq⟩ := List.mem_map.mp hc
      cases hq
    rcases stops_file hne hst with ⟨rfl, rfl⟩ | ⟨evs', p, b, rfl, ⟨q, hq⟩, rfl, hb, -, -, -, -⟩
    · exact ih
    · have hw : writes p ++ writes q = forgetRecords old cases := by
        have := congrArg writes hq
        rwa [writes_append, writes_map] at this
      have hsub : (writes p).Sublist old := by
        refine List.Sublist.trans ?_ (List.filter_sublist (p := fun r : Rec fl => !cases.contains r.1))
        rw [show old.filter (fun r : Rec fl => !cases.contains r.1) = forgetRecords old cases from rfl, ← hw]
        exact List.sublist_append_left _ _
      exact told_written (fun w hw => ofFile_clean u fl ho w (hsub.subset hw))
        ((hsub.map _).nodup (ih old ho).1) (fun w hw => (ih old ho).2 w (hsub.subset hw)) hb
  | clean hr ih => intro rs hrs; cases hrs; exact ⟨by simp, by simp⟩

/-- **C101.** After any sequence of sequential and parallel runs, reviews, forgets and cleanings, each of
them complete, left by an exception or killed at any point, `-c` skips a test only if the test ended OK
when it was last executed, or was found or made OK when it was reviewed after that; a test whose execution
was begun and not brought to its end is never skipped. -/
theorem C101_skips_only_ok (u : Unicode) {file : Option Bytes} {h : List Fact} (hh : History u fl file h)
    (cfg : Config) (selected : List Str) (old : List (Rec fl)) (ho : ofFile u fl file = some old) (n : Str)
    (hs : n ∈ selected) (hn : n ∉ (doneAndTodo cfg old selected).2) : lastFact h n = some (some .OK) := by
  rw [(doneAndTodo_eq cfg old selected).1] at hn
  have hf : (firstRecord old n).map (·.2.1) = some .OK := by
    apply Decidable.byContradiction
    intro hc
    apply hn
    rw [toRun, List.mem_filter]
    exact ⟨hs, by simp [hc]⟩
  obtain ⟨r, h1, h2⟩ := Option.map_eq_some_iff.mp hf
  have hm := List.mem_of_find?_eq_some h1
  have hname : r.1 = n := by
    have := List.find?_some h1
    simpa using this
  rw [← hname]
  exact (history_told u hh old ho).2 r hm h2

/-- **C101.** The report never has two records of a test, whatever has happened. -/
theorem C101_one_record (u : Unicode) {file : Option Bytes} {h : List Fact} (hh : History u fl file h)
    (rs : List (Rec fl)) (hrs : ofFile u fl file = some rs) : (rs.map (·.1)).Nodup :=
  (history_told u hh rs hrs).1

private def ab (n : Str) : Outcome strokes :=
  if n = "b".toList then some (.DIFF, .NONE, (1 : Nat)) else some (.OK, .NONE, (0 : Nat))

private def abTrace : List (Ev strokes) :=
  (runAsync ascii strokes {} (fun _ => ab) ["a".toList, "b".toList] none).1

private theorem ab_history : History ascii strokes (applyEvs none abTrace) ([] ++ facts abTrace) :=
  .run {} (fun _ => ab) ["a".toList, "b".toList] abTrace .init (by decide) (by unfold CleanName; decide)
    (.clean abTrace [] (by rw [List.append_nil]; rfl))

/-- A run of two tests; then `-c` skips the one that passed. -/
example : ∃ file h old, History ascii strokes file h ∧ ofFile ascii strokes file = some old ∧
    (doneAndTodo { cont := true } old ["a".toList, "b".toList]).2 = ["b".toList] :=
  ⟨_, _, [("a".toList, .OK, (0 : Nat)), ("b".toList, .DIFF, (1 : Nat))], ab_history, by rfl, by rfl⟩

/-- The passed test is run again and the run is killed meanwhile: it is not skipped any more. -/
example : ∃ file h old, History ascii strokes file h ∧ ofFile ascii strokes file = some old ∧
    lastFact h "a".toList = some none ∧
    (doneAndTodo { cont := true } old ["a".toList, "b".toList]).2 = ["a".toList, "b".toList] := by
  refine ⟨_, _, [("b".toList, .DIFF, (1 : Nat))], .runDuring {} (fun _ => ab) ["a".toList]
    [.truncate, .write ("b".toList, .DIFF, (1 : Nat))] [.write ("a".toList, .OK, (0 : Nat))] "a".toList
    (ab "a".toList) ab_history (by decide) (by unfold CleanName; decide) (by rfl), by rfl, by rfl, by rfl⟩

/-- Reviewing and forgetting in between. -/
example : ∃ file h old, History ascii strokes file h ∧ ofFile ascii strokes file = some old ∧
    (doneAndTodo { cont := true } old ["a".toList, "b".toList]).2 = ["a".toList, "b".toList] := by
  refine ⟨_, _, [("b".toList, .DIFF, (1 : Nat))],
    .forget ["a".toList] [.truncate, .write ("b".toList, .DIFF, (1 : Nat))]
      [.truncate, .write ("b".toList, .DIFF, (1 : Nat))]
      (.reviewed { interactive := true } [] [] none none [("a".toList, .OK, (0 : Nat)), ("b".toList, .DIFF, (1 : Nat))]
        [("a".toList, .OK, (0 : Nat)), ("b".toList, .DIFF, (1 : Nat))] ["c".toList] [] (-1) _ ab_history (by rfl)
        (by rfl) List.prefix_rfl) (by rfl) (.clean _ [] (by rw [List.append_nil])), by rfl, by rfl⟩

end Verif.Props
