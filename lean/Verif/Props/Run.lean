import Verif.Lemmas.Run
import Verif.Props.Reports

/-! # Properties of the sequential run (C26–C29)

`outcome` says how executing a test ends, given the tests executed before: any program, any user. -/

namespace Verif.Props
open Verif.Py Verif.Model Verif.Spec Verif.Lemmas

/-- The trace of a run that could read the old report. -/
private theorem runAsync_eq (u : Unicode) (fl : Durations) (cfg : Config)
    (outcome : List Str → Str → Outcome fl) (selected : List Str) (file : Option Bytes)
    (old : List (Rec fl)) (h : ofFile u fl file = some old) :
    runAsync u fl cfg outcome selected file =
      (.truncate :: (keptRecords old (toRun cfg old selected)).map .write ++
        (runLoop fl cfg outcome [] .OK 0 (toRun cfg old selected)).1,
      (runLoop fl cfg outcome [] .OK 0 (toRun cfg old selected)).2) := by
  unfold runAsync
  rw [h]
  dsimp only
  rw [(doneAndTodo_eq cfg old selected).1]

/-! ### C27: the exit code -/

/-- If the run comes to its end, it returns OK iff every executed test ended OK, and FAIL iff one of
them failed. -/
theorem C27_result (u : Unicode) (fl : Durations) (cfg : Config)
    (outcome : List Str → Str → Outcome fl) (selected : List Str) (file : Option Bytes) (r : Result)
    (h : (runAsync u fl cfg outcome selected file).2 = some r) :
    (exitCode r = 0 ↔ ∀ e ∈ execs (runAsync u fl cfg outcome selected file).1, e.2 = .OK) ∧
    (r = .FAIL ↔ ∃ e ∈ execs (runAsync u fl cfg outcome selected file).1, e.2 = .FAIL) := by
  cases ho : ofFile u fl file with
  | none => simp [runAsync, ho] at h
  | some old =>
    rw [runAsync_eq u fl cfg outcome selected file old ho] at h ⊢
    obtain ⟨h1, h2⟩ := runLoop_rv fl cfg outcome _ _ _ _ r h
    have he : ∀ (k : List (Rec fl)) (t : List (Ev fl)),
        execs (Ev.truncate :: k.map .write ++ t) = execs t := by
      intro k t
      rw [execs_append]
      have : execs (Ev.truncate :: k.map (Ev.write (fl := fl))) = execs (k.map (Ev.write (fl := fl))) := rfl
      rw [this, execs_map, List.nil_append]
    rw [he]
    constructor
    · have hx : exitCode r = 0 ↔ r = .OK := by cases r <;> simp [exitCode]
      rw [hx, h1]
      simp
    · rw [h2]; simp

private def plan (n : Str) : Outcome strokes :=
  if n = "b".toList then some (.DIFF, .NONE, (1 : Nat)) else some (.OK, .NONE, (0 : Nat))

example : (runAsync ascii strokes {} (fun _ => plan) ["a".toList, "b".toList] none).2 = some .DIFF := by
  rfl

/-! ### C28: fail fast -/

/-- With `-f` every executed test but the last ended OK. -/
theorem C28_fail_fast (u : Unicode) (fl : Durations) (cfg : Config)
    (outcome : List Str → Str → Outcome fl) (selected : List Str) (file : Option Bytes)
    (hf : cfg.failFast = true) :
    ∀ e ∈ (execs (runAsync u fl cfg outcome selected file).1).dropLast, e.2 = .OK := by
  cases ho : ofFile u fl file with
  | none => simp [runAsync, ho, execs]
  | some old =>
    rw [runAsync_eq u fl cfg outcome selected file old ho]
    rw [execs_append]
    have : execs (Ev.truncate :: (keptRecords old (toRun cfg old selected)).map (Ev.write (fl := fl))) =
      [] := by
      have : execs (Ev.truncate :: (keptRecords old (toRun cfg old selected)).map
        (Ev.write (fl := fl))) = execs ((keptRecords old (toRun cfg old selected)).map
        (Ev.write (fl := fl))) := rfl
      rw [this, execs_map]
    rw [this, List.nil_append]
    exact runLoop_failFast fl cfg outcome hf _ _ _

example : execs (runAsync ascii strokes { failFast := true } (fun _ => plan)
    ["a".toList, "b".toList, "c".toList] none).1 = [("a".toList, .OK), ("b".toList, .DIFF)] := by rfl

/-! ### C29: each test once, in order, with its record -/

/-- A run executes tests to be run in order, each one once; if it comes to its end, `cases.txt`
contains the kept records and then one record for each executed test with its result; and unless it
is stopped by the user, by fail fast or by an exception, all tests to be run are executed. -/
theorem C29_each_once (u : Unicode) (fl : Durations) (cfg : Config)
    (outcome : List Str → Str → Outcome fl) (selected : List Str) (file : Option Bytes)
    (old : List (Rec fl)) (ho : ofFile u fl file = some old) (hs : ∀ n ∈ selected, CleanName n) :
    executed (runAsync u fl cfg outcome selected file).1 <+: toRun cfg old selected ∧
    (∀ r, (runAsync u fl cfg outcome selected file).2 = some r →
      ∃ new : List (Rec fl), new.map key = execs (runAsync u fl cfg outcome selected file).1 ∧
        (new.map (·.1)) = executed (runAsync u fl cfg outcome selected file).1 ∧
        ofFile u fl (applyEvs file (runAsync u fl cfg outcome selected file).1) =
          some (old.filter (fun r => !(toRun cfg old selected).contains r.1) ++ new)) ∧
    ((∀ e n, ∃ o, outcome e n = some o ∧ o.2.1 ≠ .ABORT) →
      (cfg.failFast = true →
        ∀ e ∈ execs (runAsync u fl cfg outcome selected file).1, e.2 = .OK) →
      executed (runAsync u fl cfg outcome selected file).1 = toRun cfg old selected) := by
  rw [runAsync_eq u fl cfg outcome selected file old ho]
  dsimp only
  generalize htd : toRun cfg old selected = todo
  generalize hk : keptRecords old todo = kept
  have hclean : ∀ n ∈ todo, CleanName n := by
    intro n hn
    rw [← htd] at hn
    exact hs n (List.mem_filter.mp hn).1
  have hpre1 : ∀ t : List (Ev fl), executed (Ev.truncate :: kept.map .write ++ t) = executed t := by
    intro t
    rw [executed_append]
    have : executed (Ev.truncate :: kept.map (Ev.write (fl := fl))) =
      executed (kept.map (Ev.write (fl := fl))) := rfl
    rw [this, executed_map, List.nil_append]
  have hpre2 : ∀ t : List (Ev fl), execs (Ev.truncate :: kept.map .write ++ t) = execs t := by
    intro t
    rw [execs_append]
    have : execs (Ev.truncate :: kept.map (Ev.write (fl := fl))) =
      execs (kept.map (Ev.write (fl := fl))) := rfl
    rw [this, execs_map, List.nil_append]
  rw [hpre1, hpre2]
  obtain ⟨ds, tail, h1, h2⟩ := runLoop_shape fl cfg outcome [] .OK 0 todo
  refine ⟨?_, ?_, ?_⟩
  · rw [h1, executed_append, executed_pairs]
    rcases h2 with ⟨-, rfl, h4⟩ | ⟨-, n, rfl, h4⟩
    · simpa [executed] using h4
    · simpa [executed] using h4
  · intro r hr
    rcases h2 with ⟨-, rfl, h4⟩ | ⟨h3, -⟩
    · rw [h1, List.append_nil]
      refine ⟨ds.map (·.1), ?_, ?_, ?_⟩
      · rw [execs_pairs, List.map_map]; rfl
      · rw [executed_pairs, List.map_map]; rfl
      · have hne : Ev.truncate ∉ kept.map (Ev.write (fl := fl)) ++ ds.flatMap pair := by
          intro hc
          rcases List.mem_append.mp hc with hc | hc
          · obtain ⟨q, -, hq⟩ := List.mem_map.mp hc; cases hq
          · obtain ⟨q, -, hq⟩ := List.mem_flatMap.mp hc
            simp [pair] at hq
        have : applyEvs file (Ev.truncate :: kept.map (Ev.write (fl := fl)) ++ ds.flatMap pair) =
          applyEvs (some []) (kept.map (Ev.write (fl := fl)) ++ ds.flatMap pair) := rfl
        rw [this, applyEvs_some _ _ hne, List.nil_append, writes_append, writes_map, writes_pairs]
        rw [C23_round_trip]
        · rw [← hk]; rfl
        · intro q hq
          rcases List.mem_append.mp hq with hq | hq
          · rw [← hk] at hq
            exact ofFile_clean u fl ho q (List.mem_filter.mp hq).1
          · obtain ⟨d, hd, rfl⟩ := List.mem_map.mp hq
            exact hclean _ (h4.subset (List.mem_map_of_mem (f := fun d : Rec fl × Request => d.1.1) hd))
    · rw [h3] at hr; cases hr
  · intro h3 h4
    exact runLoop_complete fl cfg outcome _ _ _ _ h3 (fun _ => rfl) h4

example : (∀ e n, ∃ o, (fun (_ : List Str) => plan) e n = some o ∧ o.2.1 ≠ .ABORT) ∧
    executed (runAsync ascii strokes {} (fun _ => plan) ["a".toList, "b".toList] none).1 =
      ["a".toList, "b".toList] := by
  refine ⟨?_, rfl⟩
  intro e n
  dsimp only [plan]
  split
  · exact ⟨_, rfl, by simp⟩
  · exact ⟨_, rfl, by simp⟩

/-! ### C26: interrupted runs -/

/-- What a stopped run leaves: the old file, or a cut version of the records written so far (and the
one being written), where `p` is the part of the trace. -/
theorem stops_file {fl : Durations} {file file' : Option Bytes} {t evs : List (Ev fl)}
    (hne : Ev.truncate ∉ t) (h : Stops file (Ev.truncate :: t) evs file') :
    (evs = [] ∧ file' = file) ∨ ∃ evs' p b, evs = Ev.truncate :: evs' ∧ p <+: t ∧
      file' = some b ∧ b <+: encode (toText fl (writes p)) ∧ execs p = execs evs ∧
      executed p = executed evs ∧ encode (toText fl (writes evs')) <+: b ∧ evs' <+: p := by
  cases h with
  | clean rest h =>
    cases evs with
    | nil => exact Or.inl ⟨rfl, rfl⟩
    | cons e es =>
      right
      simp only [List.cons_append, List.cons.injEq] at h
      obtain ⟨rfl, rfl⟩ := h
      have hne' : Ev.truncate ∉ es := fun hc => hne (by simp [hc])
      refine ⟨es, es, _, rfl, List.prefix_append _ _, ?_, List.prefix_rfl, rfl, rfl, List.prefix_rfl,
        List.prefix_rfl⟩
      have : applyEvs file (Ev.truncate :: es) = applyEvs (some []) es := rfl
      rw [this, applyEvs_some _ _ hne', List.nil_append]
  | torn rest r b h hb =>
    cases evs with
    | nil => simp at h
    | cons e es =>
      right
      simp only [List.cons_append, List.cons.injEq] at h
      obtain ⟨rfl, rfl⟩ := h
      have hne' : Ev.truncate ∉ es := fun hc => hne (by simp [hc])
      refine ⟨es, es ++ [.write r], _, rfl, ?_, rfl, ?_, ?_, ?_, ?_, List.prefix_append _ _⟩
      · exact ⟨rest, by simp⟩
      · have : applyEvs file (Ev.truncate :: es) = applyEvs (some []) es := rfl
        rw [this, applyEvs_some _ _ hne', List.nil_append, writes_append, toText_append, encode_append,
          Option.getD_some, List.prefix_append_right_inj]
        have : toText fl (writes [Ev.write r]) = caseLine fl r := by simp [writes, toText]
        rw [this]
        exact hb
      · rw [execs_append]; simp [execs]
      · rw [executed_append]; simp [executed]
      · have : applyEvs file (Ev.truncate :: es) = applyEvs (some []) es := rfl
        rw [this, applyEvs_some _ _ hne', List.nil_append, Option.getD_some]
        exact List.prefix_append _ _

/-- The invariant: what is recorded is the result of the latest execution. -/
private theorem reach_records (u : Unicode) (fl : Durations) {file : Option Bytes}
    {h : List (Str × Result)} (hr : Reach u fl file h) :
    ∀ rs, ofFile u fl file = some rs → ∀ r ∈ rs, latest h r.1 = some r.2.1 := by
  induction hr with
  | init => intro rs h r hr; cases h; cases hr
  | @run file file' h cfg outcome selected evs hreach hnd hcl hst ih =>
    cases ho : ofFile u fl file with
    | none =>
      simp only [runAsync, ho] at hst
      intro rs hrs
      cases hst with
      | clean rest h0 =>
        have : evs = [] := (List.append_eq_nil_iff.mp h0.symm).1
        subst this
        rw [show applyEvs file ([] : List (Ev fl)) = file from rfl, ho] at hrs
        cases hrs
      | torn rest r b h0 hb => simp at h0
    | some old =>
      rw [runAsync_eq u fl cfg outcome selected file old ho] at hst
      dsimp only at hst
      obtain ⟨ds, tail, h1, h2⟩ := runLoop_shape fl cfg outcome [] .OK 0 (toRun cfg old selected)
      rw [h1] at hst
      generalize htd : toRun cfg old selected = todo at hst h2
      generalize hk : keptRecords old todo = kept at hst
      have htail : writes tail = [] ∧ execs tail = [] ∧ ds.map (·.1.1) <+: todo ∧
          Ev.truncate ∉ tail := by
        rcases h2 with ⟨-, rfl, h4⟩ | ⟨-, n, rfl, h4⟩
        · exact ⟨rfl, rfl, h4, by simp⟩
        · exact ⟨rfl, rfl, (List.prefix_append _ _).trans h4, by simp⟩
      have hne : Ev.truncate ∉ kept.map (Ev.write (fl := fl)) ++ (ds.flatMap pair ++ tail) := by
        intro hc
        rcases List.mem_append.mp hc with hc | hc
        · obtain ⟨q, -, hq⟩ := List.mem_map.mp hc; cases hq
        · rcases List.mem_append.mp hc with hc | hc
          · obtain ⟨q, -, hq⟩ := List.mem_flatMap.mp hc
            simp [pair] at hq
          · exact htail.2.2.2 hc
      have hcleanT : ∀ n ∈ todo, CleanName n := by
        intro n hn
        rw [← htd] at hn
        exact hcl n (List.mem_filter.mp hn).1
      have hndT : todo.Nodup := by
        rw [← htd]; exact hnd.filter _
      intro rs hrs
      rcases stops_file hne hst with ⟨rfl, rfl⟩ | ⟨evs', p, b, rfl, hp, rfl, hb, hex, -, -, -⟩
      · intro r hr
        have : execs ([] : List (Ev fl)) = [] := rfl
        rw [this, List.append_nil]
        exact ih rs hrs r hr
      · -- every record written is of the latest execution
        have hw : ∀ w ∈ writes p, latest (h ++ execs p) w.1 = some w.2.1 ∧ CleanName w.1 := by
          have split : (p <+: kept.map (Ev.write (fl := fl))) ∨
              ∃ p2, p = kept.map (Ev.write (fl := fl)) ++ p2 ∧ p2 <+: ds.flatMap pair ++ tail := by
            rcases List.prefix_or_prefix_of_prefix hp (List.prefix_append _ _) with h3 | ⟨p2, rfl⟩
            · exact Or.inl h3
            · rw [List.prefix_append_right_inj] at hp
              exact Or.inr ⟨p2, rfl, hp⟩
          have hkept : ∀ w ∈ kept, latest h w.1 = some w.2.1 ∧ w.1 ∉ todo ∧ CleanName w.1 := by
            intro w hw
            rw [← hk] at hw
            obtain ⟨a1, a2⟩ := List.mem_filter.mp hw
            exact ⟨ih old ho w a1, by simpa using a2, ofFile_clean u fl ho w a1⟩
          rcases split with h3 | ⟨p2, rfl, h3⟩
          · obtain ⟨q, hq⟩ := h3
            intro w hw
            have hwk : w ∈ kept := by
              have := congrArg writes hq
              rw [writes_append, writes_map] at this
              rw [← this]; exact List.mem_append_left _ hw
            have hxe : execs p = [] := by
              have := congrArg execs hq
              rw [execs_append, execs_map] at this
              exact (List.append_eq_nil_iff.mp this).1
            rw [hxe, List.append_nil]
            exact ⟨(hkept w hwk).1, (hkept w hwk).2.2⟩
          · have hx2 : execs (kept.map (Ev.write (fl := fl)) ++ p2) = execs p2 := by
              rw [execs_append, execs_map, List.nil_append]
            have hsub : execs p2 <+: ds.map (fun d => key d.1) := by
              obtain ⟨q, hq⟩ := h3
              have := congrArg execs hq
              rw [execs_append, execs_append, execs_pairs, htail.2.1, List.append_nil] at this
              exact ⟨_, this⟩
            have hnames : ∀ x ∈ execs p2, x.1 ∈ todo := by
              intro x hx
              obtain ⟨d, hd, rfl⟩ := List.mem_map.mp (hsub.subset hx)
              exact htail.2.2.1.subset
                (List.mem_map_of_mem (f := fun d : Rec fl × Request => d.1.1) hd)
            rw [hx2]
            intro w hw
            rw [writes_append, writes_map] at hw
            rcases List.mem_append.mp hw with hw | hw
            · obtain ⟨b1, b2, b3⟩ := hkept w hw
              refine ⟨?_, b3⟩
              rw [latest_append_none, b1]
              intro x hx hc
              exact b2 (hc ▸ hnames x hx)
            · have hk2 := writes_of_prefix ds tail htail.1 p2 h3 w hw
              refine ⟨latest_append_mem (r := w.2.1) hk2 ?_, hcleanT _ (hnames _ hk2)⟩
              have h5 : (execs p2).map (·.1) <+: todo := by
                refine (hsub.map (·.1)).trans ?_
                rw [List.map_map]
                exact htail.2.2.1
              exact h5.sublist.nodup hndT
        have hcw : ∀ w ∈ writes p, CleanName w.1 := fun w hw' => (hw w hw').2
        obtain ⟨hkeys, -⟩ := C24_torn u fl (writes p) hcw b hb rs hrs
        intro r hr
        have : key r ∈ (writes p).map key := hkeys.subset (List.mem_map_of_mem hr)
        obtain ⟨w, hw', hkw⟩ := List.mem_map.mp this
        have e1 : w.1 = r.1 := congrArg (fun x : Str × Result => x.1) hkw
        have e2 : w.2.1 = r.2.1 := congrArg (fun x : Str × Result => x.2) hkw
        have h6 := (hw w hw').1
        rw [← hex, ← e1, ← e2]
        exact h6
  | @forget file file' h cases trace evs hreach hf hst ih =>
    unfold Verif.Model.forget at hf
    obtain ⟨old, ho, rfl⟩ := Option.map_eq_some_iff.mp hf
    have hne : Ev.truncate ∉ (forgetRecords old cases).map (Ev.write (fl := fl)) := by
      intro hc
      obtain ⟨q, -, hq⟩ := List.mem_map.mp hc
      cases hq
    intro rs hrs r hr
    rcases stops_file hne hst with ⟨rfl, rfl⟩ | ⟨evs', p, b, rfl, hp, rfl, hb, -, -, -, -⟩
    · exact ih rs hrs r hr
    · have hwp : ∀ w ∈ writes p, w ∈ old := by
        intro w hw
        obtain ⟨q, hq⟩ := hp
        have := congrArg writes hq
        rw [writes_append, writes_map] at this
        have hm : w ∈ forgetRecords old cases := by rw [← this]; exact List.mem_append_left _ hw
        exact (List.mem_filter.mp hm).1
      obtain ⟨hkeys, -⟩ := C24_torn u fl (writes p) (fun w hw => ofFile_clean u fl ho w (hwp w hw)) b hb rs hrs
      have : key r ∈ (writes p).map key := hkeys.subset (List.mem_map_of_mem hr)
      obtain ⟨w, hw', hkw⟩ := List.mem_map.mp this
      have e1 : w.1 = r.1 := congrArg (fun x : Str × Result => x.1) hkw
      have e2 : w.2.1 = r.2.1 := congrArg (fun x : Str × Result => x.2) hkw
      rw [← e1, ← e2]
      exact ih old ho w (hwp w hw')

/-- After any sequence of complete and killed runs and forgets, `-c` skips a selected test only if the test's
latest completed execution ended OK. -/
theorem C26_skips_only_ok (u : Unicode) (fl : Durations) (file : Option Bytes)
    (h : List (Str × Result)) (hr : Reach u fl file h) (cfg : Config) (selected : List Str)
    (old : List (Rec fl)) (ho : ofFile u fl file = some old) (n : Str) (hs : n ∈ selected)
    (hn : n ∉ toRun cfg old selected) : latest h n = some .OK := by
  have hf : (firstRecord old n).map (·.2.1) = some .OK := by
    apply Decidable.byContradiction
    intro hc
    apply hn
    rw [toRun, List.mem_filter]
    exact ⟨hs, by simp [hc]⟩
  obtain ⟨r, h1, h2⟩ := Option.map_eq_some_iff.mp hf
  have hm := List.mem_of_find?_eq_some h1
  have hname : r.1 = n := by
    have := List.find?_some h1
    simpa using this
  have := reach_records u fl hr old ho r hm
  rw [hname, h2] at this
  exact this

/-- Once a run has begun testing, killing it at any point leaves the records of the tests that are
not to be run exactly as they were (if the report can be read, see C24). -/
theorem C26_keeps_records (u : Unicode) (fl : Durations) (file file' : Option Bytes) (cfg : Config)
    (outcome : List Str → Str → Outcome fl) (selected : List Str) (old rs : List (Rec fl))
    (evs : List (Ev fl)) (hcl : ∀ n ∈ selected, CleanName n) (ho : ofFile u fl file = some old)
    (hst : Stops file (runAsync u fl cfg outcome selected file).1 evs file')
    (hbegun : executed evs ≠ []) (hrs : ofFile u fl file' = some rs) :
    old.filter (fun r => !(toRun cfg old selected).contains r.1) <+: rs := by
  rw [runAsync_eq u fl cfg outcome selected file old ho] at hst
  dsimp only at hst
  obtain ⟨ds, tail, h1, h2⟩ := runLoop_shape fl cfg outcome [] .OK 0 (toRun cfg old selected)
  rw [h1] at hst
  generalize htd : toRun cfg old selected = todo at hst h2 ⊢
  have hkd : old.filter (fun r => !todo.contains r.1) = keptRecords old todo := rfl
  rw [hkd]
  generalize hk : keptRecords old todo = kept at hst ⊢
  have htail : writes tail = [] ∧ ds.map (·.1.1) <+: todo ∧ Ev.truncate ∉ tail := by
    rcases h2 with ⟨-, rfl, h4⟩ | ⟨-, n, rfl, h4⟩
    · exact ⟨rfl, h4, by simp⟩
    · exact ⟨rfl, (List.prefix_append _ _).trans h4, by simp⟩
  have hne : Ev.truncate ∉ kept.map (Ev.write (fl := fl)) ++ (ds.flatMap pair ++ tail) := by
    intro hc
    rcases List.mem_append.mp hc with hc | hc
    · obtain ⟨q, -, hq⟩ := List.mem_map.mp hc; cases hq
    · rcases List.mem_append.mp hc with hc | hc
      · obtain ⟨q, -, hq⟩ := List.mem_flatMap.mp hc
        simp [pair] at hq
      · exact htail.2.2 hc
  rcases stops_file hne hst with ⟨rfl, rfl⟩ | ⟨evs', p, b, rfl, hp, rfl, hb, -, hexd, hb2, hep⟩
  · exact absurd rfl hbegun
  · have hbeg' : executed evs' ≠ [] := hbegun
    obtain ⟨p2, rfl⟩ : kept.map (Ev.write (fl := fl)) <+: evs' := by
      rcases List.prefix_or_prefix_of_prefix (hep.trans hp) (List.prefix_append _ _) with h3 | h3
      · exfalso
        obtain ⟨q, hq⟩ := h3
        have := congrArg executed hq
        rw [executed_append, executed_map] at this
        exact hbeg' (List.append_eq_nil_iff.mp this).1
      · exact h3
    have hp' : ∃ p3, p = kept.map (Ev.write (fl := fl)) ++ p3 ∧ p3 <+: ds.flatMap pair ++ tail := by
      obtain ⟨q, rfl⟩ := hep
      rw [List.append_assoc] at hp ⊢
      rw [List.prefix_append_right_inj] at hp
      exact ⟨_, rfl, hp⟩
    obtain ⟨p3, rfl, h3⟩ := hp'
    have hwp : writes (kept.map (Ev.write (fl := fl)) ++ p3) = kept ++ writes p3 := by
      rw [writes_append, writes_map]
    have hcw : ∀ w ∈ kept ++ writes p3, CleanName w.1 := by
      intro w hw
      rcases List.mem_append.mp hw with hw | hw
      · rw [← hk] at hw
        exact ofFile_clean u fl ho w (List.mem_filter.mp hw).1
      · obtain ⟨q, hq⟩ := h3
        have := congrArg writes hq
        rw [writes_append, writes_append, writes_pairs, htail.1, List.append_nil] at this
        have hm : w ∈ ds.map (·.1) := by rw [← this]; exact List.mem_append_left _ hw
        obtain ⟨d, hd, rfl⟩ := List.mem_map.mp hm
        have : d.1.1 ∈ todo := htail.2.1.subset
          (List.mem_map_of_mem (f := fun d : Rec fl × Request => d.1.1) hd)
        rw [← htd] at this
        exact hcl _ (List.mem_filter.mp this).1
    rw [hwp] at hb
    obtain ⟨-, h7⟩ := C24_torn u fl _ hcw b hb rs hrs
    have h8 := h7 kept.length (by simp)
    rw [List.take_left] at h8
    apply h8
    refine List.IsPrefix.trans ?_ hb2
    rw [writes_append, writes_map, toText_append, encode_append]
    exact List.prefix_append _ _

/-- A run killed while it writes the record of the second test: the first test is recorded. -/
private theorem killed_run : ∃ evs file', Stops none
    (runAsync ascii strokes {} (fun _ => plan) ["a".toList, "b".toList] none).1 evs file' ∧
    executed evs = ["a".toList, "b".toList] ∧
    ofFile ascii strokes file' = some [("a".toList, .OK, (0 : Nat))] := by
  refine ⟨[.truncate, .exec "a".toList (some (.OK, .NONE, (0 : Nat))),
    .write ("a".toList, .OK, (0 : Nat)), .exec "b".toList (some (.DIFF, .NONE, (1 : Nat)))],
    some (encode (caseLine strokes ("a".toList, .OK, (0 : Nat))) ++ encode "b\tDI".toList),
    Stops.torn _ [] ("b".toList, .DIFF, (1 : Nat)) _ rfl ?_, rfl, ?_⟩
  · exact ⟨encode "FF\t11\n".toList, by rw [← encode_append]; rfl⟩
  · rw [← encode_append]
    simp only [ofFile, decode_encode, Option.map_some]
    rfl

/-- Such a state is reachable, and continuing skips the first test only. -/
example : ∃ file' h old, Reach ascii strokes file' h ∧ ofFile ascii strokes file' = some old ∧
    "a".toList ∉ toRun { cont := true } old ["a".toList, "b".toList] ∧
    "b".toList ∈ toRun { cont := true } old ["a".toList, "b".toList] := by
  obtain ⟨evs, file', h1, h2, h3⟩ := killed_run
  refine ⟨file', _, _, Reach.run {} _ _ evs Reach.init (by decide) (by unfold CleanName; decide) h1,
    h3, by decide, by decide⟩

end Verif.Props
