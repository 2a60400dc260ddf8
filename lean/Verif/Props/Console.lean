import Verif.Lemmas.Console
import Verif.Lemmas.Replay
import Verif.Lemmas.FS
import Verif.Props.Reports
import Verif.Props.CaseRun

/-! # C85, C86: the console report -/

namespace Verif.Props
open Verif.Py Verif.Model Verif.Spec Verif.Lemmas

variable {fl : Durations}

/-- How a test ends, for the run loop. -/
private def ends (outcome : List Str → Str → Option (Seen fl)) (ex : List Str) (n : Str) : Outcome fl :=
  (outcome ex n).map (fun o => (o.result, o.request, o.dur))

/-- The executed tests with what was seen of them. -/
private structure Ran (outcome : List Str → Str → Option (Seen fl)) (ex : List Str)
    (ran : List (Str × Seen fl)) : Prop where
  seen : ∀ i (h : i < ran.length), outcome (ex ++ (ran.take i).map (·.1)) ran[i].1 = some ran[i].2

private theorem loopBody_vars (sc : ShowConfig) (ms : fl.D → Nat) (n : Str) (o : Seen fl) (v : LoopVars) :
    (loopBody sc ms n o v).rv = nextRv v.rv o.result ∧
    (loopBody sc ms n o v).fails = nextFails v.fails o.result ∧
    (loopBody sc ms n o v).failed = v.failed ++ notOk [(n, o.result)] ∧
    (loopBody sc ms n o v).tests = v.tests + 1 ∧
    (loopBody sc ms n o v).console = v.console ++ liveCase sc n o.rep o.log o.prelim (ms o.dur) := by
  unfold loopBody nextRv nextFails
  cases h : o.result <;> simp [notOk]

private theorem showLoop_ran (sc : ShowConfig) (ms : fl.D → Nat) (cfg : Config)
    (outcome : List Str → Str → Option (Seen fl)) (todo : List Str) :
    ∀ (ex : List Str) (v v' : LoopVars), showLoop sc ms cfg outcome ex v todo = some v' →
    ∃ ran : List (Str × Seen fl), Ran outcome ex ran ∧
      execs (runLoop fl cfg (ends outcome) ex v.rv v.fails todo).1 = ran.map (fun r => (r.1, r.2.result)) ∧
      executed (runLoop fl cfg (ends outcome) ex v.rv v.fails todo).1 = ran.map (·.1) ∧
      (runLoop fl cfg (ends outcome) ex v.rv v.fails todo).2 = some v'.rv ∧
      v'.failed = v.failed ++ notOk (ran.map (fun r => (r.1, r.2.result))) ∧
      v'.tests = v.tests + ran.length ∧
      v'.console = v.console ++
        (ran.map (fun r => liveCase sc r.1 r.2.rep r.2.log r.2.prelim (ms r.2.dur))).flatten ∧
      ran.map (·.1) <+: todo := by
  induction todo with
  | nil =>
    intro ex v v' h
    obtain rfl : v = v' := by simpa [showLoop] using h
    refine ⟨[], ⟨fun i h => absurd h (by simp)⟩, rfl, rfl, rfl, ?_, rfl, ?_, List.prefix_rfl⟩ <;>
      simp [notOk]
  | cons n ns ih =>
    intro ex v v' h
    unfold showLoop at h
    cases ho : outcome ex n with
    | none => rw [ho] at h; simp at h
    | some o =>
      rw [ho] at h
      dsimp only at h
      obtain ⟨b1, b2, b3, b4, b5⟩ := loopBody_vars sc ms n o v
      have he : ends outcome ex n = some (o.result, o.request, o.dur) := by simp [ends, ho]
      rw [b2] at h
      split at h
      · rename_i hstop
        cases h
        have er : runLoop fl cfg (ends outcome) ex v.rv v.fails (n :: ns) =
            ([.exec n (some (o.result, o.request, o.dur)), .write (n, o.result, o.dur)],
              some (nextRv v.rv o.result)) := by
          unfold runLoop
          rw [he]
          dsimp only
          rw [if_pos hstop]
        refine ⟨[(n, o)], ⟨?_⟩, ?_, ?_, ?_, ?_, ?_, ?_, ?_⟩
        · intro i hi
          obtain rfl : i = 0 := by simpa using hi
          simpa using ho
        · rw [er]; rfl
        · rw [er]; rfl
        · rw [er, b1]
        · simpa using b3
        · simpa using b4
        · simpa using b5
        · exact ⟨ns, rfl⟩
      · rename_i hgo
        obtain ⟨ran, c0, c1, c2, c3, c4, c5, c6, c7⟩ := ih _ _ _ h
        rw [b1, b2] at c1 c2 c3
        have er : runLoop fl cfg (ends outcome) ex v.rv v.fails (n :: ns) =
            ([.exec n (some (o.result, o.request, o.dur)), .write (n, o.result, o.dur)] ++
              (runLoop fl cfg (ends outcome) (ex ++ [n]) (nextRv v.rv o.result)
                (nextFails v.fails o.result) ns).1,
              (runLoop fl cfg (ends outcome) (ex ++ [n]) (nextRv v.rv o.result)
                (nextFails v.fails o.result) ns).2) := by
          conv => lhs; unfold runLoop
          rw [he]
          dsimp only
          rw [if_neg hgo]
        refine ⟨(n, o) :: ran, ⟨?_⟩, ?_, ?_, ?_, ?_, ?_, ?_, ?_⟩
        · intro i hi
          cases i with
          | zero => simpa using ho
          | succ i =>
            have := c0.seen i (by simpa using hi)
            simpa [List.append_assoc] using this
        · rw [er, execs_append, c1]; rfl
        · rw [er, executed_append, c2]; rfl
        · rw [er, c3]
        · rw [c4, b3, List.append_assoc]
          congr 1
          simp only [notOk, ← List.map_append, ← List.filter_append, List.map_cons, List.singleton_append]
        · rw [c5, b4, List.length_cons]; omega
        · rw [c6, b5, List.append_assoc]
          simp
        · obtain ⟨t, ht⟩ := c7
          exact ⟨t, by rw [List.map_cons, List.cons_append, ht]⟩

private theorem liveCase_plain (name : Str) (rep : List Str) (log : Str) (r : Result) (ms : Nat) :
    liveCase {} name rep log r ms = line (plainLine name r ms) := by
  rw [← caseLine_plain]
  simp [liveCase, caseLogs]

/-! ### C85 -/

/-- Reading the plain console report of a sequential run gives, line by line, the tests that were
executed with the result of the comparison, the number of tests, and exactly the tests that are not
OK after the review; it says `succeeded` iff the exit code is 0. -/
theorem C85_report (ms : fl.D → Nat) (cfg : Config) (outcome : List Str → Str → Option (Seen fl))
    (took : Nat) (todo : List Str) (hn : ∀ n ∈ todo, '\n' ∉ n) {text : Str} {rv : Result}
    (h : runConsole {} ms cfg outcome took todo = some (text, rv)) :
    ∃ ran : List (Str × Seen fl),
      ran.map (·.1) = executed (runLoop fl cfg
        (fun ex n => (outcome ex n).map (fun o => (o.result, o.request, o.dur))) [] .OK 0 todo).1 ∧
      (∀ i (hi : i < ran.length), outcome ((ran.take i).map (·.1)) ran[i].1 = some ran[i].2) ∧
      readReport text = .Of (ran.map (fun r => (r.1, r.2.prelim))) (ran.map (fun r => (r.1, r.2.result))) ∧
      (exitCode rv = 0 ↔ (readReport text).succeeded = true) := by
  unfold runConsole at h
  cases hs : showLoop {} ms cfg outcome [] { console := startReport } todo with
  | none => rw [hs] at h; cases h
  | some v =>
    rw [hs] at h
    dsimp only at h
    simp only [Option.some.injEq, Prod.mk.injEq] at h
    obtain ⟨rfl, rfl⟩ := h
    obtain ⟨ran, c0, c1, c2, c3, c4, c5, c6, c7⟩ := showLoop_ran _ _ _ _ _ _ _ _ hs
    dsimp only at c1 c2 c3 c4 c5 c6
    rw [List.nil_append] at c4
    rw [Nat.zero_add] at c5
    have hran : ∀ r ∈ ran, '\n' ∉ r.1 := by
      intro r hr
      exact hn _ (c7.subset (List.mem_map.mpr ⟨r, hr, rfl⟩))
    have hlines : (ran.map (fun r => liveCase {} r.1 r.2.rep r.2.log r.2.prelim (ms r.2.dur))).flatten =
        lines ((ran.map (fun r => (r.1, r.2.prelim, ms r.2.dur))).map
          (fun c => plainLine c.1 c.2.1 c.2.2)) := by
      unfold lines
      rw [List.map_map, List.map_map]
      congr 1
      apply List.map_congr_left
      intro r _
      exact liveCase_plain _ _ _ _ _
    have hread : readReport (v.console ++ endReport v.failed v.tests took) =
        .Of (ran.map (fun r => (r.1, r.2.prelim))) (ran.map (fun r => (r.1, r.2.result))) := by
      rw [c6, hlines, readReport_plain]
      · unfold ReportSays.Of
        rw [c4, c5]
        simp [List.map_map, Function.comp_def]
      · intro c hc
        obtain ⟨r, hr, rfl⟩ := List.mem_map.mp hc
        exact hran r hr
      · intro n hm
        rw [c4] at hm
        unfold notOk at hm
        obtain ⟨x, hx, rfl⟩ := List.mem_map.mp hm
        obtain ⟨r, hr, rfl⟩ := List.mem_map.mp (List.mem_filter.mp hx).1
        exact hran r hr
    refine ⟨ran, c2.symm, ?_, hread, ?_⟩
    · intro i hi
      simpa using c0.seen i hi
    · rw [hread]
      have hrv := (runLoop_rv fl cfg (ends outcome) [] .OK 0 todo v.rv c3).1
      rw [c1] at hrv
      have h1 : exitCode v.rv = 0 ↔ v.rv = .OK := by
        unfold exitCode
        split <;> simp_all
      rw [h1, hrv]
      unfold ReportSays.Of notOk
      simp [List.map_eq_nil_iff, List.filter_eq_nil_iff]

/-- In every mode (verbose, with logs) the report of a sequential run ends with the summary of what was
executed. -/
theorem C85_summary (sc : ShowConfig) (ms : fl.D → Nat) (cfg : Config)
    (outcome : List Str → Str → Option (Seen fl)) (took : Nat) (todo : List Str) {text : Str} {rv : Result}
    (h : runConsole sc ms cfg outcome took todo = some (text, rv)) :
    ∃ front, text = front ++ endReport
        (notOk (execs (runLoop fl cfg
          (fun ex n => (outcome ex n).map (fun o => (o.result, o.request, o.dur))) [] .OK 0 todo).1))
        (execs (runLoop fl cfg
          (fun ex n => (outcome ex n).map (fun o => (o.result, o.request, o.dur))) [] .OK 0 todo).1).length
        took := by
  unfold runConsole at h
  cases hs : showLoop sc ms cfg outcome [] { console := startReport } todo with
  | none => rw [hs] at h; cases h
  | some v =>
    rw [hs] at h
    dsimp only at h
    simp only [Option.some.injEq, Prod.mk.injEq] at h
    obtain ⟨rfl, rfl⟩ := h
    obtain ⟨ran, c0, c1, c2, c3, c4, c5, c6, c7⟩ := showLoop_ran _ _ _ _ _ _ _ _ hs
    dsimp only at c1 c4 c5
    rw [List.nil_append] at c4
    rw [Nat.zero_add] at c5
    refine ⟨v.console, ?_⟩
    have e : execs (runLoop fl cfg
        (fun ex n => (outcome ex n).map (fun o => (o.result, o.request, o.dur))) [] .OK 0 todo).1 =
        ran.map (fun r => (r.1, r.2.result)) := c1
    rw [e, c4, c5, List.length_map]

/-- The run `[a OK, b different, c failed, d accepted]`. -/
private def fourSeen : List Str → Str → Option (Seen strokes) := fun _ n =>
  some (if n = "t/b".toList then ⟨.DIFF, [], [], .DIFF, .NONE, (4 : Nat)⟩
    else if n = "t/c".toList then ⟨.FAIL, [], [], .FAIL, .NONE, (0 : Nat)⟩
    else if n = "t/d".toList then ⟨.DIFF, [], [], .OK, .FREEZE, (12 : Nat)⟩
    else ⟨.OK, [], [], .OK, .NONE, (3 : Nat)⟩)

example : runConsole {} (fun d : Nat => d) {} fourSeen 123
    ["t/a".toList, "t/b".toList, "t/c".toList, "t/d".toList] = some
    ("\n# test results:\n\n  t/a..3 ms\n  t/b..DIFFERED in 4 ms\n  t/c..FAILED in 0 ms\n  t/d..DIFFERED in 12 ms\n\n2/4 test failed in 123 ms:\n\n  t/b\n  t/c\n\n".toList,
      .FAIL) := by
  set_option maxRecDepth 100000 in rfl

/-- The summary printed by `--review` lists exactly the tests whose new record is not OK, of all
records, and the exit code is 0 iff there is none. -/
theorem C85_review (sc : ShowConfig) (ms : fl.D → Nat) (cfg : Config) (exp out : Path) (txt log : Str → Str)
    (passed? : Option (List Str)) (cases : Option (List Str)) (records : List (Rec fl))
    (answers : List Str) (fs : FS) (took : Nat) {text : Str} {rv : Int}
    (h : reviewConsole sc ms cfg exp out txt log passed? cases records answers fs took = some (text, rv)) :
    ∃ front reviews, (review fl cfg exp out passed? cases records answers fs).2.1 = some (reviews, rv) ∧
      text = front ++ endReport (notOk (reviews.map key)) reviews.length took ∧
      (rv = 0 ↔ notOk (reviews.map key) = []) := by
  unfold reviewConsole at h
  cases hr : (review fl cfg exp out passed? cases records answers fs).2.1 with
  | none => rw [hr] at h; cases h
  | some x =>
    obtain ⟨reviews, rv'⟩ := x
    rw [hr] at h
    simp only [Option.some.injEq, Prod.mk.injEq] at h
    obtain ⟨rfl, rfl⟩ := h
    have hfn : failedNames reviews = notOk (reviews.map key) := by
      unfold failedNames notOk
      rw [List.filter_map, List.map_map]
      rfl
    refine ⟨_, reviews, rfl, by rw [hfn], ?_⟩
    unfold review at hr
    dsimp only at hr
    split at hr
    · cases hr
    · rename_i revs _
      simp only [Option.map_eq_some_iff, Prod.mk.injEq] at hr
      obtain ⟨rs, h1, rfl, rfl⟩ := hr
      have hmap : ∀ (revs : List (Str × Raw × fl.D)) (rs : List (Rec fl)), revs.mapM rawRec = some rs →
          (revs.any (fun x => decide (x.2.1 ≠ .res .OK)) = true ↔ notOk (rs.map key) ≠ []) := by
        intro revs
        induction revs with
        | nil => intro rs h; simp at h; subst h; simp [notOk]
        | cons x xs ih =>
          intro rs h
          rw [List.mapM_cons] at h
          simp only [bind, Option.bind_eq_some_iff, pure, Option.some.injEq] at h
          obtain ⟨y, hy, ys, hys, rfl⟩ := h
          obtain ⟨n, r, d⟩ := x
          cases r with
          | text t => cases hy
          | res r =>
            cases hy
            have := ih ys hys
            simp only [List.any_cons, Bool.or_eq_true, this]
            cases r <;> simp [notOk, key]
      have := hmap _ _ h1
      by_cases hany : revs.any (fun x => decide (x.2.1 ≠ .res .OK)) = true
      · rw [if_pos hany]
        simpa using this.mp hany
      · rw [if_neg hany]
        simp only [true_iff]
        exact Classical.byContradiction (fun hc => hany (this.mpr hc))

/-- What the loop of `--review` shows are the records that it looks at, in their order. -/
private theorem reviewLoop_shown (ms : fl.D → Nat) (cfg : Config) (exp out : Path) (txt log : Str → Str)
    (passed : List Str) (cases : Option (List Str)) : ∀ (records : List (Rec fl)) (abort : Bool) (fs : FS)
    (answers : List Str) (reviews : List (Str × Raw × fl.D)),
    (reviewLoop fl cfg exp out passed cases records abort fs answers).2.1 = some reviews →
    reviews.map (·.1) = records.map (·.1) ∧
    ∃ shown : List (Rec fl), shown.Sublist records ∧
      shown.map (·.1) = (reviewLoop fl cfg exp out passed cases records abort fs answers).2.2.map (·.1) ∧
      reviewConsoleLoop {} ms cfg exp out txt log passed cases records abort fs answers =
        lines (shown.map (fun r => plainLine r.1 r.2.1 (ms r.2.2))) := by
  intro records
  induction records with
  | nil =>
    intro abort fs answers reviews h
    simp only [reviewLoop, Option.some.injEq] at h
    subst h
    exact ⟨rfl, [], List.Sublist.refl _, rfl, rfl⟩
  | cons r rest ih =>
    obtain ⟨n, res, d⟩ := r
    intro abort fs answers reviews h
    rw [reviewLoop] at h
    rw [reviewLoop, reviewConsoleLoop]
    by_cases hc : (!abort && isReviewed cfg passed cases n) = true
    · rw [if_pos hc] at h
      rw [if_pos hc, if_pos hc]
      split at h
      · rename_i fs' rv request answers' hcr
        rw [hcr]
        dsimp only at h ⊢
        obtain ⟨rs, h1, rfl⟩ := Option.map_eq_some_iff.mp h
        obtain ⟨hk, shown, i1, i2, i3⟩ := ih _ _ _ _ h1
        refine ⟨by simp [hk], (n, res, d) :: shown, i1.cons_cons _, by simp [i2], ?_⟩
        rw [i3]
        have : reportCase {} n (txt n) (log n) (.res res) (ms d) = line (plainLine n res (ms d)) := by
          rw [← caseLine_plain]
          simp [reportCase, caseLogs]
        rw [this]
        simp [lines]
      · cases h
    · rw [if_neg hc] at h
      rw [if_neg hc, if_neg hc]
      dsimp only at h ⊢
      obtain ⟨rs, h1, rfl⟩ := Option.map_eq_some_iff.mp h
      obtain ⟨hk, shown, i1, i2, i3⟩ := ih _ _ _ _ h1
      exact ⟨by simp [hk], shown, i1.cons _, i2, i3⟩

private theorem rawRecs_names : ∀ (revs : List (Str × Raw × fl.D)) (rs : List (Rec fl)),
    revs.mapM rawRec = some rs → rs.map (·.1) = revs.map (·.1) := by
  intro revs
  induction revs with
  | nil => intro rs h; simp at h; subst h; rfl
  | cons x xs ih =>
    intro rs h
    rw [List.mapM_cons] at h
    simp only [bind, Option.bind_eq_some_iff, pure, Option.some.injEq] at h
    obtain ⟨y, hy, ys, hys, rfl⟩ := h
    obtain ⟨n, r, d⟩ := x
    cases r with
    | text t => cases hy
    | res r => cases hy; simp [ih ys hys]

/-- Reading the plain report of `--review` gives, line by line, exactly the records that were looked at, with
the results that were stored, and the summary of all records after the review. -/
theorem C85_review_report (ms : fl.D → Nat) (cfg : Config) (exp out : Path) (txt log : Str → Str)
    (passed? : Option (List Str)) (cases : Option (List Str)) (records : List (Rec fl))
    (answers : List Str) (fs : FS) (took : Nat) (hn : ∀ r ∈ records, '\n' ∉ r.1) {text : Str} {rv : Int}
    (h : reviewConsole {} ms cfg exp out txt log passed? cases records answers fs took = some (text, rv)) :
    ∃ (shown reviews : List (Rec fl)), shown.Sublist records ∧
      shown.map (·.1) = (review fl cfg exp out passed? cases records answers fs).2.2.map (·.1) ∧
      (review fl cfg exp out passed? cases records answers fs).2.1 = some (reviews, rv) ∧
      readReport text = .Of (shown.map key) (reviews.map key) ∧
      (rv = 0 ↔ (readReport text).succeeded = true) := by
  obtain ⟨-, reviews, e1, -, e3⟩ := C85_review {} ms cfg exp out txt log passed? cases records answers fs took h
  unfold reviewConsole at h
  rw [e1] at h
  simp only [Option.some.injEq, Prod.mk.injEq] at h
  obtain ⟨rfl, -⟩ := h
  have hr := e1
  unfold review at hr
  dsimp only at hr
  split at hr
  · cases hr
  · rename_i revs hrev
    simp only [Option.map_eq_some_iff, Prod.mk.injEq] at hr
    obtain ⟨rs, hm, rfl, -⟩ := hr
    obtain ⟨hk, shown, s1, s2, s3⟩ := reviewLoop_shown ms cfg exp out txt log _ cases records false fs answers revs hrev
    have hlog : (review fl cfg exp out passed? cases records answers fs).2.2 =
        (reviewLoop fl cfg exp out (passed?.getD (passed records)) cases records false fs answers).2.2 := by
      unfold review
      dsimp only
      rw [hrev]
    have hnames := (rawRecs_names _ _ hm).trans hk
    have hread : readReport (startReport ++
        reviewConsoleLoop {} ms cfg exp out txt log (passed?.getD (passed records)) cases records false fs answers ++
        endReport (failedNames rs) rs.length took) = .Of (shown.map key) (rs.map key) := by
      have e : shown.map (fun r => plainLine r.1 r.2.1 (ms r.2.2)) =
          (shown.map (fun r => (r.1, r.2.1, ms r.2.2))).map (fun c => plainLine c.1 c.2.1 c.2.2) := by
        rw [List.map_map]; rfl
      have hfn : failedNames rs = notOk (rs.map key) := by
        unfold failedNames notOk
        rw [List.filter_map, List.map_map]
        rfl
      rw [s3, e, readReport_plain]
      · unfold ReportSays.Of
        rw [hfn]
        simp [List.map_map, Function.comp_def, key]
      · intro c hc
        obtain ⟨r, hr, rfl⟩ := List.mem_map.mp hc
        exact hn r (s1.subset hr)
      · intro n hm
        obtain ⟨r, hr, rfl⟩ := List.mem_map.mp hm
        have : r.1 ∈ rs.map (·.1) := List.mem_map.mpr ⟨r, (List.mem_filter.mp hr).1, rfl⟩
        rw [hnames] at this
        obtain ⟨r', hr', e'⟩ := List.mem_map.mp this
        rw [← e']
        exact hn r' hr'
    refine ⟨shown, rs, s1, by rw [hlog]; exact s2, e1, hread, ?_⟩
    rw [hread, e3]
    unfold ReportSays.Of
    simp

/-- Three records, of which two are selected. -/
example : (reviewConsole (fl := strokes) {} (fun d : Nat => d) {} [] [] (fun _ => []) (fun _ => []) none
    (some ["t/a".toList, "t/b".toList]) [("t/a".toList, .OK, (3 : Nat)), ("t/b".toList, .DIFF, (4 : Nat)), ("t/c".toList, .OK, (5 : Nat))]
    [] [] 12).map (fun x => readReport x.1) =
    some ⟨[("t/a".toList, .OK), ("t/b".toList, .DIFF)], (1, 3), false, ["t/b".toList]⟩ := by
  set_option maxRecDepth 100000 in decide +kernel

/-- In a parallel run, a test whose worker left no report has no result on the console, and its line
runs into the next one: the two read as one test with another name. -/
theorem C85_lost_worker_refuted (a b : Str) (r : Result) (ms ms' : Nat) (txt log : Str) :
    ∃ l, reportCase {} a txt log (.text Result.FAIL.name) ms ++ reportCase {} b txt log (.res r) ms' =
      line l ∧ readCase l = some (a ++ "..  ".toList ++ b, r) := by
  refine ⟨plainLine (a ++ "..  ".toList ++ b) r ms', ?_, readCase_plain _ _ _⟩
  cases r <;> simp [reportCase, caseBegin, caseLogs, caseResult, plainLine, line]

/-! ### C86 -/

/-- A stored report that can be read back: one line per entry. -/
private theorem readFileLines_lines {ls : List Str} (h : ∀ l ∈ ls, '\n' ∉ l ∧ '\r' ∉ l) :
    readFileLines (lines ls) = ls := by
  have hcr : '\r' ∉ lines ls := by
    intro hc
    simp only [lines, line, List.mem_flatten, List.mem_map] at hc
    obtain ⟨x, ⟨l, hl, rfl⟩, hx⟩ := hc
    rcases List.mem_append.mp hx with hx | hx
    · exact (h l hl).2 hx
    · exact absurd hx (by decide)
  unfold readFileLines
  rw [universalNewlines_of_no_cr _ hcr]
  have e : split '\n' (lines ls) = ls ++ [[]] := by
    have := split_lines (fun l hl => (h l hl).1) []
    rw [List.append_nil] at this
    exact this
  dsimp only
  rw [e]
  simp

private theorem leafName_eq (name : Str) (h : '/' ∉ name) : leafName name = name := by
  unfold leafName
  rw [Verif.Lemmas.split_no_sep '/' name h]
  rfl

/-- Reviewing the stored files of a test (`--review`, or the main process of a parallel run) shows
exactly what the test showed on the console when it was run: its report, its log, its result.  This
holds for every test that prints no carriage return, if no logs are shown, if there are none, or if
the name of the test has only one part. -/
theorem C86_replay_partial (e : Env) (x : Test) {s : St} (h : runTest e x = some s) (hr : '\r' ∉ s.out)
    (sc : ShowConfig) (name log : Str) (v : Result) (ms : Nat)
    (hl : sc.printLogs = false ∨ readFileLines log = [] ∨ '/' ∉ name) :
    reportCase sc name (s.rep.map (· ++ "\n".toList)).flatten log (.res v) ms =
      liveCase sc name s.rep log v ms := by
  have hok := repOk_runTest e h
  have h1 : readFileLines (s.rep.map (· ++ "\n".toList)).flatten = s.rep :=
    readFileLines_lines (fun l hm => ⟨(hok.rep l hm).1, fun hc => hr ((hok.rep l hm).2 hc)⟩)
  have h2 : caseLogs name log sc.verbose sc.printLogs = caseLogs (leafName name) log sc.verbose sc.printLogs := by
    rcases hl with hl | hl | hl
    · simp [caseLogs, hl]
    · simp [caseLogs, hl]
    · rw [leafName_eq name hl]
  unfold reportCase liveCase
  rw [h1, h2]

/-- A test with a difference. -/
example : ∃ s, runTest exampleEnv ⟨[.tln "# a".toList, .tln "b".toList], none⟩ = some s ∧
    s.rep.length = 2 ∧ '\r' ∉ s.out ∧
    liveCase { verbose := true, printLogs := true } "a".toList s.rep "warning\n".toList .DIFF 5 =
      ("test a...\n\n  # a\n? b".toList ++ List.replicate 59 ' ' ++
        " | \n\na logs:\n\n  warning\n\na DIFFERED in 5 ms\n\n".toList) := by
  refine ⟨_, rfl, by decide, by decide, ?_⟩
  set_option maxRecDepth 100000 in decide

/-- Logs are shown under the last part of the name while the test runs, but under the whole name
later. -/
theorem C86_log_name_refuted (name log : Str) (hn : '/' ∈ name) (hl : readFileLines log ≠ [])
    (rep : List Str) (v : Result) (ms : Nat) :
    reportCase { verbose := true, printLogs := true } name (lines rep) log (.res v) ms ≠
      liveCase { verbose := true, printLogs := true } name (readFileLines (lines rep)) log v ms := by
  intro hc
  have hpos : (readFileLines log).length > 0 := List.length_pos_iff.mpr hl
  unfold reportCase liveCase at hc
  dsimp only at hc
  simp only [if_true, List.append_assoc] at hc
  rw [List.append_cancel_left_eq, List.append_cancel_left_eq, ← List.append_assoc, ← List.append_assoc,
    List.append_cancel_right_eq, List.append_cancel_right_eq] at hc
  unfold caseLogs at hc
  dsimp only at hc
  rw [if_pos rfl, if_pos rfl, if_pos hpos, if_pos rfl, if_pos rfl, if_pos hpos] at hc
  rw [List.append_assoc, List.append_assoc, List.append_assoc, List.append_assoc,
    List.append_cancel_left_eq, List.append_cancel_right_eq] at hc
  unfold line at hc
  rw [List.append_cancel_right_eq, List.append_cancel_right_eq] at hc
  rw [hc] at hn
  have hleaf : ∀ p ∈ split '/' name, '/' ∉ p := fun p hp hx => (split_mem '/' name p hp).1 hx
  unfold leafName at hn
  cases hg : (split '/' name).getLast? with
  | none => rw [hg] at hn; simp at hn
  | some p =>
    rw [hg] at hn
    exact hleaf p (List.mem_of_getLast? hg) hn

/-- A carriage return in a printed line breaks the line in two when it is read back. -/
theorem C86_return_refuted : ∃ s, runTest exampleEnv ⟨[.iln "a\rb".toList], none⟩ = some s ∧
    reportCase { verbose := true } "t".toList (lines s.rep) [] (.res .OK) 1 ≠
      liveCase { verbose := true } "t".toList s.rep [] .OK 1 := by
  refine ⟨_, rfl, ?_⟩
  set_option maxRecDepth 100000 in decide

end Verif.Props
