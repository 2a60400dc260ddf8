import Verif.Lemmas.Story
import Verif.Props.History

/-! # What reviews accept (C105) -/

namespace Verif.Props
open Verif.Py Verif.Model Verif.Spec Verif.Lemmas

variable {fl : Durations} {u : Unicode} {root : Path} {ns : List Str} {start : FS}

/-! ### The latest execution -/

private theorem latest_other {h e : List Execution} {n : Str} (hn : ∀ x ∈ e, x.name ≠ n) :
    latestRun (h ++ e) n = latestRun h n := by
  unfold latestRun
  rw [List.filter_append]
  have : e.filter (fun x => decide (x.name = n)) = [] := by
    rw [List.filter_eq_nil_iff]
    intro x hx; simpa using hn x hx
  rw [this, List.append_nil]

private theorem latest_mem {h e : List Execution} {x : Execution} (hm : x ∈ e)
    (hnd : (e.map (·.name)).Nodup) : latestRun (h ++ e) x.name = some x := by
  obtain ⟨a, b, rfl⟩ := List.append_of_mem hm
  have hb : ∀ y ∈ b, y.name ≠ x.name := by
    intro y hy hyn
    rw [List.map_append, List.map_cons, List.nodup_append, List.nodup_cons] at hnd
    exact hnd.2.1.1 (List.mem_map.mpr ⟨y, hy, hyn⟩)
  have e1 : h ++ (a ++ x :: b) = (h ++ a ++ [x]) ++ b := by simp
  rw [e1, latest_other hb]
  unfold latestRun
  rw [List.filter_append]
  simp

/-! ### The invariant -/

/-- The record says what the latest execution of the test has shown, and its output is still there or has been
accepted. -/
def Backed (root : Path) (fs : FS) (h : List Execution) (n : Str) (r : Result) : Prop :=
  ∃ e text v, latestRun h n = some e ∧ e.finished = true ∧ e.Says text v ∧ v ≠ .FAIL ∧
    ((outputFile root fs n = some (.file text) ∧ r = v) ∨
      (outputFile root fs n = none ∧ snapshot root fs n = some text))

/-- The snapshot is the first one, or it was printed by an execution that did not fail. -/
def KnownSnapshot (root : Path) (start fs : FS) (h : List Execution) (n : Str) : Prop :=
  snapshot root fs n = snapshot root start n ∨ ∃ e ∈ h, e.name = n ∧
    ∃ text v, e.Says text v ∧ v ≠ .FAIL ∧ snapshot root fs n = some text

structure StoryInv (u : Unicode) (fl : Durations) (root : Path) (ns : List Str) (start fs : FS) (file : Option Bytes)
    (h : List Execution) : Prop where
  sound : SoundTree root ns fs
  snaps : ∀ n ∈ ns, KnownSnapshot root start fs h n
  recs : ∀ rs : List (Rec fl), ofFile u fl file = some rs → (rs.map (·.1)).Nodup ∧
    ∀ r ∈ rs, r.1 ∈ ns ∧ (r.2.1 ≠ .FAIL → Backed root fs h r.1 r.2.1)

private theorem known_more {fs : FS} {h e : List Execution} {n : Str} (hk : KnownSnapshot root start fs h n) :
    KnownSnapshot root start fs (h ++ e) n := by
  rcases hk with hk | ⟨x, hx, hk⟩
  · exact Or.inl hk
  · exact Or.inr ⟨x, List.mem_append_left _ hx, hk⟩

private theorem known_same {fs g : FS} {h : List Execution} {n : Str} (hk : KnownSnapshot root start fs h n)
    (hs : snapshot root g n = snapshot root fs n) : KnownSnapshot root start g h n := by
  unfold KnownSnapshot
  rw [hs]
  exact hk

private theorem same_snapshot {fs g : FS} {n : Str} (hs : SameMd root n fs g) :
    snapshot root g n = snapshot root fs n := by
  rw [snapshot_text, snapshot_text, hs false]

private theorem same_both {fs g : FS} {n : Str} (hs : SameMd root n fs g) :
    snapshot root g n = snapshot root fs n ∧ outputFile root g n = outputFile root fs n :=
  ⟨same_snapshot hs, hs true⟩

private theorem backed_same {fs g : FS} {h e : List Execution} {n : Str} {r : Result} (hb : Backed root fs h n r)
    (hs : snapshot root g n = snapshot root fs n ∧ outputFile root g n = outputFile root fs n)
    (hn : ∀ x ∈ e, x.name ≠ n) : Backed root g (h ++ e) n r := by
  unfold Backed
  rw [latest_other hn, hs.1, hs.2]
  exact hb

private theorem recs_written {ws : List (Rec fl)} {b : Bytes} {fs : FS} {h : List Execution}
    (hcl : ∀ w ∈ ws, CleanName w.1) (hnd : (ws.map (·.1)).Nodup)
    (hok : ∀ w ∈ ws, w.1 ∈ ns ∧ (w.2.1 ≠ .FAIL → Backed root fs h w.1 w.2.1))
    (hb : b <+: encode (toText fl ws)) :
    ∀ rs : List (Rec fl), ofFile u fl (some b) = some rs → (rs.map (·.1)).Nodup ∧
      ∀ r ∈ rs, r.1 ∈ ns ∧ (r.2.1 ≠ .FAIL → Backed root fs h r.1 r.2.1) := by
  intro rs hrs
  obtain ⟨hkeys, -⟩ := C24_torn u fl ws hcl b hb rs hrs
  constructor
  · have h1 : rs.map (·.1) = (rs.map key).map (·.1) := by rw [List.map_map]; rfl
    have h2 : ws.map (·.1) = (ws.map key).map (·.1) := by rw [List.map_map]; rfl
    rw [h2] at hnd
    rw [h1]
    exact ((hkeys.map (·.1)).sublist).nodup hnd
  · intro r hr
    obtain ⟨w, hw, hkw⟩ := List.mem_map.mp (hkeys.subset (List.mem_map_of_mem hr))
    have e1 : w.1 = r.1 := congrArg (fun x : Str × Result => x.1) hkw
    have e2 : w.2.1 = r.2.1 := congrArg (fun x : Str × Result => x.2) hkw
    rw [← e1, ← e2]
    exact hok w hw

/-! ### Sequential runs -/

private theorem mkdirs_same {P : Project} (hp : PlainNames ns) {n0 : Str} (h0 : n0 ∈ ns) {fs : FS}
    (h : SoundTree P.root ns fs) :
    SoundTree P.root ns (mkdirs fs P.out) ∧ ∀ n ∈ ns, SameMd P.root n fs (mkdirs fs P.out) := by
  have hall : All (CaseOp P.root n0) (mkdirsTask [] P.out (.done (.done .OK .NONE))) :=
    closed_mkdirs (n := n0) (closed_all (fun _ h => Or.inl h)).toClosedRest _ (out_above P n0) (.done _) _ _ rfl
  have hrun : runTask fs (mkdirsTask [] P.out (.done (.done .OK .NONE))) =
      .ok (mkdirs fs P.out, .done .OK .NONE) := run_mkdirs _ _ _ _ h.cwd
  refine ⟨runTask_sound hp (hall.mono (fun o ho => ⟨n0, h0, ho⟩)) h hrun, ?_⟩
  intro n hn
  obtain ⟨k, hk⟩ := run_steps _ hrun
  refine (steps_inv (I := fun A t => All (fun o => ∀ s, OpAvoids (slot P.root s n ".md".toList) o) t ∧
    SameMd P.root n fs A) (fun A t A' t' hi hst => same_step hi.1 hi.2 hst) k _ ⟨?_, fun _ => rfl⟩ hk).2
  refine closed_mkdirs (n := n0) (Q := All (fun o => ∀ s, OpAvoids (slot P.root s n ".md".toList) o))
    ⟨fun e _ => .done e, fun o k h1 h2 => .act o k ?_ h2⟩ _ (out_above P n0) (.done _) _ _ rfl
  intro s
  by_cases e : n0 = n
  · subst e; exact rest_avoids (hp.1 n0 h0) h1 s
  · exact other_avoids hp h0 hn e (Or.inl (Or.inl h1)) (own_slot s (Or.inr mem_md))

/-- A sequential run up to some point of its trace. -/
private structure Part (P : Project) (cfg : Config) (ans : List Str) (ns : List Str) (fs : FS) (old : List (Rec fl))
    (todo : List Str) (p : List (Ev fl)) : Prop where
  names : ranNames p <+: todo
  sound : SoundTree P.root ns (runCases P cfg (ranNames p) (mkdirs fs P.out, ans)).1
  others : ∀ n ∈ ns, n ∉ ranNames p →
    SameMd P.root n fs (runCases P cfg (ranNames p) (mkdirs fs P.out, ans)).1
  some_result : ∀ n ∈ ranNames p, ∃ r, (n, r) ∈ execs p
  ended : ∀ n r, (n, r) ∈ execs p → n ∈ ranNames p ∧
    Ended P n (fs.get (slot P.root false n ".md".toList)) r
      (runCases P cfg (ranNames p) (mkdirs fs P.out, ans)).1
  written : (∀ w ∈ writes p, (w ∈ old ∧ w.1 ∉ todo) ∨ (w.1 ∈ todo ∧ key w ∈ execs p)) ∧
    ((writes p).map (·.1)).Nodup

private theorem part_of_run {P : Project} (hp : PlainNames ns) {n0 : Str} (h0 : n0 ∈ ns) (cfg : Config)
    (dur : Str → fl.D) (ans : List Str) {fs : FS} (h : SoundTree P.root ns fs) {old : List (Rec fl)}
    (hold : (old.map (·.1)).Nodup) {todo : List Str} (hnd : todo.Nodup) (hsub : ∀ n ∈ todo, n ∈ ns)
    {p : List (Ev fl)}
    (hpre : p <+: (keptRecords old todo).map Ev.write ++
      (runLoop fl cfg (projectOutcome P cfg dur (mkdirs fs P.out, ans)) [] .OK 0 todo).1)
    (hsome : ∀ n o, Ev.exec n o ∈ p → o.isSome) : Part P cfg ans ns fs old todo p := by
  obtain ⟨m1, m2⟩ := mkdirs_same hp h0 h
  have hkept : ∀ w ∈ keptRecords old todo, w ∈ old ∧ w.1 ∉ todo := by
    intro w hw
    obtain ⟨a1, a2⟩ := List.mem_filter.mp hw
    exact ⟨a1, by simpa using a2⟩
  have hkeptnd : ((keptRecords old todo).map (·.1)).Nodup :=
    ((List.filter_sublist (p := fun r : Rec fl => !todo.contains r.1) (l := old)).map _).nodup hold
  have hsplit : p <+: (keptRecords old todo).map (Ev.write (fl := fl)) ∨
      ∃ p2, p = (keptRecords old todo).map (Ev.write (fl := fl)) ++ p2 ∧
        p2 <+: (runLoop fl cfg (projectOutcome P cfg dur (mkdirs fs P.out, ans)) [] .OK 0 todo).1 := by
    rcases List.prefix_or_prefix_of_prefix hpre (List.prefix_append _ _) with h3 | ⟨p2, rfl⟩
    · exact Or.inl h3
    · rw [List.prefix_append_right_inj] at hpre
      exact Or.inr ⟨p2, rfl, hpre⟩
  have hmapran : ∀ l : List (Rec fl), ranNames (l.map (Ev.write)) = [] := executed_map
  rcases hsplit with ⟨q, hq⟩ | ⟨p2, rfl, h3⟩
  · have hran : ranNames p = [] := by
      have := congrArg ranNames hq
      rw [ranNames_append, hmapran] at this
      exact (List.append_eq_nil_iff.mp this).1
    have hex : execs p = [] := by
      have := congrArg execs hq
      rw [execs_append, execs_map] at this
      exact (List.append_eq_nil_iff.mp this).1
    have hw : writes p ++ writes q = keptRecords old todo := by
      have := congrArg writes hq
      rwa [writes_append, writes_map] at this
    have hws : (writes p).Sublist (keptRecords old todo) := by rw [← hw]; exact List.sublist_append_left _ _
    refine ⟨by rw [hran]; exact List.nil_prefix, by rw [hran]; exact m1, ?_, by rw [hran]; simp, by rw [hex]; simp,
      fun w hw => Or.inl (hkept w (hws.subset hw)), (hws.map _).nodup hkeptnd⟩
    intro n hn _
    rw [hran]
    exact m2 n hn
  · have hsome2 : ∀ n o, Ev.exec n o ∈ p2 → o.isSome := fun n o hno => hsome n o (List.mem_append_right _ hno)
    have hran : ranNames ((keptRecords old todo).map (Ev.write (fl := fl)) ++ p2) = ranNames p2 := by
      rw [ranNames_append, hmapran, List.nil_append]
    have hex : execs ((keptRecords old todo).map (Ev.write (fl := fl)) ++ p2) = execs p2 := by
      rw [execs_append, execs_map, List.nil_append]
    obtain ⟨f1, f2, f3, f4, f5⟩ := part_of_loop hp cfg dur (mkdirs fs P.out, ans) todo [] .OK 0 hsub hnd m1 p2 h3 hsome2
    have hrc : (runCases P cfg [] (mkdirs fs P.out, ans)).1 = mkdirs fs P.out := rfl
    rw [List.nil_append] at f2 f3 f5
    rw [hrc] at f3 f5
    obtain ⟨ds, tail, h1, h2⟩ := runLoop_shape fl cfg (projectOutcome P cfg dur (mkdirs fs P.out, ans)) [] .OK 0 todo
    have htail : writes tail = [] ∧ ds.map (·.1.1) <+: todo := by
      rcases h2 with ⟨-, rfl, h4⟩ | ⟨-, n, rfl, h4⟩
      · exact ⟨rfl, h4⟩
      · exact ⟨rfl, (List.prefix_append _ _).trans h4⟩
    rw [h1] at h3
    have hw2 : (writes p2).map (·.1) <+: ds.map (·.1.1) := by
      obtain ⟨q, hq⟩ := h3
      have := congrArg writes hq
      rw [writes_append, writes_append, writes_pairs, htail.1, List.append_nil] at this
      refine ⟨(writes q).map (·.1), ?_⟩
      rw [← List.map_append, this, List.map_map]; rfl
    have hw2t : ∀ w ∈ writes p2, w.1 ∈ todo := fun w hw =>
      htail.2.subset (hw2.subset (List.mem_map_of_mem hw))
    refine ⟨by rw [hran]; exact f1, by rw [hran]; exact f2, ?_, by rw [hran, hex]; exact f4, ?_, ?_, ?_⟩
    · intro n hn hnot
      rw [hran] at hnot ⊢
      exact (m2 n hn).trans (f3 n hn hnot)
    · intro n r hr
      rw [hran]
      rw [hex] at hr
      obtain ⟨g1, g2⟩ := f5 n r hr
      rw [m2 n (hsub n (f1.subset g1)) false] at g2
      exact ⟨g1, g2⟩
    · intro w hw
      rw [writes_append, writes_map] at hw
      rcases List.mem_append.mp hw with hw | hw
      · exact Or.inl (hkept w hw)
      · refine Or.inr ⟨hw2t w hw, ?_⟩
        rw [hex]
        exact writes_of_prefix ds tail htail.1 p2 h3 w hw
    · rw [writes_append, writes_map, List.map_append, List.nodup_append]
      refine ⟨hkeptnd, (hw2.sublist.trans htail.2.sublist).nodup hnd, ?_⟩
      intro a ha b' hb' hab
      obtain ⟨w, hw, rfl⟩ := List.mem_map.mp ha
      obtain ⟨w', hw', rfl⟩ := List.mem_map.mp hb'
      exact (hkept w hw).2 (hab ▸ hw2t w' hw')

private theorem says_of {P : Project} {n : Str} {fs : FS} {text : Str} {v : Result} {b : Bool}
    (h : SaysOf P n (textOf (fs.get (slot P.root false n ".md".toList))) text v) :
    Execution.Says ⟨n, P, snapshot P.root fs n, b⟩ text v := by
  unfold Execution.Says
  rw [snapshot_text]
  exact h

private theorem ended_backed {P : Project} {n : Str} {fs A : FS} {r : Result} {h : List Execution}
    (he : Ended P n (fs.get (slot P.root false n ".md".toList)) r A) (hr : r ≠ .FAIL)
    (hl : latestRun h n = some ⟨n, P, snapshot P.root fs n, true⟩) : Backed P.root A h n r := by
  rcases he with ⟨text, hs, -, ho⟩ | ⟨text, v, hs, hv, -, he, ho⟩
  · exact ⟨_, text, r, hl, rfl, says_of hs, hr, Or.inl ⟨ho, rfl⟩⟩
  · exact ⟨_, text, v, hl, rfl, says_of hs, hv, Or.inr ⟨ho, by rw [snapshot_text, he]; rfl⟩⟩

private theorem ended_known {P : Project} {n : Str} {fs A : FS} {h e : List Execution} {b : Bool}
    (hk : KnownSnapshot P.root start fs h n)
    (he : A.get (slot P.root false n ".md".toList) = fs.get (slot P.root false n ".md".toList) ∨
      ∃ text v, SaysOf P n (textOf (fs.get (slot P.root false n ".md".toList))) text v ∧ v ≠ .FAIL ∧
        A.get (slot P.root false n ".md".toList) = some (.file text))
    (hm : ⟨n, P, snapshot P.root fs n, b⟩ ∈ e) : KnownSnapshot P.root start A (h ++ e) n := by
  rcases he with he | ⟨text, v, hs, hv, he⟩
  · refine known_same (known_more hk) ?_
    rw [snapshot_text, snapshot_text, he]
  · refine Or.inr ⟨_, List.mem_append_right _ hm, rfl, text, v, says_of hs, hv, ?_⟩
    rw [snapshot_text, he]
    rfl

private theorem ended_exp {P : Project} {n : Str} {x : Option Node} {r : Result} {A : FS} (h : Ended P n x r A) :
    A.get (slot P.root false n ".md".toList) = x ∨
      ∃ text v, SaysOf P n (textOf x) text v ∧ v ≠ .FAIL ∧
        A.get (slot P.root false n ".md".toList) = some (.file text) := by
  rcases h with ⟨text, -, h, -⟩ | ⟨text, v, h1, h2, -, h3, -⟩
  · exact Or.inl h
  · exact Or.inr ⟨text, v, h1, h2, h3⟩

private theorem inv_same {fs g : FS} {file : Option Bytes} {h : List Execution} (hi : StoryInv u fl root ns start fs file h)
    (hg : SoundTree root ns g)
    (hs : ∀ n ∈ ns, snapshot root g n = snapshot root fs n ∧ outputFile root g n = outputFile root fs n) :
    StoryInv u fl root ns start g file h := by
  refine ⟨hg, fun n hn => known_same (hi.snaps n hn) (hs n hn).1, ?_⟩
  intro rs hrs
  obtain ⟨h1, h2⟩ := hi.recs rs hrs
  refine ⟨h1, fun r hr => ⟨(h2 r hr).1, fun hf => ?_⟩⟩
  have := backed_same (e := []) ((h2 r hr).2 hf) (hs _ (h2 r hr).1) (by simp)
  rwa [List.append_nil] at this

private theorem toRun_sub {cfg : Config} {old : List (Rec fl)} {selected : List Str} (hnd : selected.Nodup)
    (hsel : ∀ n ∈ selected, n ∈ ns ∧ CleanName n) :
    (toRun cfg old selected).Nodup ∧ ∀ n ∈ toRun cfg old selected, n ∈ ns ∧ CleanName n :=
  ⟨hnd.filter _, fun n hn => hsel n (List.mem_filter.mp hn).1⟩

/-- The invariant after a part of a sequential run; `g` and `more` are what a test that is being executed adds. -/
private theorem inv_part {P : Project} {cfg : Config} {ans : List Str} {fs g : FS} {file : Option Bytes}
    {h more : List Execution} (hi : StoryInv u fl P.root ns start fs file h) {old : List (Rec fl)}
    (ho : ofFile u fl file = some old) {todo : List Str} (hnd : todo.Nodup)
    (hsub : ∀ n ∈ todo, n ∈ ns ∧ CleanName n) {p : List (Ev fl)} {b : Bytes}
    (hP : Part P cfg ans ns fs old todo p) (hb : b <+: encode (toText fl (writes p)))
    (hmore : ranNames p ++ more.map (·.name) <+: todo)
    (hg : SoundTree P.root ns g)
    (hsame : ∀ n ∈ ns, n ∉ more.map (·.name) →
      SameMd P.root n (runCases P cfg (ranNames p) (mkdirs fs P.out, ans)).1 g)
    (hknown : ∀ n ∈ more.map (·.name), n ∈ ns →
      KnownSnapshot P.root start g (h ++ ((ranNames p).map (fun n => ⟨n, P, snapshot P.root fs n, true⟩) ++ more)) n) :
    StoryInv u fl P.root ns start g (some b)
      (h ++ ((ranNames p).map (fun n => ⟨n, P, snapshot P.root fs n, true⟩) ++ more)) := by
  have hnames : ((ranNames p).map (fun n => (⟨n, P, snapshot P.root fs n, true⟩ : Execution)) ++ more).map (·.name) =
      ranNames p ++ more.map (·.name) := by
    rw [List.map_append, List.map_map]
    congr 1
    exact List.map_id' _
  have hE : (((ranNames p).map (fun n => (⟨n, P, snapshot P.root fs n, true⟩ : Execution)) ++ more).map
      (·.name)).Nodup := by rw [hnames]; exact hmore.sublist.nodup hnd
  have hnotmore : ∀ n ∈ ranNames p, n ∉ more.map (·.name) := by
    intro n hn hc
    have := hmore.sublist.nodup hnd
    rw [List.nodup_append] at this
    exact this.2.2 n hn n hc rfl
  have hmem : ∀ n ∈ ranNames p, (⟨n, P, snapshot P.root fs n, true⟩ : Execution) ∈
      (ranNames p).map (fun n => ⟨n, P, snapshot P.root fs n, true⟩) ++ more := fun n hn =>
    List.mem_append_left _ (List.mem_map.mpr ⟨n, hn, rfl⟩)
  refine ⟨hg, ?_, recs_written ?_ hP.written.2 ?_ hb⟩
  · intro n hn
    by_cases hm : n ∈ more.map (·.name)
    · exact hknown n hm hn
    · by_cases hr : n ∈ ranNames p
      · obtain ⟨r, hr'⟩ := hP.some_result n hr
        have he := ((hP.ended n r hr').2).same (hsame n hn hm)
        exact ended_known (hi.snaps n hn) (ended_exp he) (hmem n hr)
      · exact known_same (known_more (hi.snaps n hn)) (same_snapshot ((hP.others n hn hr).trans (hsame n hn hm)))
  · intro w hw
    rcases hP.written.1 w hw with ⟨h1, -⟩ | ⟨h1, -⟩
    · exact ofFile_clean u fl ho w h1
    · exact (hsub _ h1).2
  · intro w hw
    rcases hP.written.1 w hw with ⟨h1, h2⟩ | ⟨h1, h2⟩
    · obtain ⟨a1, a2⟩ := (hi.recs old ho).2 w h1
      refine ⟨a1, fun hf => backed_same (a2 hf) ?_ ?_⟩
      · refine same_both ((hP.others _ a1 ?_).trans (hsame _ a1 ?_))
        · exact fun hc => h2 (hP.names.subset hc)
        · exact fun hc => h2 (hmore.subset (List.mem_append_right _ hc))
      · intro x hx hxn
        apply h2
        apply hmore.subset
        rw [← hnames, ← hxn]
        exact List.mem_map_of_mem hx
    · refine ⟨(hsub _ h1).1, fun hf => ?_⟩
      obtain ⟨b1, b2⟩ := hP.ended w.1 w.2.1 h2
      exact ended_backed (b2.same (hsame _ (hsub _ h1).1 (hnotmore _ b1))) hf (latest_mem (hmem _ b1) hE)

/-- Before another test is executed, no test has been left by an exception. -/
private theorem some_before {cfg : Config} {outcome : List Str → Str → Outcome fl} {kept : List (Rec fl)}
    {todo : List Str} {p rest : List (Ev fl)} {n : Str} {o : Outcome fl}
    (h : kept.map Ev.write ++ (runLoop fl cfg outcome [] .OK 0 todo).1 = p ++ .exec n o :: rest) :
    (∀ m o, Ev.exec m o ∈ p → o.isSome) ∧ ranNames p ++ [n] <+: todo := by
  obtain ⟨ds, tail, h1, h2⟩ := runLoop_shape fl cfg outcome [] .OK 0 todo
  rw [h1] at h
  have hlen : tail.length ≤ 1 ∧ ds.map (·.1.1) ++ executed tail <+: todo := by
    rcases h2 with ⟨-, rfl, h4⟩ | ⟨-, n, rfl, h4⟩
    · exact ⟨by simp, by simpa [executed] using h4⟩
    · exact ⟨by simp, by simpa [executed] using h4⟩
  constructor
  · have hpre : p <+: kept.map (Ev.write (fl := fl)) ++ ds.flatMap pair := by
      have h3 : p <+: (kept.map (Ev.write (fl := fl)) ++ ds.flatMap pair) ++ tail := by
        rw [List.append_assoc, h]; exact List.prefix_append _ _
      rcases List.prefix_or_prefix_of_prefix h3 (List.prefix_append _ _) with h4 | ⟨y, rfl⟩
      · exact h4
      · rw [← List.append_assoc, List.append_assoc _ y, List.append_cancel_left_eq] at h
        have hy : y = [] := by
          have := congrArg List.length h
          rw [List.length_append, List.length_cons] at this
          exact List.eq_nil_of_length_eq_zero (by omega)
        rw [hy, List.append_nil]
        exact List.prefix_rfl
    intro m o hm
    rcases List.mem_append.mp (hpre.subset hm) with hm | hm
    · obtain ⟨q, -, hq⟩ := List.mem_map.mp hm; cases hq
    · obtain ⟨q, -, hq⟩ := List.mem_flatMap.mp hm
      simp [pair] at hq
      rw [hq.2]; rfl
  · refine List.IsPrefix.trans ?_ hlen.2
    have h3 := congrArg executed h
    rw [executed_append, executed_append, executed_append, executed_map, List.nil_append, executed_pairs] at h3
    rw [h3]
    have h4 : executed (Ev.exec n o :: rest) = n :: executed rest := rfl
    rw [h4]
    exact ⟨executed rest, by rw [List.append_assoc]; rfl⟩

/-! ### Reviews -/

/-- What a review takes as a snapshot. -/
private theorem taken {fs : FS} {file : Option Bytes} {h : List Execution} {P : Project}
    (hi : StoryInv u fl P.root ns start fs file h) {records : List (Rec fl)} (ho : ofFile u fl file = some records)
    {n : Str} {v : Result} {d : fl.D} (hm : (n, v, d) ∈ records) (hv : v ≠ .FAIL) {text : Str}
    (hout : fs.get (slot P.root true n ".md".toList) = some (.file text)) :
    ∃ e, latestRun h n = some e ∧ e.finished = true ∧ e.Says text v := by
  obtain ⟨e, text', v', h1, h2, h3, -, h5⟩ := ((hi.recs records ho).2 _ hm).2 hv
  unfold outputFile at h5
  rw [hout] at h5
  rcases h5 with ⟨h5, h6⟩ | h5
  · cases h5
    have h6 : v = v' := h6
    rw [h6]
    exact ⟨e, h1, h2, h3⟩
  · cases h5.1

private theorem latest_in {h : List Execution} {n : Str} {e : Execution} (hl : latestRun h n = some e) :
    e ∈ h ∧ e.name = n := by
  have := List.mem_of_getLast? hl
  rw [List.mem_filter] at this
  exact ⟨this.1, by simpa using this.2⟩

/-- After any part of a review: the records that were read are still backed. -/
private theorem review_inv {fs g : FS} {file : Option Bytes} {h : List Execution} {P : Project} (hp : PlainNames ns)
    (hi : StoryInv u fl P.root ns start fs file h) {records : List (Rec fl)} (ho : ofFile u fl file = some records)
    (cfg : Config) (pass : List Str) (cases : Option (List Str)) (ans : List Str) {k : Nat} {t : Task}
    (hk : stepsOf k (fs, reviewsTask P cfg pass cases records false ans) = some (g, t)) :
    StoryInv u fl P.root ns start g file h := by
  obtain ⟨hnd, hrec⟩ := hi.recs records ho
  obtain ⟨h1, h2⟩ := reviews_effect hp hi.sound cfg pass cases (fun r hr => (hrec r hr).1) hnd false ans hk
  refine ⟨h1, ?_, ?_⟩
  · intro n hn
    rcases h2 n hn with hs | ⟨v, d, hm, ⟨l, -, ha⟩, text, ho1, ho2, -⟩
    · exact known_same (hi.snaps n hn) (same_snapshot hs)
    · have hv := accepts_not_fail ha
      obtain ⟨e, e1, -, e3⟩ := taken hi ho hm hv ho1
      obtain ⟨e4, e5⟩ := latest_in e1
      refine Or.inr ⟨e, e4, e5, text, v, e3, hv, ?_⟩
      rw [snapshot_text, ho2]
      rfl
  · intro rs hrs
    rw [ho] at hrs
    cases hrs
    refine ⟨hnd, fun r hr => ⟨(hrec r hr).1, fun hf => ?_⟩⟩
    have hb := (hrec r hr).2 hf
    rcases h2 r.1 (hrec r hr).1 with hs | ⟨v, d, hm, -, text, ho1, ho2, ho3⟩
    · have := backed_same (e := []) hb (same_both hs) (by simp)
      rwa [List.append_nil] at this
    · obtain ⟨e, text', v', b1, b2, b3, b4, b5⟩ := hb
      unfold outputFile at b5
      rw [ho1] at b5
      rcases b5 with ⟨b5, -⟩ | ⟨b5, -⟩
      · cases b5
        exact ⟨e, text, v', b1, b2, b3, b4, Or.inr ⟨ho3, by rw [snapshot_text, ho2]; rfl⟩⟩
      · cases b5

private theorem mapM_raw {rs : List (Str × Raw × fl.D)} {ws : List (Rec fl)} (h : rs.mapM rawRec = some ws) :
    ws.map (·.1) = rs.map (·.1) ∧ ∀ w ∈ ws, (w.1, Raw.res w.2.1, w.2.2) ∈ rs := by
  induction rs generalizing ws with
  | nil =>
    rw [List.mapM_nil] at h
    cases h
    exact ⟨rfl, by simp⟩
  | cons x xs ih =>
    rw [List.mapM_cons] at h
    cases hx : rawRec x with
    | none => rw [hx] at h; cases h
    | some y =>
      rw [hx] at h
      cases hxs : xs.mapM rawRec with
      | none => rw [hxs] at h; cases h
      | some ys =>
        rw [hxs] at h
        cases h
        obtain ⟨i1, i2⟩ := ih hxs
        obtain ⟨n, r, d⟩ := x
        cases r with
        | text _ => cases hx
        | res r =>
          cases hx
          refine ⟨by simp [i1], ?_⟩
          intro w hw
          rcases List.mem_cons.mp hw with rfl | hw
          · exact List.mem_cons_self ..
          · exact List.mem_cons_of_mem _ (i2 w hw)

private theorem review_parts {cfg : Config} {exp out : Path} {passed? cases : Option (List Str)}
    {records rs : List (Rec fl)} {ans : List Str} {fs : FS} {code : Int}
    (h : (review fl cfg exp out passed? cases records ans fs).2.1 = some (rs, code)) :
    ∃ raw, (reviewLoop fl cfg exp out (passed?.getD (passed records)) cases records false fs ans).2.1 = some raw ∧
      raw.mapM rawRec = some rs ∧ (review fl cfg exp out passed? cases records ans fs).1 =
        (reviewLoop fl cfg exp out (passed?.getD (passed records)) cases records false fs ans).1 := by
  unfold review at h ⊢
  dsimp only at h ⊢
  cases hr : (reviewLoop fl cfg exp out (passed?.getD (passed records)) cases records false fs ans).2.1 with
  | none => rw [hr] at h; cases h
  | some raw =>
    rw [hr] at h
    dsimp only at h ⊢
    obtain ⟨ws, h1, h2⟩ := Option.map_eq_some_iff.mp h
    cases h2
    exact ⟨raw, rfl, h1, rfl⟩

/-! ### The invariant holds -/

theorem story_inv (hp : PlainNames ns) {n0 : Str} (h0 : n0 ∈ ns) (hS : SoundTree root ns start) {fs : FS}
    {file : Option Bytes} {h : List Execution} (hs : Story root ns u fl start fs file h) :
    StoryInv u fl root ns start fs file h := by
  induction hs with
  | start =>
    refine ⟨hS, fun n _ => Or.inl rfl, ?_⟩
    intro rs hrs; cases hrs; exact ⟨by simp, by simp⟩
  | @run fs file file' h P cfg dur selected ans evs hr hroot hnd hsel hst hsome ih =>
    subst hroot
    have hempty : StoryInv u fl P.root ns start (runCases P cfg (ranNames ([] : List (Ev fl))) (mkdirs fs P.out, ans)).1
        file (h ++ (ranNames ([] : List (Ev fl))).map (fun n => ⟨n, P, snapshot P.root fs n, true⟩)) := by
      obtain ⟨m1, m2⟩ := mkdirs_same (P := P) hp h0 ih.sound
      change StoryInv u fl P.root ns start (mkdirs fs P.out) file (h ++ [])
      rw [List.append_nil]
      exact inv_same ih m1 (fun n hn => same_both (m2 n hn))
    cases ho : ofFile u fl file with
    | none =>
      simp only [runAsync, ho] at hst
      cases hst with
      | clean rest h0 =>
        have : evs = [] := (List.append_eq_nil_iff.mp h0.symm).1
        subst this
        exact hempty
      | torn rest r b h0 hb => simp at h0
    | some old =>
      rw [runAsync_trace u cfg _ selected file old ho] at hst
      rcases stops_file (run_shape_ne cfg _ _ _) hst with
        ⟨rfl, rfl⟩ | ⟨evs', p, b, rfl, hpre, rfl, hb, -, hex, -, ⟨q, rfl⟩⟩
      · exact hempty
      · obtain ⟨s1, s2⟩ := toRun_sub (cfg := cfg) (old := old) hnd hsel
        have hq : executed q = [] := by
          have h1 : executed (evs' ++ q) = executed evs' := hex
          rwa [executed_append, List.append_right_eq_self] at h1
        have hsome' : ∀ n o, Ev.exec n o ∈ evs' ++ q → o.isSome := by
          intro n o hno
          rcases List.mem_append.mp hno with hno | hno
          · exact hsome n o (List.mem_cons_of_mem _ hno)
          · have : n ∈ executed q := List.mem_filterMap.mpr ⟨_, hno, rfl⟩
            rw [hq] at this; cases this
        have hP := part_of_run hp h0 cfg dur ans ih.sound (ih.recs old ho).1 s1 (fun n hn => (s2 n hn).1) hpre hsome'
        have hran : ranNames (Ev.truncate :: evs') = ranNames (evs' ++ q) := hex.symm
        rw [hran]
        have := inv_part (more := []) ih ho s1 s2 hP hb (by simpa using hP.names) hP.sound
          (fun n _ _ _ => rfl) (by simp)
        rwa [List.append_nil] at this
  | @runDuring fs g file h P cfg dur selected ans evs rest n o k t hr hroot hnd hsel htr hk ih =>
    subst hroot
    cases ho : ofFile u fl file with
    | none => simp [runAsync, ho] at htr
    | some old =>
      rw [runAsync_trace u cfg _ selected file old ho] at htr
      cases evs with
      | nil => cases htr
      | cons e es =>
        rw [List.cons_append, List.cons.injEq] at htr
        obtain ⟨rfl, htr⟩ := htr
        have hne : Ev.truncate ∉ es := by
          intro hc
          exact run_shape_ne cfg _ _ _ (by rw [htr]; exact List.mem_append_left _ hc)
        have hf : applyEvs file (Ev.truncate :: es) = some (encode (toText fl (writes es))) := by
          have : applyEvs file (Ev.truncate :: es) = applyEvs (some []) es := rfl
          rw [this, applyEvs_some _ _ hne, List.nil_append]
        obtain ⟨s1, s2⟩ := toRun_sub (cfg := cfg) (old := old) hnd hsel
        obtain ⟨b1, b2⟩ := some_before htr
        have hP := part_of_run hp h0 cfg dur ans ih.sound (ih.recs old ho).1 s1 (fun n hn => (s2 n hn).1)
          (p := es) (by rw [htr]; exact List.prefix_append _ _) b1
        have hn : n ∈ ns := (s2 n (b2.subset (by simp))).1
        have hnot : n ∉ ranNames es := by
          intro hc
          have := b2.sublist.nodup s1
          rw [List.nodup_append] at this
          exact this.2.2 n hc n (by simp) rfl
        have hran : ranNames (Ev.truncate :: es) = ranNames es := rfl
        rw [hran] at hk
        obtain ⟨d1, d2, d3⟩ := during_case hp hn cfg hP.sound _ hk
        rw [hf, List.append_assoc, hran]
        refine inv_part (more := [⟨n, P, snapshot P.root fs n, false⟩]) ih ho s1 s2 hP List.prefix_rfl b2 d1 ?_ ?_
        · intro m hm hmn
          exact d2 m hm (by simpa using hmn)
        · intro m hm _
          have hm : m = n := by simpa using hm
          subst hm
          have hkept := d3.kept
          rw [hP.others m hn hnot false] at hkept
          exact ended_known (b := false) (ih.snaps m hn) hkept (List.mem_append_right _ (by simp))
  | @parallel fs g file h P cfg all selected trace index ans old written t b hr hroot hnd hsel ho hint hwnd hw hb ih =>
    subst hroot
    rw [(doneAndTodo_eq cfg old selected).1] at hint hw hb ⊢
    generalize hT : toRun cfg old selected = todo at hint hw hb ⊢
    obtain ⟨s1, s2⟩ := toRun_sub (cfg := cfg) (old := old) hnd hsel
    rw [hT] at s1 s2
    obtain ⟨d1, d2, -, d4⟩ := during_parallel hp cfg ih.sound all (fun m hm => (s2 m hm).1) hint
    have hE : (((todo.filter (fun n => decide (n ∈ trace))).map
        (fun n => (⟨n, P, snapshot P.root fs n, isDone (t n)⟩ : Execution))).map (·.name)).Nodup := by
      rw [List.map_map]
      have : (todo.filter (fun n => decide (n ∈ trace))).map
        ((·.name) ∘ (fun n => (⟨n, P, snapshot P.root fs n, isDone (t n)⟩ : Execution))) =
        todo.filter (fun n => decide (n ∈ trace)) := List.map_id' _
      rw [this]
      exact s1.filter _
    have hEsub : ∀ x ∈ (todo.filter (fun n => decide (n ∈ trace))).map
        (fun n => (⟨n, P, snapshot P.root fs n, isDone (t n)⟩ : Execution)), x.name ∈ todo := by
      intro x hx
      obtain ⟨m, hm, rfl⟩ := List.mem_map.mp hx
      exact (List.mem_filter.mp hm).1
    have hmem : ∀ n ∈ trace, (⟨n, P, snapshot P.root fs n, isDone (t n)⟩ : Execution) ∈
        (todo.filter (fun n => decide (n ∈ trace))).map
          (fun n => (⟨n, P, snapshot P.root fs n, isDone (t n)⟩ : Execution)) := fun n hn =>
      List.mem_map.mpr ⟨n, List.mem_filter.mpr ⟨d2 n hn, by simpa using hn⟩, rfl⟩
    have hkept : ∀ w ∈ keptRecords old todo, w ∈ old ∧ w.1 ∉ todo := by
      intro w hw
      obtain ⟨a1, a2⟩ := List.mem_filter.mp hw
      exact ⟨a1, by simpa using a2⟩
    refine ⟨d1, ?_, recs_written ?_ ?_ ?_ hb⟩
    · intro n hn
      by_cases hm : n ∈ trace
      · exact ended_known (ih.snaps n hn) (d4 n hn).2.kept (hmem n hm)
      · exact known_same (known_more (ih.snaps n hn)) (same_snapshot ((d4 n hn).1 hm).2)
    · intro w hw'
      rcases List.mem_append.mp hw' with hw' | hw'
      · exact ofFile_clean u fl ho w (hkept w hw').1
      · exact (s2 _ (hw w hw').1).2
    · rw [List.map_append, List.nodup_append]
      refine ⟨((List.filter_sublist (p := fun r : Rec fl => !todo.contains r.1) (l := old)).map _).nodup
        (ih.recs old ho).1, hwnd, ?_⟩
      intro a ha b' hb' hab
      obtain ⟨w, hw1, rfl⟩ := List.mem_map.mp ha
      obtain ⟨w', hw2, rfl⟩ := List.mem_map.mp hb'
      exact (hkept w hw1).2 (hab ▸ (hw w' hw2).1)
    · intro w hw'
      rcases List.mem_append.mp hw' with hw' | hw'
      · obtain ⟨k1, k2⟩ := hkept w hw'
        obtain ⟨a1, a2⟩ := (ih.recs old ho).2 w k1
        refine ⟨a1, fun hf => backed_same (a2 hf) ?_ ?_⟩
        · exact same_both ((d4 _ a1).1 (fun hc => k2 (d2 _ hc))).2
        · exact fun x hx hxn => k2 (hxn ▸ hEsub x hx)
      · obtain ⟨w1, w2⟩ := hw w hw'
        have hwn := (s2 _ w1).1
        refine ⟨hwn, fun hf => ?_⟩
        rcases w2 with w2 | ⟨q, w2⟩
        · exact absurd w2 hf
        · have hm : w.1 ∈ trace := by
            by_cases hm : w.1 ∈ trace
            · exact hm
            · have := ((d4 _ hwn).1 hm).1
              rw [w2] at this
              unfold parallelTask at this
              exact absurd this.symm (caseTask_not_done _ _ _ _ _ _)
          have he := (d4 _ hwn).2
          rw [w2] at he
          refine ended_backed (he.ended rfl) hf ?_
          have := latest_mem (h := h) (hmem _ hm) hE
          rw [w2] at this
          exact this
  | @reviewing fs g file h P cfg pass cases records ans k t hr hroot ho hk ih =>
    subst hroot
    exact review_inv hp ih ho cfg pass cases ans hk
  | @reviewed fs file h P cfg passed? cases records rs ans code b hr hroot ho hrev hb ih =>
    subst hroot
    obtain ⟨raw, r1, r2, r3⟩ := review_parts hrev
    rw [r3]
    obtain ⟨hnd, hrec⟩ := ih.recs records ho
    have hrun := run_reviews P cfg (passed?.getD (passed records)) cases records false fs ans r1
    obtain ⟨k, hk⟩ := run_steps _ hrun
    have hi := review_inv hp ih ho cfg _ cases ans hk
    obtain ⟨e1, e2⟩ := reviews_results hp cfg _ cases records false fs ans ih.sound (fun r hr => (hrec r hr).1) hnd r1
    obtain ⟨f1, f2⟩ := mapM_raw r2
    refine ⟨hi.sound, hi.snaps, recs_written ?_ (by rw [f1, e1]; exact hnd) ?_ hb⟩
    · intro w hw
      obtain ⟨rec, g1, g2, -⟩ := e2 _ (f2 w hw)
      have := ofFile_clean u fl ho rec g1
      rwa [g2] at this
    · intro w hw
      obtain ⟨rec, g1, g2, r, g3, g4⟩ := e2 _ (f2 w hw)
      have g2 : rec.1 = w.1 := g2
      have g3 : w.2.1 = r := Raw.res.inj g3
      obtain ⟨a1, a2⟩ := (hi.recs records ho).2 rec g1
      rw [g2] at a1 a2
      refine ⟨a1, fun hf => ?_⟩
      rw [g3] at hf ⊢
      rcases g4 with rfl | ⟨g4, g5⟩
      · exact a2 hf
      · obtain ⟨e, text, v, b1, b2, b3, b4, b5⟩ := a2 g4
        refine ⟨e, text, v, b1, b2, b3, b4, Or.inr ?_⟩
        rcases b5 with ⟨b5, -⟩ | b5
        · unfold outputFile at b5
          have g5 : FS.get _ (slot P.root true w.1 ".md".toList) = none := g5
          rw [g5] at b5; cases b5
        · exact b5
  | @forget fs file file' h cases trace evs hr hf hst ih =>
    obtain ⟨old, ho, rfl⟩ := Option.map_eq_some_iff.mp hf
    have hne : Ev.truncate ∉ (forgetRecords old cases).map (Ev.write (fl := fl)) := by
      intro hc
      obtain ⟨q, -, hq⟩ := List.mem_map.mp hc; cases hq
    rcases stops_file hne hst with ⟨-, rfl⟩ | ⟨evs', p, b, -, ⟨q, hq⟩, rfl, hb, -⟩
    · exact ih
    · have hw : writes p ++ writes q = forgetRecords old cases := by
        have := congrArg writes hq
        rwa [writes_append, writes_map] at this
      have hsub : (writes p).Sublist old := by
        refine List.Sublist.trans ?_ (List.filter_sublist (p := fun r : Rec fl => !cases.contains r.1) (l := old))
        have : (writes p).Sublist (forgetRecords old cases) := by rw [← hw]; exact List.sublist_append_left _ _
        exact this
      obtain ⟨a1, a2⟩ := ih.recs old ho
      exact ⟨ih.sound, ih.snaps, recs_written (fun w hw => ofFile_clean u fl ho w (hsub.subset hw))
        ((hsub.map _).nodup a1) (fun w hw => a2 w (hsub.subset hw)) hb⟩
  | @clean fs g file h hr hg hsn ih =>
    refine ⟨hg, fun n hn => known_same (ih.snaps n hn) (hsn n hn), ?_⟩
    intro rs hrs; cases hrs; exact ⟨by simp, by simp⟩
  | @elsewhere fs g file h hr hg hsn ih => exact inv_same ih hg hsn

/-! ### C105 -/

/-- **C105, partial**: after any sequence of commands, each of them complete, left by an exception or killed, a
record that does not say FAIL is about the latest execution of the test, and that execution was brought to its end;
the output file of the test is all that this execution printed and the record is its verdict, or the output has
been accepted: it is the snapshot, and not there as an output any more. -/
theorem C105_record_partial (hp : PlainNames ns) (hS : SoundTree root ns start) {fs : FS} {file : Option Bytes}
    {h : List Execution} (hs : Story root ns u fl start fs file h) {rs : List (Rec fl)}
    (hrs : ofFile u fl file = some rs) {n : Str} (hn : n ∈ ns) {r : Result} {d : fl.D} (hr : (n, r, d) ∈ rs)
    (hf : r ≠ .FAIL) :
    ∃ e text v, latestRun h n = some e ∧ e.finished = true ∧ e.Says text v ∧ v ≠ .FAIL ∧
      ((outputFile root fs n = some (.file text) ∧ r = v) ∨
        (outputFile root fs n = none ∧ snapshot root fs n = some text)) :=
  (((story_inv hp hn hS hs).recs rs hrs).2 _ hr).2 hf

/-- **C105, partial**: after any sequence of commands, reviews included, the snapshot of a test is the one it had
first, or all that one execution of the test printed that did not fail. -/
theorem C105_snapshots_partial (hp : PlainNames ns) (hS : SoundTree root ns start) {fs : FS} {file : Option Bytes}
    {h : List Execution} (hs : Story root ns u fl start fs file h) {n : Str} (hn : n ∈ ns) :
    snapshot root fs n = snapshot root start n ∨ ∃ e ∈ h, e.name = n ∧
      ∃ text v, e.Says text v ∧ v ≠ .FAIL ∧ snapshot root fs n = some text :=
  (story_inv hp hn hS hs).snaps n hn

/-- **C105, partial**: if the snapshot of a test is another one at some moment of `--review`, then it is all that
the latest execution of the test printed; that execution was brought to its end and did not fail, its verdict
is the recorded one, and the settings or the answers accept this verdict. -/
theorem C105_review_partial {P : Project} (hp : PlainNames ns) (hS : SoundTree P.root ns start) {fs g : FS}
    {file : Option Bytes} {h : List Execution} (hs : Story P.root ns u fl start fs file h) {records : List (Rec fl)}
    (ho : ofFile u fl file = some records) (cfg : Config) (pass : List Str) (cases : Option (List Str))
    (ans : List Str) {k : Nat} {t : Task}
    (hk : stepsOf k (fs, reviewsTask P cfg pass cases records false ans) = some (g, t)) {n : Str} (hn : n ∈ ns)
    (hne : snapshot P.root g n ≠ snapshot P.root fs n) :
    ∃ e text v d l, latestRun h n = some e ∧ e.finished = true ∧ e.Says text v ∧ v ≠ .FAIL ∧
      (n, v, d) ∈ records ∧ l <:+ ans ∧ Accepts cfg v l ∧ snapshot P.root g n = some text := by
  have hi := story_inv hp hn hS hs
  obtain ⟨hnd, hrec⟩ := hi.recs records ho
  obtain ⟨-, h2⟩ := reviews_effect hp hi.sound cfg pass cases (fun r hr => (hrec r hr).1) hnd false ans hk
  rcases h2 n hn with hc | ⟨v, d, hm, ⟨l, hl, ha⟩, text, ho1, ho2, -⟩
  · exact absurd (same_snapshot hc) hne
  · have hv := accepts_not_fail ha
    obtain ⟨e, e1, e2, e3⟩ := taken hi ho hm hv ho1
    refine ⟨e, text, v, d, l, e1, e2, e3, hv, hm, hl, ha, ?_⟩
    rw [snapshot_text, ho2]
    rfl

/-- **C105, partial**: the same for `review` itself, when it comes to its end. -/
theorem C105_reviewed_partial {P : Project} (hp : PlainNames ns) (hS : SoundTree P.root ns start) {fs : FS}
    {file : Option Bytes} {h : List Execution} (hs : Story P.root ns u fl start fs file h)
    {records rs : List (Rec fl)} (ho : ofFile u fl file = some records) (cfg : Config)
    (passed? cases : Option (List Str)) (ans : List Str) {code : Int}
    (hrev : (review fl cfg P.root P.out passed? cases records ans fs).2.1 = some (rs, code)) {n : Str} (hn : n ∈ ns)
    (hne : snapshot P.root (review fl cfg P.root P.out passed? cases records ans fs).1 n ≠ snapshot P.root fs n) :
    ∃ e text v d l, latestRun h n = some e ∧ e.finished = true ∧ e.Says text v ∧ v ≠ .FAIL ∧
      (n, v, d) ∈ records ∧ l <:+ ans ∧ Accepts cfg v l ∧
      snapshot P.root (review fl cfg P.root P.out passed? cases records ans fs).1 n = some text := by
  obtain ⟨raw, r1, -, r3⟩ := review_parts hrev
  rw [r3] at hne ⊢
  obtain ⟨k, hk⟩ := run_steps _ (run_reviews P cfg (passed?.getD (passed records)) cases records false fs ans r1)
  exact C105_review_partial hp hS hs ho cfg _ cases ans hk hn hne

/-! ### Examples -/

private def prints (x : String) : Project where
  u := ascii
  pointErrorPos := false
  refmt := some
  root := ["books".toList]
  tests := fun _ => ⟨⟨[.header "# t".toList, .tln x.toList], none⟩, [], [], none⟩

private theorem empty_sound (ns : List Str) : SoundTree ["books".toList] ns [([], .dir)] := by
  have g : ∀ p, FS.get [([], .dir)] p = if p = [] then some .dir else none := by
    intro p; rw [get_cons]; rfl
  refine ⟨?_, rfl, ?_, ?_, ?_, ?_, ?_⟩
  · intro p c h; rw [g, if_neg (by simp)] at h; cases h
  · intro n _ o q _ t; rw [g]; split <;> simp
  · intro n _ o x hx _; rw [g, if_neg (slot_ne_nil _ o n (Or.inr hx))]; simp
  · intro n _ o x hx t; rw [g]; split <;> simp
  · decide
  · intro q _ t; rw [g]; split <;> simp

private theorem two_plain : PlainNames ["t/a".toList, "t/b".toList] := by
  refine ⟨?_, ?_⟩
  · intro n hn
    simp only [List.mem_cons, List.not_mem_nil, or_false] at hn
    rcases hn with rfl | rfl
    · exact ⟨by decide, by decide, by decide⟩
    · exact ⟨by decide, by decide, by decide⟩
  · unfold NotNested; decide

/-- A run of `t/a` and `t/b` is killed while `t/b` writes its output. `--review` with the answer `a` accepts the
output of `t/a`. -/
example : PlainNames ["t/a".toList, "t/b".toList] ∧
    SoundTree ["books".toList] ["t/a".toList, "t/b".toList] [([], .dir)] ∧
    ∃ fs file h, Story ["books".toList] ["t/a".toList, "t/b".toList] ascii strokes [([], .dir)] fs file h ∧
      ofFile ascii strokes file = some [("t/a".toList, .DIFF, (0 : Nat))] ∧
      outputFile ["books".toList] fs "t/a".toList = some (.file "# t\n\nx\n".toList) ∧
      snapshot ["books".toList] fs "t/a".toList = none ∧
      ∃ rs code, (review strokes { interactive := true } ["books".toList] (prints "x").out none none
        [("t/a".toList, .DIFF, (0 : Nat))] ["a".toList] fs).2.1 = some (rs, code) ∧
        snapshot ["books".toList] (review strokes { interactive := true } ["books".toList] (prints "x").out none none
          [("t/a".toList, .DIFF, (0 : Nat))] ["a".toList] fs).1 "t/a".toList = some "# t\n\nx\n".toList := by
  refine ⟨two_plain, empty_sound _, ?_⟩
  have key : ∃ c, stepsOf 6 ((runCases (prints "x") {} ["t/a".toList] (mkdirs [([], .dir)] (prints "x").out, [])).1,
      caseTask (prints "x") {} "t/b".toList
        (runCases (prints "x") {} ["t/a".toList] (mkdirs [([], .dir)] (prints "x").out, [])).2
        (fun r q _ => .done (.done r q))) = some c ∧
      outputFile ["books".toList] c.1 "t/a".toList = some (.file "# t\n\nx\n".toList) ∧
      snapshot ["books".toList] c.1 "t/a".toList = none ∧
      ∃ rs code, (review strokes { interactive := true } ["books".toList] (prints "x").out none none
        [("t/a".toList, .DIFF, (0 : Nat))] ["a".toList] c.1).2.1 = some (rs, code) ∧
        snapshot ["books".toList] (review strokes { interactive := true } ["books".toList] (prints "x").out none none
          [("t/a".toList, .DIFF, (0 : Nat))] ["a".toList] c.1).1 "t/a".toList = some "# t\n\nx\n".toList :=
    ⟨_, rfl, rfl, rfl, _, _, rfl, rfl⟩
  obtain ⟨⟨g, t⟩, h1, h2⟩ := key
  refine ⟨g, _, _, .runDuring (fl := strokes) (prints "x") {} (fun _ => (0 : Nat)) ["t/a".toList, "t/b".toList] []
    [.truncate, .exec "t/a".toList (some (.DIFF, .NONE, (0 : Nat))), .write ("t/a".toList, .DIFF, (0 : Nat))]
    [.write ("t/b".toList, .DIFF, (0 : Nat))] "t/b".toList (some (.DIFF, .NONE, (0 : Nat))) 6 t .start rfl (by decide)
    (by unfold CleanName; decide) (by rfl) h1, by rfl, h2⟩

end Verif.Props
