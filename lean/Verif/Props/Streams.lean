import Verif.Spec.Streams

/-! # C84: where messages go during and after a test -/

namespace Verif.Props
open Verif.Py Verif.Model Verif.Spec

variable {render : Option Nat → Str → Str}

private theorem runActs_only {acts : List StreamAct} (h : OnlyWrites acts) {f : Stream} {k : Option Nat} :
    ∀ (s : Streams), s.stderr = some f → s.handlers = [⟨f, k⟩] → f ∉ s.closed →
    (runActs render acts s).1.stderr = some f ∧ (runActs render acts s).1.handlers = [⟨f, k⟩] ∧
    (runActs render acts s).1.closed = s.closed ∧
    (∀ g, (runActs render acts s).1.text g =
      if g = f then s.text g ++ messages (render k) acts else s.text g) := by
  induction acts with
  | nil =>
    intro s h1 h2 h3
    refine ⟨h1, h2, rfl, fun g => ?_⟩
    by_cases hg : g = f
    · rw [if_pos hg]
      exact (List.append_nil _).symm
    · rw [if_neg hg]
      rfl
  | cons a as ih =>
    intro s h1 h2 h3
    have has : OnlyWrites as := fun b hb => h b (List.mem_cons_of_mem _ hb)
    obtain ⟨e, hs, tx, cl⟩ := s
    dsimp only at h1 h2 h3
    subst h1 h2
    have hput : ∀ t, Streams.put ⟨some f, [⟨f, k⟩], tx, cl⟩ f t =
        some ⟨some f, [⟨f, k⟩], fun g => if g = f then tx g ++ t else tx g, cl⟩ := by
      intro t
      simp [Streams.put, h3]
    cases a with
    | err t =>
      have e : runActs render (.err t :: as) ⟨some f, [⟨f, k⟩], tx, cl⟩ =
          runActs render as ⟨some f, [⟨f, k⟩], fun g => if g = f then tx g ++ t else tx g, cl⟩ := by
        simp only [runActs, hput]
      rw [e]
      obtain ⟨a1, a2, a3, a4⟩ := ih has
        ⟨some f, [⟨f, k⟩], fun g => if g = f then tx g ++ t else tx g, cl⟩ rfl rfl h3
      refine ⟨a1, a2, a3, fun g => (a4 g).trans ?_⟩
      by_cases hg : g = f <;> simp [hg, messages]
    | logMsg m =>
      have e : runActs render (.logMsg m :: as) ⟨some f, [⟨f, k⟩], tx, cl⟩ =
          runActs render as ⟨some f, [⟨f, k⟩],
            fun g => if g = f then tx g ++ (render k m ++ "\n".toList) else tx g, cl⟩ := by
        change runActs render as ((Streams.put ⟨some f, [⟨f, k⟩], tx, cl⟩ f _).getD _) = _
        rw [hput]
        rfl
      rw [e]
      obtain ⟨a1, a2, a3, a4⟩ := ih has
        ⟨some f, [⟨f, k⟩], fun g => if g = f then tx g ++ (render k m ++ "\n".toList) else tx g, cl⟩
        rfl rfl h3
      refine ⟨a1, a2, a3, fun g => (a4 g).trans ?_⟩
      by_cases hg : g = f
      · simp only [if_pos hg, messages, List.append_assoc]
      · simp only [if_neg hg]
    | setErr x => exact (h _ List.mem_cons_self).elim
    | setHandlers x => exact (h _ List.mem_cons_self).elim
    | raise =>
      refine ⟨rfl, rfl, rfl, fun g => ?_⟩
      by_cases hg : g = f <;> simp [hg, messages, runActs]
    | interrupt =>
      refine ⟨rfl, rfl, rfl, fun g => ?_⟩
      by_cases hg : g = f <;> simp [hg, messages, runActs]

private theorem runActs_end {acts : List StreamAct} (h : NoInterrupt acts) :
    ∀ s, (runActs render acts s).2 ≠ .interrupted := by
  induction acts with
  | nil => intro s; exact fun x => nomatch x
  | cons a as ih =>
    intro s
    have has : NoInterrupt as := fun hb => h (List.mem_cons_of_mem _ hb)
    cases a with
    | err t =>
      simp only [runActs]
      split
      · exact fun x => nomatch x
      · split
        · exact fun x => nomatch x
        · exact ih has _
    | logMsg m => exact ih has _
    | setErr x => exact ih has _
    | setHandlers x => exact ih has _
    | raise => exact fun x => nomatch x
    | interrupt => exact absurd List.mem_cons_self h

/-- The state in which the body of a test starts. -/
private theorem opened (name : Str) (s : Streams) :
    (streamsOpen (streamsInit name s).1 (streamsInit name s).2).2 =
      { stderr := some (.log name)
        handlers := [⟨.log name, firstFormat s.handlers⟩]
        text := fun g => if g = .log name then [] else s.text g
        closed := s.closed.filter (fun g => g ≠ .log name) } := by
  obtain ⟨e, hs, t, c⟩ := s
  cases hs <;> rfl

private theorem opened_case (name : Str) (s : Streams) :
    (streamsOpen (streamsInit name s).1 (streamsInit name s).2).1 =
      { errFile := .log name, err := some (.log name),
        log := some ⟨.log name, firstFormat s.handlers⟩,
        origHandlers := some s.handlers, origErr := none } := by
  obtain ⟨e, hs, t, c⟩ := s
  cases hs <;> rfl

private theorem case_eq (name : Str) (acts : List StreamAct) (s : Streams) :
    streamsCase render name acts s =
      match runActs render acts
        { stderr := some (.log name)
          handlers := [⟨.log name, firstFormat s.handlers⟩]
          text := fun g => if g = .log name then [] else s.text g
          closed := s.closed.filter (fun g => g ≠ .log name) } with
      | (s', .interrupted) => (s', true)
      | (s', _) => ({ s' with handlers := s.handlers, closed := .log name :: s'.closed }, false) := by
  rw [← opened]
  unfold streamsCase
  dsimp only
  rw [opened_case]
  cases runActs render acts (streamsOpen (streamsInit name s).1 (streamsInit name s).2).2 with
  | mk s' e => cases e <;> rfl

/-- Whatever `sys.stderr` and the log handlers were before: everything that a test writes to
`sys.stderr` or logs (up to the point where it raises) ends up in its log file, in this order, with
nothing else in it.  Log records have the format of the first handler there was.  No other stream
gets any text. -/
theorem C84_log_file (name : Str) (acts : List StreamAct) (h : OnlyWrites acts) (s : Streams) :
    (streamsCase render name acts s).1.text (.log name) =
      messages (render (firstFormat s.handlers)) acts ∧
    ∀ g, g ≠ .log name → (streamsCase render name acts s).1.text g = s.text g := by
  obtain ⟨_, _, _, h4⟩ := runActs_only (render := render) h
    { stderr := some (.log name)
      handlers := [⟨.log name, firstFormat s.handlers⟩]
      text := fun g => if g = .log name then [] else s.text g
      closed := s.closed.filter (fun g => g ≠ .log name) } rfl rfl (by simp)
  rw [case_eq]
  generalize runActs render acts _ = r at h4
  have key : ∀ g, r.1.text g = if g = Stream.log name then
      messages (render (firstFormat s.handlers)) acts else s.text g := by
    intro g
    rw [h4 g]
    by_cases hg : g = .log name <;> simp [hg]
  obtain ⟨s', e⟩ := r
  cases e <;>
    exact ⟨(key _).trans (if_pos rfl), fun g hg => (key g).trans (if_neg hg)⟩

/-- The log handlers after a run of any number of tests are those before it, whatever the tests did
with them and whether they raised an `Exception` or not. -/
theorem C84_handlers (ts : List (Str × List StreamAct)) (h : ∀ t ∈ ts, NoInterrupt t.2) (s : Streams) :
    (streamsRun render ts s).2 = false ∧ (streamsRun render ts s).1.handlers = s.handlers := by
  induction ts generalizing s with
  | nil => exact ⟨rfl, rfl⟩
  | cons t ts ih =>
    have h1 : (streamsCase render t.1 t.2 s).2 = false ∧
        (streamsCase render t.1 t.2 s).1.handlers = s.handlers := by
      have hne := runActs_end (render := render) (h t List.mem_cons_self)
        { stderr := some (.log t.1)
          handlers := [⟨.log t.1, firstFormat s.handlers⟩]
          text := fun g => if g = .log t.1 then [] else s.text g
          closed := s.closed.filter (fun g => g ≠ .log t.1) }
      rw [case_eq]
      generalize runActs render t.2 _ = r at hne
      obtain ⟨s', e⟩ := r
      cases e with
      | interrupted => exact absurd rfl hne
      | _ => exact ⟨rfl, rfl⟩
    have h2 := ih (fun x hx => h x (List.mem_cons_of_mem _ hx)) (streamsCase render t.1 t.2 s).1
    have e : streamsRun render (t :: ts) s = streamsRun render ts (streamsCase render t.1 t.2 s).1 := by
      unfold streamsRun
      rcases hc : streamsCase render t.1 t.2 s with ⟨s', b⟩
      rw [hc] at h1
      obtain rfl : b = false := h1.1
      cases ts <;> rfl
    rw [e]
    exact ⟨h2.1, h2.2.trans h1.2⟩

private theorem streamsRun_snoc (ts : List (Str × List StreamAct)) (h : ∀ t ∈ ts, NoInterrupt t.2)
    (t : Str × List StreamAct) (s : Streams) :
    streamsRun render (ts ++ [t]) s = streamsCase render t.1 t.2 (streamsRun render ts s).1 := by
  induction ts generalizing s with
  | nil =>
    simp only [List.nil_append, streamsRun]
    rcases streamsCase render t.1 t.2 s with ⟨s', b⟩
    cases b <;> rfl
  | cons x xs ih =>
    have h1 := (C84_handlers (render := render) [x] (by simpa using h x List.mem_cons_self) s).1
    simp only [List.cons_append, streamsRun] at h1 ⊢
    rcases hc : streamsCase render x.1 x.2 s with ⟨s', b⟩
    rw [hc] at h1
    cases b with
    | true => cases h1
    | false =>
      simp only
      exact ih (fun y hy => h y (List.mem_cons_of_mem _ hy)) s'

/-- `sys.stderr` is never restored: after every run of at least one test (the last one leaves it
alone) it is the closed log file of the last test, on which every write raises. -/
theorem C84_stderr_refuted (ts : List (Str × List StreamAct)) (name : Str) (acts : List StreamAct)
    (h : ∀ t ∈ ts, NoInterrupt t.2) (ho : OnlyWrites acts) (hn : NoInterrupt acts) (s : Streams) :
    (streamsRun render (ts ++ [(name, acts)]) s).1.stderr = some (.log name) ∧
    ∀ msg, (streamsRun render (ts ++ [(name, acts)]) s).1.put (.log name) msg = none := by
  rw [streamsRun_snoc ts h]
  generalize (streamsRun render ts s).1 = s1
  obtain ⟨h1, _, _, _⟩ := runActs_only (render := render) ho
    { stderr := some (.log name)
      handlers := [⟨.log name, firstFormat s1.handlers⟩]
      text := fun g => if g = .log name then [] else s1.text g
      closed := s1.closed.filter (fun g => g ≠ .log name) } rfl rfl (by simp)
  have hne := runActs_end (render := render) hn
    { stderr := some (.log name)
      handlers := [⟨.log name, firstFormat s1.handlers⟩]
      text := fun g => if g = .log name then [] else s1.text g
      closed := s1.closed.filter (fun g => g ≠ .log name) }
  dsimp only
  rw [case_eq]
  generalize runActs render acts _ = r at h1 hne
  obtain ⟨s', e⟩ := r
  cases e with
  | interrupted => exact absurd rfl hne
  | _ => exact ⟨h1, fun msg => by simp [Streams.put]⟩

/-- Ctrl-C during a test leaves the handlers redirected to the log file, too. -/
theorem C84_interrupt_refuted (name : Str) (acts : List StreamAct) (h : OnlyWrites acts)
    (hr : StreamAct.raise ∉ acts) (s : Streams) :
    (streamsCase render name (acts ++ [.interrupt]) s).2 = true ∧
    (streamsCase render name (acts ++ [.interrupt]) s).1.handlers =
      [⟨.log name, firstFormat s.handlers⟩] := by
  have hend : ∀ (acts : List StreamAct), OnlyWrites acts → StreamAct.raise ∉ acts → ∀ (s : Streams) f k,
      s.stderr = some f → s.handlers = [⟨f, k⟩] → f ∉ s.closed →
      (runActs render (acts ++ [.interrupt]) s).2 = .interrupted := by
    intro acts
    induction acts with
    | nil => intros; rfl
    | cons a as ih =>
      intro h hr s f k h1 h2 h3
      have has : OnlyWrites as := fun b hb => h b (List.mem_cons_of_mem _ hb)
      have hr' : StreamAct.raise ∉ as := fun hb => hr (List.mem_cons_of_mem _ hb)
      obtain ⟨e, hs, tx, cl⟩ := s
      dsimp only at h1 h2 h3
      subst h1 h2
      have hput : ∀ t, Streams.put ⟨some f, [⟨f, k⟩], tx, cl⟩ f t =
          some ⟨some f, [⟨f, k⟩], fun g => if g = f then tx g ++ t else tx g, cl⟩ := by
        intro t
        simp [Streams.put, h3]
      cases a with
      | err t =>
        simp only [List.cons_append, runActs, hput]
        exact ih has hr' _ f k rfl rfl h3
      | logMsg m =>
        change (runActs render (as ++ [.interrupt])
          ((Streams.put ⟨some f, [⟨f, k⟩], tx, cl⟩ f _).getD _)).2 = _
        rw [hput]
        exact ih has hr' _ f k rfl rfl h3
      | setErr x => exact (h _ List.mem_cons_self).elim
      | setHandlers x => exact (h _ List.mem_cons_self).elim
      | raise => exact absurd List.mem_cons_self hr
      | interrupt => rfl
  have ho : OnlyWrites (acts ++ [.interrupt]) := by
    intro a ha
    rcases List.mem_append.mp ha with ha | ha
    · exact h a ha
    · obtain rfl := List.mem_singleton.mp ha
      trivial
  let s0 : Streams :=
    { stderr := some (.log name)
      handlers := [⟨.log name, firstFormat s.handlers⟩]
      text := fun g => if g = .log name then [] else s.text g
      closed := s.closed.filter (fun g => g ≠ .log name) }
  have h1 := hend acts h hr s0 (.log name) _ rfl rfl (by simp [s0])
  have h2 := (runActs_only (render := render) ho s0 (f := .log name) rfl rfl (by simp [s0])).2.1
  rw [case_eq]
  change (match runActs render (acts ++ [StreamAct.interrupt]) s0 with
    | (s', .interrupted) => (s', true)
    | (s', _) => ({ s' with handlers := s.handlers, closed := .log name :: s'.closed }, false)).2 = true ∧
    (match runActs render (acts ++ [StreamAct.interrupt]) s0 with
    | (s', .interrupted) => (s', true)
    | (s', _) => ({ s' with handlers := s.handlers, closed := .log name :: s'.closed }, false)).1.handlers = _
  generalize runActs render (acts ++ [StreamAct.interrupt]) s0 = r at h1 h2
  obtain ⟨s', e⟩ := r
  obtain rfl : e = .interrupted := h1
  exact ⟨rfl, h2⟩

/-- A process with one console handler. -/
private def console : Streams :=
  { stderr := some (.outer 0), handlers := [⟨.outer 0, some 7⟩], text := fun _ => [] }

private def brackets (k : Option Nat) (m : Str) : Str :=
  match k with
  | none => m
  | some _ => "[".toList ++ m ++ "]".toList

/-- Two tests that write, log and raise: their messages are in their log files, the handlers are
restored, and stderr is lost. -/
example :
    let ts := [("a".toList, [StreamAct.err "e1".toList, .logMsg "m1".toList]),
      ("b".toList, [StreamAct.logMsg "m2".toList, .raise, .err "never".toList])]
    let r := streamsRun brackets ts console
    (∀ t ∈ ts, NoInterrupt t.2) ∧ (∀ t ∈ ts, OnlyWrites t.2) ∧
    r.1.text (.log "a".toList) = "e1[m1]\n".toList ∧ r.1.text (.log "b".toList) = "[m2]\n".toList ∧
    r.1.text (.outer 0) = [] ∧ r.1.handlers = console.handlers ∧
    r.1.stderr = some (.log "b".toList) ∧ r.1.put (.log "b".toList) "x".toList = none := by
  refine ⟨?_, ?_, by decide, by decide, by decide, by decide, by decide, by rfl⟩
  · intro t ht
    simp only [List.mem_cons, List.not_mem_nil, or_false] at ht
    rcases ht with rfl | rfl <;> simp [NoInterrupt]
  · intro t ht
    simp only [List.mem_cons, List.not_mem_nil, or_false] at ht
    rcases ht with rfl | rfl <;> simp [OnlyWrites]

end Verif.Props
