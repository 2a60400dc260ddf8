import Verif.Spec.Terminates
import Verif.Lemmas.Tokenizer
import Verif.Lemmas.Repeat
import Verif.Spec.Project

/-! # C100: which tests come to an end -/

namespace Verif.Props
open Verif.Py Verif.Model Verif.Spec Verif.Lemmas

/-- `f` returns exactly if `P` holds, in every state. -/
private def Ends (f : St → Option St) (P : Prop) : Prop := ∀ s, (f s).isSome ↔ P

private theorem Ends.iff {f : St → Option St} {P Q : Prop} (h : Ends f P) (hq : P ↔ Q) : Ends f Q :=
  fun s => (h s).trans hq

private theorem Ends.bind {f g : St → Option St} {P Q : Prop} (hf : Ends f P) (hg : Ends g Q) :
    Ends (fun s => f s >>= g) (P ∧ Q) := by
  intro s
  have h1 := hf s
  cases h : f s with
  | none => rw [h] at h1; simp at h1; simp [h, h1]
  | some s' =>
    rw [h] at h1; simp at h1
    have h2 : (f s >>= g) = g s' := by rw [h]; rfl
    change (f s >>= g).isSome ↔ _
    rw [h2, hg s']; simp [h1]

private theorem Ends.pre {g : St → Option St} {P : Prop} (hg : Ends g P) (f : St → St) :
    Ends (fun s => g (f s)) P := fun s => hg (f s)

private theorem Ends.foldMem {α : Type} {f : α → St → Option St} {P : α → Prop}
    (l : List α) (h : ∀ a ∈ l, Ends (f a) (P a)) :
    Ends (fun s => l.foldlM (fun s a => f a s) s) (∀ a ∈ l, P a) := by
  induction l with
  | nil => intro s; simp
  | cons a as ih =>
    intro s
    have := (h a (by simp)).bind (ih (fun b hb => h b (by simp [hb]))) s
    simp only [List.foldlM_cons, List.forall_mem_cons]
    exact this

private theorem Ends.fold {α : Type} {f : α → St → Option St} {P : α → Prop}
    (h : ∀ a, Ends (f a) (P a)) (l : List α) :
    Ends (fun s => l.foldlM (fun s a => f a s) s) (∀ a ∈ l, P a) :=
  Ends.foldMem l (fun a _ => h a)

variable (e : Env)

private theorem ends_feed (x : Str) (c : Bool) : Ends (fun s => feed e s x c) (NulFree x) := by
  intro s
  unfold feed NulFree
  rw [Option.isSome_map]
  exact tokenize_isSome_iff e.u

private theorem nulFree_nil : NulFree [] := by simp [NulFree]
private theorem nulFree_newline : NulFree ['\n'] := by unfold NulFree; decide
private theorem nulFree_append {a b : Str} : NulFree (a ++ b) ↔ NulFree a ∧ NulFree b := by
  simp [NulFree, not_or]
private theorem nulFree_cons {c : Char} {b : Str} (hc : '\x00' ≠ c) : NulFree (c :: b) ↔ NulFree b := by
  simp [NulFree, hc]

private theorem ends_t (x : Str) : Ends (opT e x) (NulFree x) := ends_feed e x true
private theorem ends_i (x : Str) : Ends (opI e x) (NulFree x) := ends_feed e x false

private theorem ends_tln (x : Str) : Ends (opTln e x) (NulFree x) :=
  ((ends_feed e x true).bind (ends_feed e ['\n'] true)).iff
    (and_iff_left nulFree_newline)

private theorem ends_iln (x : Str) : Ends (opIln e x) (NulFree x) :=
  ((ends_feed e x false).bind (ends_feed e ['\n'] false)).iff
    (and_iff_left nulFree_newline)

private theorem ends_anchor (x : Str) : Ends (opAnchor e x) (NulFree x) :=
  (ends_t e x).pre (seekPrefix e x)

private theorem ends_anchorln (x : Str) : Ends (opAnchorln e x) (NulFree x) :=
  (ends_tln e x).pre (seekLine e x 0 none)

private theorem ends_header (x : Str) : Ends (opHeader e x) (NulFree x) :=
  (((ends_anchorln e x).bind (ends_tln e [])).pre (fun s => if 0 < s.lineNumber then
      feedToken e s ['\n'] (s.lastChecked && s.expLine.isSome) else s)).iff
    (and_iff_left nulFree_nil)

private theorem ends_assertln (c : Bool) (m : Option Str) :
    Ends (opAssertln e c m) (∀ y ∈ (if c then [] else m.toList), NulFree y) := by
  intro s
  unfold opAssertln
  cases c with
  | true =>
    rw [if_pos rfl, ends_iln e _ s]
    simp only [if_true, List.not_mem_nil, false_implies, implies_true, iff_true]
    unfold NulFree; decide
  | false =>
    rw [if_neg (by simp)]
    match m with
    | some (c :: cs) =>
      dsimp only
      rw [ends_iln e _ _]; simp
    | some [] =>
      dsimp only
      rw [ends_iln e _ _]
      simp [nulFree_nil]
      unfold NulFree; decide
    | none =>
      dsimp only
      rw [ends_iln e _ _]
      simp
      unfold NulFree; decide

private theorem ends_must (x : Str) (c : Bool) (m : Option Str) :
    Ends (opMust e x c m) (∀ y ∈ x :: (if c then [] else m.toList), NulFree y) := by
  refine ((ends_i e _).bind (ends_assertln e c m)).iff ?_
  rw [List.forall_mem_cons, nulFree_append, nulFree_append]
  have h1 : NulFree " * MUST ".toList := by unfold NulFree; decide
  have h2 : NulFree "...".toList := by unfold NulFree; decide
  simp only [h1, h2, true_and, and_true]

private theorem ends_tlist (is : List Str) (p : Str) :
    Ends (opTlist e is p) (∀ y ∈ is.map (p ++ ·), NulFree y) := by
  refine (Ends.fold (fun i => ends_tln e (p ++ i)) is).iff ?_
  simp

private theorem ends_tsetItems (p : Str) (a b : Nat) (is : List Str) (r : St × List Str) :
    (tsetItems e p a b is r).isSome ↔ ∀ i ∈ is, NulFree (p ++ i) := by
  induction is generalizing r with
  | nil => simp [tsetItems]
  | cons i is ih =>
    obtain ⟨s, cmp⟩ := r
    rw [List.forall_mem_cons]
    unfold tsetItems
    generalize (if i ∈ cmp then (seekLine e (p ++ i) a (some b) s, cmp.erase i)
      else (diff s, cmp)) = q
    obtain ⟨s1, c1⟩ := q
    dsimp only
    have h1 := ends_iln e (p ++ i) s1
    cases h : opIln e (p ++ i) s1 with
    | none => rw [h] at h1; simp at h1; simp [h1]
    | some s2 =>
      rw [h] at h1; simp at h1
      change (tsetItems e p a b is (s2, c1)).isSome ↔ _
      rw [ih]; simp [h1]

private theorem ends_tset (is : List Str) (p : Str) :
    Ends (opTset e is p) (∀ y ∈ is.map (p ++ ·), NulFree y) := by
  intro s
  have hm : (∀ y ∈ is.map (p ++ ·), NulFree y) ↔ ∀ i ∈ is, NulFree (p ++ i) := by simp
  rw [hm]
  unfold opTset
  split
  · generalize tsetScan e p e.fuel s [] = q
    obtain ⟨s1, c1⟩ := q
    dsimp only
    have h1 := ends_tsetItems e p s.expLineNumber s1.expLineNumber is (s1, c1)
    cases h : tsetItems e p s.expLineNumber s1.expLineNumber is (s1, c1) with
    | none => rw [h] at h1; simpa using h1
    | some q =>
      rw [h] at h1
      obtain ⟨s2, c2⟩ := q
      simpa using h1
  · exact Ends.fold (fun i => ends_iln e (p ++ i)) is s

private theorem ends_keyvalueln (k v : Str) :
    Ends (opKeyvalueln e k v) (∀ y ∈ [k, v], NulFree y) := by
  refine ((ends_anchor e k).bind (ends_tln e (' ' :: v))).iff ?_
  rw [nulFree_cons (by decide)]
  simp

private theorem ends_ifloatln (he : PlainNumbers e) (x : Str) (un : Option Str) :
    Ends (opIfloatln e x un) (∀ y ∈ x :: un.toList, NulFree y) := by
  intro s
  let post : Str := match un with
    | some x => ' ' :: x
    | none => []
  have hpost : NulFree post ↔ ∀ y ∈ un.toList, NulFree y := by
    cases un with
    | none => simp [post, nulFree_nil]
    | some y => simp [post, nulFree_cons (show '\x00' ≠ ' ' by decide)]
  rw [List.forall_mem_cons, ← hpost, ← nulFree_append]
  have h1 := ends_i e (x ++ post) s
  change (opI e (x ++ post) s >>= fun s' => match (headExpToken s).bind e.refmt with
    | some o => opIln e (" (was ".toList ++ o ++ post ++ ")".toList) s'
    | none => opIln e [] s').isSome ↔ _
  cases h : opI e (x ++ post) s with
  | none => rw [h] at h1; simpa using h1
  | some s' =>
    rw [h] at h1; simp at h1
    simp only [h1, iff_true]
    cases ho : (headExpToken s).bind e.refmt with
    | none => exact (ends_iln e [] s').mpr nulFree_nil
    | some o =>
      refine (ends_iln e _ s').mpr ?_
      obtain ⟨t, -, ht⟩ := Option.bind_eq_some_iff.mp ho
      rw [nulFree_append, nulFree_append, nulFree_append]
      exact ⟨⟨⟨by unfold NulFree; decide, he _ _ ht⟩, (nulFree_append.mp h1).2⟩,
        by unfold NulFree; decide⟩

private theorem ends_tmsln (he : PlainNumbers e) (over : Bool) (f x : Str) :
    Ends (opTmsln e over f x) (∀ y ∈ (if over then [f] else [x]), NulFree y) := by
  intro s
  unfold opTmsln
  cases over with
  | true => rw [if_pos rfl, ends_tln e f _]; simp
  | false =>
    rw [if_neg (by simp), ends_ifloatln e he x _ s]
    have : NulFree "ms".toList := by unfold NulFree; decide
    simp only [Option.toList, List.forall_mem_cons, this, List.not_mem_nil, false_implies, implies_true,
      and_true, Bool.false_eq_true, if_false]

private theorem nul_dropWhile {p : Char → Bool} (hp : p '\x00' = false) (x : Str) :
    '\x00' ∈ x.dropWhile p ↔ '\x00' ∈ x := by
  induction x with
  | nil => simp
  | cons c cs ih =>
    rw [List.dropWhile_cons]
    split
    · rename_i hc
      rw [ih, List.mem_cons, or_iff_right]
      rintro rfl; rw [hp] at hc; cases hc
    · rfl

private theorem nulFree_cell (x : Str) : NulFree (cellText e.u x) ↔ NulFree x := by
  have hmap : ∀ (c : Char) (z : Str), c ≠ '\x00' →
      ('\x00' ∈ z.map (fun d => if d = c then ' ' else d) ↔ '\x00' ∈ z) := by
    intro c z hc
    simp only [List.mem_map]
    constructor
    · rintro ⟨d, hd, h⟩
      split at h
      · cases h
      · rw [← h]; exact hd
    · intro h
      exact ⟨'\x00', h, if_neg (fun h' => hc h'.symm)⟩
  unfold NulFree cellText strip
  refine not_congr ?_
  simp only [List.mem_reverse, nul_dropWhile e.u.nul_not_space]
  rw [hmap _ _ (by decide), hmap _ _ (by decide)]

private theorem nulFree_replicate (n : Nat) {c : Char} (h : '\x00' ≠ c) :
    NulFree (List.replicate n c) := by
  unfold NulFree; rw [List.mem_replicate]; rintro ⟨-, h'⟩; exact h h'

private theorem ends_cell (rows : Nat) (c : Str × List Str) (i : Nat) :
    Ends (opCell e rows c i) (NulFree (c.2.getD i [])) := by
  have hbar : NulFree ['|'] := by unfold NulFree; decide
  refine ((ends_t e _).bind ((ends_i e _).bind (ends_t e ['|']))).iff ?_
  rw [nulFree_cell]
  exact and_iff_left ⟨nulFree_replicate _ (by decide), hbar⟩

private theorem ends_row (tb : Table) (i : Nat) :
    Ends (opRow e tb i) (∀ c ∈ tb.cols, NulFree (c.2.getD i [])) := by
  have hbar : NulFree ['|'] := by unfold NulFree; decide
  refine ((ends_t e ['|']).bind ((Ends.fold (fun c => ends_cell e tb.rows c i) tb.cols).bind
    (ends_tln e []))).iff ?_
  simp only [hbar, nulFree_nil, true_and, and_true]

private theorem nulFree_headRow (tb : Table) :
    NulFree (headRow tb) ↔ ∀ y ∈ tb.cols.map (·.1), NulFree y := by
  unfold headRow
  rw [nulFree_cons (by decide)]
  induction tb.cols with
  | nil => simp [nulFree_nil]
  | cons c cs ih =>
    rw [List.map_cons, List.flatten_cons, nulFree_append, ih, List.map_cons, List.forall_mem_cons,
      nulFree_append]
    have hbar : NulFree ['|'] := by unfold NulFree; decide
    have hl : NulFree (ljust (colPad tb.rows c) c.1) ↔ NulFree c.1 := by
      unfold ljust
      rw [nulFree_append]
      exact and_iff_left (nulFree_replicate _ (by decide))
    rw [hl]
    simp only [hbar, and_true]

private theorem nulFree_sepRow (tb : Table) : NulFree (sepRow tb) := by
  unfold sepRow
  rw [nulFree_cons (by decide)]
  induction tb.cols with
  | nil => exact nulFree_nil
  | cons c cs ih =>
    rw [List.map_cons, List.flatten_cons, nulFree_append, nulFree_append]
    exact ⟨⟨nulFree_replicate _ (by decide), by unfold NulFree; decide⟩, ih⟩

private theorem ends_tdf (tb : Table) :
    Ends (opTdf e tb) (∀ y ∈ shownTexts (.tdf tb), NulFree y) := by
  refine ((ends_iln e _).bind ((ends_tln e _).bind
    (Ends.fold (fun i => ends_row e tb i) (List.range tb.rows)))).iff ?_
  rw [nulFree_headRow]
  simp only [nulFree_sepRow, true_and, shownTexts, List.mem_append, List.mem_flatMap, List.mem_map]
  constructor
  · rintro ⟨h1, h2⟩ y (h | ⟨c, hc, i, hi, rfl⟩)
    · exact h1 y h
    · exact h2 i hi c hc
  · intro h
    exact ⟨fun y hy => h y (Or.inl hy), fun i hi c hc => h _ (Or.inr ⟨c, hc, i, hi, rfl⟩)⟩

private theorem ends_exec (o : Op) (he : QuotesNumber o → PlainNumbers e) :
    Ends (o.exec e) (∀ y ∈ shownTexts o, NulFree y) := by
  cases o with
  | t x => exact (ends_t e x).iff (by simp [shownTexts])
  | i x => exact (ends_i e x).iff (by simp [shownTexts])
  | tln x => exact (ends_tln e x).iff (by simp [shownTexts])
  | iln x => exact (ends_iln e x).iff (by simp [shownTexts])
  | anchor x => exact (ends_anchor e x).iff (by simp [shownTexts])
  | anchorln x => exact (ends_anchorln e x).iff (by simp [shownTexts])
  | header x => exact (ends_header e x).iff (by simp [shownTexts])
  | diff => intro s; simp [Op.exec, shownTexts]
  | fail => intro s; simp [Op.exec, shownTexts]
  | assertln c m => exact ends_assertln e c m
  | must x c m => exact ends_must e x c m
  | tlist is p => exact ends_tlist e is p
  | tset is p => exact ends_tset e is p
  | keyvalueln k v => exact ends_keyvalueln e k v
  | ifloatln x un => exact ends_ifloatln e (he trivial) x un
  | tmsln o f x => exact ends_tmsln e (he trivial) o f x
  | tdf tb => exact ends_tdf e tb

private theorem ends_handler (m tb : Str) :
    Ends (handler e m tb) (NulFree m ∧ NulFree tb) := by
  refine ((ends_iln e []).bind (((ends_iln e _).bind (ends_iln e tb)).pre Model.fail)).iff ?_
  have h1 : NulFree "test raised exception ".toList := by unfold NulFree; decide
  have h2 : NulFree [':'] := by unfold NulFree; decide
  rw [nulFree_append, nulFree_append]
  simp only [nulFree_nil, h1, h2, true_and, and_true]

/-- **C100.** A test comes to an end exactly if no text that it prints, and no exception that it
raises, contains a NUL character: whatever the snapshot is, and whatever calls of the testing API the
test makes. -/
theorem C100_terminates (x : Test) (he : (∃ o ∈ x.ops, QuotesNumber o) → PlainNumbers e) :
    (∃ s, runTest e x = some s) ↔ NulFreeTest x := by
  rw [← Option.isSome_iff_exists]
  unfold runTest execAll NulFreeTest raisedTexts
  have hops := Ends.foldMem x.ops (fun o ho => ends_exec e o (fun hq => he ⟨o, ho, hq⟩))
  cases hr : x.raises with
  | none =>
    dsimp only
    rw [show (do let s ← x.ops.foldlM (fun s o => o.exec e s) (start e); some s) =
      x.ops.foldlM (fun s o => o.exec e s) (start e) by
        cases x.ops.foldlM (fun s o => o.exec e s) (start e) <;> rfl]
    rw [hops (start e)]; simp
  | some r =>
    obtain ⟨m, tb⟩ := r
    dsimp only
    refine (hops.bind (ends_handler e m tb) (start e)).trans ?_
    simp

/-- **C100.** A single call comes to an end exactly if the texts that it prints contain no NUL
character, in every state of the test. -/
theorem C100_call (o : Op) (he : QuotesNumber o → PlainNumbers e) (s : St) :
    (∃ s', o.exec e s = some s') ↔ ∀ y ∈ shownTexts o, NulFree y := by
  rw [← Option.isSome_iff_exists]
  exact ends_exec e o he s

private def plainEnv : Env := { u := ascii, expFile := some "a\n".toList, pointErrorPos := false, refmt := some }

/-- A test with a table, a set and an exception comes to an end. -/
example : ∃ s, runTest plainEnv ⟨[.header "# a".toList, .tset ["x".toList, "y".toList] " * ".toList,
    .tdf ⟨[("n".toList, ["1".toList, "2".toList])], 2⟩], some ("boom".toList, "tb".toList)⟩ = some s := by
  rw [C100_terminates]
  · unfold NulFreeTest NulFree; decide
  · rintro ⟨o, ho, hq⟩
    simp only [List.mem_cons, List.not_mem_nil, or_false] at ho
    rcases ho with rfl | rfl | rfl <;> exact hq.elim

/-- A cell with a NUL character makes a test wait for ever. -/
example : ¬ ∃ s, runTest plainEnv ⟨[.tln "a".toList, .tdf ⟨[("n".toList, ["1\x00".toList])], 1⟩], none⟩ =
    some s := by
  rw [C100_terminates]
  · unfold NulFreeTest NulFree; decide
  · rintro ⟨o, ho, hq⟩
    simp only [List.mem_cons, List.not_mem_nil, or_false] at ho
    rcases ho with rfl | rfl <;> exact hq.elim

/-- The numbers need a hypothesis: only an environment that formats a number with a NUL character
keeps `ifloatln` from coming to an end. -/
example : PlainNumbers { plainEnv with refmt := fun x => if x = "1".toList then some "1.000".toList else none } := by
  intro x y h
  dsimp only at h
  split at h
  · rw [← Option.some.inj h]; unfold NulFree; decide
  · cases h

private theorem pieces_nulFree {u : Unicode} {ps ts : _} (h : pieceToks u ps = some ts) :
    ∀ p ∈ ps, NulFree p := by
  induction ps generalizing ts with
  | nil => simp
  | cons p ps ih =>
    simp only [pieceToks, Option.bind_eq_bind, Option.bind_eq_some_iff] at h
    obtain ⟨a, ha, b, hb, -⟩ := h
    rw [List.forall_mem_cons]
    exact ⟨nul_free_of_tokenize u ha, ih hb⟩

private theorem texts_nulFree {u : Unicode} {b a : Str} {o : Op} (hr : Repeats b a o)
    (h : ∀ p ∈ pieces u o, NulFree p) : ∀ y ∈ shownTexts o, NulFree y := by
  cases o with
  | t x => exact h
  | i x => exact h
  | tln x => exact fun y hy => h y (by simp only [shownTexts, List.mem_singleton] at hy; simp [pieces, hy])
  | iln x => exact fun y hy => h y (by simp only [shownTexts, List.mem_singleton] at hy; simp [pieces, hy])
  | anchor x => exact h
  | anchorln x => exact fun y hy => h y (by simp only [shownTexts, List.mem_singleton] at hy; simp [pieces, hy])
  | header x => exact fun y hy => h y (by simp only [shownTexts, List.mem_singleton] at hy; simp [pieces, hy])
  | diff => exact hr.elim
  | fail => exact hr.elim
  | assertln c m => cases (show c = true from hr); simp [shownTexts]
  | must x c m =>
    cases (show c = true from hr)
    have := h _ (List.mem_cons_self ..)
    rw [nulFree_append, nulFree_append] at this
    simpa [shownTexts] using this.1.2
  | tlist is p =>
    simp only [shownTexts, List.mem_map, forall_exists_index, and_imp]
    rintro _ i hi rfl
    exact h _ (List.mem_flatMap.mpr ⟨i, hi, by simp⟩)
  | tset is p =>
    simp only [shownTexts, List.mem_map, forall_exists_index, and_imp]
    rintro _ i hi rfl
    exact h _ (List.mem_flatMap.mpr ⟨i, hi, by simp⟩)
  | keyvalueln k v =>
    have h1 := h k (by simp [pieces])
    have h2 := h (' ' :: v) (by simp [pieces])
    rw [nulFree_cons (by decide)] at h2
    simp [shownTexts, h1, h2]
  | ifloatln x un => exact hr.elim
  | tmsln o f x => exact hr.elim
  | tdf tb =>
    intro y hy
    simp only [shownTexts, List.mem_append, List.mem_flatMap, List.mem_map] at hy
    rcases hy with ⟨c, hc, rfl⟩ | ⟨c, hc, i, hi, rfl⟩
    · have h1 := h _ (List.mem_append_left _ (List.mem_cons_self ..))
      refine (nulFree_headRow tb).mp ?_ _ (List.mem_map.mpr ⟨c, hc, rfl⟩)
      rw [headRow_eq]; exact h1
    · have h1 := h (cellShown u (c.2.getD i [])) (by
        refine List.mem_append_right _ (List.mem_flatMap.mpr ⟨i, hi, ?_⟩)
        refine List.mem_append_left _ (List.mem_cons_of_mem _ (List.mem_flatMap.mpr ⟨c, hc, by simp⟩)))
      rw [← cellText_eq] at h1
      exact (nulFree_cell ⟨u, none, false, fun _ => none⟩ _).mp h1

/-- **C100.** A test that can be repeated comes to an end. -/
theorem C100_repeatable {x : Test} (hx : RepeatableTest e.u x) : ∃ s, runTest e x = some s := by
  obtain ⟨ts, hts, -⟩ := hx.aligned
  have hp := pieces_nulFree hts
  have key : ∀ (ops : List Op) (b : Str), AllRepeat e.u ops b → (∀ p ∈ allPieces e.u ops b, NulFree p) →
      ∀ o ∈ ops, (∀ y ∈ shownTexts o, NulFree y) ∧ ¬ QuotesNumber o := by
    intro ops
    induction ops with
    | nil => simp
    | cons o os ih =>
      intro b hb hq
      rw [List.forall_mem_cons]
      refine ⟨⟨texts_nulFree (u := e.u) hb.1 (fun p hp => hq p ?_), ?_⟩, ih _ hb.2 (fun p hp => hq p ?_)⟩
      · exact List.mem_append_left _ (List.mem_append_right _ hp)
      · have := hb.1
        cases o <;> first | exact fun _ => this | exact fun h => h
      · exact List.mem_append_right _ hp
  have hk := key x.ops [] hx.calls hp
  rw [C100_terminates]
  · refine ⟨fun o ho => (hk o ho).1, ?_⟩
    unfold raisedTexts
    rw [hx.raises]; simp
  · rintro ⟨o, ho, hq⟩
    exact absurd hq (hk o ho).2

end Verif.Props
