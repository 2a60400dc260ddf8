import Verif.Lemmas.Fields
import Verif.Spec.CaseRun

/-! # A proof principle for all API calls

A reflexive and transitive relation on states that contains cursor movements, token feeding and
(where the call uses them) the marks contains every API call. -/

namespace Verif.Lemmas
open Verif.Py Verif.Model Verif.Spec

variable (e : Env)

/-- What the tokenizer may deliver: a newline, or a non-empty text without newlines. -/
def Tok (t : Str) : Prop := t = ['\n'] ∨ (t ≠ [] ∧ '\n' ∉ t)

theorem tok_of_tokenize (u : Unicode) {x : Str} {ts : List Str} (h : tokenize u x = some ts) :
    ∀ t ∈ ts, Tok t := by
  intro t ht
  rcases tokenize_newline_free u h t ht with h1 | h1
  · exact Or.inl h1
  · exact Or.inr ⟨tokenize_ne_nil u h t ht, h1⟩

section
variable {R : St → St → Prop} (hrefl : ∀ s, R s s) (htrans : ∀ a b c, R a b → R b c → R a c)
  (hcur : ∀ s, R s (nextExpLine e s)) (hreset : ∀ s, R s (resetExpReader e s))

include hrefl htrans hcur in
theorem whileFuel_rel (c : St → Bool) (n : Nat) (s : St) :
    R s (whileFuel c (nextExpLine e) n s) := by
  induction n generalizing s with
  | zero => exact hrefl s
  | succ n ih =>
    unfold whileFuel
    split
    · exact htrans _ _ _ (hcur s) (ih _)
    · exact hrefl s

include hrefl htrans hcur hreset in
theorem jump_rel (n : Nat) (s : St) : R s (jump e n s) := by
  unfold jump
  split
  · refine htrans _ _ _ ?_ (whileFuel_rel e hrefl htrans hcur _ _ _)
    split
    · exact hreset s
    · exact hrefl s
  · exact hrefl s

include hrefl htrans hcur hreset in
theorem seek_rel (p : Str → Bool) (b : Nat) (x : Option Nat) (s : St) : R s (seek e p b x s) := by
  unfold seek
  split
  · dsimp only
    split
    · exact htrans _ _ _ (htrans _ _ _ (whileFuel_rel e hrefl htrans hcur _ _ _)
        (jump_rel e hrefl htrans hcur hreset _ _)) (whileFuel_rel e hrefl htrans hcur _ _ _)
    · exact whileFuel_rel e hrefl htrans hcur _ _ _
  · exact hrefl s

include hrefl htrans hcur in
theorem tsetScan_rel (pre : Str) (n : Nat) (s : St) (acc : List Str) :
    R s (tsetScan e pre n s acc).1 := by
  induction n generalizing s acc with
  | zero => exact hrefl s
  | succ n ih =>
    unfold tsetScan
    split
    · split
      · exact htrans _ _ _ (hcur s) (ih _ _)
      · exact hrefl s
    · exact hrefl s

include hrefl htrans in
theorem feedTokens_rel {c : Bool} (hfeed : ∀ s t, Tok t → R s (feedToken e s t c)) (ts : List Str)
    (hts : ∀ t ∈ ts, Tok t) (s : St) : R s (feedTokens e s ts c) := by
  induction ts generalizing s with
  | nil => exact hrefl s
  | cons t ts ih =>
    exact htrans _ _ _ (hfeed s t (hts t (by simp))) (ih (fun x hx => hts x (by simp [hx])) _)

include hrefl htrans in
theorem feed_rel {c : Bool} (hfeed : ∀ s t, Tok t → R s (feedToken e s t c)) {x : Str} {s s' : St}
    (h : feed e s x c = some s') : R s s' := by
  simp only [feed, Option.map_eq_some_iff] at h
  obtain ⟨ts, hts, rfl⟩ := h
  exact feedTokens_rel e hrefl htrans hfeed ts (tok_of_tokenize e.u hts) s

include hrefl htrans in
theorem tln_rel (hfeed : ∀ s t, Tok t → R s (feedToken e s t true)) {x : Str} {s s' : St}
    (h : opTln e x s = some s') : R s s' := by
  simp only [opTln, bind, Option.bind_eq_some_iff] at h
  obtain ⟨s1, h1, h2⟩ := h
  exact htrans _ _ _ (feed_rel e hrefl htrans hfeed h1) (feed_rel e hrefl htrans hfeed h2)

include hrefl htrans in
theorem iln_rel (hfeed : ∀ s t, Tok t → R s (feedToken e s t false)) {x : Str} {s s' : St}
    (h : opIln e x s = some s') : R s s' := by
  simp only [opIln, bind, Option.bind_eq_some_iff] at h
  obtain ⟨s1, h1, h2⟩ := h
  exact htrans _ _ _ (feed_rel e hrefl htrans hfeed h1) (feed_rel e hrefl htrans hfeed h2)

include hrefl htrans in
theorem foldlM_rel {α : Type} (f : St → α → Option St) (l : List α)
    (hf : ∀ s a s', a ∈ l → f s a = some s' → R s s') {s s' : St}
    (h : l.foldlM f s = some s') : R s s' := by
  induction l generalizing s with
  | nil => simp at h; subst h; exact hrefl s
  | cons a l ih =>
    simp only [List.foldlM_cons, bind, Option.bind_eq_some_iff] at h
    obtain ⟨s1, h1, h2⟩ := h
    exact htrans _ _ _ (hf s a s1 (by simp) h1)
      (ih (fun s b s' hb => hf s b s' (by simp [hb])) h2)

include hrefl htrans in
theorem ifloatln_rel (hfeed : ∀ s t, Tok t → R s (feedToken e s t false)) {x : Str} {un : Option Str}
    {s s' : St} (h : opIfloatln e x un s = some s') : R s s' := by
  simp only [opIfloatln, bind, Option.bind_eq_some_iff] at h
  obtain ⟨s1, h1, h2⟩ := h
  refine htrans _ _ _ (feed_rel e hrefl htrans hfeed h1) ?_
  split at h2 <;> exact iln_rel e hrefl htrans hfeed h2

include hrefl htrans in
theorem assertln_rel (hfeed : ∀ s t, Tok t → R s (feedToken e s t false)) {c : Bool} {m : Option Str}
    (hfail : c = false → ∀ s, R s (fail s)) {s s' : St} (h : opAssertln e c m s = some s') :
    R s s' := by
  unfold opAssertln at h
  split at h
  · exact iln_rel e hrefl htrans hfeed h
  · rename_i hc
    have hf := hfail (by simpa using hc) s
    split at h <;> exact htrans _ _ _ hf (iln_rel e hrefl htrans hfeed h)

theorem core_tsetScan (pre : Str) (n : Nat) (s : St) (acc : List Str) :
    core (tsetScan e pre n s acc).1 = core s := by
  induction n generalizing s acc with
  | zero => rfl
  | succ n ih =>
    unfold tsetScan
    split
    · split
      · rw [ih, core_nextExpLine]
      · rfl
    · rfl

include hrefl htrans hcur hreset in
theorem tsetItems_rel (hfeed : ∀ s t, Tok t → R s (feedToken e s t false)) (hdiff : ∀ s, R s (diff s))
    (pre : Str) (b x : Nat) (is : List Str) {s s' : St} {c c' : List Str}
    (h : tsetItems e pre b x is (s, c) = some (s', c')) : R s s' := by
  induction is generalizing s c with
  | nil => simp only [tsetItems, Option.some.injEq, Prod.mk.injEq] at h; rw [h.1]; exact hrefl _
  | cons i is ih =>
    simp only [tsetItems, bind, Option.bind_eq_some_iff] at h
    obtain ⟨s1, h1, h2⟩ := h
    have h3 := ih h2
    by_cases hi : i ∈ c
    · simp only [hi, if_true] at h1
      exact htrans _ _ _ (seek_rel e hrefl htrans hcur hreset _ _ _ _)
        (htrans _ _ _ (iln_rel e hrefl htrans hfeed h1) h3)
    · simp only [hi, if_false] at h1
      exact htrans _ _ _ (hdiff _) (htrans _ _ _ (iln_rel e hrefl htrans hfeed h1) h3)

include hrefl htrans hcur hreset in
/-- The proof principle. -/
theorem exec_rel (hfeed : ∀ s t c, Tok t → R s (feedToken e s t c)) (o : Op)
    (hdiff : marksDiff o = true → ∀ s, R s (diff s))
    (hfail : marksError o = true → ∀ s, R s (fail s)) {s s' : St}
    (h : o.exec e s = some s') : R s s' := by
  have ft : ∀ s t, Tok t → R s (feedToken e s t true) := fun s t ht => hfeed s t true ht
  have ff : ∀ s t, Tok t → R s (feedToken e s t false) := fun s t ht => hfeed s t false ht
  have anchorln : ∀ {a s s'}, opAnchorln e a s = some s' → R s s' := by
    intro a s s' h
    exact htrans _ _ _ (seek_rel e hrefl htrans hcur hreset _ _ _ _) (tln_rel e hrefl htrans ft h)
  have anchor : ∀ {a s s'}, opAnchor e a s = some s' → R s s' := by
    intro a s s' h
    exact htrans _ _ _ (seek_rel e hrefl htrans hcur hreset _ _ _ _) (feed_rel e hrefl htrans ft h)
  cases o with
  | t x => exact feed_rel e hrefl htrans ft h
  | i x => exact feed_rel e hrefl htrans ff h
  | tln x => exact tln_rel e hrefl htrans ft h
  | iln x => exact iln_rel e hrefl htrans ff h
  | anchor x => exact anchor h
  | anchorln x => exact anchorln h
  | header x =>
    simp only [Op.exec, opHeader, bind, Option.bind_eq_some_iff] at h
    obtain ⟨s1, h1, h2⟩ := h
    refine htrans _ _ _ ?_ (htrans _ _ _ (anchorln h1) (tln_rel e hrefl htrans ft h2))
    split
    · exact hfeed _ _ _ (Or.inl rfl)
    · exact hrefl _
  | diff => simp only [Op.exec, Option.some.injEq] at h; subst h; exact hdiff rfl s
  | fail => simp only [Op.exec, Option.some.injEq] at h; subst h; exact hfail rfl s
  | assertln c m =>
    exact assertln_rel e hrefl htrans ff (fun hc => hfail (by simp [marksError, hc])) h
  | must x c m =>
    simp only [Op.exec, opMust, bind, Option.bind_eq_some_iff] at h
    obtain ⟨s1, h1, h2⟩ := h
    exact htrans _ _ _ (feed_rel e hrefl htrans ff h1)
      (assertln_rel e hrefl htrans ff (fun hc => hfail (by simp [marksError, hc])) h2)
  | tlist is p =>
    exact foldlM_rel hrefl htrans _ _ (fun s a s' _ h => tln_rel e hrefl htrans ft h) h
  | tset is p =>
    simp only [Op.exec, opTset] at h
    split at h
    · simp only [bind, Option.bind_eq_some_iff] at h
      obtain ⟨⟨s2, c2⟩, h1, h2⟩ := h
      simp only [pure, Option.some.injEq] at h2
      subst h2
      refine htrans _ _ _ (tsetScan_rel e hrefl htrans hcur p e.fuel s []) ?_
      refine htrans _ _ _ (tsetItems_rel e hrefl htrans hcur hreset ff (hdiff rfl) _ _ _ _ h1) ?_
      refine htrans _ _ _ ?_ (jump_rel e hrefl htrans hcur hreset _ _)
      split
      · exact hdiff rfl _
      · exact hrefl _
    · exact foldlM_rel hrefl htrans _ _ (fun s a s' _ h => iln_rel e hrefl htrans ff h) h
  | keyvalueln k v =>
    simp only [Op.exec, opKeyvalueln, bind, Option.bind_eq_some_iff] at h
    obtain ⟨s1, h1, h2⟩ := h
    exact htrans _ _ _ (anchor h1) (tln_rel e hrefl htrans ft h2)
  | ifloatln x un => exact ifloatln_rel e hrefl htrans ff h
  | tmsln over f x =>
    simp only [Op.exec, opTmsln] at h
    split at h
    · rename_i ho
      exact htrans _ _ _ (hfail (by simp [marksError, ho]) s) (tln_rel e hrefl htrans ft h)
    · exact ifloatln_rel e hrefl htrans ff h
  | tdf tb =>
    simp only [Op.exec, opTdf, bind, Option.bind_eq_some_iff] at h
    obtain ⟨s1, h1, s2, h2, h3⟩ := h
    refine htrans _ _ _ (iln_rel e hrefl htrans ff h1)
      (htrans _ _ _ (tln_rel e hrefl htrans ft h2) ?_)
    refine foldlM_rel hrefl htrans _ _ ?_ h3
    intro s i s' _ h
    simp only [opRow, bind, Option.bind_eq_some_iff] at h
    obtain ⟨s3, h4, s4, h5, h6⟩ := h
    refine htrans _ _ _ (feed_rel e hrefl htrans ft h4)
      (htrans _ _ _ ?_ (tln_rel e hrefl htrans ft h6))
    refine foldlM_rel hrefl htrans _ _ ?_ h5
    intro s c s' _ h
    simp only [opCell, bind, Option.bind_eq_some_iff] at h
    obtain ⟨s5, h7, s6, h8, h9⟩ := h
    exact htrans _ _ _ (feed_rel e hrefl htrans ft h7)
      (htrans _ _ _ (feed_rel e hrefl htrans ff h8) (feed_rel e hrefl htrans ft h9))

include hrefl htrans hcur hreset in
theorem execAll_rel (hfeed : ∀ s t c, Tok t → R s (feedToken e s t c)) (os : List Op)
    (hdiff : (∃ o ∈ os, marksDiff o = true) → ∀ s, R s (diff s))
    (hfail : (∃ o ∈ os, marksError o = true) → ∀ s, R s (fail s)) {s s' : St}
    (h : execAll e os s = some s') : R s s' :=
  foldlM_rel hrefl htrans _ _
    (fun _ o _ ho h => exec_rel e hrefl htrans hcur hreset hfeed o
      (fun hd => hdiff ⟨o, ho, hd⟩) (fun hf => hfail ⟨o, ho, hf⟩) h) h

end

end Verif.Lemmas
