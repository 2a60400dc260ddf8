import Verif.Model.Index
import Verif.Spec.Index
import Verif.Lemmas.Selection

/-! # The index of the books (C61) -/

namespace Verif.Props
open Verif.Py Verif.Model Verif.Spec Verif.Lemmas

private theorem unindent_indent (k : Nat) (s : Str) (h : unindent s = (0, s)) :
    unindent (indent k ++ s) = (k, s) := by
  induction k with
  | zero => exact h
  | succ k ih =>
    have : indent (k + 1) ++ s = ' ' :: ' ' :: ' ' :: ' ' :: (indent k ++ s) := by
      unfold indent
      rw [List.replicate_succ, List.flatten_cons]
      rfl
    rw [this, unindent, ih]

private theorem readItem_indent (k : Nat) (s : Str) : readItem (indent k ++ (" * ".toList ++ s)) = some (k, s) := by
  have h0 : unindent (" * ".toList ++ s) = (0, " * ".toList ++ s) := by
    change unindent (' ' :: '*' :: ' ' :: s) = _
    unfold unindent
    rfl
  unfold readItem
  rw [unindent_indent k _ h0]
  rfl

private theorem linkText_eq (a b : Str) (h : ']' ∉ a) : linkText (a ++ ']' :: '(' :: b) = some (a, b) := by
  induction a with
  | nil => simp [linkText]
  | cons c a ih =>
    have hc : c ≠ ']' := fun e => h (by simp [e])
    have : linkText (c :: (a ++ ']' :: '(' :: b)) = (linkText (a ++ ']' :: '(' :: b)).map (fun r => (c :: r.1, r.2)) := by
      rw [linkText]
      intro s hs
      exact absurd hs hc
    rw [List.cons_append, this, ih (fun hm => h (List.mem_cons_of_mem _ hm))]
    rfl

private theorem readLink_link (leaf target : Str) (h : ']' ∉ leaf) :
    readLink ("[".toList ++ (leaf ++ ("](".toList ++ (target ++ ")".toList)))) = some (leaf, target) := by
  change readLink ('[' :: (leaf ++ ']' :: '(' :: (target ++ [')']))) = _
  unfold readLink
  simp only
  rw [linkText_eq _ _ h]
  simp

private theorem readLink_none (s : Str) (h : '[' ∉ s) : readLink s = none := by
  cases s with
  | nil => rfl
  | cons c s =>
    unfold readLink
    split
    · rename_i heq
      injection heq with h1 _
      exact absurd (by simp [h1]) h
    · rfl

private theorem indent_no_newline (k : Nat) : '\n' ∉ indent k := by
  unfold indent
  rw [List.mem_flatten]
  rintro ⟨l, hl, hm⟩
  rw [List.mem_replicate] at hl
  rw [hl.2] at hm
  revert hm
  decide

private theorem split_line (l r : Str) (h : '\n' ∉ l) : split '\n' (l ++ "\n".toList ++ r) = l :: split '\n' r := by
  rw [List.append_assoc]
  exact split_sep '\n' l r h

private theorem read_headings : ∀ (ps : List Str) (stack : List Str) (i : Nat) (r : Str),
    (∀ p ∈ ps, '\n' ∉ p ∧ '[' ∉ p) → i ≤ stack.length →
    ∃ stack', linksOfLines stack (split '\n' (headings i ps ++ r)) = linksOfLines stack' (split '\n' r) ∧
      (ps ≠ [] → stack' = stack.take i ++ ps) ∧ (ps = [] → stack' = stack)
  | [], stack, i, r, _, _ => ⟨stack, rfl, fun h => absurd rfl h, fun _ => rfl⟩
  | p :: ps, stack, i, r, h, hi => by
    have hp := h p List.mem_cons_self
    have hline : headings i (p :: ps) ++ r =
        (indent i ++ (" * ".toList ++ p)) ++ "\n".toList ++ (headings (i + 1) ps ++ r) := by
      rw [headings]; simp only [List.append_assoc]
    have hn : '\n' ∉ indent i ++ (" * ".toList ++ p) := by
      intro hm
      rcases List.mem_append.mp hm with hm | hm
      · exact indent_no_newline i hm
      · rcases List.mem_append.mp hm with hm | hm
        · revert hm; decide
        · exact hp.1 hm
    have hl : (stack.take i ++ [p]).length = i + 1 := by simp [Nat.min_eq_left hi]
    obtain ⟨stack', h1, h2, h3⟩ := read_headings ps (stack.take i ++ [p]) (i + 1) r
      (fun q hq => h q (List.mem_cons_of_mem _ hq)) (by rw [hl]; exact Nat.le_refl _)
    refine ⟨stack', ?_, ?_, fun h => by cases h⟩
    · rw [hline, split_line _ _ hn, linksOfLines, readItem_indent]
      dsimp only
      rw [readLink_none p hp.2]
      exact h1
    · intro _
      by_cases hps : ps = []
      · rw [h3 hps, hps]
      · rw [h2 hps, List.take_of_length_le (by rw [hl]; exact Nat.le_refl _)]
        simp

private theorem commonLength_spec : ∀ (a b : List Str), commonLength a b ≤ a.length ∧ commonLength a b ≤ b.length ∧
    a.take (commonLength a b) = b.take (commonLength a b)
  | [], _ => by simp [commonLength]
  | _ :: _, [] => by simp [commonLength]
  | a :: as, b :: bs => by
    unfold commonLength
    split
    · rename_i e
      obtain ⟨h1, h2, h3⟩ := commonLength_spec as bs
      refine ⟨by simpa using h1, by simpa using h2, ?_⟩
      rw [List.take_succ_cons, List.take_succ_cons, h3, e]
    · simp

private theorem read_loop : ∀ (names : List Str) (domain stack : List Str), (∀ n ∈ names, Linkable n) →
    stack.take domain.length = domain → 
    linksOfLines stack (split '\n' (indexLoop domain names ++ "\n".toList)) =
      names.map (fun n => ((split '/' n).dropLast, (split '/' n).getLastD [], n ++ ".md".toList))
  | [], domain, stack, _, _ => by
    change linksOfLines stack [[], []] = []
    rfl
  | name :: names, domain, stack, hl, hs => by
    obtain ⟨hn1, hn2, hn3⟩ := hl name List.mem_cons_self
    have hparts : ∀ p ∈ split '/' name, ∀ c, c ∉ name → c ∉ p := fun p hp c hc hm =>
      hc ((split_mem '/' name p hp).2 c hm)
    generalize hd : (split '/' name).dropLast = nameDomain
    generalize hlf : (split '/' name).getLastD [] = leaf
    have hleaf : leaf ∈ split '/' name := by
      rw [← hlf, List.getLastD_eq_getLast?, List.getLast?_eq_some_getLast (split_ne_nil _ _)]
      exact List.getLast_mem _
    have hdom : ∀ p ∈ nameDomain, p ∈ split '/' name := fun p hp => by
      rw [← hd] at hp; exact List.dropLast_subset _ hp
    have hdl : domain.length ≤ stack.length := by
      have := congrArg List.length hs
      rw [List.length_take] at this
      omega
    -- the link line
    have hlink : ∀ st : List Str, st.take nameDomain.length = nameDomain →
        linksOfLines st (split '\n' (indent nameDomain.length ++ " * [".toList ++ leaf ++ "](".toList ++ name ++
          ".md)\n".toList ++ indexLoop nameDomain names ++ "\n".toList)) =
        (nameDomain, leaf, name ++ ".md".toList) ::
          names.map (fun n => ((split '/' n).dropLast, (split '/' n).getLastD [], n ++ ".md".toList)) := by
      intro st hst
      have hform : indent nameDomain.length ++ " * [".toList ++ leaf ++ "](".toList ++ name ++
          ".md)\n".toList ++ indexLoop nameDomain names ++ "\n".toList =
          (indent nameDomain.length ++ (" * ".toList ++
            ("[".toList ++ (leaf ++ ("](".toList ++ ((name ++ ".md".toList) ++ ")".toList)))))) ++ "\n".toList ++
            (indexLoop nameDomain names ++ "\n".toList) := by
        simp only [List.append_assoc]
        rfl
      have hno : '\n' ∉ indent nameDomain.length ++ (" * ".toList ++
            ("[".toList ++ (leaf ++ ("](".toList ++ ((name ++ ".md".toList) ++ ")".toList))))) := by
        have h1 := indent_no_newline nameDomain.length
        have h2 := hparts leaf hleaf '\n' hn1
        simp only [List.mem_append, not_or]
        exact ⟨h1, by decide, by decide, h2, by decide, ⟨hn1, by decide⟩, by decide⟩
      rw [hform, split_line _ _ hno, linksOfLines, readItem_indent]
      dsimp only
      rw [readLink_link _ _ (hparts leaf hleaf ']' hn2)]
      dsimp only
      rw [hst, read_loop names nameDomain st (fun n hn => hl n (List.mem_cons_of_mem _ hn)) hst]
    rw [indexLoop, List.map_cons]
    dsimp only
    rw [hd, hlf]
    by_cases hne : nameDomain = domain
    · rw [if_neg (by simpa using hne), List.nil_append]
      exact hlink stack (by rw [hne]; exact hs)
    · rw [if_pos hne]
      obtain ⟨c1, c2, c3⟩ := commonLength_spec nameDomain domain
      generalize commonLength nameDomain domain = cut at c1 c2 c3
      obtain ⟨stack', h1, h2, h3⟩ := read_headings (nameDomain.drop cut) stack cut
        (indent nameDomain.length ++ " * [".toList ++ leaf ++ "](".toList ++ name ++
          ".md)\n".toList ++ indexLoop nameDomain names ++ "\n".toList)
        (fun p hp => by
          have := hdom p (List.mem_of_mem_drop hp)
          exact ⟨hparts p this _ hn1, hparts p this _ hn3⟩)
        (Nat.le_trans c2 hdl)
      have htake : stack.take cut = nameDomain.take cut := by
        rw [c3, ← hs, List.take_take, Nat.min_eq_left c2]
      have hform : "\n".toList ++ headings cut (nameDomain.drop cut) ++ indent nameDomain.length ++
          " * [".toList ++ leaf ++ "](".toList ++ name ++ ".md)\n".toList ++ indexLoop nameDomain names ++
          "\n".toList = [] ++ "\n".toList ++ (headings cut (nameDomain.drop cut) ++ (indent nameDomain.length ++
          " * [".toList ++ leaf ++ "](".toList ++ name ++ ".md)\n".toList ++ indexLoop nameDomain names ++
          "\n".toList)) := by
        simp only [List.append_assoc, List.nil_append]
      rw [hform, split_line _ _ (by simp)]
      rw [linksOfLines]
      have : readItem [] = none := rfl
      rw [this]
      dsimp only
      rw [h1]
      apply hlink
      by_cases hnil : nameDomain.drop cut = []
      · rw [h3 hnil]
        have hcut : cut = nameDomain.length := by
          have := congrArg List.length hnil
          rw [List.length_drop, List.length_nil] at this
          omega
        rw [← hcut, htake, hcut, List.take_length]
      · rw [h2 hnil, htake, List.take_append_drop, List.take_length]

/-- **C61, partial**: reading the index as a nested list gives one link per test, in the order of the tests,
to its snapshot, nested under the parts of its name. The names have no newlines or square brackets. -/
theorem C61_index_partial (names : List Str) (h : ∀ n ∈ names, Linkable n) :
    readIndex (indexText names) =
      names.map (fun n => ((split '/' n).dropLast, (split '/' n).getLastD [], n ++ ".md".toList)) := by
  unfold readIndex indexText
  have hform : "# Books overview:\n".toList ++ indexLoop [] names ++ "\n".toList =
      "# Books overview:".toList ++ "\n".toList ++ (indexLoop [] names ++ "\n".toList) := by
    simp only [List.append_assoc]
    rfl
  rw [hform, split_line _ _ (by decide), linksOfLines]
  have : readItem "# Books overview:".toList = none := rfl
  rw [this]
  exact read_loop names [] [] h rfl

/-- The parts a test is nested under, and the text of its link, are its name. -/
theorem C61_parts (n : Str) : join ['/'] ((split '/' n).dropLast ++ [(split '/' n).getLastD []]) = n := by
  have : (split '/' n).dropLast ++ [(split '/' n).getLastD []] = split '/' n := by
    rw [List.getLastD_eq_getLast?, List.getLast?_eq_some_getLast (split_ne_nil _ _), Option.getD_some]
    exact List.dropLast_concat_getLast _
  rw [this, join_split]

/-- **C61, refuted** for a name with a newline. -/
theorem C61_newline_refuted : readIndex (indexText ["a\nb".toList]) = [] := by
  set_option maxRecDepth 100000 in decide

example : (∀ n ∈ ["a/b/c".toList, "a/d".toList, "e".toList, "a/f".toList], Linkable n) ∧
    readIndex (indexText ["a/b/c".toList, "a/d".toList, "e".toList, "a/f".toList]) =
      [(["a".toList, "b".toList], "c".toList, "a/b/c.md".toList), (["a".toList], "d".toList, "a/d.md".toList),
        ([], "e".toList, "e.md".toList), (["a".toList], "f".toList, "a/f.md".toList)] := by
  refine ⟨by unfold Linkable; decide, ?_⟩
  set_option maxRecDepth 100000 in decide

end Verif.Props
