import Verif.Spec.Console
import Verif.Lemmas.Lines
import Verif.Lemmas.Run

/-! # Facts about the console report -/

namespace Verif.Lemmas
open Verif.Py Verif.Model Verif.Spec

theorem natText_digit {n : Nat} {c : Char} (h : c ∈ natText n) : c.isDigit = true :=
  Nat.isDigit_of_mem_toDigits (by decide) (by decide) h

theorem natText_no {n : Nat} {c : Char} (hc : c.isDigit = false) : c ∉ natText n := by
  intro h
  rw [natText_digit h] at hc
  cases hc

theorem natText_read (n : Nat) : Nat.ofDigitChars 10 (natText n) 0 = n :=
  Nat.ofDigitChars_toDigits (by decide) (by decide)

/-- Splitting lines gives the lines back. -/
theorem split_lines {ls : List Str} (h : ∀ l ∈ ls, '\n' ∉ l) (rest : Str) :
    split '\n' (lines ls ++ rest) = ls ++ split '\n' rest := by
  induction ls with
  | nil => rfl
  | cons l ls ih =>
    have e : lines (l :: ls) ++ rest = l ++ '\n' :: (lines ls ++ rest) := by
      simp [lines, line]
    rw [e, split_append_sep '\n' l _ (h l (by simp)), ih (fun x hx => h x (by simp [hx]))]
    rfl

theorem lastDots_none {s : Str} (h : '.' ∉ s) : lastDots s = none := by
  induction s with
  | nil => rfl
  | cons c s ih =>
    simp only [List.mem_cons, not_or] at h
    unfold lastDots
    rw [ih h.2]
    simp only
    split
    · exact absurd rfl h.1
    · rfl

theorem lastDots_append {name rest : Str} (h : '.' ∉ rest) :
    lastDots (name ++ ('.' :: '.' :: rest)) = some (name, rest) := by
  have h0 : lastDots ('.' :: rest) = none := by
    unfold lastDots
    rw [lastDots_none h]
    cases rest with
    | nil => rfl
    | cons c r =>
      simp only [List.mem_cons, not_or] at h
      simp only
      split
      · rename_i heq _
        simp_all
      · rfl
  induction name with
  | nil =>
    rw [List.nil_append]
    unfold lastDots
    rw [h0]
    rfl
  | cons c s ih =>
    rw [List.cons_append]
    unfold lastDots
    rw [ih]

/-- The line of a test in the plain report. -/
def plainLine (name : Str) (r : Result) (ms : Nat) : Str :=
  "  ".toList ++ name ++ "..".toList ++ (match r with
    | .OK => natText ms ++ " ms".toList
    | .DIFF => "DIFFERED in ".toList ++ natText ms ++ " ms".toList
    | .FAIL => "FAILED in ".toList ++ natText ms ++ " ms".toList)

theorem caseLine_plain (name : Str) (r : Result) (ms : Nat) :
    caseBegin name none false ++ caseResult name (.res r) ms false = line (plainLine name r ms) := by
  cases r <;> simp [caseBegin, caseResult, plainLine, line]

theorem plainLine_newline {name : Str} {r : Result} {ms : Nat} (h : '\n' ∉ name) :
    '\n' ∉ plainLine name r ms := by
  have hd : '\n' ∉ natText ms := natText_no (by decide)
  cases r <;> simp [plainLine, h, hd]

theorem readCase_plain (name : Str) (r : Result) (ms : Nat) :
    readCase (plainLine name r ms) = some (name, r) := by
  have hd : '.' ∉ natText ms := natText_no (by decide)
  have key : ∀ (rest : Str), '.' ∉ rest → readCase ("  ".toList ++ name ++ "..".toList ++ rest) =
      some (name, if startsWith rest "DIFFERED in ".toList then .DIFF
        else if startsWith rest "FAILED in ".toList then .FAIL else .OK) := by
    intro rest hr
    have e : "  ".toList ++ name ++ "..".toList ++ rest = ' ' :: ' ' :: (name ++ ('.' :: '.' :: rest)) := by
      simp
    rw [e]
    simp only [readCase, lastDots_append hr]
  unfold plainLine
  cases r with
  | OK =>
    rw [key _ (by simp [hd])]
    have h1 : startsWith (natText ms ++ " ms".toList) "DIFFERED in ".toList = false := by
      rw [Bool.eq_false_iff]
      intro hc
      have hp := List.isPrefixOf_iff_prefix.mp hc
      cases hn : natText ms with
      | nil => rw [hn] at hp; exact absurd (List.isPrefixOf_iff_prefix.mpr hp) (by decide)
      | cons c cs =>
        rw [hn] at hp
        obtain ⟨t, ht⟩ := hp
        have : c = 'D' := (List.cons.inj ht).1.symm
        have hdig := natText_digit (n := ms) (c := c) (by rw [hn]; simp)
        rw [this] at hdig
        exact absurd hdig (by decide)
    have h2 : startsWith (natText ms ++ " ms".toList) "FAILED in ".toList = false := by
      rw [Bool.eq_false_iff]
      intro hc
      have hp := List.isPrefixOf_iff_prefix.mp hc
      cases hn : natText ms with
      | nil => rw [hn] at hp; exact absurd (List.isPrefixOf_iff_prefix.mpr hp) (by decide)
      | cons c cs =>
        rw [hn] at hp
        obtain ⟨t, ht⟩ := hp
        have : c = 'F' := (List.cons.inj ht).1.symm
        have hdig := natText_digit (n := ms) (c := c) (by rw [hn]; simp)
        rw [this] at hdig
        exact absurd hdig (by decide)
    simp only [h1, h2]
    rfl
  | DIFF =>
    rw [key _ (by simp [hd])]
    have h1 : startsWith ("DIFFERED in ".toList ++ natText ms ++ " ms".toList) "DIFFERED in ".toList = true := by
      rw [List.append_assoc]
      exact List.isPrefixOf_iff_prefix.mpr (List.prefix_append _ _)
    rw [if_pos h1]
  | FAIL =>
    rw [key _ (by simp [hd])]
    have h1 : startsWith ("FAILED in ".toList ++ natText ms ++ " ms".toList) "DIFFERED in ".toList = false := rfl
    have h2 : startsWith ("FAILED in ".toList ++ natText ms ++ " ms".toList) "FAILED in ".toList = true := by
      rw [List.append_assoc]
      exact List.isPrefixOf_iff_prefix.mpr (List.prefix_append _ _)
    rw [if_neg (by rw [h1]; decide), if_pos h2]

theorem readSummary_eq (a b t : Nat) (word : Str) (ok : Bool)
    (hw : (word = "failed".toList ∧ ok = false) ∨ (word = "succeeded".toList ∧ ok = true)) (post : Str) :
    readSummary (natText a ++ "/".toList ++ natText b ++ " test ".toList ++ word ++ " in ".toList ++
      natText t ++ post) = ((a, b), ok) := by
  have h1 : ∀ c ∈ natText a, (decide (c ≠ '/')) = true := by
    intro c hc
    simp only [decide_eq_true_eq]
    rintro rfl
    exact natText_no (by decide) hc
  have h2 : ∀ c ∈ natText b, (decide (c ≠ ' ')) = true := by
    intro c hc
    simp only [decide_eq_true_eq]
    rintro rfl
    exact natText_no (by decide) hc
  have e : natText a ++ "/".toList ++ natText b ++ " test ".toList ++ word ++ " in ".toList ++
      natText t ++ post = natText a ++ '/' :: (natText b ++ ' ' :: ("test ".toList ++ word ++ " in ".toList ++
      natText t ++ post)) := by
    simp
  rw [e]
  unfold readSummary
  dsimp only
  rw [List.takeWhile_append_of_pos h1, List.dropWhile_append_of_pos h1]
  have e1 : (('/' :: (natText b ++ ' ' :: ("test ".toList ++ word ++ " in ".toList ++ natText t ++ post))).takeWhile
      (fun x => decide (x ≠ '/'))) = [] := by simp
  have e2 : (('/' :: (natText b ++ ' ' :: ("test ".toList ++ word ++ " in ".toList ++ natText t ++ post))).dropWhile
      (fun x => decide (x ≠ '/'))).drop 1 =
        natText b ++ ' ' :: ("test ".toList ++ word ++ " in ".toList ++ natText t ++ post) := by simp
  rw [e1, e2, List.takeWhile_append_of_pos h2, List.dropWhile_append_of_pos h2]
  have e3 : ((' ' :: ("test ".toList ++ word ++ " in ".toList ++ natText t ++ post)).takeWhile
      (fun x => decide (x ≠ ' '))) = [] := by simp
  have e4 : ((' ' :: ("test ".toList ++ word ++ " in ".toList ++ natText t ++ post)).dropWhile
      (fun x => decide (x ≠ ' '))) = ' ' :: ("test ".toList ++ word ++ " in ".toList ++ natText t ++ post) := by
    simp
  rw [e3, e4, List.append_nil, List.append_nil, natText_read, natText_read]
  rcases hw with ⟨rfl, rfl⟩ | ⟨rfl, rfl⟩
  · rfl
  · rfl

/-- The lines of the summary. -/
def endLines (failed : List Str) (tests took : Nat) : List Str :=
  [] :: (if failed.length > 0 then
    (natText failed.length ++ "/".toList ++ natText tests ++ " test failed in ".toList ++
      natText took ++ " ms:".toList) :: [] :: failed.map ("  ".toList ++ ·)
  else [natText tests ++ "/".toList ++ natText tests ++ " test succeeded in ".toList ++
      natText took ++ " ms".toList]) ++ [[]]

theorem endReport_lines (failed : List Str) (tests took : Nat) :
    endReport failed tests took = lines (endLines failed tests took) := by
  unfold endReport endLines
  split <;> simp [lines]

theorem endLines_newline {failed : List Str} (h : ∀ n ∈ failed, '\n' ∉ n) (tests took : Nat) :
    ∀ l ∈ endLines failed tests took, '\n' ∉ l := by
  have hd : ∀ n, '\n' ∉ natText n := fun n => natText_no (by decide)
  intro l hl
  unfold endLines at hl
  split at hl
  · simp only [List.cons_append, List.mem_cons, List.mem_append, List.mem_map,
      List.not_mem_nil, or_false] at hl
    rcases hl with rfl | rfl | rfl | ⟨n, hn, rfl⟩ | rfl <;> simp [hd]
    exact h n hn
  · simp only [List.cons_append, List.mem_cons, List.mem_append,
      List.not_mem_nil, or_false] at hl
    rcases hl with rfl | rfl | hl | rfl <;> simp_all [hd]

theorem plainLine_ne (n : Str) (r : Result) (ms : Nat) : plainLine n r ms ≠ [] := by
  simp [plainLine]

/-- What can be read from a plain report. -/
theorem readReport_plain (cs : List (Str × Result × Nat)) (failed : List Str) (tests took : Nat)
    (hc : ∀ c ∈ cs, '\n' ∉ c.1) (hf : ∀ n ∈ failed, '\n' ∉ n) :
    readReport (startReport ++ lines (cs.map (fun c => plainLine c.1 c.2.1 c.2.2)) ++
      endReport failed tests took) =
    ⟨cs.map (fun c => (c.1, c.2.1)),
      (if failed = [] then tests else failed.length, tests), decide (failed = []), failed⟩ := by
  have e : startReport ++ lines (cs.map (fun c => plainLine c.1 c.2.1 c.2.2)) ++ endReport failed tests took =
      lines ([[], "# test results:".toList, []] ++ cs.map (fun c => plainLine c.1 c.2.1 c.2.2) ++
        endLines failed tests took) ++ [] := by
    rw [endReport_lines, List.append_nil]
    simp [lines, startReport]
  have hnl : ∀ l ∈ [[], "# test results:".toList, []] ++ cs.map (fun c => plainLine c.1 c.2.1 c.2.2) ++
        endLines failed tests took, '\n' ∉ l := by
    intro l hl
    rcases List.mem_append.mp hl with hl | hl
    · rcases List.mem_append.mp hl with hl | hl
      · simp only [List.mem_cons, List.not_mem_nil, or_false] at hl
        rcases hl with rfl | rfl | rfl <;> decide
      · obtain ⟨c, h1, rfl⟩ := List.mem_map.mp hl
        exact plainLine_newline (hc c h1)
    · exact endLines_newline hf tests took l hl
  unfold readReport
  dsimp only
  rw [e, split_lines hnl]
  have e3 : ([[], "# test results:".toList, []] ++ cs.map (fun c => plainLine c.1 c.2.1 c.2.2) ++
        endLines failed tests took ++ split '\n' []).drop 3 =
      cs.map (fun c => plainLine c.1 c.2.1 c.2.2) ++ (endLines failed tests took ++ [[]]) := by
    rw [List.append_assoc, List.append_assoc]
    rfl
  rw [e3]
  have hp : ∀ l ∈ cs.map (fun c => plainLine c.1 c.2.1 c.2.2), decide (l ≠ []) = true := by
    intro l hl
    obtain ⟨c, _, rfl⟩ := List.mem_map.mp hl
    exact decide_eq_true (plainLine_ne _ _ _)
  rw [List.takeWhile_append_of_pos hp, List.dropWhile_append_of_pos hp]
  have e4 : (endLines failed tests took ++ [[]]).takeWhile (fun l => decide (l ≠ [])) = [] := rfl
  have e5 : ((endLines failed tests took ++ [[]]).dropWhile (fun l => decide (l ≠ []))).drop 1 =
      (if failed.length > 0 then
        (natText failed.length ++ "/".toList ++ natText tests ++ " test failed in ".toList ++
          natText took ++ " ms:".toList) :: [] :: failed.map ("  ".toList ++ ·)
      else [natText tests ++ "/".toList ++ natText tests ++ " test succeeded in ".toList ++
          natText took ++ " ms".toList]) ++ [[], []] := by
    have : endLines failed tests took ++ [[]] = [] :: ((if failed.length > 0 then
        (natText failed.length ++ "/".toList ++ natText tests ++ " test failed in ".toList ++
          natText took ++ " ms:".toList) :: [] :: failed.map ("  ".toList ++ ·)
      else [natText tests ++ "/".toList ++ natText tests ++ " test succeeded in ".toList ++
          natText took ++ " ms".toList]) ++ [[], []]) := by
      unfold endLines
      rw [List.cons_append, List.cons_append, List.append_assoc]
      rfl
    rw [this]
    rfl
  rw [e4, e5, List.append_nil]
  have e6 : (cs.map (fun c => plainLine c.1 c.2.1 c.2.2)).filterMap readCase = cs.map (fun c => (c.1, c.2.1)) := by
    rw [List.filterMap_map, ← List.filterMap_eq_map]
    congr 1
    funext c
    exact readCase_plain _ _ _
  rw [e6]
  by_cases hF : failed = []
  · subst hF
    rw [if_neg (by decide), if_pos rfl]
    have := readSummary_eq tests tests took "succeeded".toList true (Or.inr ⟨rfl, rfl⟩) " ms".toList
    have e7 : natText tests ++ "/".toList ++ natText tests ++ " test ".toList ++ "succeeded".toList ++
        " in ".toList ++ natText took ++ " ms".toList =
        natText tests ++ "/".toList ++ natText tests ++ " test succeeded in ".toList ++
          natText took ++ " ms".toList := by
      simp
    rw [e7] at this
    simp only [List.cons_append, List.nil_append, List.head?_cons, Option.getD_some, this]
    rfl
  · have hpos : failed.length > 0 := List.length_pos_iff.mpr hF
    rw [if_pos hpos, if_neg hF]
    have := readSummary_eq failed.length tests took "failed".toList false (Or.inl ⟨rfl, rfl⟩) " ms:".toList
    have e7 : natText failed.length ++ "/".toList ++ natText tests ++ " test ".toList ++ "failed".toList ++
        " in ".toList ++ natText took ++ " ms:".toList =
        natText failed.length ++ "/".toList ++ natText tests ++ " test failed in ".toList ++
          natText took ++ " ms:".toList := by
      simp
    rw [e7] at this
    have e8 : (failed.map ("  ".toList ++ ·) ++ [[], []]).filterMap readName = failed := by
      rw [List.filterMap_append, List.filterMap_map]
      have : (readName ∘ fun x => "  ".toList ++ x) = some := by
        funext x; rfl
      rw [this, List.filterMap_some]
      simp [readName]
    simp only [List.cons_append, List.head?_cons, Option.getD_some, this, List.drop_succ_cons,
      List.drop_zero, e8, hF, decide_false]

end Verif.Lemmas
