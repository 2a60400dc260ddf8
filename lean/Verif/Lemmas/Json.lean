import Verif.Py.Json

/-! # `json.dumps` can be read back -/

namespace Verif.Lemmas
open Verif.Py

/-- The value of a hexadecimal digit. -/
def hexVal (c : Char) : Nat := "0123456789abcdef".toList.idxOf c

theorem hexVal_hexDigit (n : Nat) (h : n < 16) : hexVal (hexDigit n) = n := by
  have : ∀ i : Fin 16, hexVal (hexDigit i.val) = i.val := by decide
  exact this ⟨n, h⟩

/-- The value of four digits. -/
def hexVal4 (a b c d : Char) : Nat := hexVal a * 4096 + hexVal b * 256 + hexVal c * 16 + hexVal d

theorem hexVal4_hex4 (n : Nat) (h : n < 65536) :
    hexVal4 (hexDigit (n / 4096 % 16)) (hexDigit (n / 256 % 16)) (hexDigit (n / 16 % 16)) (hexDigit (n % 16)) = n := by
  unfold hexVal4
  rw [hexVal_hexDigit _ (by omega), hexVal_hexDigit _ (by omega), hexVal_hexDigit _ (by omega),
    hexVal_hexDigit _ (by omega)]
  omega

/-- Reads one character. -/
def readChar : Str → Option (Char × Str)
  | [] => none
  | c :: s =>
    if c = '\\' then
      match s with
      | [] => none
      | x :: s =>
        if x = 'b' then some (Char.ofNat 8, s)
        else if x = 'f' then some (Char.ofNat 12, s)
        else if x = 'n' then some ('\n', s)
        else if x = 'r' then some ('\r', s)
        else if x = 't' then some ('\t', s)
        else if x = 'u' then
          match s with
          | a :: b :: c :: d :: s =>
            let n := hexVal4 a b c d
            if 0xd800 ≤ n ∧ n < 0xdc00 then
              match s with
              | _ :: _ :: a :: b :: c :: d :: s =>
                some (Char.ofNat (65536 + (n - 0xd800) * 1024 + (hexVal4 a b c d - 0xdc00)), s)
              | _ => none
            else some (Char.ofNat n, s)
          | _ => none
        else some (x, s)
    else some (c, s)

theorem readChar_jsonChar (c : Char) (r : Str) : readChar (jsonChar c ++ r) = some (c, r) := by
  unfold jsonChar
  split
  · rename_i h; subst h; rfl
  split
  · rename_i h; subst h; rfl
  split
  · rename_i h
    have : c = Char.ofNat 8 := by rw [← h, Char.ofNat_toNat]
    subst this; rfl
  split
  · rename_i h
    have : c = Char.ofNat 12 := by rw [← h, Char.ofNat_toNat]
    subst this; rfl
  split
  · rename_i h; subst h; rfl
  split
  · rename_i h; subst h; rfl
  split
  · rename_i h; subst h; rfl
  split
  · rename_i h _ _ _ _ _ _ _
    change readChar (c :: r) = _
    unfold readChar
    dsimp only
    rw [if_neg h]
  have hv : c.toNat < 0xd800 ∨ (0xdfff < c.toNat ∧ c.toNat < 0x110000) := c.valid
  split
  · rename_i h
    have hh := hexVal4_hex4 c.toNat h
    change readChar ('\\' :: 'u' :: hexDigit (c.toNat / 4096 % 16) :: hexDigit (c.toNat / 256 % 16) ::
      hexDigit (c.toNat / 16 % 16) :: hexDigit (c.toNat % 16) :: r) = _
    unfold readChar
    simp only [if_true, Char.reduceEq, if_false, hh]
    rw [if_neg (by omega), Char.ofNat_toNat]
  · rename_i h
    have h1 := hexVal4_hex4 (0xd800 + (c.toNat - 65536) / 1024 % 1024) (by omega)
    have h2 := hexVal4_hex4 (0xdc00 + (c.toNat - 65536) % 1024) (by omega)
    have hform : "\\u".toList ++ hex4 (0xd800 + (c.toNat - 65536) / 1024 % 1024) ++ "\\u".toList ++
        hex4 (0xdc00 + (c.toNat - 65536) % 1024) ++ r =
        '\\' :: 'u' :: (hex4 (0xd800 + (c.toNat - 65536) / 1024 % 1024) ++
          '\\' :: 'u' :: (hex4 (0xdc00 + (c.toNat - 65536) % 1024) ++ r)) := by
      simp only [List.append_assoc]
      rfl
    dsimp only
    rw [hform]
    have hx : (0xd800 + (c.toNat - 65536) / 1024 % 1024 - 0xd800) * 1024 +
        (0xdc00 + (c.toNat - 65536) % 1024 - 0xdc00) = c.toNat - 65536 := by omega
    have hb : 0xd800 ≤ 0xd800 + (c.toNat - 65536) / 1024 % 1024 ∧
        0xd800 + (c.toNat - 65536) / 1024 % 1024 < 0xdc00 := by omega
    generalize 0xd800 + (c.toNat - 65536) / 1024 % 1024 = x at h1 hx hb
    generalize 0xdc00 + (c.toNat - 65536) % 1024 = y at h2 hx
    unfold hex4 readChar
    simp only [if_true, Char.reduceEq, if_false, List.cons_append, List.nil_append, h1, h2, if_pos hb]
    have : 65536 + (x - 0xd800) * 1024 + (y - 0xdc00) = c.toNat := by omega
    rw [this, Char.ofNat_toNat]

theorem jsonChar_inj {c d : Char} {r s : Str} (h : jsonChar c ++ r = jsonChar d ++ s) : c = d ∧ r = s := by
  have h1 := readChar_jsonChar c r
  rw [h, readChar_jsonChar d s, Option.some.injEq, Prod.mk.injEq] at h1
  exact ⟨h1.1.symm, h1.2.symm⟩

theorem jsonChar_no_quote (c : Char) (r s : Str) : jsonChar c ++ r ≠ '"' :: s := by
  unfold jsonChar
  split
  · intro h; cases h
  split
  · intro h; cases h
  split
  · intro h; cases h
  split
  · intro h; cases h
  split
  · intro h; cases h
  split
  · intro h; cases h
  split
  · intro h; cases h
  split
  · rename_i h _ _ _ _ _ _
    intro hh
    injection hh with h1 _
    exact h h1
  split
  · intro h; cases h
  · intro h; cases h

theorem jsonStr_inj {a b : Str} {r s : Str} (h : jsonStr a ++ r = jsonStr b ++ s) : a = b ∧ r = s := by
  unfold jsonStr at h
  rw [List.append_assoc, List.append_assoc, List.append_assoc, List.append_assoc,
    List.append_cancel_left_eq] at h
  change a.flatMap jsonChar ++ '"' :: r = b.flatMap jsonChar ++ '"' :: s at h
  induction a generalizing b with
  | nil =>
    cases b with
    | nil => injection h with _ h2; exact ⟨rfl, h2⟩
    | cons d b =>
      rw [List.flatMap_cons, List.append_assoc] at h
      exact absurd h.symm (jsonChar_no_quote d _ _)
  | cons c a ih =>
    cases b with
    | nil =>
      rw [List.flatMap_cons, List.append_assoc] at h
      exact absurd h (jsonChar_no_quote c _ _)
    | cons d b =>
      rw [List.flatMap_cons, List.append_assoc, List.flatMap_cons, List.append_assoc] at h
      obtain ⟨rfl, h2⟩ := jsonChar_inj h
      obtain ⟨rfl, h3⟩ := ih h2
      exact ⟨rfl, h3⟩

mutual
/-- The value with all keys made strings. -/
def textKeys : Json → Json
  | .str s => .str s
  | .list items => .list (textItems items)
  | .dict items => .dict (textFields items)
/-- The same for the items of a list. -/
def textItems : List Json → List Json
  | [] => []
  | x :: xs => textKeys x :: textItems xs
/-- The same for the fields of a dictionary. -/
def textFields : List (JKey × Json) → List (JKey × Json)
  | [] => []
  | (k, x) :: xs => (.str k.text, textKeys x) :: textFields xs
end

private theorem newlineIndent_ne (level : Nat) (s t : Str) (c : Char) (h : c ≠ '\n') :
    newlineIndent level ++ s ≠ c :: t := by
  intro e
  injection e with h1 _
  exact h h1.symm

mutual
theorem dump_inj : ∀ (a b : Json) (level : Nat) (r s : Str), dump level a ++ r = dump level b ++ s →
    textKeys a = textKeys b ∧ r = s
  | .str a, .str b, level, r, s, h => by
    rw [dump, dump] at h
    obtain ⟨rfl, h2⟩ := jsonStr_inj h
    exact ⟨rfl, h2⟩
  | .str _, .list _, _, _, _, h => by rw [dump, dump] at h; cases h
  | .str _, .dict _, _, _, _, h => by rw [dump, dump] at h; cases h
  | .list _, .str _, _, _, _, h => by rw [dump, dump] at h; cases h
  | .list _, .dict _, _, _, _, h => by rw [dump, dump] at h; cases h
  | .dict _, .str _, _, _, _, h => by rw [dump, dump] at h; cases h
  | .dict _, .list _, _, _, _, h => by rw [dump, dump] at h; cases h
  | .list a, .list b, level, r, s, h => by
    rw [dump, dump, List.append_assoc, List.append_assoc, List.append_cancel_left_eq] at h
    obtain ⟨h1, h2⟩ := dumpItems_inj a b level true r s h
    exact ⟨by rw [textKeys, textKeys, h1], h2⟩
  | .dict a, .dict b, level, r, s, h => by
    rw [dump, dump, List.append_assoc, List.append_assoc, List.append_cancel_left_eq] at h
    obtain ⟨h1, h2⟩ := dumpFields_inj a b level true r s h
    exact ⟨by rw [textKeys, textKeys, h1], h2⟩
theorem dumpItems_inj : ∀ (a b : List Json) (level : Nat) (first : Bool) (r s : Str),
    dumpItems level first a ++ r = dumpItems level first b ++ s → textItems a = textItems b ∧ r = s
  | [], [], level, first, r, s, h => by
    rw [dumpItems, List.append_cancel_left_eq] at h
    exact ⟨rfl, h⟩
  | [], y :: b, level, first, r, s, h => by
    exfalso
    rw [dumpItems, dumpItems] at h
    cases first with
    | true =>
      simp only [if_true, List.nil_append, List.append_assoc] at h
      exact newlineIndent_ne (level + 1) _ r ']' (by decide) h.symm
    | false =>
      simp only [Bool.false_eq_true, if_false, List.append_assoc] at h
      exact newlineIndent_ne level _ _ ',' (by decide) h
  | x :: a, [], level, first, r, s, h => by
    exfalso
    rw [dumpItems, dumpItems] at h
    cases first with
    | true =>
      simp only [if_true, List.nil_append, List.append_assoc] at h
      exact newlineIndent_ne (level + 1) _ s ']' (by decide) h
    | false =>
      simp only [Bool.false_eq_true, if_false, List.append_assoc] at h
      exact newlineIndent_ne level _ _ ',' (by decide) h.symm
  | x :: a, y :: b, level, first, r, s, h => by
    rw [dumpItems, dumpItems] at h
    simp only [List.append_assoc, List.append_cancel_left_eq] at h
    obtain ⟨h1, h2⟩ := dump_inj x y (level + 1) _ _ h
    obtain ⟨h3, h4⟩ := dumpItems_inj a b level false r s h2
    exact ⟨by rw [textItems, textItems, h1, h3], h4⟩
theorem dumpFields_inj : ∀ (a b : List (JKey × Json)) (level : Nat) (first : Bool) (r s : Str),
    dumpFields level first a ++ r = dumpFields level first b ++ s → textFields a = textFields b ∧ r = s
  | [], [], level, first, r, s, h => by
    rw [dumpFields, List.append_cancel_left_eq] at h
    exact ⟨rfl, h⟩
  | [], (k, y) :: b, level, first, r, s, h => by
    exfalso
    rw [dumpFields, dumpFields] at h
    cases first with
    | true =>
      simp only [if_true, List.nil_append, List.append_assoc] at h
      exact newlineIndent_ne (level + 1) _ r '}' (by decide) h.symm
    | false =>
      simp only [Bool.false_eq_true, if_false, List.append_assoc] at h
      exact newlineIndent_ne level _ _ ',' (by decide) h
  | (k, x) :: a, [], level, first, r, s, h => by
    exfalso
    rw [dumpFields, dumpFields] at h
    cases first with
    | true =>
      simp only [if_true, List.nil_append, List.append_assoc] at h
      exact newlineIndent_ne (level + 1) _ s '}' (by decide) h
    | false =>
      simp only [Bool.false_eq_true, if_false, List.append_assoc] at h
      exact newlineIndent_ne level _ _ ',' (by decide) h.symm
  | (k, x) :: a, (l, y) :: b, level, first, r, s, h => by
    rw [dumpFields, dumpFields] at h
    simp only [List.append_assoc, List.append_cancel_left_eq] at h
    obtain ⟨h0, h⟩ := jsonStr_inj h
    rw [List.append_cancel_left_eq] at h
    obtain ⟨h1, h2⟩ := dump_inj x y (level + 1) _ _ h
    obtain ⟨h3, h4⟩ := dumpFields_inj a b level false r s h2
    exact ⟨by rw [textFields, textFields, h1, h3, h0], h4⟩
end

end Verif.Lemmas
