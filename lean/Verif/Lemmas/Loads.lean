import Verif.Spec.Loads
import Verif.Lemmas.Hashing

/-! # JSON texts are read back -/

namespace Verif.Lemmas
open Verif.Py Verif.Model Verif.Spec

/-! ### Strings -/

private theorem hexValue_hexDigit (n : Nat) (h : n < 16) : hexValue (hexDigit n) = some n := by
  have : ∀ i : Fin 16, hexValue (hexDigit i.val) = some i.val := by decide
  exact this ⟨n, h⟩

private theorem hexValue4_hex4 (n : Nat) (h : n < 65536) :
    hexValue4 (hexDigit (n / 4096 % 16)) (hexDigit (n / 256 % 16)) (hexDigit (n / 16 % 16)) (hexDigit (n % 16)) = some n := by
  unfold hexValue4
  rw [hexValue_hexDigit _ (by omega), hexValue_hexDigit _ (by omega), hexValue_hexDigit _ (by omega),
    hexValue_hexDigit _ (by omega)]
  simp only [Option.some.injEq]
  omega

private theorem scan_hex {n : Nat} (h : n < 65536) {s : Str} {ns : List Nat} {r : Str}
    (hs : scanUnits s = some (ns, r)) : scanUnits ('\\' :: 'u' :: (hex4 n ++ s)) = some (n :: ns, r) := by
  unfold hex4
  simp only [List.cons_append, List.nil_append]
  rw [scanUnits.eq_def]
  simp only [Char.reduceEq, if_false, if_true, hexValue4_hex4 n h, hs]

private theorem scan_escape {e : Char} {n : Nat} (hu : e ≠ 'u') (he : escaped e = some n) {s : Str} {ns : List Nat}
    {r : Str} (hs : scanUnits s = some (ns, r)) : scanUnits ('\\' :: e :: s) = some (n :: ns, r) := by
  rw [scanUnits.eq_def]
  simp only [Char.reduceEq, if_false, if_true, if_neg hu, he, hs]

/-- The code units of a character in a JSON string. -/
def unitsOf (c : Char) : List Nat :=
  if c.toNat < 65536 then [c.toNat]
  else [0xd800 + (c.toNat - 65536) / 1024 % 1024, 0xdc00 + (c.toNat - 65536) % 1024]

private theorem scan_char (c : Char) {s : Str} {ns : List Nat} {r : Str} (hs : scanUnits s = some (ns, r)) :
    scanUnits (jsonChar c ++ s) = some (unitsOf c ++ ns, r) := by
  have one : ∀ {n : Nat}, c.toNat = n → n < 65536 → unitsOf c ++ ns = n :: ns := by
    intro n h1 h2
    unfold unitsOf
    rw [if_pos (by omega), h1]
    rfl
  unfold jsonChar
  by_cases h1 : c = '\\'
  · rw [if_pos h1, one (n := 92) (by rw [h1]; rfl) (by omega)]; exact scan_escape (by decide) (by decide) hs
  rw [if_neg h1]
  by_cases h2 : c = '"'
  · rw [if_pos h2, one (n := 34) (by rw [h2]; rfl) (by omega)]; exact scan_escape (by decide) (by decide) hs
  rw [if_neg h2]
  by_cases h3 : c.toNat = 8
  · rw [if_pos h3, one h3 (by omega)]; exact scan_escape (by decide) (by decide) hs
  rw [if_neg h3]
  by_cases h4 : c.toNat = 12
  · rw [if_pos h4, one h4 (by omega)]; exact scan_escape (by decide) (by decide) hs
  rw [if_neg h4]
  by_cases h5 : c = '\n'
  · rw [if_pos h5, one (n := 10) (by rw [h5]; rfl) (by omega)]; exact scan_escape (by decide) (by decide) hs
  rw [if_neg h5]
  by_cases h6 : c = '\r'
  · rw [if_pos h6, one (n := 13) (by rw [h6]; rfl) (by omega)]; exact scan_escape (by decide) (by decide) hs
  rw [if_neg h6]
  by_cases h7 : c = '\t'
  · rw [if_pos h7, one (n := 9) (by rw [h7]; rfl) (by omega)]; exact scan_escape (by decide) (by decide) hs
  rw [if_neg h7]
  by_cases h8 : 32 ≤ c.toNat ∧ c.toNat ≤ 126
  · rw [if_pos h8, one rfl (by omega)]
    change scanUnits (c :: s) = _
    rw [scanUnits.eq_def]
    simp only [if_neg h2, if_neg h1, if_neg (show ¬ c.toNat < 32 by omega), hs]
  rw [if_neg h8]
  by_cases h9 : c.toNat < 65536
  · rw [if_pos h9, one rfl h9]
    exact scan_hex h9 hs
  rw [if_neg h9]
  have hv : c.toNat < 0xd800 ∨ (0xdfff < c.toNat ∧ c.toNat < 0x110000) := c.valid
  have e : unitsOf c ++ ns = (0xd800 + (c.toNat - 65536) / 1024 % 1024) :: (0xdc00 + (c.toNat - 65536) % 1024) :: ns := by
    unfold unitsOf
    rw [if_neg h9]
    rfl
  rw [e]
  have hform : "\\u".toList ++ hex4 (0xd800 + (c.toNat - 65536) / 1024 % 1024) ++ "\\u".toList ++
      hex4 (0xdc00 + (c.toNat - 65536) % 1024) ++ s =
      '\\' :: 'u' :: (hex4 (0xd800 + (c.toNat - 65536) / 1024 % 1024) ++
        '\\' :: 'u' :: (hex4 (0xdc00 + (c.toNat - 65536) % 1024) ++ s)) := by
    simp only [List.append_assoc]
    rfl
  dsimp only
  rw [hform]
  exact scan_hex (by omega) (scan_hex (by omega) hs)

private theorem join_char (c : Char) (ns : List Nat) :
    joinUnits (unitsOf c ++ ns) = (joinUnits ns).map (c :: ·) := by
  have hv : c.toNat < 0xd800 ∨ (0xdfff < c.toNat ∧ c.toNat < 0x110000) := c.valid
  unfold unitsOf
  by_cases h : c.toNat < 65536
  · rw [if_pos h]
    change joinUnits (c.toNat :: ns) = _
    rw [joinUnits.eq_def]
    dsimp only
    rw [if_neg (by omega), if_neg (by omega), Char.ofNat_toNat]
  · rw [if_neg h]
    change joinUnits ((0xd800 + (c.toNat - 65536) / 1024 % 1024) :: (0xdc00 + (c.toNat - 65536) % 1024) :: ns) = _
    rw [joinUnits.eq_def]
    dsimp only
    rw [if_pos (by omega), if_pos (by omega)]
    have : 0x10000 + ((0xd800 + (c.toNat - 65536) / 1024 % 1024 - 0xd800) * 1024 +
        (0xdc00 + (c.toNat - 65536) % 1024 - 0xdc00)) = c.toNat := by omega
    rw [this, Char.ofNat_toNat]

theorem scanString_json (s r : Str) : scanString (s.flatMap jsonChar ++ '"' :: r) = some (s, r) := by
  have h : scanUnits (s.flatMap jsonChar ++ '"' :: r) = some (s.flatMap unitsOf, r) := by
    induction s with
    | nil => change scanUnits ('"' :: r) = _; rw [scanUnits.eq_def]; rfl
    | cons c s ih =>
      rw [List.flatMap_cons, List.flatMap_cons, List.append_assoc]
      exact scan_char c ih
  have j : joinUnits (s.flatMap unitsOf) = some s := by
    clear h
    induction s with
    | nil => rfl
    | cons c s ih => rw [List.flatMap_cons, join_char, ih]; rfl
  unfold scanString
  rw [h]
  simp only [j, Option.map_some]

/-! ### Numbers -/

private theorem takeDigits_append {d : Str} (hd : ∀ c ∈ d, c.isDigit = true) {r : Str}
    (hr : ∀ c s, r = c :: s → c.isDigit = false) : takeDigits (d ++ r) = (d, r) := by
  induction d with
  | nil =>
    cases r with
    | nil => rfl
    | cons c s =>
      change takeDigits (c :: s) = _
      rw [takeDigits, if_neg (by rw [hr c s rfl]; decide)]
  | cons c d ih =>
    change takeDigits (c :: (d ++ r)) = _
    rw [takeDigits, if_pos (hd c List.mem_cons_self), ih (fun x hx => hd x (List.mem_cons_of_mem _ hx))]

private theorem wholePart_digits {i : Str} (hi : Whole i) {r : Str} (hr : ∀ c s, r = c :: s → c.isDigit = false) :
    wholePart (i ++ r) = some (i, r) := by
  obtain ⟨⟨hne, hd⟩, h0⟩ := hi
  cases i with
  | nil => exact absurd rfl hne
  | cons c i =>
    have hc := hd c List.mem_cons_self
    by_cases hz : c = '0'
    · have := h0 (by rw [hz]; rfl)
      rw [this]
      rfl
    · unfold wholePart
      simp only [List.cons_append, if_neg hz, hc, if_true]
      rw [takeDigits_append (d := i) (fun x hx => hd x (List.mem_cons_of_mem _ hx)) hr]

private theorem intPart_digits {sign i : Str} (hs : sign = [] ∨ sign = "-".toList) (hi : Whole i) {r : Str}
    (hr : ∀ c s, r = c :: s → c.isDigit = false) : intPart (sign ++ (i ++ r)) = some (sign ++ i, r) := by
  have e := wholePart_digits hi hr
  rcases hs with rfl | rfl
  · obtain ⟨⟨hne, hd⟩, -⟩ := hi
    cases i with
    | nil => exact absurd rfl hne
    | cons c i =>
      have hm : c ≠ '-' := by rintro rfl; have := hd _ List.mem_cons_self; revert this; decide
      unfold intPart
      simp only [List.nil_append, List.cons_append, if_neg hm] at e ⊢
      exact e
  · change intPart ('-' :: (i ++ r)) = _
    unfold intPart
    simp only [if_true, e, Option.map_some]
    rfl

private theorem fracPart_digits {d : Str} (h : Digits d) {r : Str} (hr : ∀ c s, r = c :: s → c.isDigit = false) :
    fracPart ('.' :: (d ++ r)) = ('.' :: d, r) := by
  unfold fracPart
  dsimp only
  rw [takeDigits_append h.2 hr, if_pos ⟨rfl, h.1⟩]

private theorem fracPart_none {r : Str} (hr : ∀ c s, r = c :: s → c ≠ '.') : fracPart r = ([], r) := by
  unfold fracPart
  split
  · rfl
  · rename_i c s
    rw [if_neg (fun h => hr c s rfl h.1)]

private theorem expPart_none {r : Str} (hr : ∀ c s, r = c :: s → c ≠ 'e' ∧ c ≠ 'E') : expPart r = ([], r) := by
  unfold expPart
  split
  · rfl
  · rename_i c s
    obtain ⟨h1, h2⟩ := hr c s rfl
    rw [if_neg]
    rintro ⟨h | h, -⟩
    · exact h1 h
    · exact h2 h

private theorem signPart_digits {s d : Str} (hs : s = [] ∨ s = "+".toList ∨ s = "-".toList) (h : Digits d) (r : Str) :
    signPart (s ++ (d ++ r)) = (s, d ++ r) := by
  obtain ⟨hne, hd⟩ := h
  cases d with
  | nil => exact absurd rfl hne
  | cons c d =>
    have hc := hd c List.mem_cons_self
    rcases hs with rfl | rfl | rfl
    · change signPart (c :: (d ++ r)) = _
      unfold signPart
      dsimp only
      rw [if_neg]
      · rfl
      · rintro (h | h) <;> (rw [h] at hc; revert hc; decide)
    · rfl
    · rfl

private theorem expPart_digits {s d : Str} (hs : s = [] ∨ s = "+".toList ∨ s = "-".toList) (h : Digits d) {r : Str}
    (hr : ∀ c s, r = c :: s → c.isDigit = false) : expPart ('e' :: (s ++ (d ++ r))) = ('e' :: (s ++ d), r) := by
  unfold expPart
  dsimp only
  rw [signPart_digits hs h r]
  dsimp only
  rw [takeDigits_append h.2 hr, if_pos ⟨.inl rfl, h.1⟩]

private theorem ends_digit {r : Str} (hr : AtomEnds r) : ∀ c s, r = c :: s → c.isDigit = false := by
  intro c s h
  have := hr c s h
  unfold atomChar Char.isAlphanum at this
  revert this
  cases c.isDigit <;> simp

private theorem ends_ne {r : Str} (hr : AtomEnds r) {x : Char} (hx : atomChar x = true) : ∀ c s, r = c :: s → c ≠ x := by
  intro c s h e
  have := hr c s h
  rw [e, hx] at this
  cases this

theorem natText_whole (n : Nat) : Whole (natText n) := by
  refine ⟨⟨natText_ne_nil n, fun c hc => natText_digit hc⟩, ?_⟩
  induction n using Nat.strongRecOn with
  | _ n ih =>
    intro h
    by_cases hn : n < 10
    · unfold natText at h ⊢
      rw [Nat.toDigits_of_lt_base hn] at h ⊢
      have : ∀ i : Fin 10, [Nat.digitChar i.val].head? = some '0' → [Nat.digitChar i.val] = "0".toList := by decide
      exact this ⟨n, hn⟩ h
    · have e : natText n = natText (n / 10) ++ [Nat.digitChar (n % 10)] := by
        unfold natText
        rw [Nat.toDigits_of_base_le (by decide) (by omega)]
      have hh : (natText (n / 10)).head? = some '0' := by
        obtain ⟨c, l, hl⟩ := List.exists_cons_of_ne_nil (natText_ne_nil (n / 10))
        rw [e, hl] at h
        rw [hl]
        exact h
      have := ih (n / 10) (by omega) hh
      have h0 := natText_read (n / 10)
      rw [this] at h0
      have : n / 10 = 0 := h0.symm
      omega

theorem scanNumber_int (n : Int) {r : Str} (hr : AtomEnds r) : scanNumber (intText n ++ r) = some (.int n, r) := by
  have key : ∀ (sign : Str) (m : Nat), (sign = [] ∨ sign = "-".toList) →
      scanNumber (sign ++ (natText m ++ r)) = some (.int (readInt (sign ++ natText m)), r) := by
    intro sign m hs
    unfold scanNumber
    rw [intPart_digits hs (natText_whole m) (ends_digit hr)]
    dsimp only
    rw [fracPart_none (ends_ne hr (by decide))]
    dsimp only
    rw [expPart_none (fun c s h => ⟨ends_ne hr (by decide) c s h, ends_ne hr (by decide) c s h⟩)]
    simp
  cases n with
  | ofNat m =>
    have := key [] m (.inl rfl)
    rw [List.nil_append, List.nil_append] at this
    change scanNumber (natText m ++ r) = _
    rw [this]
    have e : readInt (natText m) = Int.ofNat m := by
      unfold readInt
      obtain ⟨c, l, hl⟩ := List.exists_cons_of_ne_nil (natText_ne_nil m)
      have hm : c ≠ '-' := by
        rintro rfl
        exact natText_no (c := '-') (by decide) (by rw [hl]; exact List.mem_cons_self)
      rw [hl]
      simp only [if_neg hm]
      rw [← hl, natText_read]
      rfl
    rw [e]
  | negSucc m =>
    have := key "-".toList (m + 1) (.inr rfl)
    change scanNumber ("-".toList ++ (natText (m + 1) ++ r)) = _
    rw [this]
    have e : readInt ("-".toList ++ natText (m + 1)) = Int.negSucc m := by
      change - ((Nat.ofDigitChars 10 (natText (m + 1)) 0 : Nat) : Int) = _
      rw [natText_read]
      rfl
    rw [e]

theorem scanNumber_float {sign i f e : Str} (hs : sign = [] ∨ sign = "-".toList) (hi : Whole i)
    (hf : f = [] ∨ ∃ d, f = '.' :: d ∧ Digits d)
    (he : e = [] ∨ ∃ s d, e = 'e' :: (s ++ d) ∧ (s = [] ∨ s = "+".toList ∨ s = "-".toList) ∧ Digits d)
    (hn : f ≠ [] ∨ e ≠ []) {r : Str} (hr : AtomEnds r) :
    scanNumber (sign ++ (i ++ (f ++ e)) ++ r) = some (.float (sign ++ (i ++ (f ++ e))), r) := by
  have hexp : expPart (e ++ r) = (e, r) := by
    rcases he with rfl | ⟨s, d, rfl, h1, h2⟩
    · exact expPart_none (fun c s h => ⟨ends_ne hr (by decide) c s h, ends_ne hr (by decide) c s h⟩)
    · have := expPart_digits h1 h2 (ends_digit hr)
      simp only [List.cons_append, List.append_assoc] at this ⊢
      exact this
  have hd1 : ∀ c s, e ++ r = c :: s → c.isDigit = false := by
    rcases he with rfl | ⟨s, d, rfl, h1, h2⟩
    · exact ends_digit hr
    · intro c s h; injection h with h _; rw [← h]; decide
  have hp1 : ∀ c s, e ++ r = c :: s → c ≠ '.' := by
    rcases he with rfl | ⟨s, d, rfl, h1, h2⟩
    · exact ends_ne hr (by decide)
    · intro c s h; injection h with h _; rw [← h]; decide
  have hfrac : fracPart (f ++ (e ++ r)) = (f, e ++ r) := by
    rcases hf with rfl | ⟨d, rfl, h2⟩
    · exact fracPart_none hp1
    · exact fracPart_digits h2 hd1
  have hd2 : ∀ c s, f ++ (e ++ r) = c :: s → c.isDigit = false := by
    rcases hf with rfl | ⟨d, rfl, h2⟩
    · exact hd1
    · intro c s h; injection h with h _; rw [← h]; decide
  unfold scanNumber
  simp only [List.append_assoc]
  rw [intPart_digits hs hi hd2]
  dsimp only
  rw [hfrac]
  dsimp only
  rw [hexp]
  dsimp only
  rw [if_neg, List.append_assoc]
  rintro ⟨h1, h2⟩
  rcases hn with h | h
  · exact h h1
  · exact h h2

/-! ### Values -/

theorem startsWith_other {c d : Char} (h : c ≠ d) (s w : Str) : startsWith (c :: s) (d :: w) = false := by
  unfold startsWith
  rw [List.isPrefixOf_cons₂]
  simp [Ne.symm h]

theorem startsWith_word (w s : Str) : startsWith (w ++ s) w = true := by
  unfold startsWith
  exact List.isPrefixOf_iff_prefix.mpr ⟨s, rfl⟩

theorem scanOnce_number {c : Char} {s : Str} {x : PyData × Str} (hc : c.isDigit = true ∨ c = '-')
    (h : scanNumber (c :: s) = some x) (f : Nat) : scanOnce (f + 1) (c :: s) = some x := by
  have ne : ∀ d : Char, d.isDigit = false → d ≠ '-' → c ≠ d := by
    rintro d h1 h2 rfl
    rcases hc with h | h
    · rw [h1] at h; cases h
    · exact h2 h
  rw [scanOnce.eq_def]
  dsimp only
  rw [if_neg (ne _ (by decide) (by decide)), if_neg (ne _ (by decide) (by decide)),
    if_neg (ne _ (by decide) (by decide)),
    if_neg (by rw [show "null".toList = 'n' :: "ull".toList from rfl,
      startsWith_other (ne _ (by decide) (by decide))]; decide),
    if_neg (by rw [show "true".toList = 't' :: "rue".toList from rfl,
      startsWith_other (ne _ (by decide) (by decide))]; decide),
    if_neg (by rw [show "false".toList = 'f' :: "alse".toList from rfl,
      startsWith_other (ne _ (by decide) (by decide))]; decide), h]

private theorem whole_head {sign i : Str} (hs : sign = [] ∨ sign = "-".toList) (hi : Whole i) (r : Str) :
    ∃ c s, sign ++ (i ++ r) = c :: s ∧ (c.isDigit = true ∨ c = '-') := by
  rcases hs with rfl | rfl
  · obtain ⟨⟨hne, hd⟩, -⟩ := hi
    cases i with
    | nil => exact absurd rfl hne
    | cons c i => exact ⟨c, i ++ r, rfl, .inl (hd c List.mem_cons_self)⟩
  · exact ⟨'-', i ++ r, rfl, .inr rfl⟩

theorem scanOnce_int (n : Int) {r : Str} (hr : AtomEnds r) (f : Nat) :
    scanOnce (f + 1) (intText n ++ r) = some (.int n, r) := by
  have h := scanNumber_int n hr
  have : ∃ c s, intText n ++ r = c :: s ∧ (c.isDigit = true ∨ c = '-') := by
    cases n with
    | ofNat m => exact whole_head (.inl rfl) (natText_whole m) r
    | negSucc m => exact ⟨'-', natText (m + 1) ++ r, rfl, .inr rfl⟩
  obtain ⟨c, s, e, hc⟩ := this
  rw [e] at h ⊢
  exact scanOnce_number hc h f

theorem scanOnce_float {t : Str} (ht : FloatRepr t) {r : Str} (hr : AtomEnds r) (f : Nat) :
    scanOnce (f + 1) (t ++ r) = some (.float t, r) := by
  rcases ht with rfl | rfl | rfl | ⟨sign, i, p, e, rfl, hs, hi, hp, he, hn⟩
  · rfl
  · rfl
  · rfl
  · have h := scanNumber_float hs hi hp he hn hr
    obtain ⟨c, s, e', hc⟩ := whole_head hs hi ((p ++ e) ++ r)
    have e'' : sign ++ (i ++ (p ++ e)) ++ r = c :: s := by rw [← e']; simp only [List.append_assoc]
    rw [e''] at h ⊢
    exact scanOnce_number hc h f

theorem scanOnce_str (s r : Str) (f : Nat) : scanOnce (f + 1) (jsonStr s ++ r) = some (.str s, r) := by
  have e : jsonStr s ++ r = '"' :: (s.flatMap jsonChar ++ '"' :: r) := by
    unfold jsonStr
    simp only [List.append_assoc]
    rfl
  rw [e, scanOnce.eq_def]
  dsimp only
  rw [if_pos rfl, scanString_json]
  rfl

/-- Characters at the beginning of a value. -/
def valueChar (c : Char) : Prop := c = '"' ∨ c = '[' ∨ c = '{' ∨ atomChar c = true

theorem valueChar_ne {c : Char} (h : valueChar c) :
    ¬ (c = ' ' ∨ c = '\t' ∨ c = '\n' ∨ c = '\r') ∧ c ≠ ']' ∧ c ≠ '}' ∧ c ≠ ',' := by
  have : ∀ d, atomChar d = false → d ≠ '"' → d ≠ '[' → d ≠ '{' → c ≠ d := by
    rintro d h1 h2 h3 h4 rfl
    rcases h with h | h | h | h
    · exact h2 h
    · exact h3 h
    · exact h4 h
    · rw [h1] at h; cases h
  refine ⟨?_, this _ (by decide) (by decide) (by decide) (by decide), this _ (by decide) (by decide) (by decide) (by decide),
    this _ (by decide) (by decide) (by decide) (by decide)⟩
  rintro (h | h | h | h) <;> exact this _ (by decide) (by decide) (by decide) (by decide) h

theorem dumpIndent_head (n level : Nat) {x : PyData} (hx : Storable x) :
    ∃ c l, dumpIndent n level x = c :: l ∧ valueChar c := by
  cases hx with
  | none => exact ⟨'n', "ull".toList, by simp only [dumpIndent]; rfl, .inr (.inr (.inr (by decide)))⟩
  | bool b =>
    cases b
    · exact ⟨'f', "alse".toList, by simp only [dumpIndent]; rfl, .inr (.inr (.inr (by decide)))⟩
    · exact ⟨'t', "rue".toList, by simp only [dumpIndent]; rfl, .inr (.inr (.inr (by decide)))⟩
  | int i =>
    cases i with
    | ofNat m =>
      obtain ⟨c, l, hl⟩ := List.exists_cons_of_ne_nil (natText_ne_nil m)
      exact ⟨c, l, by simp only [dumpIndent]; exact hl, .inr (.inr (.inr (natText_atom (n := m) (by rw [hl]; exact List.mem_cons_self))))⟩
    | negSucc m => exact ⟨'-', natText (m + 1), by simp only [dumpIndent]; rfl, .inr (.inr (.inr (by decide)))⟩
  | float t ht =>
    rcases ht with rfl | rfl | rfl | ⟨sign, i, p, e, rfl, hs, hi, hp, he, hn⟩
    · exact ⟨'N', "aN".toList, by simp only [dumpIndent]; rfl, .inr (.inr (.inr (by decide)))⟩
    · exact ⟨'I', "nfinity".toList, by simp only [dumpIndent]; rfl, .inr (.inr (.inr (by decide)))⟩
    · exact ⟨'-', "Infinity".toList, by simp only [dumpIndent]; rfl, .inr (.inr (.inr (by decide)))⟩
    · obtain ⟨c, s, e', hc⟩ := whole_head hs hi (p ++ e)
      refine ⟨c, s, by simp only [dumpIndent]; exact e', .inr (.inr (.inr ?_))⟩
      rcases hc with hc | rfl
      · simp [atomChar, Char.isAlphanum, hc]
      · decide
  | str s => exact ⟨'"', s.flatMap jsonChar ++ "\"".toList, by simp only [dumpIndent]; rfl, .inl rfl⟩
  | list l h =>
    cases l with
    | nil => exact ⟨'[', [']'], by simp only [dumpIndent]; rfl, .inr (.inl rfl)⟩
    | cons x xs => exact ⟨'[', _, by simp only [dumpIndent]; rfl, .inr (.inl rfl)⟩
  | tuple l h =>
    cases l with
    | nil => exact ⟨'[', [']'], by simp only [dumpIndent]; rfl, .inr (.inl rfl)⟩
    | cons x xs => exact ⟨'[', _, by simp only [dumpIndent]; rfl, .inr (.inl rfl)⟩
  | dict l hk h =>
    cases l with
    | nil => exact ⟨'{', ['}'], by simp only [dumpIndent]; rfl, .inr (.inr (.inl rfl))⟩
    | cons x xs => obtain ⟨k, x⟩ := x; exact ⟨'{', _, by simp only [dumpIndent]; rfl, .inr (.inr (.inl rfl))⟩

theorem skipWs_indent (n level : Nat) (s : Str) : skipWs (indentLine n level ++ s) = skipWs s := by
  unfold indentLine
  rw [List.cons_append, skipWs, if_pos (.inr (.inr (.inl rfl)))]
  induction n * level with
  | zero => rfl
  | succ k ih =>
    rw [List.replicate_succ, List.cons_append, skipWs, if_pos (.inl rfl)]
    exact ih

theorem skipWs_stop {c : Char} {s : Str} (h : ¬ (c = ' ' ∨ c = '\t' ∨ c = '\n' ∨ c = '\r')) : skipWs (c :: s) = c :: s := by
  rw [skipWs, if_neg h]

theorem indentItems_ends (n level : Nat) (xs : List PyData) (r : Str) : AtomEnds (dumpIndentItems n level xs ++ r) := by
  intro c s h
  cases xs with
  | nil => simp only [dumpIndentItems] at h; injection h with h _; rw [← h]; decide
  | cons x xs => simp only [dumpIndentItems] at h; injection h with h _; rw [← h]; decide

theorem indentFields_ends (n level : Nat) (xs : List (PyKey × PyData)) (r : Str) :
    AtomEnds (dumpIndentFields n level xs ++ r) := by
  intro c s h
  cases xs with
  | nil => simp only [dumpIndentFields] at h; injection h with h _; rw [← h]; decide
  | cons x xs => obtain ⟨k, x⟩ := x; simp only [dumpIndentFields] at h; injection h with h _; rw [← h]; decide

private theorem set_fresh (d : Dict PyData) {k : Str} (v : PyData) (h : k ∉ d.map (·.1)) : d.set k v = d ++ [(k, v)] := by
  induction d with
  | nil => rfl
  | cons p d ih =>
    obtain ⟨k', v'⟩ := p
    unfold Dict.set
    rw [if_neg (by rintro rfl; exact h (by simp)), ih (fun hm => h (by simp [hm]))]
    rfl

theorem dictOf_distinct {ps : List (Str × PyData)} (h : (ps.map (·.1)).Nodup) :
    dictOf ps = ps.map (fun p => (.str p.1, p.2)) := by
  have key : ∀ (ps d : List (Str × PyData)), ((d ++ ps).map (·.1)).Nodup →
      ps.foldl (fun (d : Dict PyData) p => d.set p.1 p.2) d = d ++ ps := by
    intro ps
    induction ps with
    | nil => intro d _; simp
    | cons p ps ih =>
      intro d hd
      rw [List.foldl_cons, set_fresh d]
      · rw [ih]
        · simp
        · simpa using hd
      · intro hm
        rw [List.map_append, List.nodup_append] at hd
        exact hd.2.2 p.1 hm p.1 (by simp) rfl
  unfold dictOf
  rw [key ps [] (by simpa using h)]
  rfl

/-- The fields as they are read, before they are made a dictionary. -/
def readFields (xs : List (PyKey × PyData)) : List (Str × PyData) := xs.map (fun p => (p.1.text, asRead p.2))

theorem asReadFields_eq (xs : List (PyKey × PyData)) :
    asReadFields xs = (readFields xs).map (fun p => (.str p.1, p.2)) := by
  induction xs with
  | nil => simp only [asReadFields]; rfl
  | cons p xs ih => obtain ⟨k, x⟩ := p; simp only [asReadFields, ih]; rfl

mutual
/-- A value is read back, whatever follows it. -/
theorem scan_value (n : Nat) : ∀ (x : PyData) (level : Nat) (r : Str) (f : Nat), Storable x → AtomEnds r →
    2 * (dumpIndent n level x).length ≤ f → scanOnce f (dumpIndent n level x ++ r) = some (asRead x, r)
  | .none, level, r, f, hx, hr, hf => by
    simp only [dumpIndent] at hf ⊢
    obtain ⟨f, rfl⟩ : ∃ g, f = g + 1 := ⟨f - 1, by have : "null".toList.length = 4 := rfl; omega⟩
    rfl
  | .bool b, level, r, f, hx, hr, hf => by
    simp only [dumpIndent] at hf ⊢
    cases b
    · obtain ⟨f, rfl⟩ : ∃ g, f = g + 1 := ⟨f - 1, by have : (boolText false).length = 5 := rfl; omega⟩
      rfl
    · obtain ⟨f, rfl⟩ : ∃ g, f = g + 1 := ⟨f - 1, by have : (boolText true).length = 4 := rfl; omega⟩
      rfl
  | .int i, level, r, f, hx, hr, hf => by
    obtain ⟨c, l, hl, -⟩ := dumpIndent_head n level hx
    obtain ⟨f, rfl⟩ : ∃ g, f = g + 1 := ⟨f - 1, by rw [hl] at hf; simp at hf; omega⟩
    simp only [dumpIndent, asRead]
    exact scanOnce_int i hr f
  | .float t, level, r, f, hx, hr, hf => by
    obtain ⟨c, l, hl, -⟩ := dumpIndent_head n level hx
    obtain ⟨f, rfl⟩ : ∃ g, f = g + 1 := ⟨f - 1, by rw [hl] at hf; simp at hf; omega⟩
    simp only [dumpIndent, asRead]
    cases hx with
    | float _ ht => exact scanOnce_float ht hr f
  | .str s, level, r, f, hx, hr, hf => by
    obtain ⟨c, l, hl, -⟩ := dumpIndent_head n level hx
    obtain ⟨f, rfl⟩ : ∃ g, f = g + 1 := ⟨f - 1, by rw [hl] at hf; simp at hf; omega⟩
    simp only [dumpIndent, asRead]
    exact scanOnce_str s r f
  | .list [], level, r, f, hx, hr, hf => by
    simp only [dumpIndent] at hf ⊢
    obtain ⟨f, rfl⟩ : ∃ g, f = g + 1 := ⟨f - 1, by have : "[]".toList.length = 2 := rfl; omega⟩
    rfl
  | .list (x :: xs), level, r, f, hx, hr, hf => by
    have h : ∀ y ∈ x :: xs, Storable y := by cases hx with | list _ h => exact h
    simp only [dumpIndent] at hf ⊢
    rw [asRead]
    exact scan_list n x xs level r f h hf
  | .tuple [], level, r, f, hx, hr, hf => by
    simp only [dumpIndent] at hf ⊢
    obtain ⟨f, rfl⟩ : ∃ g, f = g + 1 := ⟨f - 1, by have : "[]".toList.length = 2 := rfl; omega⟩
    rfl
  | .tuple (x :: xs), level, r, f, hx, hr, hf => by
    have h : ∀ y ∈ x :: xs, Storable y := by cases hx with | tuple _ h => exact h
    simp only [dumpIndent] at hf ⊢
    rw [asRead]
    exact scan_list n x xs level r f h hf
  | .dict [], level, r, f, hx, hr, hf => by
    simp only [dumpIndent] at hf ⊢
    obtain ⟨f, rfl⟩ : ∃ g, f = g + 1 := ⟨f - 1, by have : "{}".toList.length = 2 := rfl; omega⟩
    rfl
  | .dict ((k, x) :: xs), level, r, f, hx, hr, hf => by
    have h : ∀ p ∈ (k, x) :: xs, Storable p.2 := by cases hx with | dict _ _ h => exact h
    have hk : (((k, x) :: xs).map (fun p => p.1.text)).Nodup := by cases hx with | dict _ h _ => exact h
    have hfields := scan_fields n x xs k level r (f - 1) h (by
      simp only [dumpIndent, List.length_cons, List.length_append] at hf ⊢
      omega)
    simp only [dumpIndent] at hf ⊢
    obtain ⟨f, rfl⟩ : ∃ g, f = g + 1 := ⟨f - 1, by simp at hf; omega⟩
    rw [List.cons_append, scanOnce.eq_def]
    dsimp only
    rw [if_neg (by decide), if_pos rfl, List.append_assoc, skipWs_indent]
    have e : ∀ t : Str, jsonStr k.text ++ t = '"' :: (k.text.flatMap jsonChar ++ "\"".toList ++ t) := fun t => rfl
    rw [List.append_assoc, e, skipWs_stop (by decide)]
    dsimp only
    rw [if_neg (by decide), ← e, ← List.append_assoc]
    rw [show f + 1 - 1 = f from rfl] at hfields
    rw [hfields, asRead, asReadFields_eq, Option.map_some, dictOf_distinct]
    unfold readFields
    rw [List.map_map]
    exact hk
termination_by x => sizeOf x
decreasing_by all_goals (simp only [PyData.list.sizeOf_spec, PyData.tuple.sizeOf_spec, PyData.dict.sizeOf_spec, List.cons.sizeOf_spec, Prod.mk.sizeOf_spec]; omega)
/-- The items of a list that is not empty. -/
theorem scan_list (n : Nat) (x : PyData) : ∀ (xs : List PyData) (level : Nat) (r : Str) (f : Nat),
    (∀ y ∈ x :: xs, Storable y) →
    2 * ('[' :: (indentLine n (level + 1) ++ (dumpIndent n (level + 1) x ++ dumpIndentItems n level xs))).length ≤ f →
    scanOnce f ('[' :: (indentLine n (level + 1) ++ (dumpIndent n (level + 1) x ++ dumpIndentItems n level xs)) ++ r) =
      some (.list (asReadItems (x :: xs)), r)
  | xs, level, r, f, h, hf => by
    have hitems := scan_items n x xs level r (f - 1) h (by
      simp only [List.length_cons, List.length_append] at hf ⊢
      omega)
    obtain ⟨c, l, hl, hc⟩ := dumpIndent_head n (level + 1) (h x List.mem_cons_self)
    obtain ⟨h1, h2, -, -⟩ := valueChar_ne hc
    obtain ⟨f, rfl⟩ : ∃ g, f = g + 1 := ⟨f - 1, by simp at hf; omega⟩
    rw [show f + 1 - 1 = f from rfl] at hitems
    rw [List.cons_append, scanOnce.eq_def]
    dsimp only
    rw [if_neg (by decide), if_neg (by decide), if_pos rfl, List.append_assoc, skipWs_indent]
    rw [List.append_assoc] at hitems ⊢
    rw [hl, List.cons_append] at hitems ⊢
    rw [skipWs_stop h1]
    dsimp only
    rw [if_neg h2, hitems]
    rfl
termination_by xs => sizeOf x + sizeOf xs + 1
decreasing_by omega
/-- The items of a list from one of them on. -/
theorem scan_items (n : Nat) (x : PyData) : ∀ (xs : List PyData) (level : Nat) (r : Str) (f : Nat),
    (∀ y ∈ x :: xs, Storable y) →
    2 * (dumpIndent n (level + 1) x ++ dumpIndentItems n level xs).length + 1 ≤ f →
    scanItems f (dumpIndent n (level + 1) x ++ dumpIndentItems n level xs ++ r) = some (asReadItems (x :: xs), r)
  | [], level, r, f, h, hf => by
    obtain ⟨f, rfl⟩ : ∃ g, f = g + 1 := ⟨f - 1, by omega⟩
    have hv := scan_value n x (level + 1) (dumpIndentItems n level [] ++ r) f (h x List.mem_cons_self)
      (indentItems_ends n level [] r) (by simp only [List.length_append] at hf; omega)
    rw [List.append_assoc, scanItems, hv]
    simp only [dumpIndentItems, List.append_assoc]
    rw [skipWs_indent]
    rfl
  | y :: ys, level, r, f, h, hf => by
    obtain ⟨f, rfl⟩ : ∃ g, f = g + 1 := ⟨f - 1, by omega⟩
    have hv := scan_value n x (level + 1) (dumpIndentItems n level (y :: ys) ++ r) f (h x List.mem_cons_self)
      (indentItems_ends n level (y :: ys) r) (by simp only [List.length_append] at hf; omega)
    have hi := scan_items n y ys level r f (fun z hz => h z (List.mem_cons_of_mem _ hz)) (by
      simp only [dumpIndentItems, List.length_append, List.length_cons] at hf ⊢
      omega)
    obtain ⟨c, l, hl, hc⟩ := dumpIndent_head n (level + 1) (h y (by simp))
    obtain ⟨h1, -, -, -⟩ := valueChar_ne hc
    rw [List.append_assoc, scanItems, hv]
    simp only [dumpIndentItems, List.append_assoc, List.cons_append]
    rw [skipWs_stop (by decide)]
    dsimp only
    rw [if_neg (by decide), if_pos rfl, skipWs_indent]
    rw [List.append_assoc, hl, List.cons_append] at hi
    rw [hl, List.cons_append, skipWs_stop h1, hi]
    rfl
termination_by xs => sizeOf x + sizeOf xs
decreasing_by all_goals (simp only [List.cons.sizeOf_spec, List.nil.sizeOf_spec]; omega)
/-- The fields of a dictionary from one of them on. -/
theorem scan_fields (n : Nat) (x : PyData) : ∀ (xs : List (PyKey × PyData)) (k : PyKey) (level : Nat) (r : Str) (f : Nat),
    (∀ p ∈ (k, x) :: xs, Storable p.2) →
    2 * (jsonStr k.text ++ (": ".toList ++ (dumpIndent n (level + 1) x ++ dumpIndentFields n level xs))).length + 1 ≤ f →
    scanFields f (jsonStr k.text ++ (": ".toList ++ (dumpIndent n (level + 1) x ++ dumpIndentFields n level xs)) ++ r) =
      some (readFields ((k, x) :: xs), r)
  | xs, k, level, r, f, h, hf => by
    obtain ⟨f, rfl⟩ : ∃ g, f = g + 1 := ⟨f - 1, by omega⟩
    have hv := scan_value n x (level + 1) (dumpIndentFields n level xs ++ r) f (h (k, x) List.mem_cons_self)
      (indentFields_ends n level xs r) (by simp only [List.length_append] at hf; omega)
    obtain ⟨c, l, hl, hc⟩ := dumpIndent_head n (level + 1) (h (k, x) List.mem_cons_self)
    obtain ⟨h1, -, -, -⟩ := valueChar_ne hc
    have e : jsonStr k.text ++ (": ".toList ++ (dumpIndent n (level + 1) x ++ dumpIndentFields n level xs)) ++ r =
        '"' :: (k.text.flatMap jsonChar ++ '"' :: (':' :: ' ' :: (dumpIndent n (level + 1) x ++
          (dumpIndentFields n level xs ++ r)))) := by
      unfold jsonStr
      simp only [List.append_assoc]
      rfl
    rw [e, scanFields.eq_def]
    dsimp only
    rw [if_pos rfl, scanString_json]
    dsimp only
    rw [skipWs_stop (by decide)]
    dsimp only
    rw [if_pos rfl]
    have e2 : skipWs (' ' :: (dumpIndent n (level + 1) x ++ (dumpIndentFields n level xs ++ r))) =
        dumpIndent n (level + 1) x ++ (dumpIndentFields n level xs ++ r) := by
      rw [skipWs, if_pos (.inl rfl), hl, List.cons_append, skipWs_stop h1]
    rw [e2, hv]
    dsimp only
    match hxs : xs, h, hf with
    | [], _, _ =>
      simp only [dumpIndentFields, List.append_assoc]
      rw [skipWs_indent]
      rfl
    | (k', y) :: ys, h, hf =>
      have hi := scan_fields n y ys k' level r f (fun z hz => h z (List.mem_cons_of_mem _ hz)) (by
        simp only [dumpIndentFields, List.length_append, List.length_cons] at hf ⊢
        omega)
      simp only [dumpIndentFields, List.append_assoc, List.cons_append]
      rw [skipWs_stop (by decide)]
      dsimp only
      rw [if_neg (by decide), if_pos rfl, skipWs_indent]
      have e3 : ∀ t : Str, jsonStr k'.text ++ t = '"' :: (k'.text.flatMap jsonChar ++ "\"".toList ++ t) := fun t => rfl
      rw [e3, skipWs_stop (by decide), ← e3]
      simp only [List.append_assoc] at hi
      rw [hi]
      rfl
termination_by xs => sizeOf x + sizeOf xs
decreasing_by
  · have : 0 < sizeOf xs := by cases xs <;> simp <;> omega
    omega
  · rename_i hxs _ _
    rw [hxs]
    simp only [List.cons.sizeOf_spec, Prod.mk.sizeOf_spec]
    omega
end

end Verif.Lemmas
