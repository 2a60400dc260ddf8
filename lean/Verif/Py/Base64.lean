import Verif.Py.Utf8

/-! # `base64.b64encode` and `base64.b64decode` -/

namespace Verif.Py

/-- The alphabet of `base64.b64encode`. -/
def b64Alphabet : Str := "ABCDEFGHIJKLMNOPQRSTUVWXYZabcdefghijklmnopqrstuvwxyz0123456789+/".toList

/-- The character for a value below 64. -/
def b64Char (n : Nat) : Char := b64Alphabet.getD n '='

/-- `base64.b64encode(bytes).decode("ascii")`. -/
def b64encode : Bytes → Str
  | [] => []
  | [a] => [b64Char (a.toNat / 4), b64Char (a.toNat % 4 * 16), '=', '=']
  | [a, b] => [b64Char (a.toNat / 4), b64Char (a.toNat % 4 * 16 + b.toNat / 16), b64Char (b.toNat % 16 * 4), '=']
  | a :: b :: c :: rest =>
    b64Char (a.toNat / 4) :: b64Char (a.toNat % 4 * 16 + b.toNat / 16) ::
      b64Char (b.toNat % 16 * 4 + c.toNat / 64) :: b64Char (c.toNat % 64) :: b64encode rest

/-- The value of a character of the alphabet. -/
def b64Value (c : Char) : Option Nat :=
  if b64Alphabet.idxOf c < 64 then some (b64Alphabet.idxOf c) else none

/-- `binascii.a2b_base64` without `strict_mode` (Modules/binascii.c of CPython 3.11): `quad` is the number of characters
of the current group of four, `left` the bits left of it, `pads` the number of `=` seen since. Characters that are not in
the alphabet are skipped; `none`: "Incorrect padding". -/
def a2b (quad left pads : Nat) : Str → Option Bytes
  | [] => if quad = 0 then some [] else none
  | c :: s =>
    if c = '=' then
      if 2 ≤ quad then
        if 4 ≤ quad + (pads + 1) then some [] else a2b quad left (pads + 1) s
      else a2b quad left pads s
    else
      match b64Value c with
      | none => a2b quad left pads s
      | some v =>
        if quad = 0 then a2b 1 v 0 s
        else if quad = 1 then (a2b 2 (v % 16) 0 s).map (UInt8.ofNat (left * 4 + v / 16) :: ·)
        else if quad = 2 then (a2b 3 (v % 4) 0 s).map (UInt8.ofNat (left * 16 + v / 4) :: ·)
        else (a2b 0 0 0 s).map (UInt8.ofNat (left * 64 + v) :: ·)

/-- `base64.b64decode(text.encode("ascii"))`; `none`: an exception of either. -/
def b64decode (s : Str) : Option Bytes :=
  if s.all (fun c => decide (c.toNat < 128)) then a2b 0 0 0 s else none

end Verif.Py
