import Verif.Model.Bodies

/-! # Specification vocabulary for the bodies of requests (C116) -/

namespace Verif.Spec
open Verif.Py Verif.Model

/-- The number written by digits to some base, the first digit being the most significant one. -/
def numeral (base : Nat) (digits : List Nat) : Nat := digits.foldl (fun n d => base * n + d) 0

/-- The digits to the base 64 (RFC 4648, table 1). -/
def base64Digits : Str :=
  (List.range 26).map (fun n => Char.ofNat ('A'.toNat + n)) ++ (List.range 26).map (fun n => Char.ofNat ('a'.toNat + n)) ++
    (List.range 10).map (fun n => Char.ofNat ('0'.toNat + n)) ++ ['+', '/']

/-- The text is the base 64 form of the bytes (RFC 4648): groups of four characters for three bytes, filled
up with `=`; read as numbers, filled up with zeros, text and bytes are the same. -/
def IsBase64 (b : Bytes) (s : Str) : Prop :=
  ∃ (digits : List Nat) (pad : Nat), pad ≤ 2 ∧ (∀ d ∈ digits, d < 64) ∧
    s = digits.map (fun d => base64Digits.getD d '=') ++ List.replicate pad '=' ∧
    3 * (digits.length + pad) = 4 * (b.length + pad) ∧
    numeral 64 digits * 64 ^ pad = numeral 256 (b.map (·.toNat)) * 256 ^ pad

/-- The bytes that are sent, if the body has some. -/
def bodyBytes : RqBody → Option Bytes
  | .text s => some (encode s)
  | .raw b => some b
  | .other => none

end Verif.Spec
