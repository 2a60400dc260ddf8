import Verif.Py.Base64

/-! # `base64.b64decode` gives back what `base64.b64encode` was given -/

namespace Verif.Lemmas
open Verif.Py

theorem b64_char (n : Nat) (h : n < 64) :
    b64Value (b64Char n) = some n ∧ b64Char n ≠ '=' ∧ (b64Char n).toNat < 128 := by
  have : ∀ k : Fin 64, b64Value (b64Char k) = some k.val ∧ b64Char k ≠ '=' ∧ (b64Char k).toNat < 128 := by decide +kernel
  exact this ⟨n, h⟩

private theorem step0 {n : Nat} (h : n < 64) (left pads : Nat) (s : Str) : a2b 0 left pads (b64Char n :: s) = a2b 1 n 0 s := by
  obtain ⟨h1, h2, -⟩ := b64_char n h
  rw [a2b, if_neg h2, h1]
  rfl

private theorem step1 {n : Nat} (h : n < 64) (left pads : Nat) (s : Str) : a2b 1 left pads (b64Char n :: s) =
    (a2b 2 (n % 16) 0 s).map (UInt8.ofNat (left * 4 + n / 16) :: ·) := by
  obtain ⟨h1, h2, -⟩ := b64_char n h
  rw [a2b, if_neg h2, h1]
  rfl

private theorem step2 {n : Nat} (h : n < 64) (left pads : Nat) (s : Str) : a2b 2 left pads (b64Char n :: s) =
    (a2b 3 (n % 4) 0 s).map (UInt8.ofNat (left * 16 + n / 4) :: ·) := by
  obtain ⟨h1, h2, -⟩ := b64_char n h
  rw [a2b, if_neg h2, h1]
  rfl

private theorem step3 {n : Nat} (h : n < 64) (left pads : Nat) (s : Str) : a2b 3 left pads (b64Char n :: s) =
    (a2b 0 0 0 s).map (UInt8.ofNat (left * 64 + n) :: ·) := by
  obtain ⟨h1, h2, -⟩ := b64_char n h
  rw [a2b, if_neg h2, h1]
  rfl

private theorem back {n : Nat} {a : UInt8} (h : n = a.toNat) : UInt8.ofNat n = a := by
  rw [h]
  exact UInt8.ofNat_toNat

private theorem a2b_encode (b : Bytes) : a2b 0 0 0 (b64encode b) = some b := by
  match b with
  | [] => rfl
  | [x] =>
    have hx := x.toNat_lt
    rw [b64encode, step0 (by omega), step1 (by omega)]
    rw [back (a := x) (by omega)]
    rfl
  | [x, y] =>
    have hx := x.toNat_lt
    have hy := y.toNat_lt
    rw [b64encode, step0 (by omega), step1 (by omega), step2 (by omega)]
    rw [back (a := x) (by omega), back (a := y) (by omega)]
    rfl
  | x :: y :: z :: rest =>
    have hx := x.toNat_lt
    have hy := y.toNat_lt
    have hz := z.toNat_lt
    rw [b64encode, step0 (by omega), step1 (by omega), step2 (by omega), step3 (by omega), a2b_encode rest]
    rw [back (a := x) (by omega), back (a := y) (by omega), back (a := z) (by omega)]
    rfl

private theorem encode_ascii (b : Bytes) : ∀ c ∈ b64encode b, c.toNat < 128 := by
  match b with
  | [] => intro c h; cases h
  | [x] =>
    have hx := x.toNat_lt
    intro c h
    simp only [b64encode, List.mem_cons, List.not_mem_nil, or_false] at h
    rcases h with rfl | rfl | rfl | rfl
    · exact (b64_char _ (by omega)).2.2
    · exact (b64_char _ (by omega)).2.2
    · decide
    · decide
  | [x, y] =>
    have hx := x.toNat_lt
    have hy := y.toNat_lt
    intro c h
    simp only [b64encode, List.mem_cons, List.not_mem_nil, or_false] at h
    rcases h with rfl | rfl | rfl | rfl
    · exact (b64_char _ (by omega)).2.2
    · exact (b64_char _ (by omega)).2.2
    · exact (b64_char _ (by omega)).2.2
    · decide
  | x :: y :: z :: rest =>
    have hx := x.toNat_lt
    have hy := y.toNat_lt
    have hz := z.toNat_lt
    intro c h
    rw [b64encode, List.mem_cons, List.mem_cons, List.mem_cons, List.mem_cons] at h
    rcases h with rfl | rfl | rfl | rfl | h
    · exact (b64_char _ (by omega)).2.2
    · exact (b64_char _ (by omega)).2.2
    · exact (b64_char _ (by omega)).2.2
    · exact (b64_char _ (by omega)).2.2
    · exact encode_ascii rest c h

theorem b64decode_encode (b : Bytes) : b64decode (b64encode b) = some b := by
  unfold b64decode
  rw [if_pos, a2b_encode]
  rw [List.all_eq_true]
  intro c hc
  exact decide_eq_true (encode_ascii b c hc)

end Verif.Lemmas
