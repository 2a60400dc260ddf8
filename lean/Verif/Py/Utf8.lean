import Verif.Py.Basic

/-! # Text files as bytes

Python's `open` uses the locale's encoding; here it is UTF-8, with Lean's own definition of it. -/

namespace Verif.Py

abbrev Bytes := List UInt8

/-- The bytes written for a text. -/
def encode (s : Str) : Bytes := s.flatMap String.utf8EncodeChar

/-- Strict decoding; `none` is `UnicodeDecodeError`. -/
def decode (b : Bytes) : Option Str := (ByteArray.utf8Decode? b.toByteArray).map Array.toList

theorem encode_append (s t : Str) : encode (s ++ t) = encode s ++ encode t := by simp [encode]

private theorem toByteArray_encode (s : Str) : (encode s).toByteArray = s.utf8Encode := rfl

theorem decode_encode (s : Str) : decode (encode s) = some s := by
  simp [decode, toByteArray_encode]

theorem encode_of_decode {b : Bytes} {s : Str} (h : decode b = some s) : encode s = b := by
  unfold decode at h
  simp only [Option.map_eq_some_iff] at h
  obtain ⟨a, h1, rfl⟩ := h
  have hs : (ByteArray.utf8Decode? b.toByteArray).isSome := by rw [h1]; rfl
  have := @ByteArray.utf8Encode_get_utf8Decode? b.toByteArray hs
  simp only [h1, Option.get_some] at this
  have h2 : (encode a.toList).toByteArray = b.toByteArray := this
  have h3 := congrArg (fun x => x.data.toList) h2
  simpa using h3

/-- If the bytes of a text are cut anywhere and the rest can be decoded, it is the beginning of the
text. -/
theorem decode_prefix {s t : Str} {b : Bytes} (hb : b <+: encode s) (h : decode b = some t) :
    t <+: s := by
  obtain ⟨r, hr⟩ := hb
  have ht := encode_of_decode h
  apply List.isPrefix_of_utf8Encode_append_eq_utf8Encode r.toByteArray
  rw [← toByteArray_encode, ← toByteArray_encode, ht, ← hr]
  simp

/-- The text decoded from cut bytes contains all characters that are completely there. -/
theorem decode_prefix_ge {s t u : Str} {b : Bytes} (hb : b <+: encode s) (h : decode b = some t)
    (hu : u <+: s) (hl : encode u <+: b) : u <+: t := by
  have h1 := decode_prefix hb h
  rcases List.prefix_or_prefix_of_prefix hu h1 with h2 | ⟨v, rfl⟩
  · exact h2
  · have := encode_of_decode h
    rw [← this, encode_append] at hl
    have hlen := hl.length_le
    simp only [List.length_append] at hlen
    have : encode v = [] := List.length_eq_zero_iff.mp (by omega)
    have : v = [] := by
      cases v with
      | nil => rfl
      | cons c cs =>
        have h0 : (encode (c :: cs)).length = 0 := by rw [this]; rfl
        simp only [encode, List.flatMap_cons, List.length_append, String.length_utf8EncodeChar] at h0
        have := Char.utf8Size_pos c
        omega
    subst this
    simp

/-- ASCII text has one byte per character. -/
theorem encode_ascii {s : Str} (h : ∀ c ∈ s, c.val ≤ 127) :
    encode s = s.map (fun c => UInt8.ofNat c.toNat) := by
  induction s with
  | nil => rfl
  | cons c cs ih =>
    have hc : c.val.toNat ≤ 127 := by simpa [UInt32.le_iff_toNat_le] using h c (by simp)
    simp only [encode, List.flatMap_cons, List.map_cons] at ih ⊢
    rw [ih (fun c hc => h c (by simp [hc]))]
    have : String.utf8EncodeChar c = [UInt8.ofNat c.toNat] := by
      unfold String.utf8EncodeChar
      exact if_pos hc
    rw [this]
    rfl

/-- ASCII text can be decoded wherever it is cut. -/
theorem decode_ascii_prefix {s : Str} (h : ∀ c ∈ s, c.val ≤ 127) {b : Bytes} (hb : b <+: encode s) :
    ∃ t, decode b = some t := by
  rw [encode_ascii h] at hb
  have hb' := List.prefix_iff_eq_take.mp hb
  rw [← List.map_take] at hb'
  refine ⟨s.take b.length, ?_⟩
  have : b = encode (s.take b.length) := by
    rw [encode_ascii (fun c hc => h c (List.mem_of_mem_take hc))]
    exact hb'
  rw [this, decode_encode, ← this]

end Verif.Py
