import Verif.Lemmas.Run

/-! # Properties of the case report file (C23–C25) -/

namespace Verif.Props
open Verif.Py Verif.Model Verif.Spec Verif.Lemmas

/-- Durations for the examples: numbers written as strokes. -/
def strokes : Durations where
  D := Nat
  repr n := List.replicate (n + 1) '1'
  parse s := if s ≠ [] ∧ s.all (· = '1') then some (s.length - 1) else none
  parse_repr := by
    intro n
    rw [if_pos]
    · simp
    · constructor
      · simp [List.replicate_succ]
      · simp
  repr_clean := by
    intro n c hc
    rw [List.eq_of_mem_replicate hc]
    decide

instance : DecidableEq strokes.D := inferInstanceAs (DecidableEq Nat)

private def mk (n : Str) (r : Result) (d : Nat) : Rec strokes := (n, r, d)

private def sample : List (Rec strokes) :=
  [mk "t/a".toList .OK 3, mk "t/b".toList .DIFF 0, mk "t/c".toList .OK 2]

/-! ### C23: round trip -/

/-- Reading a report that was written gives back the records. -/
theorem C23_round_trip (u : Unicode) (fl : Durations) (rs : List (Rec fl))
    (h : ∀ r ∈ rs, CleanName r.1) : ofFile u fl (some (encode (toText fl rs))) = some rs := by
  simp only [ofFile, decode_encode, Option.map_some, ofText_toText u h]

example : ∀ r ∈ sample, CleanName r.1 := by unfold CleanName; decide

/-- A name with a tab does not survive. -/
theorem C23_tab_refuted : ∃ rs : List (Rec strokes),
    ofFile ascii strokes (some (encode (toText strokes rs))) = some [] ∧ rs ≠ [] := by
  refine ⟨[mk "a\tb".toList .OK 0], ?_, by simp⟩
  simp only [ofFile, decode_encode, Option.map_some, Option.some.injEq]
  decide

/-- Reading a report, whatever is in it, and writing it again gives a report with the same
records. -/
theorem C23_stable (u : Unicode) (fl : Durations) (file : Option Bytes) (rs : List (Rec fl))
    (h : ofFile u fl file = some rs) : ofFile u fl (some (encode (toText fl rs))) = some rs :=
  C23_round_trip u fl rs (ofFile_clean u fl h)

example : ofFile ascii strokes (some (encode "t/a\tOK\t11\ngarbage\n\nt/b\tFAIL\t1".toList)) =
    some [mk "t/a".toList .OK 1, mk "t/b".toList .FAIL 0] := by
  simp only [ofFile, decode_encode, Option.map_some]
  rfl

/-! ### C24: torn reports -/

/-- If the file is cut at any byte and can be read at all, the names and results read are those of an
initial segment of the records; all records that are completely in the file are read, with their
durations. -/
theorem C24_torn (u : Unicode) (fl : Durations) (rs : List (Rec fl)) (h : ∀ r ∈ rs, CleanName r.1)
    (b : Bytes) (hb : b <+: encode (toText fl rs)) (rs' : List (Rec fl))
    (hr : ofFile u fl (some b) = some rs') :
    rs'.map key <+: rs.map key ∧
    ∀ m, m ≤ rs.length → encode (toText fl (rs.take m)) <+: b → rs.take m <+: rs' := by
  simp only [ofFile, Option.map_eq_some_iff] at hr
  obtain ⟨s, hs, rfl⟩ := hr
  obtain ⟨j, x, hj, h1, h2, h3⟩ := ofText_torn u h hb hs
  rw [h1]
  constructor
  · rcases h2 with rfl | ⟨r, d, h4, rfl⟩
    · rw [List.append_nil]
      exact (List.take_prefix j rs).map key
    · obtain ⟨hlt, h5⟩ := List.getElem?_eq_some_iff.mp h4
      have : (rs.take j ++ [(r.1, r.2.1, d)]).map key = (rs.take (j + 1)).map key := by
        rw [List.take_succ_eq_append_getElem hlt, List.map_append, List.map_append]
        simp [key, h5]
      rw [this]
      exact (List.take_prefix (j + 1) rs).map key
  · intro m hm he
    have := h3 m hm he
    refine List.IsPrefix.trans ?_ (List.prefix_append _ _)
    exact List.take_prefix_take_left this

/-- A cut ASCII report can always be read. -/
theorem C24_ascii_readable (u : Unicode) (fl : Durations) (rs : List (Rec fl))
    (ha : ∀ c ∈ toText fl rs, c.val ≤ 127) (b : Bytes) (hb : b <+: encode (toText fl rs)) :
    ∃ rs', ofFile u fl (some b) = some rs' := by
  obtain ⟨t, ht⟩ := decode_ascii_prefix ha hb
  exact ⟨ofText u fl t, by simp [ofFile, ht]⟩

/-- If a name has a character of several bytes and the file is cut inside it, reading raises
`UnicodeDecodeError`. -/
theorem C24_multibyte_refuted : ∃ (rs : List (Rec strokes)) (b : Bytes), (∀ r ∈ rs, CleanName r.1) ∧
    b <+: encode (toText strokes rs) ∧ ofFile ascii strokes (some b) = none := by
  refine ⟨[mk "é".toList .OK 0], [0xc3], by unfold CleanName; decide, by decide, ?_⟩
  cases h : decode [0xc3] with
  | none => simp [ofFile, h]
  | some s =>
    exfalso
    have he := encode_of_decode h
    cases s with
    | nil => cases he
    | cons c cs =>
      have hl := congrArg List.length he
      have h1 : (String.utf8EncodeChar c).length = 1 := by
        simp only [encode, List.flatMap_cons, List.length_append, List.length_cons,
          List.length_nil] at hl
        have := Char.utf8Size_pos c
        rw [String.length_utf8EncodeChar] at hl ⊢
        omega
      have h2 : String.utf8EncodeChar c = [0xc3] := by
        simp only [encode, List.flatMap_cons] at he
        have := congrArg (List.take 1) he
        rw [List.take_left' h1] at this
        simpa using this
      unfold String.utf8EncodeChar at h2
      dsimp only at h2
      split at h2
      · rename_i hv
        simp only [List.cons.injEq, and_true] at h2
        have := congrArg UInt8.toNat h2
        rw [UInt8.toNat_ofNat'] at this
        have hv' : c.val.toNat ≤ 127 := hv
        have h3 : (195 : UInt8).toNat = 195 := rfl
        rw [h3] at this
        omega
      · split at h2
        · simp at h2
        · split at h2 <;> simp at h2

example : (∀ c ∈ toText strokes sample, c.val ≤ 127) := by decide

/-- Cut in the middle of the second line, the sample report gives the first record. -/
example : ofFile ascii strokes (some (encode "t/a\tOK\t1111\nt/b\tDI".toList)) =
    some [mk "t/a".toList .OK 3] := by
  simp only [ofFile, decode_encode, Option.map_some]
  rfl

/-! ### C25: continuing -/

/-- With `-c` the tests to run are the selected ones whose first record is not OK, in order; the
others are done.  Without `-c` all selected tests are run. -/
theorem C25_continue (fl : Durations) (cfg : Config) (rs : List (Rec fl)) (selected : List Str) :
    (cfg.cont = true → (doneAndTodo cfg rs selected).2 =
        selected.filter (fun n => decide ((firstRecord rs n).map (·.2.1) ≠ some .OK)) ∧
      (doneAndTodo cfg rs selected).1.map (·.1) =
        selected.filter (fun n => decide ((firstRecord rs n).map (·.2.1) = some .OK))) ∧
    (cfg.cont = false → doneAndTodo cfg rs selected = ([], selected)) := by
  obtain ⟨h1, h2⟩ := doneAndTodo_eq cfg rs selected
  constructor
  · intro hc
    rw [h1, h2, toRun, hc]
    simp
  · intro hc
    simp [doneAndTodo, hc]

example : (doneAndTodo { cont := true } sample ["t/a".toList, "t/b".toList, "x".toList]).2 =
    ["t/b".toList, "x".toList] := by decide

end Verif.Props
