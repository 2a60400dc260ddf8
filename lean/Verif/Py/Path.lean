import Verif.Py.Basic

/-! # POSIX paths as strings (`os.path`) -/

namespace Verif.Py

/-- `path.join(a, b)`. -/
def pathJoin (a b : Str) : Str :=
  if startsWith b "/".toList then b
  else if a.isEmpty || endsWith a "/".toList then a ++ b
  else a ++ "/".toList ++ b

/-- An absolute path, or a component that `path.join` treats as one. -/
def Absolute (p : Str) : Prop := p.head? = some '/'

theorem startsWith_slash (p : Str) : startsWith p "/".toList = true ↔ Absolute p := by
  unfold startsWith Absolute
  cases p with
  | nil => simp
  | cons c cs =>
    rw [List.head?_cons, Option.some.injEq]
    change (('/' == c) && true) = true ↔ c = '/'
    rw [Bool.and_true, beq_iff_eq]
    exact eq_comm

theorem endsWith_slash (p : Str) : endsWith p "/".toList = true ↔ p.getLast? = some '/' := by
  unfold endsWith
  rw [List.isSuffixOf_iff_suffix]
  constructor
  · rintro ⟨t, rfl⟩
    simp
  · intro h
    rcases List.eq_nil_or_concat p with rfl | ⟨q, c, rfl⟩
    · cases h
    · simp only [List.concat_eq_append, List.getLast?_append, List.getLast?_singleton, Option.some_or,
        Option.some.injEq] at h
      subst h
      exact ⟨q, by simp⟩

theorem pathJoin_absolute {a b : Str} (h : Absolute b) : pathJoin a b = b := by
  unfold pathJoin
  rw [if_pos ((startsWith_slash b).mpr h)]

theorem pathJoin_nil {b : Str} : pathJoin [] b = b := by
  unfold pathJoin
  split <;> rfl

theorem pathJoin_slash {a b : Str} (h : ¬ Absolute b) (ha : a.getLast? = some '/') : pathJoin a b = a ++ b := by
  unfold pathJoin
  rw [if_neg (fun hs => h ((startsWith_slash b).mp hs)), (endsWith_slash a).mpr ha]
  simp

theorem pathJoin_plain {a b : Str} (h : ¬ Absolute b) (ha : a ≠ []) (hl : a.getLast? ≠ some '/') :
    pathJoin a b = a ++ "/".toList ++ b := by
  unfold pathJoin
  rw [if_neg (fun hs => h ((startsWith_slash b).mp hs))]
  have h1 : endsWith a "/".toList = false := by
    rcases he : endsWith a "/".toList with _ | _
    · rfl
    · exact absurd ((endsWith_slash a).mp he) hl
  have h2 : a.isEmpty = false := by cases a with
    | nil => exact absurd rfl ha
    | cons => rfl
  rw [h1, h2]
  rfl

end Verif.Py

namespace Verif.Py

/-- One step of the loop of `normpath`; `initial` is the number of slashes at the beginning. -/
def normStep (initial : Nat) (comps : List Str) (comp : Str) : List Str :=
  if comp = [] ∨ comp = ".".toList then comps
  else if comp ≠ "..".toList ∨ (initial = 0 ∧ comps = []) ∨ comps.getLast? = some "..".toList then comps ++ [comp]
  else comps.dropLast

/-- The slashes at the beginning of a path that `normpath` keeps. -/
def initialSlashes (p : Str) : Nat :=
  if startsWith p "/".toList then (if startsWith p "//".toList ∧ ¬ startsWith p "///".toList then 2 else 1) else 0

/-- `os.path.normpath` (POSIX). -/
def normpath (p : Str) : Str :=
  if p = [] then ".".toList
  else
    let r := List.replicate (initialSlashes p) '/' ++ join ['/'] ((split '/' p).foldl (normStep (initialSlashes p)) [])
    if r = [] then ".".toList else r

/-- `os.path.abspath` (POSIX), in the given working directory. -/
def abspath (cwd p : Str) : Str := normpath (if startsWith p "/".toList then p else pathJoin cwd p)

end Verif.Py
