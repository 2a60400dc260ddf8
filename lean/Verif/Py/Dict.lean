import Verif.Py.Basic

/-! # Python dictionaries

The items in insertion order; keys occur once in every dictionary built with `Dict.set`. -/

namespace Verif.Py

abbrev Dict (α : Type) := List (Str × α)

variable {α : Type}

/-- `d.get(k)`; `none` is a missing key. -/
def Dict.get (d : Dict α) (k : Str) : Option α :=
  match d with
  | [] => none
  | (k', v) :: rest => if k' = k then some v else Dict.get rest k

/-- `d[k] = v`: in place, or appended. -/
def Dict.set (d : Dict α) (k : Str) (v : α) : Dict α :=
  match d with
  | [] => [(k, v)]
  | (k', v') :: rest => if k' = k then (k, v) :: rest else (k', v') :: Dict.set rest k v

/-- `d.keys()`. -/
def Dict.keys (d : Dict α) : List Str := d.map (·.1)

theorem Dict.get_set (d : Dict α) (k : Str) (v : α) (x : Str) :
    (d.set k v).get x = if k = x then some v else d.get x := by
  induction d with
  | nil => simp [Dict.set, Dict.get]
  | cons p d ih =>
    obtain ⟨k', v'⟩ := p
    unfold Dict.set
    split
    · rename_i h; subst h; simp only [Dict.get]; split <;> simp
    · simp only [Dict.get, ih]
      split
      · rename_i h1 h2; subst h2; simp [Ne.symm h1]
      · rfl

theorem Dict.get_eq_none (d : Dict α) (x : Str) : d.get x = none ↔ x ∉ d.keys := by
  induction d with
  | nil => simp [Dict.get, Dict.keys]
  | cons p d ih =>
    obtain ⟨k, v⟩ := p
    simp only [Dict.get, Dict.keys, List.map_cons, List.mem_cons, not_or]
    split
    · rename_i h; simp [h]
    · rename_i h; rw [ih]; simp [Dict.keys, Ne.symm h]

theorem Dict.get_of_mem {d : Dict α} (hd : d.keys.Nodup) {k : Str} {v : α} (h : (k, v) ∈ d) :
    d.get k = some v := by
  induction d with
  | nil => cases h
  | cons p d ih =>
    obtain ⟨k', v'⟩ := p
    simp only [Dict.keys, List.map_cons, List.nodup_cons] at hd
    simp only [Dict.get]
    rcases List.mem_cons.mp h with h | h
    · cases h; simp
    · have hne : k' ≠ k := by
        rintro rfl; exact hd.1 (List.mem_map.mpr ⟨_, h, rfl⟩)
      simp only [hne, if_false]
      exact ih hd.2 h

theorem Dict.mem_of_get {d : Dict α} {k : Str} {v : α} (h : d.get k = some v) : (k, v) ∈ d := by
  induction d with
  | nil => simp [Dict.get] at h
  | cons p d ih =>
    obtain ⟨k', v'⟩ := p
    simp only [Dict.get] at h
    split at h
    · rename_i hk; subst hk; cases h; simp
    · exact List.mem_cons_of_mem _ (ih h)

theorem Dict.keys_set (d : Dict α) (k : Str) (v : α) :
    (d.set k v).keys = if k ∈ d.keys then d.keys else d.keys ++ [k] := by
  induction d with
  | nil => simp [Dict.set, Dict.keys]
  | cons p d ih =>
    obtain ⟨k', v'⟩ := p
    unfold Dict.set
    split
    · rename_i h; subst h; simp [Dict.keys]
    · rename_i h
      simp only [Dict.keys, List.map_cons] at ih ⊢
      rw [ih]
      by_cases hm : k ∈ d.map (·.1)
      · simp [hm]
      · simp [hm, Ne.symm h]

theorem Dict.nodup_set {d : Dict α} (h : d.keys.Nodup) (k : Str) (v : α) : (d.set k v).keys.Nodup := by
  rw [Dict.keys_set]
  split
  · exact h
  · rename_i hk
    rw [List.nodup_append]
    refine ⟨h, by simp, ?_⟩
    intro a ha b hb hab
    simp at hb; subst hb; subst hab; exact hk ha

end Verif.Py
