import Verif.Spec.Format
import Verif.Lemmas.Json

/-! # Formats of values (C69) -/

namespace Verif.Props
open Verif.Py Verif.Model Verif.Spec Verif.Lemmas

variable {T V : Type}

mutual
private theorem format_same : ∀ {a b : PyVal T V}, SameShape a b → valueFormat a = valueFormat b
  | _, _, .leaf t n v w => by rw [valueFormat, valueFormat]
  | _, _, .list h => by rw [valueFormat, valueFormat, format_items h]
  | _, _, .dict h => by rw [valueFormat, valueFormat, format_fields h]
private theorem format_items : ∀ {a b : List (PyVal T V)}, SameItems a b → formatItems a = formatItems b
  | _, _, .nil => rfl
  | _, _, .cons h1 h2 => by rw [formatItems, formatItems, format_same h1, format_items h2]
private theorem format_fields : ∀ {a b : List (JKey × PyVal T V)}, SameFields a b → formatFields a = formatFields b
  | _, _, .nil => rfl
  | _, _, .cons h1 h2 => by rw [formatFields, formatFields, format_same h1, format_fields h2]
end

mutual
private theorem same_format {name : T → Str} (hinj : ∀ t u, name t = name u → t = u) :
    ∀ {a b : PyVal T V}, Everywhere (fun t n => n = name t) (fun k => ∃ s, k = .str s) a →
      Everywhere (fun t n => n = name t) (fun k => ∃ s, k = .str s) b →
      textKeys (valueFormat a) = textKeys (valueFormat b) → SameShape a b
  | .leaf t n v, .leaf t' n' v', .leaf ha, .leaf hb, h => by
    rw [valueFormat, valueFormat, textKeys, textKeys, Json.str.injEq] at h
    subst h
    have := hinj t t' (by rw [← ha, ← hb])
    subst this
    exact .leaf _ _ _ _
  | .leaf .., .list _, _, _, h => by rw [valueFormat, valueFormat, textKeys, textKeys] at h; cases h
  | .leaf .., .dict _, _, _, h => by rw [valueFormat, valueFormat, textKeys, textKeys] at h; cases h
  | .list _, .leaf .., _, _, h => by rw [valueFormat, valueFormat, textKeys, textKeys] at h; cases h
  | .list _, .dict _, _, _, h => by rw [valueFormat, valueFormat, textKeys, textKeys] at h; cases h
  | .dict _, .leaf .., _, _, h => by rw [valueFormat, valueFormat, textKeys, textKeys] at h; cases h
  | .dict _, .list _, _, _, h => by rw [valueFormat, valueFormat, textKeys, textKeys] at h; cases h
  | .list a, .list b, .list ha, .list hb, h => by
    rw [valueFormat, valueFormat, textKeys, textKeys, Json.list.injEq] at h
    exact .list (same_items hinj ha hb h)
  | .dict a, .dict b, .dict ha, .dict hb, h => by
    rw [valueFormat, valueFormat, textKeys, textKeys, Json.dict.injEq] at h
    exact .dict (same_fields hinj ha hb h)
private theorem same_items {name : T → Str} (hinj : ∀ t u, name t = name u → t = u) :
    ∀ {a b : List (PyVal T V)}, EverywhereItems (fun t n => n = name t) (fun k => ∃ s, k = .str s) a →
      EverywhereItems (fun t n => n = name t) (fun k => ∃ s, k = .str s) b →
      textItems (formatItems a) = textItems (formatItems b) → SameItems a b
  | [], [], _, _, _ => .nil
  | [], _ :: _, _, _, h => by rw [formatItems, formatItems, textItems, textItems] at h; cases h
  | _ :: _, [], _, _, h => by rw [formatItems, formatItems, textItems, textItems] at h; cases h
  | a :: as, b :: bs, .cons ha has, .cons hb hbs, h => by
    rw [formatItems, formatItems, textItems, textItems, List.cons.injEq] at h
    exact .cons (same_format hinj ha hb h.1) (same_items hinj has hbs h.2)
private theorem same_fields {name : T → Str} (hinj : ∀ t u, name t = name u → t = u) :
    ∀ {a b : List (JKey × PyVal T V)}, EverywhereFields (fun t n => n = name t) (fun k => ∃ s, k = .str s) a →
      EverywhereFields (fun t n => n = name t) (fun k => ∃ s, k = .str s) b →
      textFields (formatFields a) = textFields (formatFields b) → SameFields a b
  | [], [], _, _, _ => .nil
  | [], (_, _) :: _, _, _, h => by rw [formatFields, formatFields, textFields, textFields] at h; cases h
  | (_, _) :: _, [], _, _, h => by rw [formatFields, formatFields, textFields, textFields] at h; cases h
  | (k, a) :: as, (l, b) :: bs, .cons hk ha has, .cons hl hb hbs, h => by
    rw [formatFields, formatFields, textFields, textFields, List.cons.injEq, Prod.mk.injEq] at h
    obtain ⟨s, rfl⟩ := hk
    obtain ⟨t, rfl⟩ := hl
    have : s = t := by
      have := h.1.1
      rw [JKey.str.injEq] at this
      exact this
    subst this
    exact .cons (same_format hinj ha hb h.1.2) (same_fields hinj has hbs h.2)
end

/-- **C69**: values of the same shape are printed the same. -/
theorem C69_stable {a b : PyVal T V} (h : SameShape a b) : tformatText a = tformatText b := by
  unfold tformatText
  rw [format_same h]

/-- **C69, partial**: two values are printed the same by `tformat` exactly if they have the same structure, keys in
the same order and types of leaves. The keys are strings, and types with the same name are the same. -/
theorem C69_shape_partial {name : T → Str} (hinj : ∀ t u, name t = name u → t = u) {a b : PyVal T V}
    (ha : Everywhere (fun t n => n = name t) (fun k => ∃ s, k = .str s) a)
    (hb : Everywhere (fun t n => n = name t) (fun k => ∃ s, k = .str s) b) :
    tformatText a = tformatText b ↔ SameShape a b := by
  refine ⟨fun h => same_format hinj ha hb ?_, C69_stable⟩
  unfold tformatText at h
  exact (dump_inj _ _ 0 [] [] (by rw [h])).1

/-- **C69, refuted** for keys of different types: `{1: 2}` and `{"1": 2}`. -/
theorem C69_keys_refuted : ∃ a b : PyVal Nat Nat, tformatText a = tformatText b ∧ ¬ SameShape a b := by
  refine ⟨.dict [(.other "1".toList, .leaf 0 "int".toList 2)], .dict [(.str "1".toList, .leaf 0 "int".toList 2)],
    rfl, ?_⟩
  intro h
  cases h with
  | dict h => cases h

/-- **C69, refuted** for two types with the same name. -/
theorem C69_types_refuted : ∃ a b : PyVal Nat Nat, tformatText a = tformatText b ∧ ¬ SameShape a b := by
  refine ⟨.leaf 0 "Item".toList 2, .leaf 1 "Item".toList 2, rfl, ?_⟩
  intro h
  cases h

/-- **C69, refuted** for the order of keys: equal dictionaries can be printed differently. -/
theorem C69_order_refuted : ∃ a b : List (JKey × PyVal Nat Nat), a.Perm b ∧
    tformatText (.dict a) ≠ tformatText (.dict b) := by
  refine ⟨[(.str "a".toList, .leaf 0 "int".toList 1), (.str "b".toList, .leaf 0 "int".toList 1)],
    [(.str "b".toList, .leaf 0 "int".toList 1), (.str "a".toList, .leaf 0 "int".toList 1)], .swap .., by decide⟩

example : tformatText (.dict [(.str "id".toList, .leaf 0 "int".toList 7),
      (.str "tags".toList, .list [.leaf 1 "str".toList 0, .list []])] : PyVal Nat Nat) =
    "{\n  \"id\": \"int\",\n  \"tags\": [\n    \"str\",\n    []\n  ]\n}".toList := by decide

example : Everywhere (fun t n => n = (fun t => if t = 0 then "int".toList else List.replicate t 'x') t)
    (fun k => ∃ s, k = .str s)
    (.dict [(.str "id".toList, .leaf 0 "int".toList 7)] : PyVal Nat Nat) :=
  .dict (.cons ⟨_, rfl⟩ (.leaf rfl) .nil)

end Verif.Props
