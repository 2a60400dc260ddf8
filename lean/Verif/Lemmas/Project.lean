import Verif.Spec.Project
import Verif.Lemmas.FS
import Verif.Lemmas.Review

/-! # Facts about whole runs: the files of different tests are apart -/

namespace Verif.Lemmas
open Verif.Py Verif.Model Verif.Spec

/-! ### Separation -/

theorem ending_no_sep {x : Str} (h : x = [] ∨ x ∈ endings) : '/' ∉ x := by
  rcases h with rfl | h
  · simp
  · revert h; simp only [endings, List.mem_cons, List.not_mem_nil, or_false]
    rintro (rfl | rfl | rfl | rfl | rfl) <;> decide

theorem slot_shape (n : Str) : ∃ cs l, split '/' n = cs ++ [l] ∧
    ∀ x, (x = [] ∨ x ∈ endings) → split '/' (n ++ x) = cs ++ [l ++ x] := by
  obtain ⟨cs, l, h1, -⟩ := split_append_no_sep '/' n [] (by simp)
  refine ⟨cs, l, h1, ?_⟩
  intro x hx
  obtain ⟨cs', l', h2, h3⟩ := split_append_no_sep '/' n x (ending_no_sep hx)
  rw [h1] at h2
  obtain ⟨rfl, h4⟩ := List.append_inj' h2 rfl
  simp only [List.cons.injEq, and_true] at h4
  rw [h3, h4]

theorem endings_ne {x y : Str} (hx : x ∈ endings) (hy : y ∈ endings) {a b : Str}
    (h : a ++ x = b ++ y) : x = y := by
  have h1 := congrArg List.getLast? h
  simp only [endings, List.mem_cons, List.not_mem_nil, or_false] at hx hy
  rcases hx with rfl | rfl | rfl | rfl | rfl <;> rcases hy with rfl | rfl | rfl | rfl | rfl <;>
    first
    | rfl
    | (rw [List.getLast?_append, List.getLast?_append] at h1; simp at h1)

/-- Equal components with endings are equal parts with equal endings. -/
theorem part_eq {a b x y : Str} (hx : x = [] ∨ x ∈ endings) (hy : y = [] ∨ y ∈ endings)
    (ha : ∀ z ∈ endings, ¬ z <:+ a) (hb : ∀ z ∈ endings, ¬ z <:+ b) (h : a ++ x = b ++ y) :
    a = b ∧ x = y := by
  rcases hx with rfl | hx <;> rcases hy with rfl | hy
  · simpa using h
  · exact absurd ⟨b, by simpa using h.symm⟩ (ha y hy)
  · exact absurd ⟨a, by simpa using h⟩ (hb x hx)
  · obtain rfl := endings_ne hx hy h
    exact ⟨List.append_cancel_right h, rfl⟩

theorem core_sep {a b : Str} (ha : PlainName a) (hb : PlainName b) (hn : a ≠ b → NotNested a b)
    {x y : Str} (hx : x = [] ∨ x ∈ endings) (hy : y = [] ∨ y ∈ endings)
    (h : split '/' (a ++ x) <+: split '/' (b ++ y)) : a = b ∧ x = y := by
  obtain ⟨ca, la, a1, a2⟩ := slot_shape a
  obtain ⟨cb, lb, b1, b2⟩ := slot_shape b
  rw [a2 x hx, b2 y hy] at h
  have hla : ∀ z ∈ endings, ¬ z <:+ la := ha.parts la (by rw [a1]; simp)
  have hlb : ∀ z ∈ endings, ¬ z <:+ lb := hb.parts lb (by rw [b1]; simp)
  rcases prefix_concat h with h | h
  · -- the file of `a` would be a directory above the files of `b`
    exfalso
    rcases hx with rfl | hx
    · rw [List.append_nil] at h
      have h2 : split '/' a <+: split '/' b := by
        rw [a1, b1]; exact h.trans (List.prefix_append _ _)
      by_cases hab : a = b
      · subst hab
        have := h.length_le
        rw [a1] at b1
        have e := List.append_inj' b1 rfl
        rw [e.1] at this
        simp at this
        omega
      · exact (hn hab).1 h2
    · have hm : la ++ x ∈ split '/' b := by
        rw [b1]
        exact List.mem_append_left _ (h.subset (by simp))
      exact hb.parts _ hm x hx ⟨la, rfl⟩
  · obtain ⟨h1, h2⟩ := List.append_inj' h rfl
    simp only [List.cons.injEq, and_true] at h2
    obtain ⟨h3, h4⟩ := part_eq hx hy hla hlb h2
    subst h1 h3 h4
    exact ⟨split_inj '/' (a1.trans b1.symm), rfl⟩

theorem slot_head {n : Str} (hn : PlainName n) {x : Str} (hx : x = [] ∨ x ∈ endings) :
    ∃ w ws, split '/' (n ++ x) = w :: ws ∧ w ≠ ".out".toList := by
  obtain ⟨cs, l, h1, h2⟩ := slot_shape n
  rw [h2 x hx]
  have ht := hn.top
  rw [h1] at ht
  cases cs with
  | cons k ks => exact ⟨k, ks ++ [l ++ x], rfl, by simpa using ht⟩
  | nil =>
    refine ⟨l ++ x, [], rfl, ?_⟩
    rcases hx with rfl | hx
    · simpa using ht
    · intro hc
      have h3 := congrArg List.getLast? hc
      have h4 := congrArg (fun s => s.dropLast.getLast?) hc
      simp only [endings, List.mem_cons, List.not_mem_nil, or_false] at hx
      rcases hx with rfl | rfl | rfl | rfl | rfl
      · rw [List.getLast?_append] at h3; simp at h3
      · rw [List.dropLast_append_of_ne_nil (by decide), List.getLast?_append] at h4
        simp at h4
      · rw [List.getLast?_append] at h3; simp at h3
      · rw [List.getLast?_append] at h3; simp at h3
      · rw [List.getLast?_append] at h3; simp at h3

/-- A path is below at most one file or directory of at most one test. -/
theorem slot_sep {ns : List Str} (hp : PlainNames ns) {a b : Str} (ha : a ∈ ns) (hb : b ∈ ns)
    {root p : Path} {o o' : Bool} {x y : Str} (hx : x = [] ∨ x ∈ endings)
    (hy : y = [] ∨ y ∈ endings) (h1 : slot root o a x <+: p) (h2 : slot root o' b y <+: p) :
    a = b ∧ o = o' ∧ x = y := by
  have pa := hp.1 a ha
  have pb := hp.1 b hb
  obtain ⟨wa, wsa, ea, na⟩ := slot_head pa hx
  obtain ⟨wb, wsb, eb, nb⟩ := slot_head pb hy
  have key : ∀ {a b x y : Str} {o o' : Bool} (pa : PlainName a) (pb : PlainName b)
      (hn : a ≠ b → NotNested a b) (hx : x = [] ∨ x ∈ endings) (hy : y = [] ∨ y ∈ endings),
      slot root o a x <+: slot root o' b y → a = b ∧ o = o' ∧ x = y := by
    intro a b x y o o' pa pb hn hx hy h
    obtain ⟨wa, wsa, ea, na⟩ := slot_head pa hx
    obtain ⟨wb, wsb, eb, nb⟩ := slot_head pb hy
    unfold slot booksDir at h
    cases o <;> cases o'
    · simp only [Bool.false_eq_true, if_false, List.prefix_append_right_inj] at h
      obtain ⟨h1, h2⟩ := core_sep pa pb hn hx hy h
      exact ⟨h1, rfl, h2⟩
    · exfalso
      simp only [Bool.false_eq_true, if_false, if_true, List.append_assoc,
        List.prefix_append_right_inj] at h
      rw [ea, eb] at h
      obtain ⟨t, ht⟩ := h
      simp only [List.cons_append, List.cons.injEq] at ht
      exact na ht.1
    · exfalso
      simp only [Bool.false_eq_true, if_false, if_true, List.append_assoc,
        List.prefix_append_right_inj] at h
      rw [ea, eb] at h
      obtain ⟨t, ht⟩ := h
      simp only [List.cons_append, List.cons.injEq] at ht
      exact nb ht.1.symm
    · simp only [if_true, List.prefix_append_right_inj] at h
      obtain ⟨h1, h2⟩ := core_sep pa pb hn hx hy h
      exact ⟨h1, rfl, h2⟩
  rcases List.prefix_or_prefix_of_prefix h1 h2 with h | h
  · exact key pa pb (hp.2 a ha b hb) hx hy h
  · obtain ⟨e1, e2, e3⟩ := key pb pa (hp.2 b hb a ha) hy hx h
    exact ⟨e1.symm, e2.symm, e3.symm⟩

theorem slotDir_prefix (root : Path) (o : Bool) (n : Str) {x : Str} (hx : x = [] ∨ x ∈ endings) :
    slotDir root o n <+: slot root o n x := by
  obtain ⟨cs, l, h1, h2⟩ := slot_shape n
  rw [slotDir, slot, h1, h2 x hx, List.dropLast_concat, List.prefix_append_right_inj]
  exact List.prefix_append _ _

theorem slot_dropLast (root : Path) (o : Bool) (n : Str) {x : Str} (hx : x = [] ∨ x ∈ endings) :
    (slot root o n x).dropLast = slotDir root o n := by
  obtain ⟨cs, l, h1, h2⟩ := slot_shape n
  rw [slotDir, slot, h1, h2 x hx, List.dropLast_concat, ← List.append_assoc, List.dropLast_concat]

theorem slot_ne_nil (root : Path) (o : Bool) (n : Str) {x : Str} (hx : x = [] ∨ x ∈ endings) :
    slot root o n x ≠ [] := by
  obtain ⟨cs, l, h1, h2⟩ := slot_shape n
  rw [slot, h2 x hx]; simp

theorem exists_other (x : Str) : ∃ y, (y = [] ∨ y ∈ endings) ∧ y ≠ x := by
  by_cases h : x = []
  · exact ⟨".md".toList, Or.inr (by decide), by rw [h]; decide⟩
  · exact ⟨[], Or.inl rfl, fun hc => h hc.symm⟩

theorem slot_not_above {ns : List Str} (hp : PlainNames ns) {a b : Str} (ha : a ∈ ns) (hb : b ∈ ns)
    {root q : Path} {o o' : Bool} {x : Str} (hx : x = [] ∨ x ∈ endings)
    (hq : q <+: slotDir root o' b) : ¬ slot root o a x <+: q := by
  intro h
  obtain ⟨y, hy, hne⟩ := exists_other x
  have h2 := (h.trans hq).trans (slotDir_prefix root o' b hy)
  exact hne (slot_sep hp ha hb hx hy h2 List.prefix_rfl).2.2.symm

theorem slot_not_root {root q : Path} {o : Bool} {a x : Str} (ha : PlainName a)
    (hx : x = [] ∨ x ∈ endings) (hq : q <+: booksDir root true) : ¬ slot root o a x <+: q := by
  intro h
  have h3 := h.trans hq
  obtain ⟨w, ws, ew, nw⟩ := slot_head ha hx
  rw [slot, ew, booksDir, booksDir] at h3
  cases o
  · simp only [Bool.false_eq_true, if_false, if_true, List.prefix_append_right_inj] at h3
    obtain ⟨t, ht⟩ := h3
    simp only [List.cons_append, List.cons.injEq] at ht
    exact nw ht.1
  · have := h3.length_le
    simp at this

theorem slot_not_index {root : Path} {o : Bool} {a x : Str} (ha : PlainName a)
    (hx : x = [] ∨ x ∈ endings) : ¬ slot root o a x <+: root ++ ["index.md".toList] := by
  intro h
  obtain ⟨cs, l, h1, h2⟩ := slot_shape a
  rw [slot, booksDir] at h
  cases o
  · simp only [Bool.false_eq_true, if_false, List.prefix_append_right_inj, h2 x hx] at h
    rcases prefix_concat (y := []) h with h | h
    · have := h.length_le
      simp at this
    · have hcs : cs = [] ∧ l ++ x = "index.md".toList := by
        cases cs with
        | nil => exact ⟨rfl, by simpa using h⟩
        | cons k ks =>
          have := congrArg List.length h
          simp at this
      obtain ⟨rfl, h3⟩ := hcs
      have hl := ha.parts l (by rw [h1]; simp)
      have h4 : l ++ x = "index".toList ++ ".md".toList := by rw [h3]; rfl
      have h5 : ∀ z ∈ endings, ¬ z <:+ "index".toList := by decide
      obtain ⟨h6, -⟩ := part_eq hx (Or.inr (by decide)) hl h5 h4
      apply ha.index
      apply split_inj '/'
      rw [h1, h6]; rfl
  · simp only [if_true, List.append_assoc, List.prefix_append_right_inj] at h
    obtain ⟨t, ht⟩ := h
    simp only [List.cons_append, List.cons.injEq] at ht
    exact absurd ht.1 (by decide)

end Verif.Lemmas
