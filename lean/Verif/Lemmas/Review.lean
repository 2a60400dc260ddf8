import Verif.Lemmas.FS

/-! # Facts about reviewing -/

namespace Verif.Lemmas
open Verif.Py Verif.Model Verif.Spec

theorem rmtree_frame {fs fs' : FS} {d p : Path} (h : fs.rmtree d = .ok fs') (hp : ¬ d <+: p) :
    fs'.get p = fs.get p := by
  unfold FS.rmtree at h
  split at h
  · cases h
  · cases h
  · cases h
    rw [get_filter (fun k => !d.isPrefixOf k), isPrefixOf_eq]
    simp [hp]

theorem rename_frame {fs fs' : FS} {a b p : Path} (h : fs.rename a b = .ok fs') (ha : ¬ a <+: p)
    (hb : ¬ b <+: p) : fs'.get p = fs.get p := by
  have hpa : p ≠ a := by rintro rfl; exact ha List.prefix_rfl
  have hpb : p ≠ b := by rintro rfl; exact hb List.prefix_rfl
  unfold FS.rename at h
  split at h
  · cases h
  · split at h
    · cases h; rfl
    · split at h
      · cases h
      · split at h
        · split at h
          · cases h
          · cases h
            rw [get_cons, if_neg hpb, get_filter (fun k => decide (k ≠ a))]
            simp [hpa]
        · split at h
          · cases h
          · split at h
            · cases h
            · split at h
              · cases h
              · cases h
                rw [get_append, get_moved, if_neg hb,
                  get_filter (fun k => !a.isPrefixOf k), isPrefixOf_eq]
                simp [ha]

/-- Accepting touches only the files of the accepted test, even if it fails half-way. -/
theorem freeze_frame (exp out : Path) (name : Str) (fs : FS) (p : Path)
    (h1 : ¬ resourceDir exp name <+: p) (h2 : ¬ mdFile exp name <+: p)
    (h3 : ¬ resourceDir out name <+: p) (h4 : ¬ mdFile out name <+: p) :
    (freezeCase exp out name fs).1.get p = fs.get p := by
  have f1 : ∀ {g g' : FS}, freezeRemove exp name g = .ok g' → g'.get p = g.get p := by
    intro g g' h
    unfold freezeRemove at h
    split at h
    · exact rmtree_frame h h1
    · cases h; rfl
  have f2 : ∀ {g g' : FS}, freezeFile exp out name g = .ok g' → g'.get p = g.get p :=
    fun h => rename_frame h h4 h2
  have f3 : ∀ {g g' : FS}, freezeDir exp out name g = .ok g' → g'.get p = g.get p := by
    intro g g' h
    unfold freezeDir at h
    split at h
    · exact rename_frame h h3 h1
    · cases h; rfl
  unfold freezeCase
  split
  · rfl
  · rename_i fs1 e1
    split
    · exact f1 e1
    · rename_i fs2 e2
      split
      · exact (f2 e2).trans (f1 e1)
      · rename_i fs3 e3
        exact (f3 e3).trans ((f2 e2).trans (f1 e1))

/-- Relation of the two base directories. -/
def Bases (exp out : Path) : Prop := out = exp ++ [".out".toList] ∨ (¬ exp <+: out ∧ ¬ out <+: exp)

theorem apart_bases {exp out : Path} {name : Str} (h : Apart exp out name) : Bases exp out := by
  rcases h with h | h
  · exact Or.inl h.1
  · exact Or.inr h

theorem bases_sep {exp out : Path} (h : Bases exp out) (x y : Path) (hx : x ≠ [])
    (hh : out = exp ++ [".out".toList] → x.head? ≠ some ".out".toList) :
    ¬ exp ++ x <+: out ++ y ∧ ¬ out ++ y <+: exp ++ x := by
  rcases h with rfl | ⟨h4, h5⟩
  · obtain ⟨w, ws, rfl⟩ := List.exists_cons_of_ne_nil hx
    have hne' : w ≠ ".out".toList := by simpa using hh rfl
    constructor
    · intro hp
      rw [List.append_assoc, List.prefix_append_right_inj] at hp
      obtain ⟨t, ht⟩ := hp
      simp only [List.cons_append, List.cons.injEq] at ht
      exact hne' ht.1
    · intro hp
      rw [List.append_assoc, List.prefix_append_right_inj] at hp
      obtain ⟨t, ht⟩ := hp
      simp only [List.cons_append, List.cons.injEq] at ht
      exact hne' ht.1.symm
  · constructor
    · intro hp
      have e1 : exp <+: out ++ y := (List.prefix_append _ _).trans hp
      rcases List.prefix_or_prefix_of_prefix e1 (List.prefix_append out y) with h | h
      · exact h4 h
      · exact h5 h
    · intro hp
      have e1 : out <+: exp ++ x := (List.prefix_append _ _).trans hp
      rcases List.prefix_or_prefix_of_prefix e1 (List.prefix_append exp x) with h | h
      · exact h5 h
      · exact h4 h

/-- The components of the two paths of a test, and that they do not start with `.out`. -/
theorem comps_shape {exp out : Path} {name : Str} (h : Apart exp out name) :
    ∃ cs l, split '/' name = cs ++ [l] ∧ (∀ d, resourceDir d name = d ++ (cs ++ [l])) ∧
      (∀ d, mdFile d name = d ++ (cs ++ [l ++ ".md".toList])) ∧
      (out = exp ++ [".out".toList] → (cs ++ [l]).head? ≠ some ".out".toList ∧
        (cs ++ [l ++ ".md".toList]).head? ≠ some ".out".toList) := by
  obtain ⟨cs, l, h1, h2, h3⟩ := paths_shape name
  refine ⟨cs, l, h3, fun d => by rw [h1, List.append_assoc],
    fun d => by rw [h2, List.append_assoc], ?_⟩
  intro ho
  rcases h with ⟨-, hh⟩ | ⟨h4, -⟩
  · rw [h3] at hh
    refine ⟨hh, ?_⟩
    cases cs with
    | nil =>
      intro hc
      simp only [List.nil_append, List.head?_cons, Option.some.injEq] at hc
      have := congrArg List.getLast? hc
      rw [List.getLast?_append] at this
      simp at this
    | cons k ks => simpa using hh
  · exact absurd (by rw [ho]; exact List.prefix_append _ _) h4

theorem prefix_concat {α : Type} {x y : List α} {a : α} (h : x <+: y ++ [a]) :
    x <+: y ∨ x = y ++ [a] := by
  rcases h with ⟨t, ht⟩
  rcases List.eq_nil_or_concat t with rfl | ⟨t', b, rfl⟩
  · right; simpa using ht
  · left
    rw [List.concat_eq_append, ← List.append_assoc] at ht
    have h1 := List.append_inj_left' ht rfl
    exact ⟨t', h1⟩

/-- The files of `b` are not among those touched by accepting `a`. -/
theorem belongs_sep {exp out : Path} {a b : Str} (ha : Apart exp out a) (hb : Apart exp out b)
    (hn : NotNested a b) (hma : NoMd a) (hmb : NoMd b) {d p : Path} (hd : d = exp ∨ d = out)
    (hp : Belongs d b p) : ¬ resourceDir exp a <+: p ∧ ¬ mdFile exp a <+: p ∧
      ¬ resourceDir out a <+: p ∧ ¬ mdFile out a <+: p := by
  obtain ⟨ca, la, a1, a2, a3, a4⟩ := comps_shape ha
  obtain ⟨cb, lb, b1, b2, b3, b4⟩ := comps_shape hb
  obtain ⟨n1, n2⟩ := hn
  rw [a1, b1] at n1 n2
  have hmda : ∀ c ∈ ca ++ [la], ¬ ".md".toList <:+ c := by rw [← a1]; exact hma
  have hmdb : ∀ c ∈ cb ++ [lb], ¬ ".md".toList <:+ c := by rw [← b1]; exact hmb
  -- the components of `p`
  obtain ⟨y, rfl, hy⟩ : ∃ y, p = d ++ y ∧ (y = cb ++ [lb ++ ".md".toList] ∨ cb ++ [lb] <+: y) := by
    rcases hp with rfl | ⟨q, rfl⟩
    · exact ⟨_, b3 d, Or.inl rfl⟩
    · exact ⟨cb ++ [lb] ++ q, by rw [b2, List.append_assoc], Or.inr (List.prefix_append _ _)⟩
  have same1 : ¬ ca ++ [la] <+: y := by
    intro hc
    rcases hy with rfl | hy
    · rcases prefix_concat hc with h | h
      · exact n1 (h.trans (List.prefix_append _ _))
      · have := List.append_inj_right' h rfl
        simp only [List.cons.injEq, and_true] at this
        exact hmda la (by simp) (by rw [this]; exact List.suffix_append _ _)
    · rcases List.prefix_or_prefix_of_prefix hc hy with h | h
      · exact n1 h
      · exact n2 h
  have same2 : ¬ ca ++ [la ++ ".md".toList] <+: y := by
    intro hc
    have hbad : ∀ z : Path, (∀ c ∈ z, ¬ ".md".toList <:+ c) → ¬ ca ++ [la ++ ".md".toList] <+: z := by
      intro z hz hc
      exact hz (la ++ ".md".toList) (hc.subset (List.mem_append_right _ List.mem_cons_self))
        (List.suffix_append _ _)
    rcases hy with rfl | hy
    · rcases prefix_concat hc with h | h
      · exact hbad cb (fun c hc => hmdb c (by simp [hc])) h
      · obtain ⟨e1, e2⟩ := List.append_inj' h rfl
        simp only [List.cons.injEq, and_true] at e2
        have e3 := List.append_cancel_right e2
        apply n1
        rw [e1, e3]; exact List.prefix_rfl
    · rcases List.prefix_or_prefix_of_prefix hc hy with h | h
      · exact hbad _ hmdb h
      · rcases prefix_concat h with h | h
        · exact n2 (h.trans (List.prefix_append _ _))
        · have := List.append_inj_right' h rfl
          simp only [List.cons.injEq, and_true] at this
          exact hmdb lb (by simp) (by rw [this]; exact List.suffix_append _ _)
  have hyne : y ≠ [] := by
    rcases hy with rfl | hy
    · simp
    · rintro rfl
      have := hy.length_le
      simp at this
  have hyhead : out = exp ++ [".out".toList] → y.head? ≠ some ".out".toList := by
    intro ho
    obtain ⟨h1, h2⟩ := b4 ho
    rcases hy with rfl | ⟨q, rfl⟩
    · exact h2
    · cases cb with
      | nil => simpa using h1
      | cons k ks => simpa using h1
  have bs := apart_bases ha
  rw [a2, a2, a3, a3]
  rcases hd with rfl | rfl
  · refine ⟨?_, ?_, ?_, ?_⟩
    · rw [List.prefix_append_right_inj]; exact same1
    · rw [List.prefix_append_right_inj]; exact same2
    · exact (bases_sep bs y _ hyne hyhead).2
    · exact (bases_sep bs y _ hyne hyhead).2
  · refine ⟨?_, ?_, ?_, ?_⟩
    · exact (bases_sep bs _ y (by simp) (fun ho => (a4 ho).1)).1
    · exact (bases_sep bs _ y (by simp) (fun ho => (a4 ho).2)).1
    · rw [List.prefix_append_right_inj]; exact same1
    · rw [List.prefix_append_right_inj]; exact same2

/-! ### Interaction -/

theorem interact_eq (r : Result) (answers : List Str) :
    (interact (.res r) answers).map (·.1) = (decision r answers).map (fun a =>
      if a = "a".toList then .FREEZE else if a = "c".toList then .NONE else .ABORT) := by
  induction answers with
  | nil => rfl
  | cons a as ih =>
    simp only [interact, decision, List.find?_cons]
    by_cases h1 : a = "a".toList ∧ Raw.res r ≠ Raw.res .FAIL
    · have h2 : r ≠ .FAIL := fun h => h1.2 (by rw [h])
      have h3 : ((a == "a".toList && r != .FAIL) || a == "c".toList || a == "q".toList) = true := by
        simp [h1.1, h2]
      rw [if_pos h1, h3]
      simp [h1.1]
    · rw [if_neg h1]
      have h2 : (a == "a".toList && r != .FAIL) = false := by
        cases hc : (a == "a".toList && r != .FAIL) with
        | false => rfl
        | true =>
          simp only [Bool.and_eq_true, beq_iff_eq, bne_iff_ne, ne_eq] at hc
          exact absurd ⟨hc.1, by simpa using hc.2⟩ h1
      by_cases h3 : a = "c".toList
      · rw [if_pos h3]
        subst h3
        simp [show ("c".toList = "a".toList) = False by simp]
      · rw [if_neg h3]
        by_cases h4 : a = "q".toList
        · rw [if_pos h4]
          subst h4
          simp [show ("q".toList = "a".toList) = False by simp,
            show ("q".toList = "c".toList) = False by simp]
        · rw [if_neg h4]
          have h5 : ((a == "a".toList && r != .FAIL) || a == "c".toList || a == "q".toList) = false := by
            rw [h2]
            simp only [Bool.false_or, Bool.or_eq_false_iff, beq_eq_false_iff_ne, ne_eq]
            exact ⟨h3, h4⟩
          rw [h5]
          exact ih

end Verif.Lemmas
