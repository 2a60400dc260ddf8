import Verif.Model.Review
import Verif.Spec.Review

/-! # Facts about the file system and about accepting a snapshot -/

namespace Verif.Lemmas
open Verif.Py Verif.Model Verif.Spec

/-! ### Splitting -/

theorem split_ne_nil (c : Char) (s : Str) : split c s ≠ [] := by
  cases s with
  | nil => simp [split]
  | cons x xs =>
    simp only [split]
    split
    · simp
    · split <;> simp

theorem split_no_sep (c : Char) (s : Str) (h : c ∉ s) : split c s = [s] := by
  induction s with
  | nil => rfl
  | cons x xs ih =>
    simp only [List.mem_cons, not_or] at h
    simp [split, Ne.symm h.1, ih h.2]

theorem split_append_no_sep (c : Char) (a b : Str) (h : c ∉ b) :
    ∃ cs l, split c a = cs ++ [l] ∧ split c (a ++ b) = cs ++ [l ++ b] := by
  induction a with
  | nil => exact ⟨[], [], rfl, by simpa using split_no_sep c b h⟩
  | cons x xs ih =>
    obtain ⟨cs, l, h1, h2⟩ := ih
    by_cases hx : x = c
    · subst hx
      refine ⟨[] :: cs, l, ?_, ?_⟩
      · simp [split, h1]
      · simp [split, h2]
    · cases cs with
      | nil =>
        refine ⟨[], x :: l, ?_, ?_⟩
        · simp [split, hx, h1]
        · simp [split, hx, h2]
      | cons k ks =>
        refine ⟨(x :: k) :: ks, l, ?_, ?_⟩
        · simp [split, hx, h1]
        · simp [split, hx, h2]

theorem split_inj (c : Char) {a b : Str} (h : split c a = split c b) : a = b := by
  induction a generalizing b with
  | nil =>
    cases b with
    | nil => rfl
    | cons y ys =>
      simp only [split] at h
      split at h
      · simp at h
        exact absurd h (split_ne_nil c ys)
      · split at h <;> simp at h
  | cons x xs ih =>
    cases b with
    | nil =>
      simp only [split] at h
      split at h
      · simp at h
        exact absurd h (split_ne_nil c xs)
      · split at h <;> simp at h
    | cons y ys =>
      have hx := split_ne_nil c xs
      have hy := split_ne_nil c ys
      simp only [split] at h
      by_cases hxc : x = c <;> by_cases hyc : y = c
      · subst hxc hyc
        simp only [if_true, List.cons.injEq, true_and] at h
        rw [ih h]
      · subst hxc
        simp only [if_true, hyc, if_false] at h
        cases hs : split x ys with
        | nil => exact absurd hs hy
        | cons k ks => rw [hs] at h; simp at h
      · subst hyc
        simp only [if_true, hxc, if_false] at h
        cases hs : split y xs with
        | nil => exact absurd hs hx
        | cons k ks => rw [hs] at h; simp at h
      · simp only [hxc, hyc, if_false] at h
        cases hs : split c xs with
        | nil => exact absurd hs hx
        | cons k ks =>
          cases hs' : split c ys with
          | nil => exact absurd hs' hy
          | cons j js =>
            rw [hs, hs'] at h
            simp only [List.cons.injEq] at h
            obtain ⟨⟨rfl, rfl⟩, rfl⟩ := h
            rw [ih (hs.trans hs'.symm)]

/-! ### Paths -/

theorem paths_shape (name : Str) : ∃ cs l, (∀ d, resourceDir d name = d ++ cs ++ [l]) ∧
    (∀ d, mdFile d name = d ++ cs ++ [l ++ ".md".toList]) ∧ split '/' name = cs ++ [l] := by
  obtain ⟨cs, l, h1, h2⟩ := split_append_no_sep '/' name ".md".toList (by decide)
  exact ⟨cs, l, fun d => by simp [resourceDir, h1], fun d => by rw [mdFile, h2, List.append_assoc], h1⟩

theorem isPrefixOf_eq (a b : Path) : a.isPrefixOf b = decide (a <+: b) := by
  cases h : a.isPrefixOf b with
  | true => exact (decide_eq_true (List.isPrefixOf_iff_prefix.mp h)).symm
  | false =>
    refine (decide_eq_false ?_).symm
    intro hp
    rw [List.isPrefixOf_iff_prefix.mpr hp] at h; cases h

theorem md_ne (l : Str) : l ++ ".md".toList ≠ l := by
  intro h
  have := congrArg List.length h
  simp at this

theorem prefix_concat_ne {α : Type} {p : List α} {a b : α} (h : p ++ [a] <+: p ++ [b]) : a = b := by
  obtain ⟨t, ht⟩ := h
  rw [List.append_assoc] at ht
  have := List.append_cancel_left ht
  simp at this
  exact this.1

/-- The separations that follow from `Apart`. -/
theorem apart_paths {exp out : Path} {name : Str} (h : Apart exp out name) (x y : Path)
    (hx : x = resourceDir exp name ∨ x = mdFile exp name)
    (hy : y = resourceDir out name ∨ y = mdFile out name) : ¬ x <+: y ∧ ¬ y <+: x := by
  obtain ⟨cs, l, h1, h2, h3⟩ := paths_shape name
  rw [h1] at hx
  rw [h1] at hy
  rw [h2] at hx
  rw [h2] at hy
  have ex : ∃ a, x = exp ++ (cs ++ [a]) ∧ (a = l ∨ a = l ++ ".md".toList) := by
    rcases hx with h | h
    · exact ⟨l, by rw [h, List.append_assoc], Or.inl rfl⟩
    · exact ⟨l ++ ".md".toList, by rw [h, List.append_assoc], Or.inr rfl⟩
  have ey : ∃ a, y = out ++ (cs ++ [a]) := by
    rcases hy with h | h
    · exact ⟨l, by rw [h, List.append_assoc]⟩
    · exact ⟨l ++ ".md".toList, by rw [h, List.append_assoc]⟩
  obtain ⟨a, rfl, ha⟩ := ex
  obtain ⟨b, rfl⟩ := ey
  rcases h with ⟨rfl, hh⟩ | ⟨h4, h5⟩
  · have hne : (cs ++ [a]).head? ≠ some ".out".toList := by
      cases cs with
      | nil =>
        rcases ha with rfl | rfl
        · rw [h3] at hh; exact hh
        · intro hc
          simp only [List.nil_append, List.head?_cons, Option.some.injEq] at hc
          have := congrArg List.getLast? hc
          rw [List.getLast?_append] at this
          simp at this
      | cons k ks => rw [h3] at hh; simpa using hh
    obtain ⟨w, ws, hw⟩ : ∃ w ws, cs ++ [a] = w :: ws := by
      cases cs with
      | nil => exact ⟨_, _, rfl⟩
      | cons k ks => exact ⟨_, _, rfl⟩
    rw [hw] at hne ⊢
    have hne' : w ≠ ".out".toList := by simpa using hne
    constructor
    · intro hp
      rw [List.append_assoc, List.prefix_append_right_inj] at hp
      obtain ⟨t, ht⟩ := hp
      simp only [List.cons_append, List.cons.injEq] at ht
      exact hne' ht.1
    · intro hp
      rw [List.append_assoc, List.prefix_append_right_inj] at hp
      obtain ⟨t, ht⟩ := hp
      simp only [List.cons_append, List.cons.injEq] at ht
      exact hne' ht.1.symm
  · constructor
    · intro hp
      have e1 : exp <+: out ++ (cs ++ [b]) := (List.prefix_append _ _).trans hp
      rcases List.prefix_or_prefix_of_prefix e1 (List.prefix_append out (cs ++ [b])) with h | h
      · exact h4 h
      · exact h5 h
    · intro hp
      have e1 : out <+: exp ++ (cs ++ [a]) := (List.prefix_append _ _).trans hp
      rcases List.prefix_or_prefix_of_prefix e1 (List.prefix_append exp (cs ++ [a])) with h | h
      · exact h5 h
      · exact h4 h

/-! ### Lookups -/

theorem get_nil (p : Path) : FS.get [] p = none := rfl

theorem get_cons (k : Path) (n : Node) (fs : FS) (p : Path) :
    FS.get ((k, n) :: fs) p = if p = k then some n else fs.get p := by
  simp only [FS.get, List.lookup_cons]
  by_cases h : p = k
  · simp [h]
  · have hb : (p == k) = false := by simpa using h
    simp [h, hb]

theorem get_filter (f : Path → Bool) (fs : FS) (p : Path) :
    FS.get (fs.filter (fun e => f e.1)) p = if f p then fs.get p else none := by
  induction fs with
  | nil => simp [get_nil]
  | cons e fs ih =>
    obtain ⟨k, n⟩ := e
    rw [get_cons]
    by_cases hk : f k = true
    · rw [List.filter_cons_of_pos (by simpa using hk), get_cons, ih]
      by_cases hp : p = k
      · subst hp; simp [hk]
      · simp [hp]
    · rw [List.filter_cons_of_neg (by simpa using hk), ih]
      by_cases hp : p = k
      · subst hp; simp [hk]
      · simp [hp]

theorem get_append (a b : FS) (p : Path) : FS.get (a ++ b) p = (FS.get a p).or (FS.get b p) := by
  induction a with
  | nil => simp [get_nil]
  | cons e a ih =>
    obtain ⟨k, n⟩ := e
    rw [List.cons_append, get_cons, get_cons, ih]
    split <;> simp

theorem get_moved (fs : FS) (a b p : Path) :
    FS.get (fs.moved a b) p = if b <+: p then fs.get (a ++ p.drop b.length) else none := by
  unfold FS.moved
  induction fs with
  | nil => simp [get_nil]
  | cons e fs ih =>
    obtain ⟨k, n⟩ := e
    by_cases hk : a <+: k
    · rw [List.filter_cons_of_pos (by simpa using hk), List.map_cons, get_cons, ih]
      obtain ⟨q, rfl⟩ := hk
      simp only [List.drop_left]
      by_cases hp : p = b ++ q
      · subst hp
        simp [get_cons]
      · rw [if_neg hp]
        by_cases hb : b <+: p
        · obtain ⟨r, rfl⟩ := hb
          have : r ≠ q := fun h => hp (by rw [h])
          simp [get_cons, this]
        · simp [hb]
    · rw [List.filter_cons_of_neg (by simpa using hk), ih]
      by_cases hb : b <+: p
      · rw [if_pos hb, if_pos hb, get_cons, if_neg]
        rintro rfl
        exact hk (List.prefix_append _ _)
      · rw [if_neg hb, if_neg hb]

theorem mem_get {fs : FS} {p : Path} {n : Node} (h : (p, n) ∈ fs) : (fs.get p).isSome := by
  induction fs with
  | nil => cases h
  | cons e fs ih =>
    obtain ⟨k, m⟩ := e
    rw [get_cons]
    split
    · rfl
    · rename_i hne
      rcases List.mem_cons.mp h with h | h
      · simp only [Prod.mk.injEq] at h
        exact absurd h.1 hne
      · exact ih h

theorem wf_ancestor {fs : FS} (hw : fs.WellFormed) (p q : Path) (hq : q ≠ [])
    (h : (fs.get (p ++ q)).isSome) : fs.get p = some .dir := by
  induction hn : q.length using Nat.strongRecOn generalizing q with
  | _ n ih =>
    have e1 := List.dropLast_concat_getLast hq
    rw [← e1, ← List.append_assoc] at h
    have h2 := hw _ _ h
    by_cases hd : q.dropLast = []
    · rw [hd, List.append_nil] at h2; exact h2
    · refine ih q.dropLast.length ?_ q.dropLast hd (by rw [h2]; rfl) rfl
      have := List.length_pos_iff.mpr hq
      simp; omega

theorem get_below_none {fs : FS} (hw : fs.WellFormed) {p : Path} (h : fs.get p = none)
    (q : Path) : fs.get (p ++ q) = none := by
  by_cases hq : q = []
  · subst hq; simpa using h
  · cases hg : fs.get (p ++ q) with
    | none => rfl
    | some n =>
      have := wf_ancestor hw p q hq (by rw [hg]; rfl)
      rw [h] at this; cases this

/-! ### Accepting -/

theorem dirPath_eq (d : Path) (n : Str) : dirPath d n = resourceDir d n := rfl
theorem mdPath_eq (d : Path) (n : Str) : mdPath d n = mdFile d n := rfl

/-- The first step of accepting: everything in the old snapshot directory is gone, nothing else. -/
theorem freezeRemove_ok {fs : FS} {exp out : Path} {name : Str} (h : Ready fs exp out name) :
    ∃ fs1, freezeRemove exp name fs = .ok fs1 ∧
      (∀ p, fs1.get p = if resourceDir exp name <+: p then none else fs.get p) ∧
      (∀ e ∈ fs1, ¬ resourceDir exp name <+: e.1) := by
  unfold freezeRemove
  rw [dirPath_eq]
  rcases Option.eq_none_or_eq_some (fs.get (resourceDir exp name)) with hg | ⟨n, hg⟩
  · refine ⟨fs, by simp [FS.exists_, hg], ?_, ?_⟩
    · intro p
      split
      · rename_i hp
        obtain ⟨q, rfl⟩ := hp
        exact get_below_none h.wf hg q
      · rfl
    · rintro ⟨k, n⟩ he hp
      obtain ⟨q, hq⟩ := hp
      have h1 := mem_get he
      dsimp only at hq
      rw [← hq, get_below_none h.wf hg q] at h1
      cases h1
  · cases n with
    | file t => exact absurd hg (h.dir t)
    | dir =>
      refine ⟨_, by simp only [FS.exists_, Option.isSome_some, if_true, FS.rmtree, hg]; rfl, ?_, ?_⟩
      · intro p
        rw [get_filter (fun k => !(resourceDir exp name).isPrefixOf k), isPrefixOf_eq]
        by_cases hp : resourceDir exp name <+: p
        · simp [hp]
        · simp [hp]
      · intro e he hp
        have := (List.mem_filter.mp he).2
        rw [isPrefixOf_eq] at this
        simp [hp] at this

theorem freezeFile_ok {fs fs1 : FS} {exp out : Path} {name : Str} (ha : Apart exp out name)
    (h : Ready fs exp out name)
    (h1 : ∀ p, fs1.get p = if resourceDir exp name <+: p then none else fs.get p) :
    ∃ fs2, freezeFile exp out name fs1 = .ok fs2 ∧
      (∀ p, fs2.get p = if p = mdFile exp name then fs.get (mdFile out name)
        else if p = mdFile out name then none
        else if resourceDir exp name <+: p then none else fs.get p) ∧
      ((∀ e ∈ fs1, ¬ resourceDir exp name <+: e.1) →
        ∀ e ∈ fs2, ¬ resourceDir exp name <+: e.1) := by
  obtain ⟨text, ht⟩ := h.output
  obtain ⟨cs, l, s1, s2, -⟩ := paths_shape name
  have hsep := apart_paths ha (resourceDir exp name) (mdFile out name) (Or.inl rfl) (Or.inr rfl)
  have hsep2 := apart_paths ha (mdFile exp name) (mdFile out name) (Or.inr rfl) (Or.inr rfl)
  have hne : mdFile out name ≠ mdFile exp name := by
    intro hc; apply hsep2.1; rw [hc]; exact List.prefix_rfl
  have hmd : ¬ resourceDir exp name <+: mdFile exp name := by
    rw [s1, s2]
    intro hc
    exact md_ne l (prefix_concat_ne hc).symm
  have hparent : ¬ resourceDir exp name <+: (mdFile exp name).dropLast := by
    rw [s1, s2, List.dropLast_concat]
    intro hc
    have := hc.length_le
    simp only [List.length_append, List.length_cons, List.length_nil] at this
    omega
  have g1 : fs1.get (mdFile out name) = some (.file text) := by
    rw [h1, if_neg hsep.1, ht]
  have g2 : fs1.isDir (mdFile exp name).dropLast = true := by
    simp only [FS.isDir, h1, if_neg hparent, h.place]; rfl
  have g3 : fs1.get (mdFile exp name) ≠ some .dir := by
    rw [h1, if_neg hmd]; exact h.md
  refine ⟨(mdFile exp name, .file text) :: fs1.filter (fun e => decide (e.1 ≠ mdFile out name)),
    ?_, ?_, ?_⟩
  · simp only [freezeFile, mdPath_eq, FS.rename, g1, if_neg hne, g2]
    cases hg : fs1.get (mdFile exp name) with
    | none => rfl
    | some n =>
      cases n with
      | file t => rfl
      | dir => exact absurd hg g3
  · intro p
    rw [get_cons, get_filter (fun k => decide (k ≠ mdFile out name)), h1, ht]
    split
    · rfl
    · by_cases hp : p = mdFile out name <;> simp [hp]
  · intro hb e he
    rcases List.mem_cons.mp he with h | h
    · rw [h]; exact hmd
    · exact hb e (List.mem_filter.mp h).1

theorem freezeDir_ok {fs fs2 : FS} {exp out : Path} {name : Str} (ha : Apart exp out name)
    (h : Ready fs exp out name)
    (h2 : ∀ p, fs2.get p = if p = mdFile exp name then fs.get (mdFile out name)
        else if p = mdFile out name then none
        else if resourceDir exp name <+: p then none else fs.get p)
    (hb : ∀ e ∈ fs2, ¬ resourceDir exp name <+: e.1) :
    ∃ fs3, freezeDir exp out name fs2 = .ok fs3 ∧
      ∀ p, fs3.get p = if p = mdFile exp name then fs.get (mdFile out name)
        else if p = mdFile out name then none
        else if resourceDir exp name <+: p then
          fs.get (resourceDir out name ++ p.drop (resourceDir exp name).length)
        else if resourceDir out name <+: p then none else fs.get p := by
  obtain ⟨cs, l, s1, s2, -⟩ := paths_shape name
  have p1 := apart_paths ha (resourceDir exp name) (resourceDir out name) (Or.inl rfl) (Or.inl rfl)
  have p2 := apart_paths ha (mdFile exp name) (resourceDir out name) (Or.inr rfl) (Or.inl rfl)
  have p3 := apart_paths ha (resourceDir exp name) (mdFile out name) (Or.inl rfl) (Or.inr rfl)
  have hmd : ¬ resourceDir exp name <+: mdFile exp name := by
    rw [s1, s2]
    intro hc
    exact md_ne l (prefix_concat_ne hc).symm
  have hmdo : ¬ resourceDir out name <+: mdFile out name := by
    rw [s1, s2]
    intro hc
    exact md_ne l (prefix_concat_ne hc).symm
  have hod : ∀ q, fs2.get (resourceDir out name ++ q) = fs.get (resourceDir out name ++ q) := by
    intro q
    rw [h2, if_neg, if_neg, if_neg]
    · intro hc
      rcases List.prefix_or_prefix_of_prefix hc (List.prefix_append (resourceDir out name) q) with
        h | h
      · exact p1.1 h
      · exact p1.2 h
    · intro hc; apply hmdo; rw [← hc]; exact List.prefix_append _ _
    · intro hc; apply p2.2; rw [← hc]; exact List.prefix_append _ _
  have hod0 : fs2.get (resourceDir out name) = fs.get (resourceDir out name) := by
    simpa using hod []
  unfold freezeDir
  rw [dirPath_eq, dirPath_eq]
  simp only [FS.exists_, hod0]
  cases hg : fs.get (resourceDir out name) with
  | none =>
    refine ⟨fs2, rfl, ?_⟩
    intro p
    rw [h2]
    split
    · rfl
    · split
      · rfl
      · split
        · rw [get_below_none h.wf hg]
        · split
          · rename_i hp
            obtain ⟨q, rfl⟩ := hp
            exact get_below_none h.wf hg q
          · rfl
  | some n =>
    cases n with
    | file t => exact absurd hg (h.odir t)
    | dir =>
      have hne : resourceDir out name ≠ resourceDir exp name := by
        intro hc; apply p1.1; rw [hc]; exact List.prefix_rfl
      have hpl : fs2.isDir (resourceDir exp name).dropLast = true := by
        have e1 : (resourceDir exp name).dropLast = (mdFile exp name).dropLast := by
          rw [s1, s2]; simp
        simp only [FS.isDir, e1, h2]
        rw [if_neg, if_neg, if_neg, h.place]
        · rfl
        · rw [s1, s2, List.dropLast_concat]
          intro hc
          have := hc.length_le
          simp only [List.length_append, List.length_cons, List.length_nil] at this
          omega
        · intro hc
          apply (apart_paths ha (mdFile exp name) (mdFile out name) (Or.inr rfl) (Or.inr rfl)).2
          rw [← hc]
          exact List.dropLast_prefix _
        · intro hc
          have := congrArg List.length hc
          rw [s2] at this; simp at this
      have hnone : fs2.get (resourceDir exp name) = none := by
        rw [h2, if_neg, if_neg, if_pos List.prefix_rfl]
        · intro hc; apply p3.1; rw [hc]; exact List.prefix_rfl
        · intro hc; apply hmd; rw [hc]; exact List.prefix_rfl
      have hempty : fs2.any (fun e => (resourceDir exp name).isPrefixOf e.1 &&
          decide (e.1 ≠ resourceDir exp name)) = false := by
        rw [List.any_eq_false]
        intro e he
        have := hb e he
        simp [this]
      have hnp : (resourceDir out name).isPrefixOf (resourceDir exp name) = false := by
        cases hc : (resourceDir out name).isPrefixOf (resourceDir exp name) with
        | false => rfl
        | true => exact absurd (List.isPrefixOf_iff_prefix.mp hc) p1.2
      refine ⟨fs2.moved (resourceDir out name) (resourceDir exp name) ++
        fs2.filter (fun e => !(resourceDir out name).isPrefixOf e.1), ?_, ?_⟩
      · simp only [Option.isSome_some, if_true, FS.rename, hod0, hg, if_neg hne, hpl, hnp, hnone,
          hempty]
        rfl
      · intro p
        rw [get_append, get_moved, get_filter (fun k => !(resourceDir out name).isPrefixOf k),
          isPrefixOf_eq]
        by_cases hE : resourceDir exp name <+: p
        · have hne1 : p ≠ mdFile exp name := by rintro rfl; exact hmd hE
          have hne2 : p ≠ mdFile out name := by rintro rfl; exact p3.1 hE
          rw [if_pos hE, if_neg hne1, if_neg hne2, if_pos hE, hod]
          have hO : ¬ resourceDir out name <+: p := by
            intro hc
            rcases List.prefix_or_prefix_of_prefix hc hE with h | h
            · exact p1.2 h
            · exact p1.1 h
          have : fs2.get p = none := by
            rw [h2, if_neg hne1, if_neg hne2, if_pos hE]
          simp [this]
        · rw [if_neg hE, Option.none_or, h2, if_neg hE, if_neg hE]
          by_cases hO : resourceDir out name <+: p
          · have hne1 : p ≠ mdFile exp name := by rintro rfl; exact p2.2 hO
            have hne2 : p ≠ mdFile out name := by rintro rfl; exact hmdo hO
            simp [hO, hne1, hne2]
          · simp [hO]

theorem freeze_ok {fs : FS} {exp out : Path} {name : Str} (ha : Apart exp out name)
    (h : Ready fs exp out name) : ∃ fs', freezeCase exp out name fs = (fs', none) ∧
      ∀ p, fs'.get p = if p = mdFile exp name then fs.get (mdFile out name)
        else if p = mdFile out name then none
        else if resourceDir exp name <+: p then
          fs.get (resourceDir out name ++ p.drop (resourceDir exp name).length)
        else if resourceDir out name <+: p then none else fs.get p := by
  obtain ⟨fs1, a1, a2, a3⟩ := freezeRemove_ok h
  obtain ⟨fs2, b1, b2, b3⟩ := freezeFile_ok ha h a2
  obtain ⟨fs3, c1, c2⟩ := freezeDir_ok ha h b2 (b3 a3)
  exact ⟨fs3, by simp [freezeCase, a1, b1, c1], c2⟩

end Verif.Lemmas
