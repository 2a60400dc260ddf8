import Verif.Lemmas.TogetherLocal

/-! # Tests that are executed at the same time: the project directory stays sound at every moment -/

namespace Verif.Lemmas
open Verif.Py Verif.Model Verif.Spec

variable {root : Path} {n : Str} {ns : List Str}

/-- What may appear in the file system. -/
def Appears (root : Path) (n : Str) (p : Path) (m : Node) : Prop :=
  (Own root n p ∧ (m = .dir → ¬ FileSlot root n p) ∧ (m ≠ .dir → ¬ DirSlot root n p)) ∨
    (Above root n p ∧ m = .dir) ∨ (p = indexFile root ∧ m ≠ .dir)

theorem sound_change (hp : PlainNames ns) (hn : n ∈ ns) {S S' : FS} (h : SoundTree root ns S)
    (hw : S'.WellFormed) (hcwd : S'.get [] = some .dir)
    (hk : ∀ p m, S'.get p = some m → S.get p = some m ∨ Appears root n p m) : SoundTree root ns S' := by
  refine ⟨hw, hcwd, ?_, ?_, ?_, ?_, ?_⟩
  · intro m hm o q hq t hc
    rcases hk _ _ hc with e | ⟨e, -⟩ | ⟨-, e⟩ | ⟨e, -⟩
    · exact h.ways m hm o q hq t e
    · exact own_above hp hn hm e ⟨o, hq⟩
    · cases e
    · rw [e] at hq; exact above_index (hp.1 m hm) ⟨o, hq⟩
  · intro m hm o x hx hx' hc
    have ho : Own root m (slot root o m x) := own_slot o (Or.inr hx)
    rcases hk _ _ hc with e | ⟨e, e2, -⟩ | ⟨e, -⟩ | ⟨-, e⟩
    · exact h.files m hm o x hx hx' e
    · obtain rfl := own_apart hp hm hn ho e
      exact e2 rfl ⟨o, x, hx, hx', rfl⟩
    · exact own_above hp hm hn ho e
    · exact e rfl
  · intro m hm o x hx t hc
    have ho : Own root m (slot root o m x) := own_slot o (dirEnd hx)
    rcases hk _ _ hc with e | ⟨e, -, e2⟩ | ⟨-, e⟩ | ⟨e, -⟩
    · exact h.dirs m hm o x hx t e
    · obtain rfl := own_apart hp hm hn ho e
      exact e2 (by simp) ⟨o, x, hx, rfl⟩
    · cases e
    · rw [e] at ho; exact own_index (hp.1 m hm) ho
  · intro hc
    rcases hk _ _ hc with e | ⟨e, -⟩ | ⟨e, -⟩ | ⟨-, e⟩
    · exact h.index e
    · exact own_index (hp.1 n hn) e
    · exact above_index (hp.1 n hn) e
    · exact e rfl
  · intro q hq t hc
    rcases hk _ _ hc with e | ⟨⟨o, x, hx, e⟩, -⟩ | ⟨-, e⟩ | ⟨e, -⟩
    · exact h.base q hq t e
    · exact slot_not_root (hp.1 n hn) hx hq e
    · cases e
    · rw [e, indexFile, booksDir] at hq
      simp only [if_true, List.prefix_append_right_inj] at hq
      obtain ⟨l, hl⟩ := hq
      simp only [List.cons_append, List.cons.injEq] at hl
      exact absurd hl.1 (by decide)

theorem own_not_nil {p : Path} (h : Own root n p) : p ≠ [] := by
  rintro rfl
  obtain ⟨o, x, hx, h⟩ := h
  exact slot_ne_nil root o n hx (List.prefix_nil.mp h)

theorem isDir_iff (fs : FS) (p : Path) : fs.isDir p = true ↔ fs.get p = some .dir := by
  unfold FS.isDir; rw [beq_iff_eq]

theorem wf_child {fs : FS} (hw : fs.WellFormed) {p q : Path} (hq : (fs.get q).isSome) (hpq : p <+: q) (hne : q ≠ p) :
    fs.get p = some .dir := by
  obtain ⟨r, rfl⟩ := hpq
  exact wf_ancestor hw p r (by rintro rfl; simp at hne) hq

theorem wf_new_dir {fs : FS} (hw : fs.WellFormed) {p : Path} (hne : p ≠ []) (hd : fs.isDir p.dropLast = true) :
    FS.WellFormed ((p, .dir) :: fs) := by
  have e := List.dropLast_concat_getLast hne
  rw [← e]
  exact wf_add_dir hw ((isDir_iff _ _).mp hd) _

theorem wf_rename {fs fs' : FS} (hw : fs.WellFormed) {a b : Path} (hb : b ≠ [])
    (he : fs.rename a b = .ok fs') : fs'.WellFormed ∧
      (∀ p m, fs'.get p = some m → fs.get p = some m ∨ (b <+: p ∧ fs.get (a ++ p.drop b.length) = some m)) ∧
      ∀ p, ¬ a <+: p → ¬ b <+: p → fs'.get p = fs.get p := by
  unfold FS.rename at he
  cases hg : fs.get a with
  | none => rw [hg] at he; cases he
  | some m =>
    rw [hg] at he
    dsimp only at he
    by_cases hab : a = b
    · rw [if_pos hab] at he
      cases he
      exact ⟨hw, fun p m h => Or.inl h, fun _ _ _ => rfl⟩
    · rw [if_neg hab] at he
      cases hd : fs.isDir b.dropLast with
      | false => rw [hd] at he; cases he
      | true =>
        rw [hd] at he
        simp only [Bool.not_true, Bool.false_eq_true, if_false] at he
        have hd' := (isDir_iff _ _).mp hd
        cases m with
        | file c =>
          dsimp only at he
          have hbd : fs.get b ≠ some .dir ∧
              fs' = (b, Node.file c) :: fs.filter (fun e => decide (e.1 ≠ a)) := by
            generalize fs.get b = gb at he ⊢
            rcases gb with _ | (t | _)
            · cases he; exact ⟨by simp, rfl⟩
            · cases he; exact ⟨by simp, rfl⟩
            · cases he
          obtain ⟨hnd, rfl⟩ := hbd
          have key : ∀ p, FS.get ((b, Node.file c) :: fs.filter (fun e => decide (e.1 ≠ a))) p =
              if p = b then some (.file c) else if p ≠ a then fs.get p else none := by
            intro p
            rw [get_cons, get_filter (fun q => decide (q ≠ a))]
            simp only [decide_eq_true_eq]
          refine ⟨?_, ?_, ?_⟩
          rotate_left 2
          · intro p h1 h2
            rw [key, if_neg (by rintro rfl; exact h2 List.prefix_rfl),
              if_pos (by rintro rfl; exact h1 List.prefix_rfl)]
          · intro q d h
            rw [key] at h ⊢
            have hq : fs.get q = some .dir := by
              by_cases h1 : q ++ [d] = b
              · rw [← h1, List.dropLast_concat] at hd'; exact hd'
              · rw [if_neg h1] at h
                split at h
                · exact hw q d h
                · cases h
            rw [if_neg (by rintro rfl; exact hnd hq), if_pos]
            · exact hq
            · rintro rfl; rw [hg] at hq; cases hq
          · intro p m h
            rw [key] at h
            split at h
            · rename_i hpb
              subst hpb
              refine Or.inr ⟨List.prefix_rfl, ?_⟩
              rw [List.drop_length, List.append_nil, hg]
              exact h
            · split at h
              · exact Or.inl h
              · cases h
        | dir =>
          dsimp only at he
          by_cases hpre : a.isPrefixOf b = true
          · rw [if_pos hpre] at he; cases he
          · rw [if_neg hpre] at he
            rw [List.isPrefixOf_iff_prefix] at hpre
            have hbd : fs.any (fun e => b.isPrefixOf e.1 && decide (e.1 ≠ b)) = false ∧
                fs' = fs.moved a b ++ fs.filter (fun e => !a.isPrefixOf e.1) := by
              generalize fs.any (fun e => b.isPrefixOf e.1 && decide (e.1 ≠ b)) = w at he ⊢
              generalize fs.get b = gb at he ⊢
              rcases gb with _ | (t | _)
              · cases w
                · cases he; exact ⟨rfl, rfl⟩
                · cases he
              · cases he
              · cases w
                · cases he; exact ⟨rfl, rfl⟩
                · cases he
            obtain ⟨hany, rfl⟩ := hbd
            have hempty : ∀ p, b <+: p → p ≠ b → fs.get p = none := by
              intro p h1 h2
              cases hp : fs.get p with
              | none => rfl
              | some m =>
                have := (any_below fs b).mpr ⟨p, h1, h2, by rw [hp]; rfl⟩
                rw [hany] at this; cases this
            have key : ∀ p, FS.get (fs.moved a b ++ fs.filter (fun e => !a.isPrefixOf e.1)) p =
                (if b <+: p then fs.get (a ++ p.drop b.length) else none).or
                  (if a <+: p then none else fs.get p) := by
              intro p
              rw [get_append, get_moved, get_filter (fun q => !a.isPrefixOf q), isPrefixOf_eq]
              by_cases h : a <+: p <;> simp [h]
            have hbb : FS.get (fs.moved a b ++ fs.filter (fun e => !a.isPrefixOf e.1)) b = some .dir := by
              rw [key, if_pos List.prefix_rfl, List.drop_length, List.append_nil, hg]; rfl
            refine ⟨?_, ?_, ?_⟩
            rotate_left 2
            · intro p h1 h2
              rw [key, if_neg h2, if_neg h1]; rfl
            · intro q d h
              by_cases h1 : b <+: q ++ [d]
              · rcases prefix_concat h1 with h2 | h2
                · have hdrop : (q ++ [d]).drop b.length = q.drop b.length ++ [d] := by
                    rw [List.drop_append_of_le_length h2.length_le]
                  have hne : q ++ [d] ≠ b := by
                    intro hc
                    have := h2.length_le
                    rw [← hc] at this
                    simp at this
                    omega
                  rw [key, if_pos h1, hempty _ h1 hne, hdrop, ite_self, Option.or_none, ← List.append_assoc] at h
                  rw [key, if_pos h2, hw _ _ h]; rfl
                · subst h2
                  rw [List.dropLast_concat] at hd'
                  rw [key, if_neg, if_neg, hd']
                  · rfl
                  · intro hc; exact hpre (hc.trans (List.prefix_append _ _))
                  · intro hc
                    have := hc.length_le
                    simp at this
                    omega
              · have h2 : ¬ b <+: q := fun hc => h1 (hc.trans (List.prefix_append _ _))
                rw [key, if_neg h1] at h
                split at h
                · cases h
                · rename_i h3
                  rw [key, if_neg h2, if_neg (fun hc => h3 (hc.trans (List.prefix_append _ _))), hw q d h]; rfl
            · intro p m h
              rw [key] at h
              by_cases hb1 : b <+: p
              · rw [if_pos hb1] at h
                cases hga : fs.get (a ++ p.drop b.length) with
                | some m' =>
                  rw [hga] at h
                  exact Or.inr ⟨hb1, h⟩
                | none =>
                  rw [hga] at h
                  split at h
                  · cases h
                  · exact Or.inl h
              · rw [if_neg hb1] at h
                split at h
                · cases h
                · exact Or.inl h

/-- Every successful operation of a test keeps the project directory sound. -/
theorem sound_step (hp : PlainNames ns) (hn : n ∈ ns) {o : FsOp} (ho : OpLocal root n o) {S S' : FS}
    {x : Option Node} (h : SoundTree root ns S) (he : o.run S = .ok (S', x)) : SoundTree root ns S' := by
  have hpl := hp.1 n hn
  cases o with
  | look p =>
    simp only [FsOp.run] at he
    cases he
    exact h
  | makeDir p =>
    obtain ⟨ho, hne⟩ := ho
    simp only [FsOp.run] at he
    cases hg : S.get p with
    | some m => rw [hg] at he; cases he; exact h
    | none =>
      rw [hg] at he
      dsimp only at he
      cases hd : S.isDir p.dropLast with
      | false => rw [hd] at he; cases he
      | true =>
        rw [hd] at he
        cases he
        refine sound_change hp hn h (wf_new_dir h.wf hne hd) ?_ ?_
        · rw [get_cons, if_neg (fun hc => hne hc.symm)]; exact h.cwd
        · intro q m hq
          rw [get_cons] at hq
          split at hq
          · rename_i hqp
            rw [hqp]
            exact Or.inr (Or.inr (Or.inl ⟨ho, (Option.some.inj hq).symm⟩))
          · exact Or.inl hq
  | mkdir p =>
    obtain ⟨ho, -, hds⟩ := ho
    have hne := own_not_nil ho
    simp only [FsOp.run, Model.mkdir] at he
    cases hx : S.exists_ p with
    | true => rw [hx] at he; cases he
    | false =>
      rw [hx] at he
      cases hd : S.isDir p.dropLast with
      | false => rw [hd] at he; cases he
      | true =>
        rw [hd] at he
        cases he
        refine sound_change hp hn h (wf_new_dir h.wf hne hd) ?_ ?_
        · rw [get_cons, if_neg (fun hc => hne hc.symm)]; exact h.cwd
        · intro q m hq
          rw [get_cons] at hq
          split at hq
          · rename_i hqp
            rw [hqp]
            refine Or.inr (Or.inl ⟨ho, fun _ hf => file_not_dir hpl hf hds, fun hm => ?_⟩)
            exact absurd (Option.some.inj hq).symm hm
          · exact Or.inl hq
  | rmtree p =>
    simp only [FsOp.run, FS.rmtree] at he
    rcases hg : S.get p with _ | (t | _)
    · rw [hg] at he; cases he
    · rw [hg] at he; cases he
    · rw [hg] at he
      cases he
      have key : ∀ q, FS.get (S.filter (fun e => !p.isPrefixOf e.1)) q =
          if p <+: q then none else S.get q := by
        intro q
        rw [get_filter (fun q => !p.isPrefixOf q), isPrefixOf_eq]
        by_cases h : p <+: q <;> simp [h]
      refine sound_change hp hn h (wf_below h.wf key) ?_ ?_
      · rw [key, if_neg (fun hc => own_not_nil ho (List.prefix_nil.mp hc))]; exact h.cwd
      · intro q m hq
        rw [key] at hq
        split at hq
        · cases hq
        · exact Or.inl hq
  | write p t =>
    obtain ⟨ho, -, hds⟩ := ho
    simp only [FsOp.run, openW] at he
    have hne : p ≠ [] := by
      rcases ho with ho | ho
      · exact own_not_nil ho
      · rw [ho, indexFile]; simp
    have hS : S.isDir p.dropLast = true ∧ S' = S.write p t ∧ S.get p ≠ some .dir := by
      cases hd : S.isDir p.dropLast with
      | true =>
        rw [hd] at he
        rcases hg : S.get p with _ | (c | _) <;> rw [hg] at he <;> cases he <;> simp
      | false =>
        rw [hd] at he
        rcases hg : S.get p with _ | (c | _) <;> rw [hg] at he <;> cases he
    obtain ⟨hd, rfl, hnd⟩ := hS
    have gw : ∀ q, (S.write p t).get q = if q = p then some (.file t) else S.get q := by
      intro q; unfold FS.write; rw [get_cons]
    refine sound_change hp hn h (wf_write h.wf hnd ((isDir_iff _ _).mp hd) hne t) ?_ ?_
    · rw [gw, if_neg (fun hc => hne hc.symm)]; exact h.cwd
    · intro q m hq
      rw [gw] at hq
      split at hq
      · rename_i hqp
        rw [hqp]
        have hm : m ≠ .dir := by rw [← Option.some.inj hq]; simp
        rcases ho with ho | ho
        · exact Or.inr (Or.inl ⟨ho, fun hc => absurd hc hm, fun _ => hds⟩)
        · exact Or.inr (Or.inr (Or.inr ⟨ho, hm⟩))
      · exact Or.inl hq
  | rename a b =>
    obtain ⟨ha, hb, -, hk⟩ := ho
    simp only [FsOp.run] at he
    cases hr : S.rename a b with
    | error e => rw [hr] at he; cases he
    | ok B =>
      rw [hr] at he
      cases he
      obtain ⟨w, key, same⟩ := wf_rename h.wf (own_not_nil hb) hr
      refine sound_change hp hn h w ?_ ?_
      · rw [same [] (fun hc => own_not_nil ha (List.prefix_nil.mp hc))
          (fun hc => own_not_nil hb (List.prefix_nil.mp hc))]
        exact h.cwd
      · intro p m hpm
        rcases key p m hpm with e | ⟨⟨r, rfl⟩, e⟩
        · exact Or.inl e
        · refine Or.inr (Or.inl ⟨own_below hb (List.prefix_append _ _), ?_, ?_⟩)
          all_goals intro hm hf
          all_goals rw [List.drop_left] at e
          all_goals by_cases hr0 : r = []
          · subst hr0
            rw [List.append_nil] at e hf
            rcases hk with ⟨⟨o, x, hx, hx', rfl⟩, -⟩ | ⟨-, hk⟩
            · exact h.files n hn o x hx hx' (hm ▸ e)
            · exact file_not_dir hpl hf hk
          · obtain ⟨o', y, hy, -, e'⟩ := hf
            rcases hk with ⟨-, o, x, hx, -, rfl⟩ | ⟨-, o, x, hx, rfl⟩
            · exact below_no_slot hpl (Or.inr hx) (Or.inr hy) hr0 e'
            · exact below_no_slot hpl (dirEnd hx) (Or.inr hy) hr0 e'
          · subst hr0
            rw [List.append_nil] at e hf
            rcases hk with ⟨-, hk⟩ | ⟨⟨o, x, hx, rfl⟩, -⟩
            · exact file_not_dir hpl hk hf
            · cases m with
              | dir => exact hm rfl
              | file t => exact h.dirs n hn o x hx t e
          · obtain ⟨o', y, hy, e'⟩ := hf
            rcases hk with ⟨-, o, x, hx, -, rfl⟩ | ⟨-, o, x, hx, rfl⟩
            · exact below_no_slot hpl (Or.inr hx) (dirEnd hy) hr0 e'
            · exact below_no_slot hpl (dirEnd hx) (dirEnd hy) hr0 e'
  | remove p =>
    simp only [FsOp.run, FS.remove] at he
    rcases hg : S.get p with _ | (t | _)
    · rw [hg] at he; cases he
    · rw [hg] at he
      cases he
      have key : ∀ q, FS.get (S.filter (fun e => decide (e.1 ≠ p))) q =
          if q ≠ p then S.get q else none := by
        intro q
        rw [get_filter (fun q => decide (q ≠ p))]
        simp only [decide_eq_true_eq]
      refine sound_change hp hn h ?_ ?_ ?_
      · intro q d hq
        rw [key] at hq ⊢
        split at hq
        · have := h.wf q d hq
          rw [if_pos, this]
          rintro rfl
          rw [hg] at this; cases this
        · cases hq
      · rw [key, if_pos (fun hc => own_not_nil ho hc.symm)]; exact h.cwd
      · intro q m hq
        rw [key] at hq
        split at hq
        · exact Or.inl hq
        · cases hq
    · rw [hg] at he; cases he

end Verif.Lemmas
