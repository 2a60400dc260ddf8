import Verif.Model.RelPath
import Verif.Spec.RelPath
import Verif.Lemmas.Selection

/-! # Paths relative to the book (C68) -/

namespace Verif.Props
open Verif.Py Verif.Model Verif.Spec Verif.Lemmas

/-- Names of places. -/
private def Names (d : List Str) : Prop := ∀ p ∈ d, p ≠ [] ∧ '/' ∉ p ∧ p ≠ "..".toList

private theorem walk_norm : ∀ (ps d : List Str), Names d → (∀ p ∈ ps, '/' ∉ p) →
    Walk d ps (ps.foldl (normStep 1) d) ∧ Names (ps.foldl (normStep 1) d)
  | [], d, h, _ => ⟨.done d, h⟩
  | p :: ps, d, h, hp => by
    have hps : ∀ q ∈ ps, '/' ∉ q := fun q hq => hp q (List.mem_cons_of_mem _ hq)
    rw [List.foldl_cons]
    by_cases h1 : p = [] ∨ p = ".".toList
    · have : normStep 1 d p = d := by unfold normStep; rw [if_pos h1]
      rw [this]
      obtain ⟨a, b⟩ := walk_norm ps d h hps
      exact ⟨.stay h1 a, b⟩
    · by_cases h2 : p = "..".toList
      · have hl : d.getLast? ≠ some "..".toList := by
          intro hc
          exact (h _ (List.mem_of_getLast? hc)).2.2 rfl
        have : normStep 1 d p = d.dropLast := by
          unfold normStep
          rw [if_neg h1, if_neg]
          rintro (h3 | ⟨h3, -⟩ | h3)
          · exact h3 h2
          · cases h3
          · exact hl h3
        rw [this, h2]
        rcases List.eq_nil_or_concat d with rfl | ⟨q, x, rfl⟩
        · obtain ⟨a, b⟩ := walk_norm ps [] h hps
          exact ⟨.top a, b⟩
        · rw [List.concat_eq_append] at h ⊢
          rw [List.dropLast_concat]
          obtain ⟨a, b⟩ := walk_norm ps q (fun y hy => h y (List.mem_append_left _ hy)) hps
          exact ⟨.up a, b⟩
      · have : normStep 1 d p = d ++ [p] := by
          unfold normStep
          rw [if_neg h1, if_pos (.inl h2)]
        rw [this]
        have hn : Names (d ++ [p]) := by
          intro y hy
          rcases List.mem_append.mp hy with hy | hy
          · exact h y hy
          · rw [List.mem_singleton] at hy
            subst hy
            exact ⟨fun e => h1 (.inl e), hp y List.mem_cons_self, h2⟩
        obtain ⟨a, b⟩ := walk_norm ps (d ++ [p]) hn hps
        exact ⟨.down (fun e => h1 (.inl e)) (fun e => h1 (.inr e)) h2 a, b⟩

private theorem walk_unique {d ps e1 e2 : List Str} (h1 : Walk d ps e1) (h2 : Walk d ps e2) : e1 = e2 := by
  induction h1 with
  | done d => cases h2; rfl
  | @stay d e p ps h h1 ih =>
    generalize hq : p :: ps = qs at h2
    cases h2 with
    | done => cases hq
    | stay _ h2 => injection hq with _ h4; subst h4; exact ih h2
    | up h2 => injection hq with h3 _; rw [h3] at h; exact absurd h (by decide)
    | top h2 => injection hq with h3 _; rw [h3] at h; exact absurd h (by decide)
    | down n1 n2 _ h2 =>
      injection hq with h3 _
      rw [h3] at h
      rcases h with h | h
      · exact absurd h n1
      · exact absurd h n2
  | @up d e x ps h1 ih =>
    generalize hq : "..".toList :: ps = qs at h2
    generalize hd : d ++ [x] = d' at h2
    cases h2 with
    | done => cases hq
    | stay h h2 => injection hq with h3 _; rw [← h3] at h; exact absurd h (by decide)
    | up h2 =>
      injection hq with _ h4
      subst h4
      have := List.append_inj' hd rfl
      exact ih (this.1 ▸ h2)
    | top h2 => simp at hd
    | down n1 n2 n3 h2 => injection hq with h3 _; exact absurd h3.symm n3
  | @top e ps h1 ih =>
    generalize hq : "..".toList :: ps = qs at h2
    generalize hd : ([] : List Str) = d' at h2
    cases h2 with
    | done => cases hq
    | stay h h2 => injection hq with h3 _; rw [← h3] at h; exact absurd h (by decide)
    | up h2 => simp at hd
    | top h2 => injection hq with _ h4; subst h4; exact ih h2
    | down n1 n2 n3 h2 => injection hq with h3 _; exact absurd h3.symm n3
  | @down d e p ps n1 n2 n3 h1 ih =>
    generalize hq : p :: ps = qs at h2
    cases h2 with
    | done => cases hq
    | stay h h2 =>
      injection hq with h3 _
      rw [← h3] at h
      rcases h with h | h
      · exact absurd h n1
      · exact absurd h n2
    | up h2 => injection hq with h3 _; exact absurd h3 n3
    | top h2 => injection hq with h3 _; exact absurd h3 n3
    | down _ _ _ h2 => injection hq with h3 h4; subst h3 h4; exact ih h2

private theorem walk_append {d e f : List Str} {ps qs : List Str} (h1 : Walk d ps e) (h2 : Walk e qs f) :
    Walk d (ps ++ qs) f := by
  induction h1 with
  | done => exact h2
  | stay h _ ih => exact .stay h (ih h2)
  | up _ ih => exact .up (ih h2)
  | top _ ih => exact .top (ih h2)
  | down n1 n2 n3 _ ih => exact .down n1 n2 n3 (ih h2)

private theorem normpath_walk {p : Str} (ha : Absolute p) (hp : Plain p) :
    ∃ d, normpath p = '/' :: join ['/'] d ∧ Walk [] (split '/' p) d ∧ Names d := by
  have hs : startsWith p "/".toList = true := (startsWith_slash p).mpr ha
  have hi : initialSlashes p = 1 := by
    unfold initialSlashes
    rw [if_pos hs, if_neg]
    rintro ⟨h1, h2⟩
    apply h2
    unfold startsWith at *
    rw [List.isPrefixOf_iff_prefix] at h1 ⊢
    exact hp h1
  have hne : p ≠ [] := by rintro rfl; cases ha
  obtain ⟨h1, h2⟩ := walk_norm (split '/' p) [] (fun _ h => by cases h) (fun q hq => (split_mem '/' p q hq).1)
  refine ⟨_, ?_, h1, h2⟩
  unfold normpath
  rw [if_neg hne, hi]
  simp

/-- **C68**: `abspath` gives the place that a path denotes. -/
theorem C68_abspath (cwd path : Str) (hc : Absolute cwd) (hcp : Plain cwd) (hp : Plain path) (place : List Str)
    (h : Denotes cwd path place) : abspath cwd path = '/' :: join ['/'] place := by
  unfold abspath
  unfold Denotes at h
  by_cases ha : path.head? = some '/'
  · rw [if_pos ha] at h
    rw [if_pos ((startsWith_slash path).mpr ha)]
    obtain ⟨d, h1, h2, -⟩ := normpath_walk ha hp
    rw [h1, walk_unique h2 h]
  · rw [if_neg ha] at h
    have hs : ¬ startsWith path "/".toList = true := fun hh => ha ((startsWith_slash path).mp hh)
    rw [if_neg hs]
    obtain ⟨d, w1, w2⟩ := h
    have hcne : cwd ≠ [] := by rintro rfl; cases hc
    have hhead : ∀ r, Absolute (cwd ++ r) := by
      intro r
      cases cwd with
      | nil => cases hc
      | cons c cs => simpa [Absolute] using hc
    by_cases hl : cwd.getLast? = some '/'
    · rw [pathJoin_slash ha hl]
      obtain ⟨q, x, rfl⟩ : ∃ q x, cwd = q ++ [x] := ⟨_, _, (List.dropLast_concat_getLast hcne).symm⟩
      have hx : x = '/' := by simpa using hl
      subst hx
      have hplain : Plain (q ++ ['/'] ++ path) := by
        intro h2
        by_cases hq : q = []
        · subst hq
          exfalso
          rw [List.nil_append] at h2
          have : "/".toList <+: path := by
            have h3 : "/".toList ++ "/".toList <+: "/".toList ++ path := h2
            exact (List.prefix_append_right_inj _).mp h3
          exact hs (by unfold startsWith; rw [List.isPrefixOf_iff_prefix]; exact this)
        · have h3 : "//".toList <+: q ++ ['/'] := by
            refine List.prefix_of_prefix_length_le h2 (List.prefix_append _ _) ?_
            have := List.length_pos_iff.mpr hq
            simp
            omega
          exact (hcp h3).trans (List.prefix_append _ _)
      obtain ⟨e, h1, h2, -⟩ := normpath_walk (hhead path) hplain
      have hsplit : split '/' (q ++ ['/'] ++ path) = split '/' q ++ split '/' path := by
        rw [List.append_assoc]
        exact split_concat_sep '/' q path
      have hsq : split '/' (q ++ ['/']) = split '/' q ++ [[]] := split_concat_sep '/' q []
      have w3 : ∀ {a b : List Str}, Walk a (split '/' q ++ [[]]) b → Walk a (split '/' q) b := by
        intro a b
        generalize split '/' q = ps
        intro w
        generalize hgs : ps ++ [[]] = rs at w
        induction w generalizing ps with
        | done => simp at hgs
        | stay hst w ih =>
          cases ps with
          | nil =>
            simp only [List.nil_append, List.cons.injEq] at hgs
            obtain ⟨-, rfl⟩ := hgs
            exact w
          | cons y ys =>
            simp only [List.cons_append, List.cons.injEq] at hgs
            obtain ⟨rfl, h5⟩ := hgs
            exact .stay hst (ih ys h5)
        | up w ih =>
          cases ps with
          | nil => simp at hgs
          | cons y ys =>
            simp only [List.cons_append, List.cons.injEq] at hgs
            obtain ⟨rfl, h5⟩ := hgs
            exact .up (ih ys h5)
        | top w ih =>
          cases ps with
          | nil => simp at hgs
          | cons y ys =>
            simp only [List.cons_append, List.cons.injEq] at hgs
            obtain ⟨rfl, h5⟩ := hgs
            exact .top (ih ys h5)
        | down n1 n2 n3 w ih =>
          cases ps with
          | nil =>
            simp only [List.nil_append, List.cons.injEq] at hgs
            exact absurd hgs.1.symm n1
          | cons y ys =>
            simp only [List.cons_append, List.cons.injEq] at hgs
            obtain ⟨rfl, h5⟩ := hgs
            exact .down n1 n2 n3 (ih ys h5)
      rw [hsq] at w1
      rw [hsplit] at h2
      rw [h1, walk_unique h2 (walk_append (w3 w1) w2)]
    · rw [pathJoin_plain ha hcne hl]
      have hplain : Plain (cwd ++ "/".toList ++ path) := by
        intro h2
        have h3 : "//".toList <+: cwd := by
          cases cwd with
          | nil => exact absurd rfl hcne
          | cons c cs =>
            cases cs with
            | nil =>
              have : c = '/' := by simpa [Absolute] using hc
              subst this
              exact absurd rfl hl
            | cons c2 cs =>
              refine List.prefix_of_prefix_length_le h2 ?_ (by simp)
              rw [List.append_assoc]
              exact List.prefix_append _ _
        rw [List.append_assoc]
        exact (hcp h3).trans (List.prefix_append _ _)
      obtain ⟨e, h1, h2, -⟩ := normpath_walk (by rw [List.append_assoc]; exact hhead _) hplain
      have hsplit : split '/' (cwd ++ "/".toList ++ path) = split '/' cwd ++ split '/' path := by
        rw [List.append_assoc]
        exact split_concat_sep '/' cwd path
      rw [hsplit] at h2
      rw [h1, walk_unique h2 (walk_append w1 w2)]

/-- **C68, partial**: for a file in the output directory, `rel_path` is the path from there. The output
directory is not the root. -/
theorem C68_inside_partial (cwd out file : Str) (hc : Absolute cwd) (hcp : Plain cwd) (ho : Plain out)
    (hf : Plain file) (o rest : List Str) (hdo : Denotes cwd out o) (hdf : Denotes cwd file (o ++ rest))
    (hne : o ≠ []) : relPath cwd out file = some (join ['/'] rest) := by
  unfold relPath
  rw [C68_abspath cwd out hc hcp ho o hdo, C68_abspath cwd file hc hcp hf _ hdf]
  dsimp only
  by_cases hr : rest = []
  · subst hr
    rw [List.append_nil, List.take_length, if_pos rfl, List.drop_of_length_le (by simp)]
    rfl
  · rw [join_append _ hne hr, List.append_assoc, ← List.cons_append, List.take_left, if_pos rfl]
    congr 1
    rw [← List.drop_drop, List.drop_left]
    rfl

private theorem walk_names {d ps e : List Str} (h : Walk d ps e) (hd : Names d) (hp : ∀ p ∈ ps, '/' ∉ p) : Names e := by
  have := walk_norm ps d hd hp
  rw [walk_unique h this.1]
  exact this.2

private theorem denotes_names {cwd path : Str} {d : List Str} (h : Denotes cwd path d) : Names d := by
  have hs : ∀ s : Str, ∀ p ∈ split '/' s, '/' ∉ p := fun s p hp => (split_mem '/' s p hp).1
  have h0 : Names [] := fun _ h => by cases h
  unfold Denotes at h
  split at h
  · exact walk_names h h0 (hs _)
  · obtain ⟨e, h1, h2⟩ := h
    exact walk_names h2 (walk_names h1 h0 (hs _)) (hs _)

private theorem split_no_sep_append (x s : Str) (hx : '/' ∉ x) :
    ∃ s0 rest, split '/' (x ++ s) = (x ++ s0) :: rest := by
  induction x with
  | nil =>
    rcases h : split '/' s with _ | ⟨s0, rest⟩
    · exact absurd h (split_ne_nil _ _)
    · exact ⟨s0, rest, h⟩
  | cons c x ih =>
    obtain ⟨s0, rest, h⟩ := ih (fun hm => hx (List.mem_cons_of_mem _ hm))
    have hc : c ≠ '/' := fun e => hx (by simp [e])
    exact ⟨s0, rest, by simp [split, hc, h]⟩

/-- **C68, partial**: for a file outside the output directory it is `None`, unless the name of a directory next to
the output directory begins with the name of the output directory. -/
theorem C68_outside_partial (cwd out file : Str) (hc : Absolute cwd) (hcp : Plain cwd) (ho : Plain out)
    (hf : Plain file) (o f : List Str) (hdo : Denotes cwd out o) (hdf : Denotes cwd file f)
    (hout : ¬ o <+: f) (hsib : ∀ d x y rest, o = d ++ [x] → f ≠ d ++ (x ++ y) :: rest) : relPath cwd out file = none := by
  have no := denotes_names hdo
  have nf := denotes_names hdf
  unfold relPath
  rw [C68_abspath cwd out hc hcp ho o hdo, C68_abspath cwd file hc hcp hf _ hdf]
  dsimp only
  rw [if_neg]
  intro h
  have hp : '/' :: join ['/'] o <+: '/' :: join ['/'] f := List.prefix_iff_eq_take.mpr h.symm
  rw [List.cons_prefix_cons] at hp
  obtain ⟨s, hs⟩ := hp.2
  rcases List.eq_nil_or_concat o with rfl | ⟨d, x, rfl⟩
  · exact hout List.nil_prefix
  · rw [List.concat_eq_append] at *
    have hx := no x (by simp)
    have hfne : f ≠ [] := by
      rintro rfl
      change join ['/'] (d ++ [x]) ++ s = [] at hs
      have h1 := (List.append_eq_nil_iff.mp hs).1
      by_cases hd : d = []
      · subst hd
        exact hx.1 h1
      · rw [join_append _ hd (by simp)] at h1
        simp at h1
    have hfs : split '/' (join ['/'] f) = f := split_join_sep '/' hfne (fun p hp => (nf p hp).2.1)
    obtain ⟨s0, rest, h0⟩ := split_no_sep_append x s hx.2.1
    apply hsib d x s0 rest rfl
    rw [← hfs, ← hs]
    by_cases hd : d = []
    · subst hd
      exact h0
    · rw [join_append _ hd (by simp), List.append_assoc, List.append_assoc]
      change split '/' (join ['/'] d ++ '/' :: (x ++ s)) = _
      rw [split_concat_sep, split_join_sep '/' hd (fun p hp => (no p (by simp [hp])).2.1), h0]

/-- **C68, refuted** for a file in a directory next to the output directory whose name begins with its name. -/
theorem C68_sibling_refuted : relPath "/b".toList "out".toList "out2/x.png".toList = some "/x.png".toList := by
  decide

/-- **C68, refuted** if the output directory is the root. -/
theorem C68_root_refuted : relPath "/b".toList "/".toList "/x.png".toList = some ".png".toList := by decide

example : relPath "/home/me".toList "books/.out/a".toList "books/./.out//b/../a/img/x.png".toList =
    some "img/x.png".toList := by decide

example : Denotes "/b".toList "c/../out".toList ["b".toList, "out".toList] := by
  unfold Denotes
  rw [if_neg (by decide)]
  refine ⟨["b".toList], ?_, ?_⟩
  · exact .stay (.inl rfl) (.down (by decide) (by decide) (by decide) (.done _))
  · exact .down (by decide) (by decide) (by decide)
      (.up (d := ["b".toList]) (.down (by decide) (by decide) (by decide) (.done _)))

end Verif.Props
