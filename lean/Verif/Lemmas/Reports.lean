import Verif.Spec.Reports
import Verif.Lemmas.FS
import Verif.Lemmas.Lines

/-! # Facts about the case report file -/

namespace Verif.Lemmas
open Verif.Py Verif.Model Verif.Spec

theorem split_sep (c : Char) (l r : Str) (h : c ∉ l) : split c (l ++ c :: r) = l :: split c r := by
  induction l with
  | nil => simp [split]
  | cons x xs ih =>
    simp only [List.mem_cons, not_or] at h
    simp [split, Ne.symm h.1, ih h.2]

theorem split_mem (c : Char) (s : Str) : ∀ p ∈ split c s, c ∉ p ∧ ∀ x ∈ p, x ∈ s := by
  induction s with
  | nil => simp [split]
  | cons y ys ih =>
    simp only [split]
    split
    · intro p hp
      rcases List.mem_cons.mp hp with rfl | hp
      · simp
      · exact ⟨(ih p hp).1, fun x hx => List.mem_cons_of_mem _ ((ih p hp).2 x hx)⟩
    · rename_i hy
      split
      · rename_i he; exact absurd he (split_ne_nil c ys)
      · rename_i k ks he
        rw [he] at ih
        intro p hp
        rcases List.mem_cons.mp hp with rfl | hp
        · have := ih k (by simp)
          refine ⟨by simp [this.1, Ne.symm hy], ?_⟩
          intro x hx
          rcases List.mem_cons.mp hx with rfl | hx
          · simp
          · exact List.mem_cons_of_mem _ (this.2 x hx)
        · have := ih p (by simp [hp])
          exact ⟨this.1, fun x hx => List.mem_cons_of_mem _ (this.2 x hx)⟩

theorem universalNewlines_no_cr (s : Str) : '\r' ∉ universalNewlines s := by
  fun_induction universalNewlines s with
  | case1 => simp
  | case2 cs ih => simp [ih]
  | case3 cs _ ih => simp [ih]
  | case4 c cs _ h ih =>
    simp only [List.mem_cons, not_or]
    refine ⟨?_, ih⟩
    intro hc
    exact h hc.symm

theorem nul_result (r : Result) : ∀ c ∈ r.name, c ≠ '\t' ∧ c ≠ '\n' ∧ c ≠ '\r' := by
  cases r <;> decide

/-- A line of the report without its newline. -/
def body (fl : Durations) (r : Rec fl) : Str :=
  r.1 ++ '\t' :: (r.2.1.name ++ '\t' :: fl.repr r.2.2)

theorem caseLine_eq (fl : Durations) (r : Rec fl) : caseLine fl r = body fl r ++ ['\n'] := by
  simp [caseLine, body]

theorem body_clean {fl : Durations} {r : Rec fl} (h : CleanName r.1) :
    ∀ c ∈ body fl r, c ≠ '\n' ∧ c ≠ '\r' := by
  intro c hc
  simp only [body, List.mem_append, List.mem_cons] at hc
  rcases hc with hc | rfl | hc | rfl | hc
  · exact (h c hc).2
  · decide
  · exact (nul_result _ c hc).2
  · decide
  · exact (fl.repr_clean _ c hc).2

theorem toText_cons (fl : Durations) (r : Rec fl) (rs : List (Rec fl)) :
    toText fl (r :: rs) = body fl r ++ '\n' :: toText fl rs := by
  simp [toText, caseLine_eq]

theorem toText_append (fl : Durations) (rs qs : List (Rec fl)) :
    toText fl (rs ++ qs) = toText fl rs ++ toText fl qs := by
  simp [toText]

theorem toText_no_cr {fl : Durations} {rs : List (Rec fl)} (h : ∀ r ∈ rs, CleanName r.1) :
    '\r' ∉ toText fl rs := by
  induction rs with
  | nil => simp [toText]
  | cons r rs ih =>
    rw [toText_cons]
    simp only [List.mem_append, List.mem_cons, not_or]
    exact ⟨fun hc => (body_clean (h r (by simp)) _ hc).2 rfl, by decide,
      ih (fun q hq => h q (by simp [hq]))⟩

theorem toText_count {fl : Durations} {rs : List (Rec fl)} (h : ∀ r ∈ rs, CleanName r.1) :
    (toText fl rs).count '\n' = rs.length := by
  induction rs with
  | nil => simp [toText]
  | cons r rs ih =>
    rw [toText_cons, List.count_append, List.count_cons_self, ih (fun q hq => h q (by simp [hq]))]
    rw [List.count_eq_zero.mpr (fun hc => (body_clean (h r (by simp)) _ hc).1 rfl)]
    simp

theorem split_toText {fl : Durations} {rs : List (Rec fl)} (h : ∀ r ∈ rs, CleanName r.1) (t : Str)
    (ht : '\n' ∉ t) : split '\n' (toText fl rs ++ t) = rs.map (body fl) ++ [t] := by
  induction rs with
  | nil => simpa [toText] using split_no_sep _ t ht
  | cons r rs ih =>
    rw [toText_cons, List.append_assoc, List.cons_append, split_sep, ih (fun q hq => h q (by simp [hq]))]
    · rfl
    · exact fun hc => (body_clean (h r (by simp)) _ hc).1 rfl

theorem readFileLines_toText {fl : Durations} {rs : List (Rec fl)} (h : ∀ r ∈ rs, CleanName r.1)
    (t : Str) (ht : '\n' ∉ t) (hr : '\r' ∉ t) :
    readFileLines (toText fl rs ++ t) = rs.map (body fl) ++ (if t = [] then [] else [t]) := by
  unfold readFileLines
  rw [universalNewlines_of_no_cr, split_toText h t ht]
  · dsimp only
    split
    · rename_i h1
      have : t = [] := by simpa using h1.2
      simp [this]
    · rename_i h1
      have : t ≠ [] := by
        intro hc; apply h1; simp [hc]
      simp [this]
  · simp only [List.mem_append, not_or]
    exact ⟨toText_no_cr h, hr⟩

theorem strip_pos (u : Unicode) (s : Str) {c : Char} (hc : c ∈ s) (hs : u.isSpace c = false) :
    (strip u s).length > 0 := by
  unfold strip
  rw [List.length_reverse]
  have h1 : c ∈ s.dropWhile u.isSpace := by
    induction s with
    | nil => cases hc
    | cons x xs ih =>
      rw [List.dropWhile_cons]
      split
      · rename_i hx
        rcases List.mem_cons.mp hc with rfl | hc
        · rw [hs] at hx; cases hx
        · exact ih hc
      · exact hc
  have h2 : c ∈ (s.dropWhile u.isSpace).reverse := List.mem_reverse.mpr h1
  have h3 : c ∈ (s.dropWhile u.isSpace).reverse.dropWhile u.isSpace := by
    generalize (s.dropWhile u.isSpace).reverse = l at h2
    clear hc h1
    induction l with
    | nil => cases h2
    | cons x xs ih =>
      rw [List.dropWhile_cons]
      split
      · rename_i hx
        rcases List.mem_cons.mp h2 with rfl | h2
        · rw [hs] at hx; cases hx
        · exact ih h2
      · exact h2
  exact List.length_pos_of_mem h3

theorem name_head (u : Unicode) (r : Result) : ∃ c ∈ r.name, u.isSpace c = false := by
  have h : ∀ c : Char, ('A' ≤ c ∧ c ≤ 'Z') → u.isSpace c = false := by
    intro c hc
    have h1 := u.letter_alnum c (Or.inr hc)
    cases h2 : u.isSpace c with
    | false => rfl
    | true => rw [u.space_not_alnum c h2] at h1; cases h1
  cases r
  · exact ⟨'O', by decide, h _ (by decide)⟩
  · exact ⟨'F', by decide, h _ (by decide)⟩
  · exact ⟨'D', by decide, h _ (by decide)⟩

theorem parse_result (r : Result) : (if r.name = "OK".toList then some Result.OK
    else if r.name = "DIFF".toList then some .DIFF
    else if r.name = "FAIL".toList then some .FAIL else none) = some r := by
  cases r <;> decide

theorem parseLine_fields (u : Unicode) (fl : Durations) (name : Str) (res : Result) (d : Str)
    (h : CleanName name) (hd : '\t' ∉ d) :
    parseLine u fl (name ++ '\t' :: (res.name ++ '\t' :: d)) =
      (fl.parse d).map (fun x => (name, res, x)) := by
  obtain ⟨c, hc, hs⟩ := name_head u res
  unfold parseLine
  rw [if_pos (strip_pos u _ (c := c) (by simp [hc]) hs)]
  rw [split_sep _ _ _ (fun hc => (h _ hc).1 rfl),
    split_sep _ _ _ (fun hc => (nul_result _ _ hc).1 rfl), split_no_sep _ _ hd]
  dsimp only
  rw [parse_result]
  dsimp only
  cases fl.parse d <;> rfl

theorem parseLine_body (u : Unicode) {fl : Durations} {r : Rec fl} (h : CleanName r.1) :
    parseLine u fl (body fl r) = some r := by
  unfold body
  rw [parseLine_fields u fl _ _ _ h (fun hc => (fl.repr_clean _ _ hc).1 rfl), fl.parse_repr]
  rfl

/-- A cut line gives nothing or a record with the same name and result. -/
theorem parseLine_prefix (u : Unicode) {fl : Durations} {r : Rec fl} (h : CleanName r.1) {t : Str}
    (ht : t <+: body fl r) : parseLine u fl t = none ∨ ∃ d, parseLine u fl t = some (r.1, r.2.1, d) := by
  unfold body at ht
  have short : ∀ a, split '\t' t = [a] → parseLine u fl t = none := by
    intro a ha; unfold parseLine; rw [ha]; split <;> rfl
  have short2 : ∀ a b, split '\t' t = [a, b] → parseLine u fl t = none := by
    intro a b ha; unfold parseLine; rw [ha]; split <;> rfl
  rcases List.prefix_or_prefix_of_prefix ht (List.prefix_append r.1 _) with h1 | ⟨t1, rfl⟩
  · left
    exact short t (split_no_sep _ _ (fun hc => (h _ (h1.subset hc)).1 rfl))
  · rw [List.prefix_append_right_inj] at ht
    cases t1 with
    | nil =>
      left
      rw [List.append_nil] at short ⊢
      exact short _ (split_no_sep _ _ (fun hc => (h _ hc).1 rfl))
    | cons x t2 =>
      obtain ⟨rfl, ht2⟩ := List.cons_prefix_cons.mp ht
      have hs1 := split_sep '\t' r.1 t2 (fun hc => (h _ hc).1 rfl)
      rcases List.prefix_or_prefix_of_prefix ht2 (List.prefix_append r.2.1.name _) with h1 | ⟨t3, rfl⟩
      · left
        exact short2 _ _ (hs1.trans (by
          rw [split_no_sep _ t2 (fun hc => (nul_result _ _ (h1.subset hc)).1 rfl)]))
      · rw [List.prefix_append_right_inj] at ht2
        cases t3 with
        | nil =>
          left
          rw [List.append_nil] at short2 hs1 ⊢
          exact short2 _ _ (hs1.trans (by
            rw [split_no_sep _ _ (fun hc => (nul_result _ _ hc).1 rfl)]))
        | cons x t4 =>
          obtain ⟨rfl, ht4⟩ := List.cons_prefix_cons.mp ht2
          rw [parseLine_fields u fl _ _ _ h (fun hc => (fl.repr_clean _ _ (ht4.subset hc)).1 rfl)]
          cases fl.parse t4 with
          | none => exact Or.inl rfl
          | some d => exact Or.inr ⟨d, rfl⟩

theorem filterMap_body (u : Unicode) {fl : Durations} {rs : List (Rec fl)}
    (h : ∀ r ∈ rs, CleanName r.1) : (rs.map (body fl)).filterMap (parseLine u fl) = rs := by
  induction rs with
  | nil => rfl
  | cons r rs ih =>
    rw [List.map_cons, List.filterMap_cons, parseLine_body u (h r (by simp)),
      ih (fun q hq => h q (by simp [hq]))]

theorem ofText_toText (u : Unicode) {fl : Durations} {rs : List (Rec fl)}
    (h : ∀ r ∈ rs, CleanName r.1) : ofText u fl (toText fl rs) = rs := by
  unfold ofText
  have := readFileLines_toText h [] (by simp) (by simp)
  rw [List.append_nil] at this
  rw [this]
  simp [filterMap_body u h]

/-- The beginnings of a report. -/
theorem toText_prefix {fl : Durations} {rs : List (Rec fl)} {s : Str} (hs : s <+: toText fl rs) :
    ∃ j t, j ≤ rs.length ∧ s = toText fl (rs.take j) ++ t ∧
      (t = [] ∨ ∃ r, rs[j]? = some r ∧ t <+: body fl r) := by
  induction rs generalizing s with
  | nil =>
    have : s = [] := by simpa [toText] using hs
    exact ⟨0, [], by simp, by simp [this, toText], Or.inl rfl⟩
  | cons r rs ih =>
    rw [toText_cons] at hs
    have hs' : s <+: (body fl r ++ ['\n']) ++ toText fl rs := by simpa using hs
    rcases List.prefix_or_prefix_of_prefix hs' (List.prefix_append _ _) with h1 | ⟨s1, rfl⟩
    · rcases List.eq_nil_or_concat s with rfl | ⟨s0, x, rfl⟩
      · exact ⟨0, [], by simp, by simp [toText], Or.inl rfl⟩
      · obtain ⟨q, hq⟩ := h1
        rcases List.eq_nil_or_concat q with rfl | ⟨q0, y, rfl⟩
        · rw [List.append_nil] at hq
          refine ⟨1, [], by simp, ?_, Or.inl rfl⟩
          rw [hq]
          simp [toText, caseLine_eq]
        · rw [List.concat_eq_append (as := q0), ← List.append_assoc] at hq
          refine ⟨0, s0.concat x, by simp, by simp [toText], Or.inr ⟨r, rfl, q0, ?_⟩⟩
          exact List.append_inj_left' hq rfl
    · rw [List.prefix_append_right_inj] at hs'
      obtain ⟨j, t, hj, h2, h3⟩ := ih hs'
      refine ⟨j + 1, t, by simpa using hj, ?_, ?_⟩
      · rw [List.take_succ_cons, toText_cons, h2]; simp
      · rcases h3 with h3 | ⟨q, h3, h4⟩
        · exact Or.inl h3
        · exact Or.inr ⟨q, by simpa using h3, h4⟩

/-- Reading a cut report. -/
theorem ofText_torn (u : Unicode) {fl : Durations} {rs : List (Rec fl)}
    (h : ∀ r ∈ rs, CleanName r.1) {b : Bytes} {s : Str} (hb : b <+: encode (toText fl rs))
    (hd : decode b = some s) :
    ∃ j x, j ≤ rs.length ∧ ofText u fl s = rs.take j ++ x ∧
      (x = [] ∨ ∃ (r : Rec fl) (d : fl.D), rs[j]? = some r ∧ x = [(r.1, r.2.1, d)]) ∧
      ∀ m, m ≤ rs.length → encode (toText fl (rs.take m)) <+: b → m ≤ j := by
  obtain ⟨j, t, hj, rfl, h3⟩ := toText_prefix (decode_prefix hb hd)
  have hc : ∀ m, ∀ r ∈ rs.take m, CleanName r.1 := fun m r hr => h r (List.mem_of_mem_take hr)
  have hpre : ∀ m, m ≤ rs.length → encode (toText fl (rs.take m)) <+: b → m ≤ j := by
    intro m hm he
    have hu : toText fl (rs.take m) <+: toText fl rs := by
      conv => rhs; rw [← List.take_append_drop m rs, toText_append]
      exact List.prefix_append _ _
    have := decode_prefix_ge hb hd hu he
    have hcount := this.sublist.count_le '\n'
    rw [List.count_append, toText_count (hc m), toText_count (hc j)] at hcount
    have ht : t.count '\n' = 0 := by
      rcases h3 with rfl | ⟨r, h4, h5⟩
      · rfl
      · exact List.count_eq_zero.mpr fun hx =>
          (body_clean (h r (List.mem_of_getElem? h4)) _ (h5.subset hx)).1 rfl
    rw [ht] at hcount
    simp only [List.length_take] at hcount
    omega
  have hcut : ∃ x, ofText u fl (toText fl (rs.take j) ++ t) = rs.take j ++ x ∧
      (x = [] ∨ ∃ (r : Rec fl) (d : fl.D), rs[j]? = some r ∧ x = [(r.1, r.2.1, d)]) := by
    rcases h3 with rfl | ⟨r, h4, h5⟩
    · rw [List.append_nil, ofText_toText u (hc j)]
      exact ⟨[], by simp, Or.inl rfl⟩
    · have hr := h r (List.mem_of_getElem? h4)
      have c1 : '\n' ∉ t := fun hx => (body_clean hr _ (h5.subset hx)).1 rfl
      have c2 : '\r' ∉ t := fun hx => (body_clean hr _ (h5.subset hx)).2 rfl
      unfold ofText
      rw [readFileLines_toText (hc j) t c1 c2, List.filterMap_append, filterMap_body u (hc j)]
      by_cases h0 : t = []
      · exact ⟨[], by simp [h0], Or.inl rfl⟩
      · rw [if_neg h0]
        rcases parseLine_prefix u hr h5 with h1 | ⟨d, h1⟩
        · exact ⟨[], by simp [h1], Or.inl rfl⟩
        · exact ⟨[(r.1, r.2.1, d)], by simp [h1], Or.inr ⟨r, d, h4, rfl⟩⟩
  obtain ⟨x, h4, h5⟩ := hcut
  exact ⟨j, x, hj, h4, h5, hpre⟩

/-- Whatever is in the file, the names read from it can be written again. -/
theorem ofText_clean (u : Unicode) (fl : Durations) (content : Str) :
    ∀ r ∈ ofText u fl content, CleanName r.1 := by
  intro r hr
  unfold ofText at hr
  obtain ⟨j, hj, hp⟩ := List.mem_filterMap.mp hr
  have hj' : j ∈ split '\n' (universalNewlines content) := by
    unfold readFileLines at hj
    dsimp only at hj
    split at hj
    · exact List.dropLast_subset _ hj
    · exact hj
  obtain ⟨h1, h2⟩ := split_mem _ _ _ hj'
  unfold parseLine at hp
  split at hp
  · split at hp
    · rename_i name res dur rest hs
      have hn := split_mem '\t' j name (by rw [hs]; simp)
      have : r.1 = name := by
        dsimp only at hp
        split at hp
        · cases hp
        · split at hp
          · cases hp
          · cases hp; rfl
      intro c hc
      rw [this] at hc
      refine ⟨?_, ?_, ?_⟩
      · rintro rfl; exact hn.1 hc
      · rintro rfl; exact h1 (hn.2 _ hc)
      · rintro rfl; exact universalNewlines_no_cr content (h2 _ (hn.2 _ hc))
    · cases hp
  · cases hp

theorem ofFile_clean (u : Unicode) (fl : Durations) {file : Option Bytes} {rs : List (Rec fl)}
    (h : ofFile u fl file = some rs) : ∀ r ∈ rs, CleanName r.1 := by
  cases file with
  | none => cases h; simp
  | some b =>
    simp only [ofFile, Option.map_eq_some_iff] at h
    obtain ⟨s, -, rfl⟩ := h
    exact ofText_clean u fl s

end Verif.Lemmas
