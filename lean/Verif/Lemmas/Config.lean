import Verif.Spec.Config
import Verif.Lemmas.Lines

/-! # Lemmas about configuration -/

namespace Verif.Lemmas
open Verif.Py Verif.Model Verif.Spec

theorem means_parse (s : Str) (v : CVal) : Means s v ↔ parseConfigValue s = v := by
  unfold parseConfigValue
  constructor
  · intro h
    cases h with
    | one => rfl
    | zero => rfl
    | other _ h1 h0 => rw [if_neg h1, if_neg h0]
  · rintro rfl
    split
    · rename_i h; rw [h]; exact .one
    · split
      · rename_i h; rw [h]; exact .zero
      · rename_i h1 h0; exact .other s h1 h0

theorem splitEq_some (s key value : Str) :
    splitEq s = some (key, value) ↔ s = key ++ "=".toList ++ value ∧ '=' ∉ key := by
  induction s generalizing key with
  | nil => simp [splitEq]
  | cons c cs ih =>
    unfold splitEq
    by_cases hc : c = '='
    · subst hc
      rw [if_pos rfl]
      constructor
      · intro h; cases h; simp
      · rintro ⟨h1, h2⟩
        cases key with
        | nil => simp at h1; rw [h1]
        | cons k ks =>
          simp only [List.cons_append, List.cons.injEq] at h1
          exact absurd (by rw [h1.1]; exact List.mem_cons_self) h2
    · rw [if_neg hc]
      rw [Option.map_eq_some_iff]
      constructor
      · rintro ⟨⟨k, v⟩, h1, h2⟩
        cases h2
        obtain ⟨g1, g2⟩ := (ih k).mp h1
        refine ⟨by rw [g1]; simp, ?_⟩
        simp only [List.mem_cons, not_or]
        exact ⟨Ne.symm hc, g2⟩
      · rintro ⟨h1, h2⟩
        cases key with
        | nil =>
          exact absurd (by simpa using congrArg List.head? h1) hc
        | cons k ks =>
          simp only [List.cons_append, List.cons.injEq] at h1
          simp only [List.mem_cons, not_or] at h2
          exact ⟨(ks, value), (ih ks).mpr ⟨h1.2, h2.2⟩, by rw [h1.1]⟩

theorem splitEq_none (s : Str) : splitEq s = none ↔ '=' ∉ s := by
  induction s with
  | nil => simp [splitEq]
  | cons c cs ih =>
    unfold splitEq
    by_cases hc : c = '='
    · subst hc; simp
    · rw [if_neg hc, Option.map_eq_none_iff, ih]
      simp [Ne.symm hc]

theorem dropWhile_eq_nil {p : Char → Bool} (s : Str) : s.dropWhile p = [] ↔ ∀ c ∈ s, p c = true := by
  induction s with
  | nil => simp
  | cons c cs ih =>
    rw [List.dropWhile_cons]
    split
    · rename_i h; rw [ih]; simp [h]
    · rename_i h; simp [h]

theorem strip_empty (u : Unicode) (s : Str) : (strip u s).isEmpty = true ↔ ∀ c ∈ s, u.isSpace c = true := by
  unfold strip
  rw [List.isEmpty_iff, List.reverse_eq_nil_iff, dropWhile_eq_nil]
  simp only [List.mem_reverse]
  constructor
  · intro h
    have : s.dropWhile u.isSpace = [] := by
      rcases hd : s.dropWhile u.isSpace with _ | ⟨c, cs⟩
      · rfl
      · have h1 := h c (by rw [hd]; exact List.mem_cons_self)
        have h2 := List.head?_dropWhile_not u.isSpace s
        rw [hd] at h2
        simp only [List.head?_cons] at h2
        rw [h1] at h2
        cases h2
    exact (dropWhile_eq_nil s).mp this
  · intro h c hc
    exact h c (List.dropWhile_sublist _ |>.mem hc)

theorem dropWhile_append_of_mem {p : Char → Bool} (a b : Str) (h : ∃ c ∈ a, p c = false) :
    (a ++ b).dropWhile p = a.dropWhile p ++ b := by
  induction a with
  | nil => obtain ⟨c, hc, _⟩ := h; cases hc
  | cons x a ih =>
    rw [List.cons_append, List.dropWhile_cons, List.dropWhile_cons]
    split
    · rename_i hx
      obtain ⟨c, hc, hp⟩ := h
      rcases List.mem_cons.mp hc with rfl | hc
      · rw [hx] at hp; cases hp
      · exact ih ⟨c, hc, hp⟩
    · rfl

theorem strip_newline (u : Unicode) (s : Str) : strip u (s ++ ['\n']) = strip u s := by
  by_cases h : ∃ c ∈ s, u.isSpace c = false
  · unfold strip
    rw [dropWhile_append_of_mem _ _ h, List.reverse_append]
    simp [List.dropWhile_cons, u.newline_space]
  · have hall : ∀ c ∈ s, u.isSpace c = true := by
      intro c hc
      rcases hs : u.isSpace c with _ | _
      · exact absurd ⟨c, hc, hs⟩ h
      · rfl
    have h1 := (strip_empty u s).mpr hall
    have h2 := (strip_empty u (s ++ ['\n'])).mpr (by
      intro c hc
      rcases List.mem_append.mp hc with hc | hc
      · exact hall c hc
      · simp at hc; subst hc; exact u.newline_space)
    rw [List.isEmpty_iff] at h1 h2
    rw [h1, h2]

/-- What one line does. -/
def lineItem (u : Unicode) (line : Str) : Option (Option (Str × CVal)) :=
  if startsWith line "#".toList || (strip u line).isEmpty then some none
  else (splitEq (strip u line)).map (fun p => some (p.1, parseConfigValue p.2))

theorem parseLines_cons (u : Unicode) (line : Str) (rest : List Str) (config : Dict CVal) :
    parseLines u (line :: rest) config =
      match lineItem u line with
      | none => none
      | some none => parseLines u rest config
      | some (some (k, v)) => parseLines u rest (config.set k v) := by
  unfold lineItem
  rw [parseLines]
  split
  · rfl
  · rcases splitEq (strip u line) with _ | ⟨k, v⟩ <;> rfl

theorem startsWith_hash (line : Str) : startsWith line "#".toList = true ↔ line.head? = some '#' := by
  unfold startsWith
  cases line with
  | nil => simp
  | cons c cs =>
    rw [List.head?_cons, Option.some.injEq]
    change (('#' == c) && true) = true ↔ c = '#'
    rw [Bool.and_true, beq_iff_eq]
    exact eq_comm

theorem counts_iff (u : Unicode) (line : Str) :
    Counts u line ↔ (startsWith line "#".toList || (strip u line).isEmpty) = false := by
  rw [Bool.or_eq_false_iff]
  unfold Counts
  have h2 := strip_empty u line
  have h1 := startsWith_hash line
  constructor
  · rintro ⟨a, c, hc, hs⟩
    constructor
    · rcases h : startsWith line "#".toList with _ | _
      · rfl
      · exact absurd (h1.mp h) a
    · rcases h : (strip u line).isEmpty with _ | _
      · rfl
      · rw [h2.mp h c hc] at hs; cases hs
  · rintro ⟨a, b⟩
    constructor
    · intro h; rw [h1.mpr h] at a; cases a
    · apply Classical.byContradiction
      intro hn
      have : (strip u line).isEmpty = true := h2.mpr (by
        intro c hc
        rcases hs : u.isSpace c with _ | _
        · exact absurd ⟨c, hc, hs⟩ hn
        · rfl)
      rw [this] at b; cases b

theorem lineItem_some (u : Unicode) (line k : Str) (v : CVal) :
    lineItem u line = some (some (k, v)) ↔ LineSays u line k v := by
  unfold lineItem LineSays
  rcases hb : (startsWith line "#".toList || (strip u line).isEmpty) with _ | _
  · rw [if_neg (by simp)]
    simp only [(counts_iff u line).mpr hb, true_and, Option.map_eq_some_iff, Option.some.injEq, Prod.mk.injEq,
      Prod.exists, splitEq_some, means_parse]
    constructor
    · rintro ⟨a, b, ⟨h1, h2⟩, rfl, h3⟩
      exact ⟨b, h1, h2, h3⟩
    · rintro ⟨b, h1, h2, h3⟩
      exact ⟨k, b, ⟨h1, h2⟩, rfl, h3⟩
  · rw [if_pos rfl]
    constructor
    · intro h; cases h
    · rintro ⟨h, _⟩
      rw [(counts_iff u line).mp h] at hb; cases hb

theorem lineItem_newline (u : Unicode) (line : Str) : lineItem u (line ++ ['\n']) = lineItem u line := by
  unfold lineItem
  rw [strip_newline]
  cases line with
  | nil => rfl
  | cons c cs =>
    have : startsWith (c :: cs ++ ['\n']) "#".toList = startsWith (c :: cs) "#".toList := rfl
    rw [this]

theorem lineItem_nil (u : Unicode) : lineItem u [] = some none := rfl

theorem iterLines_append (a b : Str) (h : '\n' ∉ a) :
    iterLines (a ++ '\n' :: b) = (a ++ ['\n']) :: iterLines b := by
  induction a with
  | nil => simp [iterLines]
  | cons c a ih =>
    simp only [List.mem_cons, not_or] at h
    rw [List.cons_append, iterLines, if_neg (Ne.symm h.1), ih h.2]
    rfl

theorem iterLines_last (a : Str) (h : '\n' ∉ a) : iterLines a = if a = [] then [] else [a] := by
  induction a with
  | nil => rfl
  | cons c a ih =>
    simp only [List.mem_cons, not_or] at h
    rw [iterLines, if_neg (Ne.symm h.1), ih h.2]
    cases a <;> rfl

/-- Reading a file line by line is the same as cutting its text at the newlines. -/
theorem parseLines_split (u : Unicode) (text : Str) : ∀ config,
    parseLines u (iterLines text) config = parseLines u (split '\n' text) config := by
  induction hn : text.length using Nat.strongRecOn generalizing text with
  | _ n ih =>
    intro config
    by_cases h : '\n' ∈ text
    · obtain ⟨a, b, rfl, ha⟩ := exists_first_newline h
      rw [iterLines_append a b ha, split_append_sep _ a b ha, parseLines_cons, parseLines_cons, lineItem_newline]
      have hb : b.length < n := by subst hn; simp; omega
      rcases lineItem u a with _ | _ | ⟨k, v⟩
      · rfl
      · exact ih _ hb b rfl _
      · exact ih _ hb b rfl _
    · rw [iterLines_last text h, split_no_sep _ text h]
      split
      · rename_i h; subst h; rw [parseLines_cons, lineItem_nil]
      · rfl

/-- What the lines of a file do to a configuration. -/
theorem parseLines_get (u : Unicode) (lines : List Str) (k : Str) : ∀ config config',
    parseLines u lines config = some config' →
    (∃ v, LastSays (LineSays u) lines k v ∧ config'.get k = some v) ∨
    (Silent (LineSays u) lines k ∧ config'.get k = config.get k) := by
  induction lines with
  | nil =>
    intro config config' h
    rw [parseLines] at h
    cases h
    exact .inr ⟨(fun x hx => absurd hx List.not_mem_nil), rfl⟩
  | cons line rest ih =>
    intro config config' h
    rw [parseLines_cons] at h
    have hl := lineItem_some u line
    have hcons : ∀ config, parseLines u rest config = some config' →
        (∃ v, LastSays (LineSays u) (line :: rest) k v ∧ config'.get k = some v) ∨
        (Silent (LineSays u) rest k ∧ config'.get k = config.get k) := by
      intro config h
      rcases ih _ _ h with ⟨v, ⟨pre, x, post, h1, h2, h3⟩, h4⟩ | h
      · exact .inl ⟨v, ⟨line :: pre, x, post, by rw [h1]; rfl, h2, h3⟩, h4⟩
      · exact .inr h
    rcases hi : lineItem u line with _ | _ | ⟨k', v'⟩
    · rw [hi] at h; cases h
    · rw [hi] at h
      rcases hcons _ h with h | ⟨h1, h2⟩
      · exact .inl h
      · refine .inr ⟨?_, h2⟩
        intro x hx v hv
        rcases List.mem_cons.mp hx with rfl | hx
        · rw [(hl k v).mpr hv] at hi; cases hi
        · exact h1 x hx v hv
    · rw [hi] at h
      rcases hcons _ h with h | ⟨h1, h2⟩
      · exact .inl h
      · rw [Dict.get_set] at h2
        by_cases hk : k' = k
        · subst hk
          rw [if_pos rfl] at h2
          exact .inl ⟨v', ⟨[], line, rest, rfl, (hl _ _).mp hi, h1⟩, h2⟩
        · rw [if_neg hk] at h2
          refine .inr ⟨?_, h2⟩
          intro x hx v hv
          rcases List.mem_cons.mp hx with rfl | hx
          · rw [(hl k v).mpr hv] at hi; cases hi; exact hk rfl
          · exact h1 x hx v hv

theorem parseConfigFile_get (u : Unicode) (w : ConfigWorld) (file k : Str) (config config' : Dict CVal)
    (h : parseConfigFile u w file config = some config') :
    (∃ v, LastSays (LineSays u) (linesOf w file) k v ∧ config'.get k = some v) ∨
    (Silent (LineSays u) (linesOf w file) k ∧ config'.get k = config.get k) := by
  unfold parseConfigFile at h
  unfold linesOf
  generalize w.files file = o at h ⊢
  rcases o with _ | text
  · cases h
    exact .inr ⟨(fun x hx => absurd hx List.not_mem_nil), rfl⟩
  · dsimp only at h
    rw [parseLines_split] at h
    exact parseLines_get u _ k _ _ h

theorem parseEnviron_get (u : Unicode) (vars : List (Str × Str)) (k : Str) : ∀ config,
    (∃ v, LastSays (VarSays u) vars k v ∧ (parseEnviron u vars config).get k = some v) ∨
    (Silent (VarSays u) vars k ∧ (parseEnviron u vars config).get k = config.get k) := by
  induction vars with
  | nil => intro config; exact .inr ⟨(fun x hx => absurd hx List.not_mem_nil), rfl⟩
  | cons var rest ih =>
    intro config
    obtain ⟨key, value⟩ := var
    have hcons : ∀ config, (∃ v, LastSays (VarSays u) ((key, value) :: rest) k v ∧
          (parseEnviron u rest config).get k = some v) ∨
        (Silent (VarSays u) rest k ∧ (parseEnviron u rest config).get k = config.get k) := by
      intro config
      rcases ih config with ⟨v, ⟨pre, x, post, h1, h2, h3⟩, h4⟩ | h
      · exact .inl ⟨v, ⟨(key, value) :: pre, x, post, by rw [h1]; rfl, h2, h3⟩, h4⟩
      · exact .inr h
    rw [parseEnviron]
    by_cases hp : startsWith key "BOOKTEST_".toList = true
    · rw [if_pos hp]
      obtain ⟨name, hname⟩ := List.isPrefixOf_iff_prefix.mp hp
      have hdrop : key.drop "BOOKTEST_".toList.length = name := by rw [← hname, List.drop_left]
      rw [hdrop]
      rcases hcons (config.set (lower u name) (parseConfigValue value)) with h | ⟨h1, h2⟩
      · exact .inl h
      · rw [Dict.get_set] at h2
        by_cases hk : lower u name = k
        · rw [if_pos hk] at h2
          exact .inl ⟨_, ⟨[], (key, value), rest, rfl,
            ⟨name, hname.symm, hk.symm, (means_parse _ _).mpr rfl⟩, h1⟩, h2⟩
        · rw [if_neg hk] at h2
          refine .inr ⟨?_, h2⟩
          intro x hx v hv
          rcases List.mem_cons.mp hx with rfl | hx
          · obtain ⟨n, g1, g2, _⟩ := hv
            rw [← hname] at g1
            rw [List.append_cancel_left g1] at hk
            exact hk g2.symm
          · exact h1 x hx v hv
    · rw [if_neg hp]
      rcases hcons config with h | ⟨h1, h2⟩
      · exact .inl h
      · refine .inr ⟨?_, h2⟩
        intro x hx v hv
        rcases List.mem_cons.mp hx with rfl | hx
        · obtain ⟨n, g1, _⟩ := hv
          exact hp (by change key = _ at g1; unfold startsWith; rw [g1]; exact List.isPrefixOf_iff_prefix.mpr (List.prefix_append _ _))
        · exact h1 x hx v hv

theorem setAll_get (items : List (Str × CVal)) (hn : (items.map (·.1)).Nodup) (k : Str) : ∀ config,
    (∃ v, (k, v) ∈ items ∧ (setAll config items).get k = some v) ∨
    (k ∉ items.map (·.1) ∧ (setAll config items).get k = config.get k) := by
  induction items with
  | nil => intro config; exact .inr ⟨by simp, rfl⟩
  | cons p items ih =>
    intro config
    rw [List.map_cons, List.nodup_cons] at hn
    have hs : setAll config (p :: items) = setAll (config.set p.1 p.2) items := rfl
    rw [hs]
    rcases ih hn.2 (config.set p.1 p.2) with ⟨v, h1, h2⟩ | ⟨h1, h2⟩
    · exact .inl ⟨v, List.mem_cons_of_mem _ h1, h2⟩
    · rw [Dict.get_set] at h2
      by_cases hk : p.1 = k
      · rw [if_pos hk] at h2
        exact .inl ⟨p.2, by rw [← hk]; exact List.mem_cons_self, h2⟩
      · rw [if_neg hk] at h2
        refine .inr ⟨?_, h2⟩
        rw [List.map_cons, List.mem_cons, not_or]
        exact ⟨Ne.symm hk, h1⟩

/-- The flags as a list of settings. -/
def flagItems (a : Args) : List (Str × CVal) :=
  (if a.i then [("interactive".toList, .bool true)] else []) ++
  (if a.I then [("always_interactive".toList, .bool true)] else []) ++
  (if a.v then [("verbose".toList, .bool true)] else []) ++
  (if a.L then [("print_logs".toList, .bool true)] else []) ++
  (if a.f then [("fail_fast".toList, .bool true)] else []) ++
  (if a.c then [("continue".toList, .bool true)] else []) ++
  (if a.r then [("refresh_sources".toList, .bool true)] else []) ++
  (if a.u then [("update".toList, .bool true)] else []) ++
  (if a.a then [("accept".toList, .bool true)] else []) ++
  (if a.p.truthy then [("parallel".toList, a.p)] else []) ++
  (if a.s then [("complete_snapshots".toList, .bool true)] else []) ++
  (if a.S then [("refresh_snapshots".toList, .bool true)] else []) ++
  (if a.cov then [("coverage".toList, .bool true)] else []) ++
  (if optTruthy a.mdViewer then [("md_viewer".toList, .str (a.mdViewer.getD []))] else []) ++
  (if optTruthy a.diffTool then [("diff_tool".toList, .str (a.diffTool.getD []))] else [])

theorem setAll_append (config : Dict CVal) (a b : List (Str × CVal)) :
    setAll config (a ++ b) = setAll (setAll config a) b := by
  simp [setAll, List.foldl_append]

theorem setIf_eq (f : Bool) (k : Str) (v : CVal) (config : Dict CVal) :
    setIf f k v config = setAll config (if f then [(k, v)] else []) := by
  cases f <;> rfl

theorem setFlags_eq (a : Args) (config : Dict CVal) : setFlags a config = setAll config (flagItems a) := by
  unfold setFlags flagItems
  simp only [setIf_eq, setAll_append]

/-- The names of all flags. -/
def flagKeys : List Str :=
  ["interactive".toList, "always_interactive".toList, "verbose".toList, "print_logs".toList, "fail_fast".toList,
   "continue".toList, "refresh_sources".toList, "update".toList, "accept".toList, "parallel".toList,
   "complete_snapshots".toList, "refresh_snapshots".toList, "coverage".toList, "md_viewer".toList,
   "diff_tool".toList]

theorem flagItems_nodup (a : Args) : ((flagItems a).map (·.1)).Nodup := by
  have hs : ((flagItems a).map (·.1)).Sublist flagKeys := by
    unfold flagItems
    simp only [List.map_append]
    have h1 : ∀ (f : Bool) (k : Str) (v : CVal), ((if f then [(k, v)] else []).map (·.1)).Sublist [k] := by
      intro f k v; cases f <;> simp
    have : flagKeys = ["interactive".toList] ++ ["always_interactive".toList] ++ ["verbose".toList] ++
      ["print_logs".toList] ++ ["fail_fast".toList] ++ ["continue".toList] ++ ["refresh_sources".toList] ++
      ["update".toList] ++ ["accept".toList] ++ ["parallel".toList] ++ ["complete_snapshots".toList] ++
      ["refresh_snapshots".toList] ++ ["coverage".toList] ++ ["md_viewer".toList] ++ ["diff_tool".toList] := rfl
    rw [this]
    repeat' apply List.Sublist.append
    all_goals exact h1 _ _ _
  exact hs.nodup (by decide)

theorem truthy_iff (x : CVal) : x.truthy = true ↔ x ≠ .bool false ∧ x ≠ .int 0 ∧ x ≠ .str [] := by
  cases x with
  | bool b => cases b <;> simp [CVal.truthy]
  | str s => cases s <;> simp [CVal.truthy]
  | int n => simp [CVal.truthy]

theorem optTruthy_iff (o : Option Str) : optTruthy o = true ↔ ∃ x, o = some x ∧ x ≠ [] := by
  unfold optTruthy
  rcases o with _ | x
  · simp
  · cases x <;> simp

theorem flagItems_mem (a : Args) (k : Str) (v : CVal) : (k, v) ∈ flagItems a ↔ FlagSays a k v := by
  have h1 : ∀ (f : Bool) (k' : Str) (v' : CVal), (k, v) ∈ (if f then [(k', v')] else []) ↔
      f = true ∧ k = k' ∧ v = v' := by
    intro f k' v'; cases f <;> simp
  unfold flagItems
  simp only [List.mem_append, h1]
  constructor
  · rintro ((((((((((((((h | h) | h) | h) | h) | h) | h) | h) | h) | h) | h) | h) | h) | h) | h) <;>
      obtain ⟨h, rfl, rfl⟩ := h
    · exact .i h
    · exact .I h
    · exact .v h
    · exact .L h
    · exact .f h
    · exact .c h
    · exact .r h
    · exact .u h
    · exact .a h
    · obtain ⟨g1, g2, g3⟩ := (truthy_iff _).mp h
      exact .p _ rfl g1 g2 g3
    · exact .s h
    · exact .S h
    · exact .cov h
    · obtain ⟨x, g1, g2⟩ := (optTruthy_iff _).mp h
      rw [g1]; exact .mdViewer x g1 g2
    · obtain ⟨x, g1, g2⟩ := (optTruthy_iff _).mp h
      rw [g1]; exact .diffTool x g1 g2
  · intro h
    cases h with
    | p _ g1 h2 h3 h4 =>
      subst g1
      have := (truthy_iff a.p).mpr ⟨h2, h3, h4⟩
      simp [this]
    | mdViewer x g1 g2 =>
      have := (optTruthy_iff a.mdViewer).mpr ⟨x, g1, g2⟩
      rw [g1] at this ⊢
      simp [this]
    | diffTool x g1 g2 =>
      have := (optTruthy_iff a.diffTool).mpr ⟨x, g1, g2⟩
      rw [g1] at this ⊢
      simp [this]
    | _ h => simp [h]

theorem setFlags_get (a : Args) (k : Str) (config : Dict CVal) :
    (∃ v, FlagSays a k v ∧ (setFlags a config).get k = some v) ∨
    ((∀ v, ¬ FlagSays a k v) ∧ (setFlags a config).get k = config.get k) := by
  rw [setFlags_eq]
  rcases setAll_get (flagItems a) (flagItems_nodup a) k config with ⟨v, h1, h2⟩ | ⟨h1, h2⟩
  · exact .inl ⟨v, (flagItems_mem a k v).mp h1, h2⟩
  · exact .inr ⟨fun v hv => h1 (List.mem_map.mpr ⟨_, (flagItems_mem a k v).mpr hv, rfl⟩), h2⟩

/-- A flag sets a key to one value only. -/
theorem flagSays_unique {a : Args} {k : Str} {v v' : CVal} (h : FlagSays a k v) (h' : FlagSays a k v') : v = v' := by
  rcases setFlags_get a k [] with ⟨x, _, h2⟩ | ⟨hn, _⟩
  · have hu : ∀ y, FlagSays a k y → (setFlags a []).get k = some y := by
      intro y hy
      have hm := (flagItems_mem a k y).mpr hy
      rw [setFlags_eq]
      have : setAll [] (flagItems a) = flagItems a := by
        have : ∀ (items acc : List (Str × CVal)), (((acc ++ items).map (·.1))).Nodup →
            setAll acc items = acc ++ items := by
          intro items
          induction items with
          | nil => intro acc _; simp [setAll]
          | cons p items ih =>
            intro acc hn
            have hset : Dict.set acc p.1 p.2 = acc ++ [p] := by
              have hp : p.1 ∉ acc.map (·.1) := by
                rw [List.map_append, List.nodup_append] at hn
                intro hm
                exact hn.2.2 p.1 hm p.1 (by simp) rfl
              clear hn ih
              induction acc with
              | nil => rfl
              | cons q acc ih2 =>
                rw [List.map_cons, List.mem_cons, not_or] at hp
                obtain ⟨q1, q2⟩ := q
                rw [Dict.set, if_neg (Ne.symm hp.1), ih2 hp.2]
                rfl
            have : setAll acc (p :: items) = setAll (Dict.set acc p.1 p.2) items := rfl
            rw [this, hset, ih]
            · simp
            · simpa using hn
        simpa using this (flagItems a) [] (by simpa using flagItems_nodup a)
      rw [this]
      exact Dict.get_of_mem (flagItems_nodup a) hm
    have e1 := hu v h
    have e2 := hu v' h'
    rw [e1] at e2
    exact Option.some.inj e2
  · exact absurd h (hn v)

end Verif.Lemmas
