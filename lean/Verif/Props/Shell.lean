import Verif.Spec.Shell
import Verif.Lemmas.ProjectFiles
import Verif.Lemmas.Selection
import Verif.Props.Run
import Verif.Props.Parallel

/-! # C96–C99: what is done by shell commands, and the exit status -/

namespace Verif.Props
open Verif.Py Verif.Model Verif.Spec Verif.Lemmas

/-! ### Words -/

private theorem blankWords_append (a b : Str) :
    blankWords (a ++ ' ' :: b) = blankWords a ++ blankWords b := by
  have hb : blankWords (' ' :: b) = blankWords b := by
    rw [blankWords.eq_def]; rfl
  induction a with
  | nil => simpa [blankWords] using hb
  | cons c a ih =>
    rw [List.cons_append, blankWords.eq_def, blankWords.eq_def (c :: a)]
    dsimp only
    by_cases hc : isShellBlank c = true
    · rw [if_pos hc, if_pos hc, ih]
    · rw [if_neg hc, if_neg hc]
      cases a with
      | nil =>
        rw [List.nil_append]
        dsimp only
        rw [if_pos (by decide), hb]
        rfl
      | cons d a =>
        rw [List.cons_append] at ih ⊢
        dsimp only
        by_cases hd : isShellBlank d = true
        · rw [if_pos hd, if_pos hd, ih]; rfl
        · rw [if_neg hd, if_neg hd, ih]
          have hne : blankWords (d :: a) ≠ [] := by
            rw [blankWords.eq_def]
            dsimp only
            rw [if_neg hd]
            split
            · simp
            · split
              · simp
              · split <;> simp
          cases hw : blankWords (d :: a) with
          | nil => exact absurd hw hne
          | cons w ws => rfl

private theorem blank_iff {c : Char} : isShellBlank c = true ↔ c = ' ' ∨ c = '\t' := by
  unfold isShellBlank
  rw [Bool.or_eq_true, beq_iff_eq, beq_iff_eq]

private theorem blankWords_plain {p : Str} (h1 : p ≠ []) (h2 : ∀ c ∈ p, c ≠ ' ' ∧ c ≠ '\t') :
    blankWords p = [p] := by
  induction p with
  | nil => exact absurd rfl h1
  | cons c p ih =>
    have nb : ∀ x ∈ c :: p, ¬ isShellBlank x = true := fun x hx hb => by
      rcases blank_iff.mp hb with h | h
      · exact (h2 x hx).1 h
      · exact (h2 x hx).2 h
    rw [blankWords.eq_def]
    dsimp only
    rw [if_neg (nb c (by simp))]
    cases p with
    | nil => rfl
    | cons d p =>
      dsimp only
      rw [if_neg (nb d (by simp)), ih (by simp) (fun x hx => h2 x (by simp [hx]))]

/-- No word contains a blank, and its characters are those of the line. -/
private theorem blankWords_mem (p : Str) : ∀ w ∈ blankWords p, ∀ c ∈ w, c ∈ p ∧ isShellBlank c = false := by
  induction p with
  | nil => intro w hw; cases hw
  | cons c p ih =>
    intro w hw x hx
    rw [blankWords.eq_def] at hw
    dsimp only at hw
    have lift : ∀ w ∈ blankWords p, ∀ x ∈ w, x ∈ c :: p ∧ isShellBlank x = false :=
      fun w hw x hx => ⟨List.mem_cons_of_mem _ (ih w hw x hx).1, (ih w hw x hx).2⟩
    split at hw
    · exact lift w hw x hx
    · rename_i hc
      have hc' : isShellBlank c = false := by simpa using hc
      split at hw
      · rw [List.mem_singleton] at hw
        subst hw
        rw [List.mem_singleton] at hx
        subst hx
        exact ⟨List.mem_cons_self, hc'⟩
      · split at hw
        · rcases List.mem_cons.mp hw with rfl | hw
          · rw [List.mem_singleton] at hx
            subst hx
            exact ⟨List.mem_cons_self, hc'⟩
          · exact lift w hw x hx
        · split at hw
          · rw [List.mem_singleton] at hw
            subst hw
            rw [List.mem_singleton] at hx
            subst hx
            exact ⟨List.mem_cons_self, hc'⟩
          · rename_i v vs hv
            rcases List.mem_cons.mp hw with rfl | hw
            · rcases List.mem_cons.mp hx with rfl | hx
              · exact ⟨List.mem_cons_self, hc'⟩
              · exact lift v (by rw [hv]; exact List.mem_cons_self) x hx
            · exact lift w (by rw [hv]; exact List.mem_cons_of_mem _ hw) x hx

private theorem operands_plain {p command : Str} (hp : PlainArg p) (hc : command.any shellSpecial.contains = false) :
    operands p command = some [p] := by
  obtain ⟨h1, h2, h3⟩ := hp
  have hany : (command ++ ' ' :: p).any shellSpecial.contains = false := by
    rw [List.any_append, hc, Bool.false_or, List.any_cons]
    have : shellSpecial.contains ' ' = false := by decide
    rw [this, Bool.false_or, List.any_eq_false]
    intro x hx hs
    exact (h2 x hx).1 (by simpa using hs)
  unfold operands shellWords
  rw [hany]
  dsimp only
  rw [blankWords_append, blankWords_plain h1 (fun c hc => (h2 c hc).2), if_neg (by simp)]
  dsimp only
  rw [List.drop_left]
  have : [p].any (fun w => startsWith w "-".toList) = false := by
    rw [List.any_cons, List.any_nil, Bool.or_false]
    unfold startsWith
    cases p with
    | nil => exact absurd rfl h1
    | cons c p =>
      change (('-' == c) && true) = false
      rw [Bool.and_true]
      have : c ≠ '-' := fun h => h3 (by rw [h]; rfl)
      simpa using Ne.symm this
  rw [this]
  rfl

private theorem operands_words {line command : Str} {ws : List Str} (h : operands line command = some ws) :
    ∀ w ∈ ws, w ∈ blankWords line := by
  unfold operands at h
  unfold shellWords at h
  split at h
  · cases h
  · rename_i ws' hs
    split at hs
    · cases hs
    · injection hs with hs
      subst hs
      dsimp only at h
      split at h
      · cases h
      · injection h with h
        rw [blankWords_append, List.drop_left] at h
        subst h
        exact fun w hw => hw

/-! ### Paths -/

private theorem startsWith_append {e r : Str} (he : e ≠ []) :
    startsWith (e ++ r) "/".toList = startsWith e "/".toList := by
  cases e with
  | nil => exact absurd rfl he
  | cons c e => rfl

private theorem resolve_parts (q : Path) {parts : List Str} (h : ∀ c ∈ parts, PlainPart c) :
    parts.foldl resolveStep q = q ++ parts := by
  induction parts generalizing q with
  | nil => simp
  | cons c parts ih =>
    obtain ⟨h1, h2, h3, -⟩ := h c (by simp)
    rw [List.foldl_cons, ih _ (fun x hx => h x (by simp [hx]))]
    unfold resolveStep
    rw [if_neg (fun h => h.elim h1 h2), if_neg h3]
    simp

private theorem resolve_slash (cwd : Path) {e r : Str} (he : e ≠ []) :
    resolve cwd (e ++ '/' :: r) = (split '/' r).foldl resolveStep (resolve cwd e) := by
  unfold resolve
  rw [startsWith_append he, split_concat_sep, List.foldl_append]

private theorem resolve_join (cwd : Path) {e r : Str} (he : e ≠ []) (hr : ¬ Absolute r) :
    resolve cwd (pathJoin e r) = (split '/' r).foldl resolveStep (resolve cwd e) := by
  by_cases hl : e.getLast? = some '/'
  · rw [pathJoin_slash hr hl]
    obtain ⟨e', rfl⟩ : ∃ e', e = e' ++ ['/'] := by
      rcases List.eq_nil_or_concat e with rfl | ⟨q, c, rfl⟩
      · exact absurd rfl he
      · rw [List.concat_eq_append] at hl ⊢
        simp only [List.getLast?_append, List.getLast?_singleton, Option.some_or, Option.some.injEq] at hl
        subst hl
        exact ⟨q, rfl⟩
    rw [List.append_assoc, List.singleton_append]
    have h1 : resolve cwd (e' ++ ['/']) = (split '/' e').foldl resolveStep
        (if startsWith (e' ++ ['/']) "/".toList then [] else cwd) := by
      unfold resolve
      rw [split_concat_sep, List.foldl_append]
      rfl
    rw [h1]
    have h2 : startsWith (e' ++ '/' :: r) "/".toList = startsWith (e' ++ ['/']) "/".toList := by
      cases e' <;> rfl
    unfold resolve
    rw [split_concat_sep, List.foldl_append, h2]
  · rw [pathJoin_plain hr he hl, List.append_assoc]
    exact resolve_slash cwd he

private theorem plain_not_absolute {parts : List Str} (h : ∀ c ∈ parts, PlainPart c) :
    ¬ Absolute (join ['/'] parts) := by
  unfold Absolute
  cases parts with
  | nil => simp [join]
  | cons p ps =>
    obtain ⟨h1, -, -, h4⟩ := h p (by simp)
    obtain ⟨c, cs, rfl⟩ : ∃ c cs, p = c :: cs := by cases p with
      | nil => exact absurd rfl h1
      | cons c cs => exact ⟨c, cs, rfl⟩
    have : (join ['/'] ((c :: cs) :: ps)).head? = some c := by cases ps <;> rfl
    rw [this]
    intro hc
    injection hc with hc
    exact h4 (by rw [hc]; simp)

theorem resolve_join_parts (cwd : Path) {e : Str} (he : e ≠ []) {parts : List Str}
    (h : ∀ c ∈ parts, PlainPart c) :
    resolve cwd (pathJoin e (join ['/'] parts)) = resolve cwd e ++ parts := by
  rw [resolve_join cwd he (plain_not_absolute h)]
  cases parts with
  | nil => rw [List.append_nil]; rfl
  | cons p ps =>
    rw [split_join_sep '/' (by simp) (fun x hx => (h x hx).2.2.2)]
    exact resolve_parts _ h

private theorem mem_join {c : Char} {parts : List Str} (h : c ∈ join ['/'] parts) :
    c = '/' ∨ ∃ p ∈ parts, c ∈ p := by
  induction parts with
  | nil => cases h
  | cons p ps ih =>
    by_cases hps : ps = []
    · subst hps
      exact Or.inr ⟨p, by simp, h⟩
    · rw [join_cons _ _ hps, List.mem_append, List.mem_append] at h
      rcases h with (h | h) | h
      · exact Or.inr ⟨p, by simp, h⟩
      · rw [List.mem_singleton] at h; exact Or.inl h
      · rcases ih h with h | ⟨q, hq, h⟩
        · exact Or.inl h
        · exact Or.inr ⟨q, by simp [hq], h⟩

private theorem mem_of_split {c : Char} {s p : Str} (hp : p ∈ split '/' s) (hc : c ∈ p) : c ∈ s := by
  rw [← join_split '/' s]
  generalize split '/' s = parts at hp
  induction parts with
  | nil => cases hp
  | cons q qs ih =>
    by_cases hqs : qs = []
    · subst hqs
      rw [List.mem_singleton] at hp
      subst hp
      exact hc
    · rw [join_cons _ _ hqs, List.mem_append, List.mem_append]
      rcases List.mem_cons.mp hp with rfl | hp
      · exact Or.inl (Or.inl hc)
      · exact Or.inr (ih hp)

private theorem plainChar_slash : PlainChar '/' := ⟨by decide, by decide, by decide⟩

private theorem plainArg_join {e : Str} (he : PlainArg e) {r : Str} (hr : ¬ Absolute r)
    (hc : ∀ c ∈ r, PlainChar c) : PlainArg (pathJoin e r) := by
  obtain ⟨h1, h2, h3⟩ := he
  have key : ∀ x : Str, (∀ c ∈ x, PlainChar c) → PlainArg (e ++ x) := by
    intro x hx
    refine ⟨by simp [h1], ?_, ?_⟩
    · intro c hc
      rcases List.mem_append.mp hc with hc | hc
      · exact h2 c hc
      · exact hx c hc
    · cases e with
      | nil => exact absurd rfl h1
      | cons c e => exact h3
  by_cases hl : e.getLast? = some '/'
  · rw [pathJoin_slash hr hl]; exact key r hc
  · rw [pathJoin_plain hr h1 hl, List.append_assoc]
    refine key _ ?_
    intro c hc'
    rcases List.mem_append.mp hc' with hc' | hc'
    · have : c = '/' := by simpa using hc'
      rw [this]; exact plainChar_slash
    · exact hc c hc'

private theorem plainPart_out : PlainPart ".out".toList := by unfold PlainPart; decide

private theorem out_resolved (cwd : Path) {e : Str} (he : PlainArg e) :
    resolve cwd (pathJoin e ".out".toList) = resolve cwd e ++ [".out".toList] ∧
    PlainArg (pathJoin e ".out".toList) := by
  refine ⟨resolve_join_parts cwd he.1 (parts := [".out".toList]) ?_, plainArg_join he (by unfold Absolute; decide) ?_⟩
  · intro c hc
    rw [List.mem_singleton] at hc
    subst hc
    exact plainPart_out
  · intro c hc
    have : c = '.' ∨ c = 'o' ∨ c = 'u' ∨ c = 't' := by simpa using hc
    rcases this with rfl | rfl | rfl | rfl <;> exact ⟨by decide, by decide, by decide⟩

private theorem relativeDir_plain {n : Str} (hn : ShellName n) :
    (∀ c ∈ (split '/' n).dropLast, PlainPart c) ∧ ∀ c ∈ relativeDir n, PlainChar c := by
  refine ⟨fun c hc => hn.2 c (List.dropLast_subset _ hc), ?_⟩
  intro c hc
  rcases mem_join hc with rfl | ⟨p, hp, hc⟩
  · exact plainChar_slash
  · exact hn.1 c (mem_of_split (List.dropLast_subset _ hp) hc)

private theorem systemMkdir_plain (cwd : Path) (fs : FS) {p : Str} (hp : PlainArg p) :
    systemMkdir cwd fs p = some (mkdirs fs (resolve cwd p)) := by
  unfold systemMkdir
  rw [operands_plain hp (by decide)]
  rfl

/-! ### C96 -/

/-- **C96.** For names and directories of characters that are not special to the shell, the commands
`mkdir -p` make exactly the directory of the snapshot and that of the output of a test. -/
theorem C96_directories_partial (cwd : Path) {e n : Str} (he : PlainArg e) (hn : ShellName n) {fs : FS}
    (hw : fs.WellFormed) (hr : fs.get [] = some .dir)
    (hf : ∀ q, (q <+: resolve cwd e ++ (split '/' n).dropLast ∨
      q <+: resolve cwd e ++ [".out".toList] ++ (split '/' n).dropLast) → ∀ t, fs.get q ≠ some (.file t)) :
    ∃ fs', systemDirs cwd e (pathJoin e ".out".toList) n fs = some fs' ∧ ∀ p, fs'.get p =
      if p <+: resolve cwd e ++ (split '/' n).dropLast ∨
        p <+: resolve cwd e ++ [".out".toList] ++ (split '/' n).dropLast then some .dir else fs.get p := by
  obtain ⟨h1, h2⟩ := relativeDir_plain hn
  obtain ⟨o1, o2⟩ := out_resolved cwd he
  have ha : ¬ Absolute (relativeDir n) := plain_not_absolute h1
  have e1 : resolve cwd (pathJoin e (relativeDir n)) = resolve cwd e ++ (split '/' n).dropLast :=
    resolve_join_parts cwd he.1 h1
  have e2 : resolve cwd (pathJoin (pathJoin e ".out".toList) (relativeDir n)) =
      resolve cwd e ++ [".out".toList] ++ (split '/' n).dropLast := by
    rw [← o1]; exact resolve_join_parts cwd o2.1 h1
  unfold systemDirs
  rw [systemMkdir_plain cwd fs (plainArg_join he ha h2), e1]
  dsimp only
  rw [systemMkdir_plain cwd _ (plainArg_join o2 ha h2), e2]
  obtain ⟨w1, g1⟩ := mkdirs_ok hw hr (fun q hq => hf q (Or.inl hq))
  obtain ⟨w2, g2⟩ := mkdirs_ok (d := resolve cwd e ++ [".out".toList] ++ (split '/' n).dropLast) w1
    (by rw [g1, if_pos List.nil_prefix])
    (fun q hq t => by
      rw [g1]
      split
      · simp
      · exact hf q (Or.inr hq) t)
  refine ⟨_, rfl, fun p => ?_⟩
  rw [g2, g1]
  by_cases ha : p <+: resolve cwd e ++ (split '/' n).dropLast
  · rw [if_pos ha, if_pos (Or.inl ha)]
    split <;> rfl
  · rw [if_neg ha]
    by_cases hb : p <+: resolve cwd e ++ [".out".toList] ++ (split '/' n).dropLast
    · rw [if_pos hb, if_pos (Or.inr hb)]
    · rw [if_neg hb, if_neg (fun h => h.elim ha hb)]

/-- So they are the directories that the model of whole runs makes (`Model/Project.lean`). -/
theorem C96_project_partial (cwd : Path) {e n : Str} (he : PlainArg e) (hn : ShellName n) (P : Project)
    (hP : P.root = resolve cwd e) (fs : FS) :
    systemDirs cwd e (pathJoin e ".out".toList) n fs = some (makeDirs P n fs) := by
  obtain ⟨h1, h2⟩ := relativeDir_plain hn
  obtain ⟨o1, o2⟩ := out_resolved cwd he
  have ha : ¬ Absolute (relativeDir n) := plain_not_absolute h1
  have e1 : resolve cwd (pathJoin e (relativeDir n)) = resolve cwd e ++ (split '/' n).dropLast :=
    resolve_join_parts cwd he.1 h1
  have e2 : resolve cwd (pathJoin (pathJoin e ".out".toList) (relativeDir n)) =
      resolve cwd e ++ [".out".toList] ++ (split '/' n).dropLast := by
    rw [← o1]; exact resolve_join_parts cwd o2.1 h1
  unfold systemDirs
  rw [systemMkdir_plain cwd fs (plainArg_join he ha h2), e1]
  dsimp only
  rw [systemMkdir_plain cwd _ (plainArg_join o2 ha h2), e2, ← hP]
  rfl

example : PlainArg "books".toList ∧ ShellName "test/examples/a".toList ∧
    (systemDirs ["home".toList] "books".toList "books/.out".toList "test/a".toList
      [([], .dir), (["home".toList], .dir)]).map (fun fs => fs.get
        ["home".toList, "books".toList, ".out".toList, "test".toList]) = some (some .dir) := by
  refine ⟨⟨by decide, ?_, by decide⟩, ⟨?_, ?_⟩, by decide⟩
  · intro c hc
    have : c ∈ "books".toList → PlainChar c := by
      have : ∀ c ∈ "books".toList, (c ∉ shellSpecial ∧ c ≠ ' ' ∧ c ≠ '\t') := by decide
      exact this c
    exact this hc
  · have : ∀ c ∈ "test/examples/a".toList, (c ∉ shellSpecial ∧ c ≠ ' ' ∧ c ≠ '\t') := by decide
    exact this
  · have : ∀ c ∈ split '/' "test/examples/a".toList,
      (c ≠ [] ∧ c ≠ ".".toList ∧ c ≠ "..".toList ∧ '/' ∉ c) := by decide
    exact this

private theorem mkdirsFrom_only (cs : List Str) (fs : FS) (base p : Path) :
    (mkdirsFrom fs base cs).get p = fs.get p ∨ p <+: base ++ cs := by
  induction cs generalizing fs base with
  | nil => exact Or.inl rfl
  | cons c cs ih =>
    have e : base ++ c :: cs = base ++ [c] ++ cs := by simp
    rw [e]
    unfold mkdirsFrom
    split
    · exact Or.inl rfl
    · exact ih _ _
    · rcases ih ((base ++ [c], .dir) :: fs) (base ++ [c]) with h | h
      · rw [h, get_cons]
        split
        · rename_i hp
          exact Or.inr (hp ▸ List.prefix_append _ _)
        · exact Or.inl rfl
      · exact Or.inr h

private theorem resolve_mem (cwd : Path) (w : Str) {c : Str} (h : c ∈ resolve cwd w) :
    c ∈ cwd ∨ c ∈ split '/' w := by
  have key : ∀ (parts : List Str) (q : Path), c ∈ parts.foldl resolveStep q → c ∈ q ∨ c ∈ parts := by
    intro parts
    induction parts with
    | nil => exact fun q h => Or.inl h
    | cons p ps ih =>
      intro q h
      rcases ih _ h with h | h
      · unfold resolveStep at h
        split at h
        · exact Or.inl h
        · split at h
          · exact Or.inl (List.dropLast_subset _ h)
          · rcases List.mem_append.mp h with h | h
            · exact Or.inl h
            · exact Or.inr (by rw [List.mem_singleton] at h; simp [h])
      · exact Or.inr (List.mem_cons_of_mem _ h)
  unfold resolve at h
  rcases key _ _ h with h | h
  · split at h
    · cases h
    · exact Or.inl h
  · exact Or.inr h

/-- **C96 does not hold for names with blanks**, whatever the files are: a directory with a blank in its
name is never made (unless the current directory is below it). -/
theorem C96_blank_refuted (cwd : Path) (fs fs' : FS) (arg : Str) (h : systemMkdir cwd fs arg = some fs')
    (p : Path) (c : Str) (hc : ' ' ∈ c) (hcwd : c ∉ cwd) : fs'.get (p ++ [c]) = fs.get (p ++ [c]) := by
  unfold systemMkdir at h
  obtain ⟨ws, hws, rfl⟩ := Option.map_eq_some_iff.mp h
  have hmem := operands_words hws
  clear h hws
  induction ws generalizing fs with
  | nil => rfl
  | cons w ws ih =>
    rw [List.foldl_cons, ih _ (fun x hx => hmem x (List.mem_cons_of_mem _ hx))]
    rcases mkdirsFrom_only (resolve cwd w) fs [] (p ++ [c]) with h | h
    · exact h
    · exfalso
      have : c ∈ resolve cwd w := h.subset (by simp)
      rcases resolve_mem cwd w this with h | h
      · exact hcwd h
      · have := (blankWords_mem arg w (hmem w (by simp)) ' ' (mem_of_split h hc)).2
        revert this; decide

/-- Instead others are made: for the test `my tests/a` the directories `books/my`, `books/.out/my` and
`tests`. -/
theorem C96_others_refuted : ∃ fs, systemDirs [] "books".toList "books/.out".toList "my tests/a".toList
    [([], .dir)] = some fs ∧ fs.get ["books".toList, "my tests".toList] = none ∧
    fs.get ["books".toList, "my".toList] = some .dir ∧ fs.get ["tests".toList] = some .dir := by
  refine ⟨_, rfl, by decide, by decide, by decide⟩

/-- Names of letters, digits, `_`, `-` and `.`, and the slash, are passed on by the shell as they are. -/
theorem C96_plain_names : ∀ c ∈ ("abcdefghijklmnopqrstuvwxyzABCDEFGHIJKLMNOPQRSTUVWXYZ0123456789_-./").toList,
    PlainChar c := by
  have : ∀ c ∈ ("abcdefghijklmnopqrstuvwxyzABCDEFGHIJKLMNOPQRSTUVWXYZ0123456789_-./").toList,
      (c ∉ shellSpecial ∧ c ≠ ' ' ∧ c ≠ '\t') := by decide +kernel
  exact this

/-! ### C97 -/

/-- `rm -rf` refuses to remove the current directory, its parent and whatever ends with them, and the root. -/
theorem C97_rm_refuses (cwd : Path) (fs : FS) {p : Str} (hp : PlainArg p)
    (h : p = ".".toList ∨ p = "..".toList ∨ (∃ q, p = q ++ "/.".toList) ∨ (∃ q, p = q ++ "/..".toList) ∨
      ∀ c ∈ p, c = '/') : systemRm cwd fs p = some fs := by
  unfold systemRm
  rw [operands_plain hp (by decide)]
  simp only [Option.map_some, List.foldl_cons, List.foldl_nil]
  congr 1
  have last : ∀ parts : List Str, ∀ c : Str, c ≠ [] → ((parts ++ [c]).filter (fun c => c ≠ [])).getLast? = some c := by
    intro parts c hc
    rw [List.filter_append, List.filter_cons, if_pos (by simpa using hc), List.filter_nil, List.getLast?_append]
    rfl
  have refuses : ∀ c : Str, (c = ".".toList ∨ c = "..".toList) →
      ((split '/' p).filter (fun c => c ≠ [])).getLast? = some c → rmOne cwd fs p = fs := by
    intro c hc e
    unfold rmOne
    rw [e]
    dsimp only
    rw [if_pos hc]
  rcases h with rfl | rfl | ⟨q, rfl⟩ | ⟨q, rfl⟩ | h
  · exact refuses _ (.inl rfl) (by decide)
  · exact refuses _ (.inr rfl) (by decide)
  · refine refuses ".".toList (.inl rfl) ?_
    have e : split '/' (q ++ "/.".toList) = split '/' q ++ [".".toList] := split_concat_sep '/' q ".".toList
    rw [e]
    exact last _ _ (by decide)
  · refine refuses "..".toList (.inr rfl) ?_
    have e : split '/' (q ++ "/..".toList) = split '/' q ++ ["..".toList] := split_concat_sep '/' q "..".toList
    rw [e]
    exact last _ _ (by decide)
  · have e : (split '/' p).filter (fun c => c ≠ []) = [] := by
      clear hp refuses
      induction p with
      | nil => rfl
      | cons c p ih =>
        have := h c List.mem_cons_self
        subst this
        rw [show split '/' ('/' :: p) = [] :: split '/' p from by rw [split, if_pos rfl], List.filter_cons,
          if_neg (by simp)]
        exact ih (fun c hc => h c (List.mem_cons_of_mem _ hc))
    unfold rmOne
    rw [e]
    rfl

/-- `rm -rf a/..` -/
example (fs : FS) : systemRm [] fs "a/..".toList = some fs :=
  C97_rm_refuses [] fs ⟨by decide, by
    have : ∀ c ∈ "a/..".toList, (c ∉ shellSpecial ∧ c ≠ ' ' ∧ c ≠ '\t') := by decide
    exact this, by decide⟩ (.inr (.inr (.inr (.inl ⟨"a".toList, rfl⟩))))

/-- The size of the path of the output directory, which is checked, is never too small. -/
theorem C97_guard (cwd : Path) (root : Str) (fs : FS) :
    prepareBatchDir cwd (pathJoin root ".out".toList) fs ≠ some (.error ()) := by
  have : ¬ (pathJoin root ".out".toList).length < ".out".toList.length := by
    unfold pathJoin
    split
    · simp
    · split <;> simp
  unfold prepareBatchDir
  rw [if_neg this]
  dsimp only
  split
  · intro h
    obtain ⟨x, -, h⟩ := Option.map_eq_some_iff.mp h
    cases h
  · intro h; cases h

private theorem rmOne_join (cwd : Path) (fs : FS) {o : Str} (ho : PlainArg o) :
    rmOne cwd fs (pathJoin o ".batches".toList) =
      fs.filter (fun e => !(resolve cwd o ++ [".batches".toList]).isPrefixOf e.1) := by
  have hb : PlainPart ".batches".toList := by unfold PlainPart; decide
  have e1 : resolve cwd (pathJoin o ".batches".toList) = resolve cwd o ++ [".batches".toList] :=
    resolve_join_parts cwd ho.1 (parts := [".batches".toList]) (by
      intro c hc; rw [List.mem_singleton] at hc; rw [hc]; exact hb)
  have hna : ¬ Absolute ".batches".toList := by unfold Absolute; decide
  have e2 : ((split '/' (pathJoin o ".batches".toList)).filter (fun c => c ≠ [])).getLast? =
      some ".batches".toList := by
    have hs : ∃ parts, split '/' (pathJoin o ".batches".toList) = parts ++ [".batches".toList] := by
      by_cases hl : o.getLast? = some '/'
      · rw [pathJoin_slash hna hl]
        obtain ⟨o', rfl⟩ : ∃ o', o = o' ++ ['/'] := by
          rcases List.eq_nil_or_concat o with rfl | ⟨q, c, rfl⟩
          · cases hl
          · rw [List.concat_eq_append] at hl ⊢
            simp only [List.getLast?_append, List.getLast?_singleton, Option.some_or,
              Option.some.injEq] at hl
            subst hl
            exact ⟨q, rfl⟩
        exact ⟨split '/' o', by rw [List.append_assoc, List.singleton_append, split_concat_sep]; rfl⟩
      · rw [pathJoin_plain hna ho.1 hl, List.append_assoc]
        exact ⟨split '/' o, split_concat_sep '/' o _⟩
    obtain ⟨parts, hs⟩ := hs
    rw [hs, List.filter_append]
    have : [".batches".toList].filter (fun c : Str => c ≠ []) = [".batches".toList] := by decide
    rw [this]
    simp
  unfold rmOne
  rw [e2]
  dsimp only
  rw [if_neg (by decide), e1]

/-- **C97.** For an output directory of characters that are not special to the shell, a parallel run
empties the directory `.batches` in it, if it is there, and changes nothing else. -/
theorem C97_batches_partial (cwd : Path) {o : Str} (ho : PlainArg o) (hl : 4 ≤ o.length) {fs : FS}
    (hw : fs.WellFormed) :
    ∃ fs', prepareBatchDir cwd o fs = some (.ok fs') ∧ fs'.WellFormed ∧ ∀ p, fs'.get p =
      if resolve cwd o ++ [".batches".toList] <+: p then
        if p = resolve cwd o ++ [".batches".toList] ∧ (fs.get p).isSome then some .dir else none
      else fs.get p := by
  have hb : PlainPart ".batches".toList := by unfold PlainPart; decide
  have hna : ¬ Absolute ".batches".toList := by unfold Absolute; decide
  have e1 : resolve cwd (pathJoin o ".batches".toList) = resolve cwd o ++ [".batches".toList] :=
    resolve_join_parts cwd ho.1 (parts := [".batches".toList]) (by
      intro c hc; rw [List.mem_singleton] at hc; rw [hc]; exact hb)
  have hplain : PlainArg (pathJoin o ".batches".toList) := plainArg_join ho hna (by
    have : ∀ c ∈ ".batches".toList, (c ∉ shellSpecial ∧ c ≠ ' ' ∧ c ≠ '\t') := by decide
    exact this)
  unfold prepareBatchDir
  rw [if_neg (by change ¬ o.length < 4; omega)]
  dsimp only
  rw [e1]
  generalize hD : resolve cwd o = D
  cases hex : fs.get (D ++ [".batches".toList]) with
  | none =>
    rw [if_neg (by unfold FS.exists_; rw [hex]; simp)]
    refine ⟨fs, rfl, hw, fun p => ?_⟩
    split
    · rename_i hp
      obtain ⟨t, rfl⟩ := hp
      rw [get_below_none hw hex, if_neg (fun h => by cases h.2)]
    · rfl
  | some nd =>
    rw [if_pos (by unfold FS.exists_; rw [hex]; rfl)]
    unfold systemRm
    rw [operands_plain hplain (by decide)]
    simp only [Option.map_some, List.foldl_cons, List.foldl_nil]
    rw [rmOne_join cwd fs ho, hD]
    have hg : ∀ p, FS.get (fs.filter (fun e => !(D ++ [".batches".toList]).isPrefixOf e.1)) p =
        if D ++ [".batches".toList] <+: p then none else fs.get p := by
      intro p
      rw [get_filter (fun q => !(D ++ [".batches".toList]).isPrefixOf q) fs p, isPrefixOf_eq]
      by_cases h : D ++ [".batches".toList] <+: p
      · rw [if_pos h, decide_eq_true h]; rfl
      · rw [if_neg h, decide_eq_false h]; rfl
    have hw' := wf_below hw hg
    have hdir : ∀ q, q <+: D ++ [".batches".toList] → q ≠ D ++ [".batches".toList] → fs.get q = some .dir := by
      rintro q ⟨t, ht⟩ hq
      refine wf_ancestor hw q t ?_ (by rw [ht, hex]; rfl)
      rintro rfl
      exact hq (by rw [← ht, List.append_nil])
    have hnot : ∀ q, q <+: D ++ [".batches".toList] → q ≠ D ++ [".batches".toList] →
        ¬ D ++ [".batches".toList] <+: q := fun q hq hne hq' =>
      hne (List.IsPrefix.eq_of_length hq (Nat.le_antisymm hq.length_le hq'.length_le))
    obtain ⟨w2, g2⟩ := mkdirs_ok (d := D ++ [".batches".toList]) hw' (by
        rw [hg, if_neg (hnot [] List.nil_prefix (by simp))]
        exact hdir [] List.nil_prefix (by simp))
      (fun q hq t => by
        rw [hg]
        by_cases hq' : q = D ++ [".batches".toList]
        · rw [if_pos (hq' ▸ List.prefix_rfl)]; simp
        · rw [if_neg (hnot q hq hq'), hdir q hq hq']; simp)
    refine ⟨_, rfl, w2, fun p => ?_⟩
    rw [g2, hg]
    by_cases hp : D ++ [".batches".toList] <+: p
    · rw [if_pos hp, if_pos hp]
      by_cases hpe : p = D ++ [".batches".toList]
      · rw [if_pos (hpe ▸ List.prefix_rfl), if_pos ⟨hpe, by rw [hpe, hex]; rfl⟩]
      · rw [if_neg, if_neg (fun h => hpe h.1)]
        intro hq
        exact hpe (List.IsPrefix.eq_of_length hq (Nat.le_antisymm hq.length_le hp.length_le))
    · rw [if_neg hp, if_neg hp]
      by_cases hq : p <+: D ++ [".batches".toList]
      · rw [if_pos hq, hdir p hq (fun h => hp (h ▸ List.prefix_rfl))]
      · rw [if_neg hq]

/-- A project in the directory `my books`, beside a directory `my`. -/
def myBooks : FS :=
  [([], .dir), (["my".toList], .dir), (["my".toList, "thesis.txt".toList], .file "text".toList),
   (["my books".toList], .dir), (["my books".toList, ".out".toList], .dir),
   (["my books".toList, ".out".toList, ".batches".toList], .dir),
   (["my books".toList, ".out".toList, ".batches".toList, "old".toList], .dir)]

/-- **C97 does not hold for directories with blanks.** With the books in `my books`, the second parallel
run deletes the directory `my` and everything in it, while the old batches stay. -/
theorem C97_blank_refuted : ∃ fs', prepareBatchDir [] "my books/.out".toList myBooks = some (.ok fs') ∧
    myBooks.get ["my".toList, "thesis.txt".toList] = some (.file "text".toList) ∧
    fs'.get ["my".toList, "thesis.txt".toList] = none ∧ fs'.get ["my".toList] = none ∧
    fs'.get ["my books".toList, ".out".toList, ".batches".toList, "old".toList] = some .dir := by
  refine ⟨_, rfl, by decide, by decide, by decide, by decide⟩

example : (prepareBatchDir [] "books/.out".toList
    [([], .dir), (["books".toList], .dir), (["books".toList, ".out".toList], .dir),
     (["books".toList, ".out".toList, ".batches".toList], .dir),
     (["books".toList, ".out".toList, ".batches".toList, "old".toList], .dir)]).map (fun
      | .ok fs => (fs.get ["books".toList, ".out".toList, ".batches".toList],
          fs.get ["books".toList, ".out".toList, ".batches".toList, "old".toList])
      | .error _ => (none, none)) = some (some .dir, none) := by decide

/-! ### C98 -/

/-- The text of a snapshot: empty if there is none. -/
private def shownText (cwd : Path) (e : Str) (fs : FS) (n : Str) : Str :=
  match fs.get (resolve cwd e ++ split '/' (n ++ ".md".toList)) with
  | some (.file t) => t
  | _ => []

/-- **C98.** For names and directories of characters that are not special to the shell, `--print` prints
the snapshots of the tests that have one, in order. -/
theorem C98_print_partial (cwd : Path) {e : Str} (he : PlainArg e) (fs : FS) {names : List Str}
    (hn : ∀ n ∈ names, ShellName n) : printSnapshots cwd e fs names = some (names.flatMap (fun n =>
      match fs.get (resolve cwd e ++ split '/' (n ++ ".md".toList)) with
      | some (.file t) => t
      | _ => [])) := by
  show _ = some (names.flatMap (shownText cwd e fs))
  induction names with
  | nil => rfl
  | cons n names ih =>
    obtain ⟨h1, h2⟩ := hn n (by simp)
    have hparts : ∀ c ∈ split '/' (n ++ ".md".toList), PlainPart c := by
      obtain ⟨cs, l, s1, s2⟩ := split_append_no_sep '/' n ".md".toList (by decide)
      intro c hc
      rw [s2] at hc
      rcases List.mem_append.mp hc with hc | hc
      · exact h2 c (by rw [s1]; simp [hc])
      · rw [List.mem_singleton] at hc
        subst hc
        obtain ⟨l1, l2, l3, l4⟩ := h2 l (by rw [s1]; simp)
        refine ⟨by simp, ?_, ?_, ?_⟩
        · intro hx; have := congrArg List.length hx; simp at this
        · intro hx; have := congrArg List.length hx; simp at this
        · intro hx
          rcases List.mem_append.mp hx with hx | hx
          · exact l4 hx
          · revert hx; decide
    have hpl : ∀ c ∈ n ++ ".md".toList, PlainChar c := by
      intro c hc
      rcases List.mem_append.mp hc with hc | hc
      · exact h1 c hc
      · have : ∀ c ∈ ".md".toList, (c ∉ shellSpecial ∧ c ≠ ' ' ∧ c ≠ '\t') := by decide
        exact this c hc
    have hna : ¬ Absolute (n ++ ".md".toList) := by
      have := plain_not_absolute hparts
      rwa [join_split] at this
    have hre : resolve cwd (pathJoin e (n ++ ".md".toList)) =
        resolve cwd e ++ split '/' (n ++ ".md".toList) := by
      have := resolve_join_parts cwd he.1 hparts
      rwa [join_split] at this
    have hcat : systemCat cwd fs (pathJoin e (n ++ ".md".toList)) = some (shownText cwd e fs n) := by
      unfold systemCat
      rw [operands_plain (plainArg_join he hna hpl) (by decide)]
      simp only [Option.map_some, List.map_cons, List.map_nil, List.flatten_cons, List.flatten_nil,
        List.append_nil]
      rw [hre]
      rfl
    unfold printSnapshots
    dsimp only
    rw [ih (fun x hx => hn x (by simp [hx])), hcat, hre, List.flatMap_cons]
    unfold FS.exists_
    cases hg : fs.get (resolve cwd e ++ split '/' (n ++ ".md".toList)) with
    | some nd => rfl
    | none =>
      have : shownText cwd e fs n = [] := by unfold shownText; rw [hg]
      rw [this]
      rfl

example : printSnapshots [] "books".toList
    [([], .dir), (["books".toList], .dir), (["books".toList, "a.md".toList], .file "one ".toList),
     (["books".toList, "c.md".toList], .file "three".toList)]
    ["a".toList, "b".toList, "c".toList] = some "one three".toList := by decide

/-- **C98 does not hold for names with blanks**: the snapshot is not printed, but another file may be. -/
theorem C98_blank_refuted : ∃ fs : FS, fs.get ["books".toList, "my test.md".toList] =
      some (.file "snapshot".toList) ∧
    printSnapshots [] "books".toList fs ["my test".toList] = some "other".toList := by
  exact ⟨[([], .dir), (["books".toList], .dir),
    (["books".toList, "my test.md".toList], .file "snapshot".toList),
    (["test.md".toList], .file "other".toList)], by decide, by decide⟩

/-! ### C99 -/

/-- **C99.** The process of a sequential run that comes to its end exits with status 0 exactly if all
executed tests passed, else with 255. -/
theorem C99_status (u : Unicode) (fl : Durations) (cfg : Config)
    (outcome : List Str → Str → Outcome fl) (selected : List Str) (file : Option Bytes) (r : Result)
    (h : (runAsync u fl cfg outcome selected file).2 = some r) :
    (exitStatus (some (exitCode r)) = 0 ↔
      ∀ e ∈ execs (runAsync u fl cfg outcome selected file).1, e.2 = .OK) ∧
    (exitStatus (some (exitCode r)) = 0 ∨ exitStatus (some (exitCode r)) = 255) := by
  rw [← (C27_result u fl cfg outcome selected file r h).1]
  cases r <;> simp [exitCode, exitStatus]

/-- The same for a parallel run that is not aborted, and the tests that it was to run. -/
theorem C99_parallel_partial {fl : Durations} {c : PConf fl} (hb : Behaved c) {s : PSt fl} (h : PReach c s)
    (hr : s.rpc = .check) (hab : s.abort = false) (hn : hasNext s = false) :
    (exitStatus (some s.exitCode) = 0 ↔ ∀ n ∈ c.todo, ∃ d, (n, Result.OK, d) ∈ s.recorded) ∧
    (exitStatus (some s.exitCode) = 0 ∨ exitStatus (some s.exitCode) = 255) := by
  rw [← C73_exit_code_partial hb h hr hab hn]
  rcases (exit_inv h).1 with h | h <;> rw [h] <;> decide

/-- **The status of `--view` does not tell whether the viewer failed**: it is 0 whatever the status of
the viewer is; it is 1 if there is no viewer. -/
theorem C99_view_refuted (status : Nat) : exitStatus (viewValue true (some status)) = 0 ∧
    exitStatus (viewValue true none) = 1 ∧ exitStatus (viewValue false none) = 0 := by
  refine ⟨?_, by decide, by decide⟩
  unfold viewValue exitStatus runTool waitStatus
  simp

end Verif.Props
