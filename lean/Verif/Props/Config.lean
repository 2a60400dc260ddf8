import Verif.Lemmas.Config

/-! # Configuration (C58, C59, C79) -/

namespace Verif.Props
open Verif.Py Verif.Model Verif.Spec Verif.Lemmas

/-! ### C58: priority of the sources -/

/-- **C58, partial**: in a new process every setting has the value of the first source that says
something about it: command line, configuration given by the caller, environment, project file, home
file. What is missing: the home file is the file of that name in a directory called `~` inside the
current directory, see `C58_home_refuted`. -/
theorem C58_priority_partial (u : Unicode) (w : ConfigWorld) (extra : Dict CVal) (he : extra.keys.Nodup)
    (a : Args) (config : Dict CVal) (h : execConfig u none w extra a = some config) (key : Str) :
    Chosen u w "~/.booktest".toList extra a key (config.get key) := by
  simp only [execConfig, getDefaultConfig, resolveDefaultConfig, Option.map_eq_some_iff] at h
  obtain ⟨d, hd, rfl⟩ := h
  rcases h1 : parseConfigFile u w "~/.booktest".toList [] with _ | c1
  · rw [h1] at hd; cases hd
  rw [h1] at hd
  rcases h2 : parseConfigFile u w ".booktest".toList c1 with _ | c2
  · change (parseConfigFile u w ".booktest".toList c1).bind _ = _ at hd
    rw [h2] at hd; cases hd
  change (parseConfigFile u w ".booktest".toList c1).bind _ = _ at hd
  rw [h2] at hd
  change some (parseEnviron u w.environ c2) = some d at hd
  cases hd
  rcases setFlags_get a key (setAll (parseEnviron u w.environ c2) extra) with ⟨v, g1, g2⟩ | ⟨g1, g2⟩
  · rw [g2]; exact .flag v g1
  rw [g2]
  rcases setAll_get extra he key (parseEnviron u w.environ c2) with ⟨v, e1, e2⟩ | ⟨e1, e2⟩
  · rw [e2]; exact .extra v g1 e1
  rw [e2]
  rcases parseEnviron_get u w.environ key c2 with ⟨v, f1, f2⟩ | ⟨f1, f2⟩
  · rw [f2]; exact .environ v g1 e1 f1
  rw [f2]
  rcases parseConfigFile_get u w _ key _ _ h2 with ⟨v, p1, p2⟩ | ⟨p1, p2⟩
  · rw [p2]; exact .project v g1 e1 f1 p1
  rw [p2]
  rcases parseConfigFile_get u w _ key _ _ h1 with ⟨v, q1, q2⟩ | ⟨q1, q2⟩
  · rw [q2]; exact .home v g1 e1 f1 p1 q1
  · rw [q2]; exact .nothing g1 e1 f1 p1 q1

private theorem lineSays_unique {u : Unicode} {x k : Str} {v v' : CVal} (h : LineSays u x k v)
    (h' : LineSays u x k v') : v = v' := by
  have h1 := (lineItem_some u x k v).mpr h
  have h2 := (lineItem_some u x k v').mpr h'
  rw [h1] at h2
  simpa using h2

private theorem varSays_unique {u : Unicode} {x : Str × Str} {k : Str} {v v' : CVal} (h : VarSays u x k v)
    (h' : VarSays u x k v') : v = v' := by
  obtain ⟨_, _, _, h1⟩ := h
  obtain ⟨_, _, _, h2⟩ := h'
  rw [means_parse] at h1 h2
  rw [← h1, ← h2]

private theorem lastSays_unique {α : Type} {says : α → Str → CVal → Prop}
    (hu : ∀ x k v v', says x k v → says x k v' → v = v') {xs : List α} {k : Str} {v v' : CVal}
    (h : LastSays says xs k v) (h' : LastSays says xs k v') : v = v' := by
  obtain ⟨p1, x1, q1, e1, s1, n1⟩ := h
  obtain ⟨p2, x2, q2, e2, s2, n2⟩ := h'
  rw [e1] at e2
  rcases List.append_eq_append_iff.mp e2 with ⟨m, h1, h2⟩ | ⟨m, h1, h2⟩
  · cases m with
    | nil => simp only [List.nil_append, List.cons.injEq] at h2; rw [h2.1] at s1; exact hu _ _ _ _ s1 s2
    | cons y m =>
      simp only [List.cons_append, List.cons.injEq] at h2
      exact absurd s2 (n1 x2 (by rw [h2.2]; simp) _)
  · cases m with
    | nil => simp only [List.nil_append, List.cons.injEq] at h2; rw [h2.1] at s2; exact hu _ _ _ _ s1 s2
    | cons y m =>
      simp only [List.cons_append, List.cons.injEq] at h2
      exact absurd s1 (n2 x1 (by rw [h2.2]; simp) _)

private theorem lastSays_not_silent {α : Type} {says : α → Str → CVal → Prop} {xs : List α} {k : Str} {v : CVal}
    (h : LastSays says xs k v) (h' : Silent says xs k) : False := by
  obtain ⟨p, x, q, rfl, s, _⟩ := h
  exact h' x (by simp) v s

/-- The sources determine the value. -/
theorem C58_unique (u : Unicode) (w : ConfigWorld) (home : Str) (extra : Dict CVal) (he : extra.keys.Nodup)
    (a : Args) (key : Str) (o o' : Option CVal) (h : Chosen u w home extra a key o)
    (h' : Chosen u w home extra a key o') : o = o' := by
  have hv : ∀ x k v v', VarSays u x k v → VarSays u x k v' → v = v' := fun _ _ _ _ => varSays_unique
  have hl : ∀ x k v v', LineSays u x k v → LineSays u x k v' → v = v' := fun _ _ _ _ => lineSays_unique
  have hex : ∀ v, (key, v) ∈ extra → key ∈ extra.map (·.1) := fun v h => List.mem_map.mpr ⟨_, h, rfl⟩
  cases h with
  | flag v h1 =>
    cases h' with
    | flag v' g1 => rw [flagSays_unique h1 g1]
    | extra _ g1 _ => exact absurd h1 (g1 _)
    | environ _ g1 _ _ => exact absurd h1 (g1 _)
    | project _ g1 _ _ _ => exact absurd h1 (g1 _)
    | home _ g1 _ _ _ _ => exact absurd h1 (g1 _)
    | nothing g1 _ _ _ _ => exact absurd h1 (g1 _)
  | extra v h1 h2 =>
    cases h' with
    | flag v' g1 => exact absurd g1 (h1 _)
    | extra v' g1 g2 =>
      rw [← Dict.get_of_mem he h2, ← Dict.get_of_mem he g2]
    | environ _ _ g2 _ => exact absurd (hex _ h2) g2
    | project _ _ g2 _ _ => exact absurd (hex _ h2) g2
    | home _ _ g2 _ _ _ => exact absurd (hex _ h2) g2
    | nothing _ g2 _ _ _ => exact absurd (hex _ h2) g2
  | environ v h1 h2 h3 =>
    cases h' with
    | flag v' g1 => exact absurd g1 (h1 _)
    | extra v' g1 g2 => exact absurd (hex _ g2) h2
    | environ _ _ g2 g3 => rw [lastSays_unique hv h3 g3]
    | project _ _ _ g3 _ => exact (lastSays_not_silent h3 g3).elim
    | home _ _ _ g3 _ _ => exact (lastSays_not_silent h3 g3).elim
    | nothing _ _ g3 _ _ => exact (lastSays_not_silent h3 g3).elim
  | project v h1 h2 h3 h4 =>
    cases h' with
    | flag v' g1 => exact absurd g1 (h1 _)
    | extra v' g1 g2 => exact absurd (hex _ g2) h2
    | environ _ _ g2 g3 => exact (lastSays_not_silent g3 h3).elim
    | project _ _ _ g3 g4 => rw [lastSays_unique hl h4 g4]
    | home _ _ _ _ g4 _ => exact (lastSays_not_silent h4 g4).elim
    | nothing _ _ _ g4 _ => exact (lastSays_not_silent h4 g4).elim
  | home v h1 h2 h3 h4 h5 =>
    cases h' with
    | flag v' g1 => exact absurd g1 (h1 _)
    | extra v' g1 g2 => exact absurd (hex _ g2) h2
    | environ _ _ g2 g3 => exact (lastSays_not_silent g3 h3).elim
    | project _ _ _ g3 g4 => exact (lastSays_not_silent g4 h4).elim
    | home _ _ _ _ _ g5 => rw [lastSays_unique hl h5 g5]
    | nothing _ _ _ _ g5 => exact (lastSays_not_silent h5 g5).elim
  | nothing h1 h2 h3 h4 h5 =>
    cases h' with
    | flag v' g1 => exact absurd g1 (h1 _)
    | extra v' g1 g2 => exact absurd (hex _ g2) h2
    | environ _ _ g2 g3 => exact (lastSays_not_silent g3 h3).elim
    | project _ _ _ g3 g4 => exact (lastSays_not_silent g4 h4).elim
    | home _ _ _ _ _ g5 => exact (lastSays_not_silent g5 h5).elim
    | nothing _ _ _ _ _ => rfl

/-- A project with settings in all places. -/
private def project : ConfigWorld where
  files := fun f => if f = ".booktest".toList then some "# tools\ndiff_tool=diff\n md_viewer = less\nverbose=0\n".toList
    else if f = "/home/me/.booktest".toList then some "log_viewer=more\n".toList
    else none
  environ := [("PATH".toList, "/bin".toList), ("BOOKTEST_VERBOSE".toList, "1".toList)]
  home := "/home/me".toList

example : (execConfig ascii none project [] { diffTool := some "meld".toList, c := true }).map
      (fun c => (c.get "diff_tool".toList, c.get "verbose".toList, c.get "continue".toList, c.get "md_viewer ".toList)) =
    some (some (.str "meld".toList), some (.bool true), some (.bool true), some (.str " less".toList)) := by rfl

/-- **C58, refuted** for the home directory: a setting that only the `.booktest` file there makes is not
used. -/
theorem C58_home_refuted : ∃ (w : ConfigWorld) (config : Dict CVal),
    execConfig ascii none w [] {} = some config ∧
    Chosen ascii w (w.home ++ "/.booktest".toList) [] {} "log_viewer".toList (some (.str "more".toList)) ∧
    config.get "log_viewer".toList = none := by
  refine ⟨project, _, rfl, ?_, rfl⟩
  refine .home _ ?_ (by simp) ?_ ?_ ?_
  · intro v h
    have := (flagItems_mem {} "log_viewer".toList v).mpr h
    have hnil : flagItems {} = [] := rfl
    rw [hnil] at this
    cases this
  · intro x hx v hv
    obtain ⟨n, h1, h2, _⟩ := hv
    simp only [project, List.mem_cons, List.not_mem_nil, or_false] at hx
    rcases hx with rfl | rfl
    · have := congrArg List.head? h1
      cases this
    · have : n = "VERBOSE".toList := (List.append_cancel_left (as := "BOOKTEST_".toList) h1).symm
      rw [this] at h2
      exact absurd h2 (by decide)
  · intro x hx v hv
    rw [← lineItem_some] at hv
    have hx' : x ∈ ["# tools".toList, "diff_tool=diff".toList, " md_viewer = less".toList, "verbose=0".toList, []] := hx
    simp only [List.mem_cons, List.not_mem_nil, or_false] at hx'
    rcases hx' with rfl | rfl | rfl | rfl | rfl
    · cases hv
    · have : lineItem ascii "diff_tool=diff".toList = some (some ("diff_tool".toList, .str "diff".toList)) := by decide
      rw [this] at hv
      simp only [Option.some.injEq, Prod.mk.injEq] at hv
      exact absurd hv.1 (by decide)
    · have : lineItem ascii " md_viewer = less".toList = some (some ("md_viewer ".toList, .str " less".toList)) := by decide
      rw [this] at hv
      simp only [Option.some.injEq, Prod.mk.injEq] at hv
      exact absurd hv.1 (by decide)
    · have : lineItem ascii "verbose=0".toList = some (some ("verbose".toList, .bool false)) := by decide
      rw [this] at hv
      simp only [Option.some.injEq, Prod.mk.injEq] at hv
      exact absurd hv.1 (by decide)
    · cases hv
  · refine ⟨[], "log_viewer=more".toList, [[]], rfl, ?_, ?_⟩
    · rw [← lineItem_some]; decide
    · intro y hy v hv
      simp only [List.mem_cons, List.not_mem_nil, or_false] at hy
      subst hy
      rw [← lineItem_some] at hv
      cases hv

/-- An option with the value 0 counts as not given: `--parallel-count 0` does not override
`BOOKTEST_PARALLEL=1`. -/
theorem C58_zero_refuted :
    (execConfig ascii none ⟨fun _ => none, [("BOOKTEST_PARALLEL".toList, "1".toList)], []⟩ [] { p := .int 0 }).map
      (fun c => c.get "parallel".toList) = some (some (.bool true)) := by rfl

/-- **C58**: reading a configuration fails exactly if a line that counts has no `=`. -/
theorem C58_error (u : Unicode) (w : ConfigWorld) (extra : Dict CVal) (a : Args) :
    execConfig u none w extra a = none ↔
      ∃ line ∈ linesOf w "~/.booktest".toList ++ linesOf w ".booktest".toList, Counts u line ∧ '=' ∉ strip u line := by
  have hlines : ∀ (lines : List Str) (config : Dict CVal),
      parseLines u lines config = none ↔ ∃ line ∈ lines, Counts u line ∧ '=' ∉ strip u line := by
    intro lines
    induction lines with
    | nil => intro config; simp [parseLines]
    | cons line rest ih =>
      intro config
      rw [parseLines]
      have hc := counts_iff u line
      rcases hb : (startsWith line "#".toList || (strip u line).isEmpty) with _ | _
      · rw [if_neg (by simp)]
        have hcl := hc.mpr hb
        rcases hs : splitEq (strip u line) with _ | ⟨k, v⟩
        · simp only [true_iff]
          exact ⟨line, List.mem_cons_self, hcl, (splitEq_none _).mp hs⟩
        · simp only [ih, List.mem_cons, exists_eq_or_imp, hcl, true_and]
          have : '=' ∈ strip u line := by
            apply Classical.byContradiction
            intro hn
            rw [(splitEq_none _).mpr hn] at hs
            cases hs
          simp [this]
      · rw [if_pos rfl, ih]
        have hcl : ¬ Counts u line := fun h => by rw [hc.mp h] at hb; cases hb
        simp [hcl]
  have hfile : ∀ (file : Str) (config : Dict CVal), parseConfigFile u w file config = none ↔
      ∃ line ∈ linesOf w file, Counts u line ∧ '=' ∉ strip u line := by
    intro file config
    unfold parseConfigFile linesOf
    rcases w.files file with _ | text
    · simp
    · dsimp only
      rw [parseLines_split]
      exact hlines _ _
  simp only [execConfig, getDefaultConfig, resolveDefaultConfig, Option.map_eq_none_iff, List.mem_append]
  rcases h1 : parseConfigFile u w "~/.booktest".toList [] with _ | c1
  · obtain ⟨line, h1, h2⟩ := (hfile _ _).mp h1
    exact ⟨fun _ => ⟨line, .inl h1, h2⟩, fun _ => rfl⟩
  · have hn1 : ¬ ∃ line ∈ linesOf w "~/.booktest".toList, Counts u line ∧ '=' ∉ strip u line := by
      intro h
      rw [(hfile _ []).mpr h] at h1
      cases h1
    change (parseConfigFile u w ".booktest".toList c1).bind _ = none ↔ _
    rcases h2 : parseConfigFile u w ".booktest".toList c1 with _ | c2
    · obtain ⟨line, h1, h2⟩ := (hfile _ _).mp h2
      exact ⟨fun _ => ⟨line, .inr h1, h2⟩, fun _ => rfl⟩
    · constructor
      · intro h; cases h
      · rintro ⟨line, h | h, hc⟩
        · exact absurd ⟨line, h, hc⟩ hn1
        · rw [(hfile _ c1).mpr ⟨line, h, hc⟩] at h2
          cases h2

/-! ### C59: several runs in one process -/

private theorem execSeq_get (u : Unicode) (k : Str) : ∀ (calls : List (ConfigWorld × Args)) (d config : Dict CVal),
    execSeq u (some d) calls = some config →
    (∃ v, LastSays (fun p : ConfigWorld × Args => FlagSays p.2) calls k v ∧ config.get k = some v) ∨
    (Silent (fun p : ConfigWorld × Args => FlagSays p.2) calls k ∧ config.get k = d.get k) := by
  intro calls
  induction calls with
  | nil =>
    intro d config h
    cases h
    exact .inr ⟨(fun x hx => absurd hx List.not_mem_nil), rfl⟩
  | cons p calls ih =>
    intro d config h
    obtain ⟨w, a⟩ := p
    have h' : execSeq u (some (setFlags a d)) calls = some config := h
    rcases ih _ _ h' with ⟨v, ⟨pre, x, post, h1, h2, h3⟩, h4⟩ | ⟨h1, h2⟩
    · exact .inl ⟨v, ⟨(w, a) :: pre, x, post, by rw [h1]; rfl, h2, h3⟩, h4⟩
    · rcases setFlags_get a k d with ⟨v, g1, g2⟩ | ⟨g1, g2⟩
      · exact .inl ⟨v, ⟨[], (w, a), calls, rfl, g1, h1⟩, by rw [h2, g2]⟩
      · refine .inr ⟨?_, by rw [h2, g2]⟩
        intro x hx v hv
        rcases List.mem_cons.mp hx with rfl | hx
        · exact g1 v hv
        · exact h1 x hx v hv

/-- What a setting is after any number of calls: what the last call with an option for it said, even if
that was not the last call; without any, what the files and the environment said at the first call. -/
theorem C59_exact (u : Unicode) (w : ConfigWorld) (a : Args) (calls : List (ConfigWorld × Args))
    (config : Dict CVal) (h : execSeq u none ((w, a) :: calls) = some config) (k : Str) :
    (∃ v, LastSays (fun p : ConfigWorld × Args => FlagSays p.2) ((w, a) :: calls) k v ∧ config.get k = some v) ∨
    (Silent (fun p : ConfigWorld × Args => FlagSays p.2) ((w, a) :: calls) k ∧
      ∃ d, resolveDefaultConfig u w ".booktest".toList = some d ∧ config.get k = d.get k) := by
  simp only [execSeq, execConfig, getDefaultConfig] at h
  rcases hd : resolveDefaultConfig u w ".booktest".toList with _ | d
  · rw [hd] at h; cases h
  · rw [hd] at h
    have h' : execSeq u (some d) ((w, a) :: calls) = some config := h
    rcases execSeq_get u k _ _ _ h' with h | ⟨h1, h2⟩
    · exact .inl h
    · exact .inr ⟨h1, d, rfl, h2⟩

/-- **C59, partial**: settings for which the earlier calls had no option are as in a new process. What is
missing: those for which they had one, see `C59_refuted`. -/
theorem C59_partial (u : Unicode) (w : ConfigWorld) (earlier : List Args) (a : Args) (config fresh : Dict CVal)
    (h : execSeq u none ((earlier ++ [a]).map (fun a => (w, a))) = some config)
    (hf : execSeq u none [(w, a)] = some fresh) (k : Str) (hk : ∀ e ∈ earlier, ∀ v, ¬ FlagSays e k v) :
    config.get k = fresh.get k := by
  have hfresh := C59_exact u w a [] fresh hf k
  obtain ⟨b, rest, hb⟩ : ∃ b rest, earlier ++ [a] = b :: rest := by
    cases earlier with
    | nil => exact ⟨a, [], rfl⟩
    | cons e es => exact ⟨e, es ++ [a], rfl⟩
  rw [hb, List.map_cons] at h
  have hseq := C59_exact u w b _ config h k
  rw [← List.map_cons (f := fun a => (w, a)), ← hb, List.map_append, List.map_cons, List.map_nil] at hseq
  rcases hseq with ⟨v, ⟨pre, x, post, h1, h2, h3⟩, h4⟩ | ⟨h1, d, h2, h3⟩
  · rcases hfresh with ⟨v', ⟨pre', x', post', g1, g2, g3⟩, g4⟩ | ⟨g1, d', g2, g3⟩
    · have hx' : x' = (w, a) := by
        cases pre' with
        | nil => simp at g1; exact g1.1.symm
        | cons _ p => simp at g1
      have hx : x = (w, a) := by
        have hm : x ∈ earlier.map (fun a => (w, a)) ++ [(w, a)] := by rw [h1]; simp
        rcases List.mem_append.mp hm with hm | hm
        · obtain ⟨e, he, rfl⟩ := List.mem_map.mp hm
          exact absurd h2 (hk e he v)
        · simpa using hm
      rw [hx] at h2
      rw [hx'] at g2
      rw [h4, g4, flagSays_unique h2 g2]
    · have hm : x ∈ earlier.map (fun a => (w, a)) ++ [(w, a)] := by rw [h1]; simp
      rcases List.mem_append.mp hm with hm | hm
      · obtain ⟨e, he, rfl⟩ := List.mem_map.mp hm
        exact absurd h2 (hk e he v)
      · simp only [List.mem_singleton] at hm
        subst hm
        exact absurd h2 (g1 (w, a) (by simp) v)
  · rcases hfresh with ⟨v', ⟨pre', x', post', g1, g2, g3⟩, g4⟩ | ⟨g1, d', g2, g3⟩
    · have hx' : x' = (w, a) := by
        cases pre' with
        | nil => simp at g1; exact g1.1.symm
        | cons _ p => simp at g1
      subst hx'
      exact absurd g2 (h1 (w, a) (by simp) v')
    · rw [h2] at g2
      cases g2
      rw [h3, g3]

example : (execSeq ascii none [(project, { f := true }), (project, { c := true })]).map
      (fun c => (c.get "continue".toList, c.get "verbose".toList, c.get "update".toList)) =
    (execSeq ascii none [(project, { c := true })]).map
      (fun c => (c.get "continue".toList, c.get "verbose".toList, c.get "update".toList)) := by rfl

/-- **C59, refuted**: after a call with `-a` a call without it accepts differing tests, too. -/
theorem C59_refuted : ∃ (first second : Args) (config fresh : Dict CVal),
    execSeq ascii none [(project, first), (project, second)] = some config ∧
    execSeq ascii none [(project, second)] = some fresh ∧
    config.get "accept".toList = some (.bool true) ∧ fresh.get "accept".toList = none :=
  ⟨{ a := true }, {}, _, _, rfl, rfl, rfl, rfl⟩

/-- Options stay on until the process ends or another call gives the same option another value. -/
theorem C59_sticky (u : Unicode) (calls : List (ConfigWorld × Args)) (d config : Dict CVal) (w : ConfigWorld)
    (a : Args) (h : execSeq u (some d) ((w, a) :: calls) = some config) (k : Str) (v : CVal) (hv : FlagSays a k v)
    (hc : ∀ p ∈ calls, ∀ v', ¬ FlagSays p.2 k v') : config.get k = some v := by
  have h' : execSeq u (some (setFlags a d)) calls = some config := h
  rcases execSeq_get u k _ _ _ h' with ⟨v', h1, _⟩ | ⟨_, h2⟩
  · exact (lastSays_not_silent h1 (fun p hp v => hc p hp v)).elim
  · rcases setFlags_get a k d with ⟨x, g1, g2⟩ | ⟨g1, _⟩
    · rw [h2, g2, flagSays_unique hv g1]
    · exact absurd hv (g1 v)

/-! ### C79: what `--setup` writes is read again -/

/-- Lines that begin with `#`, each with its newline. -/
private def CommentLines : Str → Bool
  | s => (iterLines s).all (fun l => l.head? == some '#' && l.getLast? == some '\n')

private theorem iterLines_flatten (s : Str) : (iterLines s).flatten = s := by
  induction s with
  | nil => rfl
  | cons c cs ih =>
    rw [iterLines]
    split
    · rename_i h; subst h; simp [ih]
    · rcases h : iterLines cs with _ | ⟨x, t⟩
      · rw [h] at ih; simp only [List.flatten_nil] at ih; rw [← ih]; rfl
      · rw [h] at ih; simp only [List.flatten_cons] at ih ⊢; rw [← ih]; rfl

private theorem iterLines_line (s : Str) : ∀ l ∈ iterLines s, '\n' ∉ l.dropLast := by
  induction s with
  | nil => intro l h; cases h
  | cons c cs ih =>
    intro l h
    rw [iterLines] at h
    split at h
    · rcases List.mem_cons.mp h with rfl | h
      · simp
      · exact ih l h
    · rename_i hc
      rcases hi : iterLines cs with _ | ⟨x, t⟩
      · rw [hi] at h
        simp only [List.mem_singleton] at h
        subst h
        simp
      · rw [hi] at h ih
        rcases List.mem_cons.mp h with rfl | h
        · cases x with
          | nil => simp
          | cons y ys =>
            rw [List.dropLast_cons_cons]
            simp only [List.mem_cons, not_or]
            exact ⟨Ne.symm hc, ih _ List.mem_cons_self⟩
        · exact ih l (List.mem_cons_of_mem _ h)

/-- Comments are skipped. -/
private theorem parse_comments (u : Unicode) (comment rest : Str) (h : CommentLines comment = true) (config : Dict CVal) :
    parseLines u (split '\n' (comment ++ rest)) config = parseLines u (split '\n' rest) config := by
  have key : ∀ ls : List Str, (∀ l ∈ ls, '\n' ∉ l.dropLast ∧ l.head? = some '#' ∧ l.getLast? = some '\n') →
      parseLines u (split '\n' (ls.flatten ++ rest)) config = parseLines u (split '\n' rest) config := by
    intro ls
    induction ls with
    | nil => intro _; rfl
    | cons l ls ih =>
      intro hl
      obtain ⟨h1, h2, h3⟩ := hl l List.mem_cons_self
      have hl' : l = l.dropLast ++ ['\n'] := by
        have hne : l ≠ [] := by rintro rfl; cases h2
        rw [List.getLast?_eq_some_getLast hne, Option.some.injEq] at h3
        conv => lhs; rw [← List.dropLast_concat_getLast hne, h3]
      have e : (l :: ls).flatten ++ rest = l.dropLast ++ '\n' :: (ls.flatten ++ rest) := by
        rw [List.flatten_cons]
        conv => lhs; rw [hl']
        simp
      rw [e, split_append_sep _ _ _ h1, parseLines_cons]
      have hi : lineItem u l.dropLast = some none := by
        rw [← lineItem_newline, ← hl']
        unfold lineItem
        rw [(startsWith_hash l).mpr h2]
        rfl
      rw [hi]
      exact ih (fun x hx => hl x (List.mem_cons_of_mem _ hx))
  have := key (iterLines comment) (by
    intro l hl
    unfold CommentLines at h
    rw [List.all_eq_true] at h
    have h1 := h l hl
    simp only [Bool.and_eq_true, beq_iff_eq] at h1
    exact ⟨iterLines_line comment l hl, h1⟩)
  rwa [iterLines_flatten] at this

private theorem strip_keyvalue (u : Unicode) (key value : Str) (hk : ∃ c cs, key = c :: cs ∧ u.isSpace c = false)
    (hv : Readable u value) : strip u (key ++ '=' :: value) = key ++ '=' :: value := by
  obtain ⟨c, cs, rfl, hc⟩ := hk
  have hlast : ∀ x, (c :: cs ++ '=' :: value).getLast? = some x → u.isSpace x = false := by
    intro x hx
    rw [List.getLast?_append] at hx
    cases value with
    | nil =>
      simp only [List.getLast?_singleton, Option.some_or, Option.some.injEq] at hx
      subst hx
      exact u.eq_not_space
    | cons y ys =>
      rw [List.getLast?_cons_cons] at hx
      refine hv.2.2 x ?_
      rcases h : (y :: ys).getLast? with _ | z
      · simp at h
      · rw [h] at hx; exact hx
  unfold strip
  have h1 : (c :: cs ++ '=' :: value).dropWhile u.isSpace = c :: cs ++ '=' :: value := by
    rw [List.cons_append, List.dropWhile_cons, if_neg (by rw [hc]; simp)]
  rw [h1]
  have h2 : (c :: cs ++ '=' :: value).reverse.dropWhile u.isSpace = (c :: cs ++ '=' :: value).reverse := by
    rcases hr : (c :: cs ++ '=' :: value).reverse with _ | ⟨x, xs⟩
    · rfl
    · have : (c :: cs ++ '=' :: value).getLast? = some x := by
        rw [List.getLast?_eq_head?_reverse, hr]; rfl
      rw [List.dropWhile_cons, if_neg (by rw [hlast x this]; simp)]
  rw [h2, List.reverse_reverse]

private theorem lineItem_keyvalue (u : Unicode) (key value : Str)
    (hk : ∃ c cs, key = c :: cs ∧ u.isSpace c = false ∧ c ≠ '#') (he : '=' ∉ key) (hv : Readable u value) :
    lineItem u (key ++ '=' :: value) = some (some (key, parseConfigValue value)) := by
  obtain ⟨c, cs, rfl, hc, hh⟩ := hk
  rw [lineItem_some]
  refine ⟨⟨by simpa using hh, c, by simp, hc⟩, value, ?_, he, (means_parse _ _).mpr rfl⟩
  rw [strip_keyvalue u _ _ ⟨c, cs, rfl, hc⟩ hv]
  simp

private theorem universalNewlines_id (s : Str) (h : '\r' ∉ s) : universalNewlines s = s :=
  universalNewlines_of_no_cr s h

/-- What is known about the keys and comments. -/
private theorem setupKeys_ok (u : Unicode) : ∀ p ∈ setupKeys, CommentLines p.2.1 = true ∧ '\r' ∉ p.2.1 ∧
    '\r' ∉ p.1 ∧ '\n' ∉ p.1 ∧ '=' ∉ p.1 ∧ ∃ c cs, p.1 = c :: cs ∧ u.isSpace c = false ∧ c ≠ '#' := by
  have hsp : ∀ c, ('a' ≤ c ∧ c ≤ 'z') → u.isSpace c = false := by
    intro c hc
    rcases h : u.isSpace c with _ | _
    · rfl
    · have h1 := u.space_not_alnum c h
      rw [u.letter_alnum c (.inl hc)] at h1
      cases h1
  have hd : ∀ p ∈ setupKeys, CommentLines p.2.1 = true ∧ '\r' ∉ p.2.1 ∧ '\r' ∉ p.1 ∧ '\n' ∉ p.1 ∧ '=' ∉ p.1 ∧
      (p.1.head?.any (fun c => decide ('a' ≤ c ∧ c ≤ 'z' ∧ c ≠ '#'))) = true := by
    set_option maxRecDepth 20000 in decide
  intro p hp
  obtain ⟨h1, h2, h3, h4, h5, h6⟩ := hd p hp
  refine ⟨h1, h2, h3, h4, h5, ?_⟩
  rcases hk : p.1 with _ | ⟨c, cs⟩
  · rw [hk] at h6; cases h6
  · rw [hk] at h6
    simp only [List.head?_cons, Option.any_some, decide_eq_true_eq] at h6
    exact ⟨c, cs, rfl, hsp c ⟨h6.1, h6.2.1⟩, h6.2.2⟩

private theorem setupText_parse (u : Unicode) : ∀ (vs : List (Str × Str × CVal)),
    (∀ p ∈ vs, CommentLines p.2.1 = true ∧ '\n' ∉ p.1 ∧ '=' ∉ p.1 ∧
      ∃ c cs, p.1 = c :: cs ∧ u.isSpace c = false ∧ c ≠ '#') →
    (∀ p ∈ vs, Readable u p.2.2.show) → ∀ config : Dict CVal,
    parseLines u (split '\n' (setupText vs)) config =
      some (setAll config (vs.map (fun p => (p.1, parseConfigValue p.2.2.show)))) := by
  intro vs
  induction vs with
  | nil => intro _ _ config; rfl
  | cons p vs ih =>
    intro h hc config
    obtain ⟨key, comment, value⟩ := p
    obtain ⟨h1, h2, h3, h4⟩ := h _ List.mem_cons_self
    have hcl := hc _ List.mem_cons_self
    have e : setupText ((key, comment, value) :: vs) =
        comment ++ ((key ++ '=' :: value.show) ++ '\n' :: ([] ++ '\n' :: setupText vs)) := by
      simp [setupText]
    have hnl : '\n' ∉ key ++ '=' :: value.show := by
      simp only [List.mem_append, List.mem_cons, not_or]
      exact ⟨h2, by decide, hcl.1⟩
    rw [e, parse_comments u comment _ h1, split_append_sep _ _ _ hnl, split_append_sep _ [] _ (by simp),
      parseLines_cons, lineItem_keyvalue u key _ h4 h3 hcl]
    dsimp only
    rw [parseLines_cons, lineItem_nil]
    dsimp only
    rw [ih (fun q hq => h q (List.mem_cons_of_mem _ hq)) (fun q hq => hc q (List.mem_cons_of_mem _ hq))]
    rfl

private theorem setupText_no_cr : ∀ (vs : List (Str × Str × CVal)),
    (∀ p ∈ vs, '\r' ∉ p.2.1 ∧ '\r' ∉ p.1 ∧ '\r' ∉ p.2.2.show) → '\r' ∉ setupText vs := by
  intro vs
  induction vs with
  | nil => intro _; simp [setupText]
  | cons p vs ih =>
    intro h
    obtain ⟨key, comment, value⟩ := p
    obtain ⟨h1, h2, h3⟩ := h _ List.mem_cons_self
    have := ih (fun q hq => h q (List.mem_cons_of_mem _ hq))
    simp only [setupText, List.mem_append, not_or]
    exact ⟨⟨⟨⟨⟨h1, h2⟩, by decide⟩, h3⟩, by decide⟩, this⟩

/-- What the prompts give. -/
private theorem promptAll_spec (config : Dict CVal) : ∀ (keys : List (Str × Str × Str)) (answers : List Str)
    (vs : List (Str × Str × CVal)), promptAll config keys answers = some vs →
    vs.map (fun p => (p.1, p.2.1)) = keys.map (fun p => (p.1, p.2.1)) ∧
    vs.map (fun p => p.2.2) = (keys.zip answers).map (fun p => promptValue config p.1.1 p.1.2.2 p.2) := by
  intro keys
  induction keys with
  | nil => intro answers vs h; cases h; exact ⟨rfl, rfl⟩
  | cons k keys ih =>
    intro answers vs h
    obtain ⟨key, comment, default⟩ := k
    cases answers with
    | nil => cases h
    | cons answer answers =>
      rw [promptAll, Option.map_eq_some_iff] at h
      obtain ⟨vs', h', rfl⟩ := h
      obtain ⟨h1, h2⟩ := ih answers vs' h'
      constructor
      · rw [List.map_cons, List.map_cons, h1]
      · rw [List.map_cons, List.zip_cons_cons, List.map_cons, h2]

/-- What a new process reads after `--setup`. -/
private theorem setup_read (u : Unicode) (w : ConfigWorld) (config : Dict CVal) (answers : List Str) (text : Str)
    (hs : setupBooktest config answers = some text) (hfile : w.files ".booktest".toList = some text)
    (hhome : w.files "~/.booktest".toList = none)
    (hclean : ∀ p ∈ setupKeys.zip answers, Readable u (promptValue config p.1.1 p.1.2.2 p.2).show) (a : Args) :
    ∃ items : List (Str × CVal), items.map (·.1) = setupKeys.map (·.1) ∧
      (∀ p ∈ setupKeys.zip answers, (p.1.1, parseConfigValue (promptValue config p.1.1 p.1.2.2 p.2).show) ∈ items) ∧
      execConfig u none w [] a = some (setFlags a (parseEnviron u w.environ (setAll [] items))) := by
  unfold setupBooktest at hs
  rw [Option.map_eq_some_iff] at hs
  obtain ⟨vs, hvs, rfl⟩ := hs
  obtain ⟨h1, h2⟩ := promptAll_spec config setupKeys answers vs hvs
  have hmem : ∀ p ∈ vs, ∃ d, (p.1, p.2.1, d) ∈ setupKeys := by
    intro p hp
    have : (p.1, p.2.1) ∈ vs.map (fun p => (p.1, p.2.1)) := List.mem_map.mpr ⟨p, hp, rfl⟩
    rw [h1] at this
    obtain ⟨q, hq, he⟩ := List.mem_map.mp this
    simp only [Prod.mk.injEq] at he
    exact ⟨q.2.2, by rw [← he.1, ← he.2]; exact hq⟩
  have hok : ∀ p ∈ vs, CommentLines p.2.1 = true ∧ '\r' ∉ p.2.1 ∧
      '\r' ∉ p.1 ∧ '\n' ∉ p.1 ∧ '=' ∉ p.1 ∧ ∃ c cs, p.1 = c :: cs ∧ u.isSpace c = false ∧ c ≠ '#' := by
    intro p hp
    obtain ⟨d, hd⟩ := hmem p hp
    exact setupKeys_ok u _ hd
  have hcl : ∀ p ∈ vs, Readable u p.2.2.show := by
    intro p hp
    have : p.2.2 ∈ vs.map (fun p => p.2.2) := List.mem_map.mpr ⟨p, hp, rfl⟩
    rw [h2] at this
    obtain ⟨q, hq, he⟩ := List.mem_map.mp this
    rw [← he]
    exact hclean q hq
  have hparse : parseConfigFile u w ".booktest".toList [] =
      some (setAll [] (vs.map (fun p => (p.1, parseConfigValue p.2.2.show)))) := by
    unfold parseConfigFile
    rw [hfile]
    dsimp only
    rw [universalNewlines_id _ (setupText_no_cr vs (fun p hp => ⟨(hok p hp).2.1, (hok p hp).2.2.1, (hcl p hp).2.1⟩)),
      parseLines_split]
    exact setupText_parse u vs (fun p hp => by
      obtain ⟨g1, _, _, g4, g5, g6⟩ := hok p hp
      exact ⟨g1, g4, g5, g6⟩) hcl []
  have hhomeparse : parseConfigFile u w "~/.booktest".toList [] = some [] := by
    unfold parseConfigFile; rw [hhome]
  refine ⟨vs.map (fun p => (p.1, parseConfigValue p.2.2.show)), ?_, ?_, ?_⟩
  · rw [List.map_map]
    have := congrArg (List.map (·.1)) h1
    rw [List.map_map, List.map_map] at this
    exact this
  · intro p hk
    obtain ⟨n, hn⟩ := List.getElem?_of_mem hk
    obtain ⟨hn1, hn2⟩ := List.getElem?_zip_eq_some.mp hn
    have e1 : (vs.map (fun p => (p.1, p.2.1)))[n]? = some (p.1.1, p.1.2.1) := by
      rw [h1, List.getElem?_map, hn1]; rfl
    have e2 : (vs.map (fun p => p.2.2))[n]? = some (promptValue config p.1.1 p.1.2.2 p.2) := by
      rw [h2, List.getElem?_map, hn]; rfl
    rw [List.getElem?_map, Option.map_eq_some_iff] at e1 e2
    obtain ⟨x, x1, x2⟩ := e1
    obtain ⟨y, y1, y2⟩ := e2
    rw [x1] at y1
    cases y1
    simp only [Prod.mk.injEq] at x2
    have hx : x ∈ vs := List.mem_of_getElem? x1
    rw [← y2, ← x2.1]
    exact List.mem_map_of_mem (f := fun p : Str × Str × CVal => (p.1, parseConfigValue p.2.2.show)) hx
  · have hset : ∀ d, setAll d [] = d := fun _ => rfl
    have hres : resolveDefaultConfig u w ".booktest".toList =
        some (parseEnviron u w.environ (setAll [] (vs.map (fun p => (p.1, parseConfigValue p.2.2.show))))) := by
      unfold resolveDefaultConfig
      rw [hhomeparse]
      change (parseConfigFile u w ".booktest".toList []).bind _ = _
      rw [hparse]
      rfl
    simp only [execConfig, getDefaultConfig, hres, Option.map_some, hset]

/-- **C79**: after `--setup`, a new process in the same directory reads, for each of the settings asked
for, the answer given (or, for an empty answer, the text of the value offered), as long as neither the
environment nor the command line sets it and the texts are on one line that does not end with
whitespace. -/
theorem C79_setup (u : Unicode) (w : ConfigWorld) (config : Dict CVal) (answers : List Str) (text : Str)
    (hs : setupBooktest config answers = some text) (hfile : w.files ".booktest".toList = some text)
    (hhome : w.files "~/.booktest".toList = none)
    (key comment default answer : Str) (hk : ((key, comment, default), answer) ∈ setupKeys.zip answers)
    (hclean : ∀ p ∈ setupKeys.zip answers, Readable u (promptValue config p.1.1 p.1.2.2 p.2).show)
    (hv : Silent (VarSays u) w.environ key) (a : Args) (ha : ∀ v, ¬ FlagSays a key v) :
    ∃ config' v, execConfig u none w [] a = some config' ∧ config'.get key = some v ∧
      Means (if answer = [] then ((config.get key).getD (.str default)).show else answer) v := by
  obtain ⟨items, h1, h2, h3⟩ := setup_read u w config answers text hs hfile hhome hclean a
  refine ⟨_, parseConfigValue (promptValue config key default answer).show, h3, ?_, ?_⟩
  · rcases setFlags_get a key (parseEnviron u w.environ (setAll [] items)) with ⟨v, g1, _⟩ | ⟨_, g2⟩
    · exact absurd g1 (ha v)
    · rw [g2]
      rcases parseEnviron_get u w.environ key (setAll [] items) with ⟨v, e1, _⟩ | ⟨_, e2⟩
      · exact (lastSays_not_silent e1 hv).elim
      · rw [e2]
        have hnd : (items.map (·.1)).Nodup := by rw [h1]; decide
        have hin := h2 _ hk
        rcases setAll_get items hnd key [] with ⟨v, f1, f2⟩ | ⟨f1, _⟩
        · rw [f2]
          have a := Dict.get_of_mem (d := items) hnd f1
          have b := Dict.get_of_mem (d := items) hnd hin
          rw [← a, ← b]
        · exact absurd (List.mem_map.mpr ⟨_, hin, rfl⟩) f1
  · rw [means_parse]
    unfold promptValue
    cases answer <;> rfl

/-- **C79**: all other settings of the project are lost. -/
theorem C79_lost (u : Unicode) (w : ConfigWorld) (config : Dict CVal) (answers : List Str) (text : Str)
    (hs : setupBooktest config answers = some text) (hfile : w.files ".booktest".toList = some text)
    (hhome : w.files "~/.booktest".toList = none)
    (hclean : ∀ p ∈ setupKeys.zip answers, Readable u (promptValue config p.1.1 p.1.2.2 p.2).show)
    (key : Str) (hk : key ∉ setupKeys.map (·.1))
    (hv : Silent (VarSays u) w.environ key) (a : Args) (ha : ∀ v, ¬ FlagSays a key v) :
    ∃ config', execConfig u none w [] a = some config' ∧ config'.get key = none := by
  obtain ⟨items, h1, _, h3⟩ := setup_read u w config answers text hs hfile hhome hclean a
  refine ⟨_, h3, ?_⟩
  rcases setFlags_get a key (parseEnviron u w.environ (setAll [] items)) with ⟨v, g1, _⟩ | ⟨_, g2⟩
  · exact absurd g1 (ha v)
  · rw [g2]
    rcases parseEnviron_get u w.environ key (setAll [] items) with ⟨v, e1, _⟩ | ⟨_, e2⟩
    · exact (lastSays_not_silent e1 hv).elim
    · rw [e2]
      have hnd : (items.map (·.1)).Nodup := by rw [h1]; decide
      rcases setAll_get items hnd key [] with ⟨v, f1, _⟩ | ⟨_, f2⟩
      · exact absurd (by rw [← h1]; exact List.mem_map.mpr ⟨_, f1, rfl⟩) hk
      · rw [f2]; rfl

/-- Answers to all questions, two of them empty. -/
private def answers : List Str :=
  [[], "diff".toList, "retext --preview".toList, "less".toList, "test".toList, [], "books".toList]

private theorem answers_clean : ∀ p ∈ setupKeys.zip answers, Readable ascii (promptValue [] p.1.1 p.1.2.2 p.2).show := by
  have h : ∀ p ∈ setupKeys.zip answers, '\n' ∉ (promptValue [] p.1.1 p.1.2.2 p.2).show ∧
      '\r' ∉ (promptValue [] p.1.1 p.1.2.2 p.2).show ∧
      ((promptValue [] p.1.1 p.1.2.2 p.2).show.getLast?.all (fun c => !ascii.isSpace c)) = true := by decide
  intro p hp
  obtain ⟨h1, h2, h3⟩ := h p hp
  refine ⟨h1, h2, ?_⟩
  intro c hc
  rw [hc] at h3
  simpa using h3

example : ∃ text, setupBooktest [] answers = some text ∧
    (execConfig ascii none ⟨fun f => if f = ".booktest".toList then some text else none, [], []⟩ [] {}).map
      (fun c => (c.get "diff_tool".toList, c.get "test_paths".toList, c.get "default_tests".toList)) =
    some (some (.str "meld".toList), some (.str "test".toList), some (.str "test,book".toList)) := by
  refine ⟨_, rfl, ?_⟩
  set_option maxRecDepth 100000 in rfl

/-- **C79, refuted** for values that are shown as they are not read: confirming a setting that is `0`
(off) turns it into the text `False`, which counts as on. -/
theorem C79_confirmed_refuted : ∃ (config : Dict CVal) (answers : List Str) (text : Str),
    config.get "log_viewer".toList = some (.bool false) ∧ (∀ x ∈ answers, x = []) ∧
    setupBooktest config answers = some text ∧
    (execConfig ascii none ⟨fun f => if f = ".booktest".toList then some text else none, [], []⟩ [] {}).map
      (fun c => c.get "log_viewer".toList) = some (some (.str "False".toList)) ∧
    (CVal.str "False".toList).truthy = true := by
  refine ⟨[("log_viewer".toList, .bool false)], [[], [], [], [], [], [], []], _, rfl, by simp, rfl, ?_, rfl⟩
  set_option maxRecDepth 100000 in rfl

end Verif.Props
