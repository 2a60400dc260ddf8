import Verif.Spec.Merge
import Verif.Lemmas.Reports
import Verif.Lemmas.Selection
import Verif.Props.Console

/-! # C93: merged outputs of parallel runs -/

namespace Verif.Props
open Verif.Py Verif.Model Verif.Spec Verif.Lemmas

private theorem mergeFile_get (m : Dict (List Str)) (f : Str × Str) (j : Str)
    (hj : endsWith j ".txt".toList = true) :
    (mergeFile m f).get j =
      if f.1 = j then some ((m.get j).getD [] ++ readFileLines f.2) else m.get j := by
  unfold mergeFile
  by_cases h : f.1 = j
  · subst h
    rw [if_pos hj, Dict.get_set, if_pos rfl]
  · rw [if_neg h]
    split
    · rw [Dict.get_set, if_neg h]
    · rfl

private theorem mergeFile_other (m : Dict (List Str)) (f : Str × Str) (j : Str)
    (hj : ¬ endsWith j ".txt".toList = true) : (mergeFile m f).get j = m.get j := by
  unfold mergeFile
  split
  · rename_i h
    rw [Dict.get_set, if_neg]
    rintro rfl
    exact hj h
  · rfl

private theorem mergeFiles_get (files : List (Str × Str)) (hn : (files.map (·.1)).Nodup) (j : Str)
    (hj : endsWith j ".txt".toList = true) (m : Dict (List Str)) :
    (files.foldl mergeFile m).get j =
      (files.find? (fun f => f.1 = j)).elim (m.get j)
        (fun f => some ((m.get j).getD [] ++ readFileLines f.2)) := by
  induction files generalizing m with
  | nil => rfl
  | cons f files ih =>
    rw [List.map_cons, List.nodup_cons] at hn
    rw [List.foldl_cons, ih hn.2, mergeFile_get m f j hj]
    by_cases h : f.1 = j
    · rw [if_pos h, List.find?_cons_of_pos (by simpa using h)]
      have : files.find? (fun f => f.1 = j) = none := by
        rw [List.find?_eq_none]
        intro g hg he
        have he : g.1 = j := by simpa using he
        exact hn.1 (List.mem_map.mpr ⟨g, hg, he.trans h.symm⟩)
      rw [this]
      rfl
    · rw [if_neg h, List.find?_cons_of_neg (by simpa using h)]

private theorem mergeFiles_other (files : List (Str × Str)) (j : Str)
    (hj : ¬ endsWith j ".txt".toList = true) (m : Dict (List Str)) :
    (files.foldl mergeFile m).get j = m.get j := by
  induction files generalizing m with
  | nil => rfl
  | cons f files ih => rw [List.foldl_cons, ih, mergeFile_other m f j hj]

private theorem readFileLines_nil : readFileLines [] = [] := by decide

private theorem mergeAll_get (dirs : Str → Option BatchDir) (file : Str)
    (hj : endsWith file ".txt".toList = true) (cases : List Str)
    (hn : ∀ n ∈ cases, (((dirs (batchName n)).getD []).map (·.1)).Nodup) (m : Dict (List Str)) :
    ((∃ n ∈ cases, ∃ t, (file, t) ∈ (dirs (batchName n)).getD []) →
      ((cases.map (fun n => dirs (batchName n))).foldl mergeDir m).get file =
        some ((m.get file).getD [] ++ cases.flatMap (fun n => readFileLines (textOf dirs file n)))) ∧
    ((¬ ∃ n ∈ cases, ∃ t, (file, t) ∈ (dirs (batchName n)).getD []) →
      ((cases.map (fun n => dirs (batchName n))).foldl mergeDir m).get file = m.get file ∧
      cases.flatMap (fun n => readFileLines (textOf dirs file n)) = []) := by
  induction cases generalizing m with
  | nil => exact ⟨fun ⟨_, h, _⟩ => absurd h (by simp), fun _ => ⟨rfl, rfl⟩⟩
  | cons n ns ih =>
    obtain ⟨ih1, ih2⟩ := ih (fun k hk => hn k (List.mem_cons_of_mem _ hk)) (mergeDir m (dirs (batchName n)))
    rw [List.map_cons, List.foldl_cons, List.flatMap_cons]
    have hd : (mergeDir m (dirs (batchName n))).get file =
        (((dirs (batchName n)).getD []).find? (fun f => f.1 = file)).elim (m.get file)
          (fun f => some ((m.get file).getD [] ++ readFileLines f.2)) := by
      have h1 := hn n List.mem_cons_self
      cases hdn : dirs (batchName n) with
      | none => rfl
      | some files =>
        rw [hdn] at h1
        exact mergeFiles_get files h1 file hj m
    by_cases hin : ∃ t, (file, t) ∈ (dirs (batchName n)).getD []
    · obtain ⟨t, ht⟩ := hin
      cases hf : ((dirs (batchName n)).getD []).find? (fun f => f.1 = file) with
      | none => exact absurd (List.find?_eq_none.mp hf _ ht) (by simp)
      | some f =>
        have ht' : textOf dirs file n = f.2 := by unfold textOf; rw [hf]; rfl
        rw [hf] at hd
        have hd' : (mergeDir m (dirs (batchName n))).get file =
            some ((m.get file).getD [] ++ readFileLines f.2) := hd
        refine ⟨fun _ => ?_, fun hno => absurd ⟨n, List.mem_cons_self, t, ht⟩ hno⟩
        rw [ht']
        by_cases hrest : ∃ n ∈ ns, ∃ t, (file, t) ∈ (dirs (batchName n)).getD []
        · rw [ih1 hrest, hd', Option.getD_some, List.append_assoc]
        · rw [(ih2 hrest).1, (ih2 hrest).2, hd', List.append_nil]
    · have hf : ((dirs (batchName n)).getD []).find? (fun f => f.1 = file) = none := by
        rw [List.find?_eq_none]
        rintro ⟨a, t⟩ hg he
        have he : a = file := by simpa using he
        subst he
        exact hin ⟨t, hg⟩
      have ht' : textOf dirs file n = [] := by unfold textOf; rw [hf]; rfl
      rw [hf] at hd
      have hd' : (mergeDir m (dirs (batchName n))).get file = m.get file := hd
      rw [ht', readFileLines_nil, List.nil_append]
      have hiff : (∃ k ∈ n :: ns, ∃ t, (file, t) ∈ (dirs (batchName k)).getD []) ↔
          ∃ k ∈ ns, ∃ t, (file, t) ∈ (dirs (batchName k)).getD [] := by
        constructor
        · rintro ⟨k, hk, ht⟩
          rcases List.mem_cons.mp hk with rfl | hk
          · exact absurd ht hin
          · exact ⟨k, hk, ht⟩
        · rintro ⟨k, hk, ht⟩
          exact ⟨k, List.mem_cons_of_mem _ hk, ht⟩
      rw [hiff]
      rw [hd'] at ih1 ih2
      exact ⟨ih1, ih2⟩

private theorem mergeAll_other (ds : List (Option BatchDir)) (file : Str)
    (hj : ¬ endsWith file ".txt".toList = true) (m : Dict (List Str)) :
    (ds.foldl mergeDir m).get file = m.get file := by
  induction ds generalizing m with
  | nil => rfl
  | cons d ds ih =>
    rw [List.foldl_cons, ih]
    cases d with
    | none => rfl
    | some files => exact mergeFiles_other files file hj m

private theorem get_filter_map {α β : Type} (f : α → β) (bad file : Str) (d : Dict α) :
    Dict.get ((d.filter (fun p => p.1 ≠ bad)).map (fun p => (p.1, f p.2))) file =
      if file = bad then none else (d.get file).map f := by
  induction d with
  | nil => simp [Dict.get]
  | cons p d ih =>
    obtain ⟨k, v⟩ := p
    rw [List.filter_cons]
    by_cases hk : k = bad
    · rw [if_neg (by simpa using hk), ih]
      by_cases hf : file = bad
      · rw [if_pos hf, if_pos hf]
      · rw [if_neg hf, if_neg hf]
        simp only [Dict.get]
        rw [if_neg (fun h : k = file => hf (h.symm.trans hk))]
    · rw [if_pos (by simpa using hk)]
      simp only [List.map_cons, Dict.get]
      by_cases hkf : k = file
      · subst hkf
        rw [if_pos rfl, if_neg hk, if_pos rfl]
        rfl
      · rw [if_neg hkf, if_neg hkf]
        exact ih

/-- The files written are those with the suffix `.txt`, other than `cases.txt`, that some worker left. -/
theorem C93_files (dirs : Str → Option BatchDir) (cases : List Str)
    (hn : ∀ n ∈ cases, (((dirs (batchName n)).getD []).map (·.1)).Nodup) (file : Str) :
    ((mergedFiles dirs cases).get file).isSome = true ↔
      endsWith file ".txt".toList = true ∧ file ≠ "cases.txt".toList ∧
        ∃ n ∈ cases, ∃ t, (file, t) ∈ (dirs (batchName n)).getD [] := by
  unfold mergedFiles
  rw [get_filter_map]
  by_cases hb : file = "cases.txt".toList
  · rw [if_pos hb]
    exact ⟨fun h => (Bool.false_ne_true h).elim, fun h => absurd hb h.2.1⟩
  rw [if_neg hb, Option.isSome_map]
  unfold mergeBatches
  by_cases hj : endsWith file ".txt".toList = true
  · by_cases hin : ∃ n ∈ cases, ∃ t, (file, t) ∈ (dirs (batchName n)).getD []
    · rw [(mergeAll_get dirs file hj cases hn []).1 hin]
      exact ⟨fun _ => ⟨hj, hb, hin⟩, fun _ => rfl⟩
    · rw [((mergeAll_get dirs file hj cases hn []).2 hin).1]
      exact ⟨fun h => (Bool.false_ne_true h).elim, fun h => absurd h.2.2 hin⟩
  · rw [mergeAll_other _ file hj]
    exact ⟨fun h => (Bool.false_ne_true h).elim, fun h => absurd h.1 hj⟩

private theorem linesText_eq {ls : List Str} (h : ls ≠ []) : linesText ls = lines ls := by
  unfold linesText
  induction ls with
  | nil => exact absurd rfl h
  | cons l ls ih =>
    cases ls with
    | nil => simp [join, lines, line]
    | cons m ms =>
      rw [join_cons _ _ (by simp), List.append_assoc, ih (by simp)]
      simp [lines, line]

private theorem lines_read {t : Str} (h : Lined t) : lines (readFileLines t) = t := by
  obtain ⟨hr, h⟩ := h
  rcases h with rfl | h
  · decide
  have hs : ∃ a, t = a ++ ['\n'] := by
    obtain ⟨a, c, rfl⟩ := List.eq_nil_or_concat t |>.resolve_left (by rintro rfl; cases h)
    simp at h
    exact ⟨a, by rw [h, List.concat_eq_append]⟩
  obtain ⟨a, rfl⟩ := hs
  unfold readFileLines
  rw [universalNewlines_of_no_cr _ hr]
  dsimp only
  rw [show a ++ ['\n'] = a ++ '\n' :: [] from rfl, split_concat_sep]
  have : split '\n' [] = [[]] := rfl
  rw [this, if_pos ⟨by simp, by simp⟩, List.dropLast_concat, ← linesText_eq (split_ne_nil _ _)]
  unfold linesText
  rw [show ("\n".toList : Str) = ['\n'] from rfl, join_split]

private theorem lines_append (a b : List Str) : lines (a ++ b) = lines a ++ lines b := by
  simp [lines]

/-- **C93.** The text of a merged file is the concatenation of the texts of the workers, in the order of
the list of tests, if these are made of complete lines and are not all empty.  In particular it depends
neither on the schedule of the workers nor on the order in which directories are listed.  What is
missing: `C93_empty_refuted`, `C93_collision_refuted`. -/
theorem C93_text_partial (dirs : Str → Option BatchDir) (cases : List Str)
    (hn : ∀ n ∈ cases, (((dirs (batchName n)).getD []).map (·.1)).Nodup) (file : Str)
    (ht : ∀ n ∈ cases, Lined (textOf dirs file n)) {text : Str}
    (h : (mergedFiles dirs cases).get file = some text)
    (hne : ∃ n ∈ cases, textOf dirs file n ≠ []) :
    text = cases.flatMap (textOf dirs file) := by
  have hs := (C93_files dirs cases hn file).mp (by rw [h]; rfl)
  unfold mergedFiles at h
  rw [get_filter_map, if_neg hs.2.1] at h
  unfold mergeBatches at h
  rw [(mergeAll_get dirs file hs.1 cases hn []).1 hs.2.2] at h
  injection h with h
  rw [← h]
  have e : ∀ cs : List Str, (∀ n ∈ cs, Lined (textOf dirs file n)) →
      lines (cs.flatMap (fun n => readFileLines (textOf dirs file n))) = cs.flatMap (textOf dirs file) := by
    intro cs hcs
    induction cs with
    | nil => rfl
    | cons n ns ih =>
      rw [List.flatMap_cons, List.flatMap_cons, lines_append, lines_read (hcs n List.mem_cons_self),
        ih (fun k hk => hcs k (List.mem_cons_of_mem _ hk))]
  rw [← e cases ht]
  refine linesText_eq ?_
  intro hc
  have hc' : ((Dict.get ([] : Dict (List Str)) file).getD [] ++
    cases.flatMap fun n => readFileLines (textOf dirs file n)) = 
    cases.flatMap fun n => readFileLines (textOf dirs file n) := rfl
  obtain ⟨n, hm, hx⟩ := hne
  have := e cases ht
  rw [← hc', hc] at this
  have h0 : textOf dirs file n = [] := List.flatMap_eq_nil_iff.mp this.symm n hm
  exact hx h0

private theorem no_cr_natText (n : Nat) : '\r' ∉ natText n := natText_no (by decide)

private theorem no_cr_lines {ls : List Str} (h : ∀ l ∈ ls, '\r' ∉ l) : '\r' ∉ lines ls := by
  unfold lines line
  simp only [List.mem_flatten, List.mem_map, not_exists, not_and]
  rintro x ⟨l, hl, rfl⟩ hx
  rcases List.mem_append.mp hx with hx | hx
  · exact h l hl hx
  · exact absurd hx (by decide)

private theorem no_cr_read (t : Str) : ∀ l ∈ readFileLines t, '\r' ∉ l := by
  intro l hl hc
  have hl' : l ∈ split '\n' (universalNewlines t) := by
    unfold readFileLines at hl
    dsimp only at hl
    split at hl
    · exact List.dropLast_subset _ hl
    · exact hl
  exact universalNewlines_no_cr t ((split_mem _ _ _ hl').2 _ hc)

private theorem no_cr_append {a b : Str} (ha : '\r' ∉ a) (hb : '\r' ∉ b) : '\r' ∉ a ++ b := by
  simp [ha, hb]

private theorem no_cr_line {a : Str} (ha : '\r' ∉ a) : '\r' ∉ line a :=
  no_cr_append ha (by decide)

private theorem no_cr_logs (name log : Str) (h : '\r' ∉ name) (v p : Bool) : '\r' ∉ caseLogs name log v p := by
  unfold caseLogs
  dsimp only
  have h1 : ∀ pre : Str, '\r' ∉ pre → '\r' ∉ lines ((readFileLines log).map (pre ++ ·)) := by
    intro pre hp
    refine no_cr_lines ?_
    intro l hl
    obtain ⟨x, hx, rfl⟩ := List.mem_map.mp hl
    exact no_cr_append hp (no_cr_read log x hx)
  split
  · split
    · split
      · exact no_cr_append (no_cr_append (no_cr_append (by decide) (no_cr_line (no_cr_append h (by decide))))
          (by decide)) (h1 _ (by decide))
      · simp
    · split
      · exact no_cr_append (no_cr_append (by decide) (h1 _ (by decide)))
          (no_cr_append (no_cr_append (by decide) h) (by decide))
      · simp
  · simp

private theorem no_cr_result (name : Str) (h : '\r' ∉ name) (r : Raw) (ms : Nat) (v : Bool) :
    '\r' ∉ caseResult name r ms v := by
  unfold caseResult
  refine no_cr_append ?_ ?_
  · split
    · exact no_cr_append (by decide) (no_cr_append h (by decide))
    · simp
  · have h1 : ∀ a b : Str, '\r' ∉ a → '\r' ∉ b → '\r' ∉ line (a ++ natText ms ++ b) := fun a b ha hb =>
      no_cr_line (no_cr_append (no_cr_append ha (no_cr_natText ms)) hb)
    split
    · split
      · exact h1 _ _ (by decide) (by decide)
      · exact no_cr_line (no_cr_append (no_cr_natText ms) (by decide))
    · split
      · exact h1 _ _ (by decide) (by decide)
      · split
        · exact h1 _ _ (by decide) (by decide)
        · simp

private theorem no_cr_leaf {name : Str} (h : '\r' ∉ name) : '\r' ∉ leafName name := by
  unfold leafName
  cases hl : (split '/' name).getLast? with
  | none => simp
  | some l =>
    intro hc
    exact h ((split_mem _ _ _ (List.mem_of_getLast? hl)).2 _ hc)

private theorem no_cr_live (sc : ShowConfig) (name : Str) (h : '\r' ∉ name) (rep : List Str)
    (hrep : ∀ l ∈ rep, '\r' ∉ l) (log : Str) (r : Result) (ms : Nat) :
    '\r' ∉ liveCase sc name rep log r ms := by
  unfold liveCase
  refine no_cr_append (no_cr_append (no_cr_append (no_cr_append ?_ ?_) (no_cr_logs _ _ (no_cr_leaf h) _ _))
    (no_cr_result _ h _ _ _)) ?_
  · unfold caseBegin
    split
    · exact no_cr_append (no_cr_line (no_cr_append (no_cr_append (no_cr_append (by decide) (by decide)) h)
        (by decide))) (by decide)
    · exact no_cr_append (no_cr_append (by decide) h) (by decide)
  · split
    · exact no_cr_lines hrep
    · simp
  · split <;> decide

private theorem no_cr_end {failed : List Str} (h : ∀ n ∈ failed, '\r' ∉ n) (tests took : Nat) :
    '\r' ∉ endReport failed tests took := by
  unfold endReport
  refine no_cr_append (no_cr_append (by decide) ?_) (by decide)
  split
  · refine no_cr_append (no_cr_append (no_cr_line ?_) (by decide)) (no_cr_lines ?_)
    · exact no_cr_append (no_cr_append (no_cr_append (no_cr_append (no_cr_append (no_cr_natText _)
        (by decide)) (no_cr_natText _)) (by decide)) (no_cr_natText _)) (by decide)
    · intro l hl
      obtain ⟨x, hx, rfl⟩ := List.mem_map.mp hl
      exact no_cr_append (by decide) (h x hx)
  · refine no_cr_line ?_
    exact no_cr_append (no_cr_append (no_cr_append (no_cr_append (no_cr_append (no_cr_natText _)
        (by decide)) (no_cr_natText _)) (by decide)) (no_cr_natText _)) (by decide)

private theorem end_last (failed : List Str) (tests took : Nat) :
    ∃ a, endReport failed tests took = a ++ ['\n'] := by
  unfold endReport
  exact ⟨_, rfl⟩

private theorem find_of_mem {files : List (Str × Str)} (hn : (files.map (·.1)).Nodup) {a t : Str}
    (h : (a, t) ∈ files) : files.find? (fun f => f.1 = a) = some (a, t) := by
  induction files with
  | nil => cases h
  | cons f files ih =>
    rw [List.map_cons, List.nodup_cons] at hn
    rcases List.mem_cons.mp h with h | h
    · subst h
      simp
    · rw [List.find?_cons_of_neg, ih hn.2 h]
      simp only [decide_eq_true_eq]
      intro he
      exact hn.1 (List.mem_map.mpr ⟨_, h, he.symm⟩)

variable {fl : Durations}

/-- The report of a run of one test. -/
private theorem runConsole_one (sc : ShowConfig) (ms : fl.D → Nat) (cfg : Config) (o : Seen fl)
    (took : Nat) (n : Str) {text : Str} {rv : Result}
    (h : runConsole sc ms cfg (fun _ _ => some o) took [n] = some (text, rv)) :
    ∃ failed, (∀ x ∈ failed, x = n) ∧
      text = startReport ++ liveCase sc n o.rep o.log o.prelim (ms o.dur) ++ endReport failed 1 took := by
  unfold runConsole at h
  have e : showLoop sc ms cfg (fun _ _ => some o) [] { console := startReport } [n] =
      some (loopBody sc ms n o { console := startReport }) := by
    unfold showLoop
    dsimp only
    split
    · rfl
    · rfl
  rw [e] at h
  dsimp only at h
  injection h with h
  injection h with h _
  rw [← h]
  unfold loopBody
  dsimp only
  split
  · exact ⟨[n], by simp, rfl⟩
  · exact ⟨[], by simp, rfl⟩

/-- What the workers print, each the report of a run of one test, is found in the merged `output.txt`,
one after the other in the order of the list of tests. -/
theorem C93_console (dirs : Str → Option BatchDir) (cases : List Str)
    (hn : ∀ n ∈ cases, (((dirs (batchName n)).getD []).map (·.1)).Nodup) (hne : cases ≠ [])
    (sc : ShowConfig) (ms : fl.D → Nat) (cfg : Config) (seen : Str → Seen fl) (took : Str → Nat)
    (hcr : ∀ n ∈ cases, '\r' ∉ n ∧ ∀ l ∈ (seen n).rep, '\r' ∉ l)
    (shown : Str → Str)
    (hw : ∀ n ∈ cases, ∃ files rv, dirs (batchName n) = some files ∧
      ("output.txt".toList, shown n) ∈ files ∧
      runConsole sc ms cfg (fun _ _ => some (seen n)) (took n) [n] = some (shown n, rv)) :
    (mergedFiles dirs cases).get "output.txt".toList = some (cases.flatMap shown) := by
  generalize hfile : "output.txt".toList = file at hw
  have hs : ((mergedFiles dirs cases).get file).isSome = true := by
    refine (C93_files dirs cases hn file).mpr ⟨by rw [← hfile]; decide, by rw [← hfile]; decide, ?_⟩
    obtain ⟨n, ns, rfl⟩ := List.exists_cons_of_ne_nil hne
    obtain ⟨files, rv, h1, h2, -⟩ := hw n List.mem_cons_self
    exact ⟨n, List.mem_cons_self, shown n, by rw [h1]; exact h2⟩
  have htext : ∀ n ∈ cases, textOf dirs file n = shown n := by
    intro n hm
    obtain ⟨files, rv, h1, h2, -⟩ := hw n hm
    have h3 := hn n hm
    unfold textOf
    rw [h1] at h3 ⊢
    rw [Option.getD_some] at h3 ⊢
    rw [find_of_mem h3 h2]
    rfl
  obtain ⟨text, ht⟩ := Option.isSome_iff_exists.mp hs
  rw [ht]
  congr 1
  have hmap : cases.flatMap shown = cases.flatMap (textOf dirs file) := by
    rw [List.flatMap_def, List.flatMap_def, List.map_congr_left htext]
  rw [hmap]
  have hlast : ∀ n ∈ cases, '\r' ∉ textOf dirs file n ∧ (textOf dirs file n).getLast? = some '\n' := by
    intro n hm
    obtain ⟨files, rv, -, -, h2⟩ := hw n hm
    rw [htext n hm]
    obtain ⟨failed, hf, he⟩ := runConsole_one sc ms cfg (seen n) (took n) n h2
    rw [he]
    constructor
    · exact no_cr_append (no_cr_append (by decide) (no_cr_live sc n (hcr n hm).1 _ (hcr n hm).2 _ _ _))
        (no_cr_end (fun x hx => by rw [hf x hx]; exact (hcr n hm).1) _ _)
    · obtain ⟨a, ha⟩ := end_last failed 1 (took n)
      rw [ha, ← List.append_assoc, List.getLast?_concat]
  refine C93_text_partial dirs cases hn file (fun n hm => ⟨(hlast n hm).1, Or.inr (hlast n hm).2⟩) ht ?_
  obtain ⟨n, ns, rfl⟩ := List.exists_cons_of_ne_nil hne
  refine ⟨n, List.mem_cons_self, ?_⟩
  intro hc
  have := (hlast n List.mem_cons_self).2
  rw [hc] at this
  cases this

/-- Two workers, and a file that is not merged. -/
def twoDirs : Str → Option BatchDir := fun d =>
  if d = "t.a".toList then
    some [("cases.txt".toList, "t/a\tOK\t1\n".toList), ("output.txt".toList, "a\n".toList)]
  else if d = "t.b".toList then
    some [("output.txt".toList, "b\nc\n".toList), ("x.log".toList, "log\n".toList)]
  else none

example : mergedFiles twoDirs ["t/b".toList, "t/c".toList, "t/a".toList] =
    [("output.txt".toList, "b\nc\na\n".toList)] := by
  set_option maxRecDepth 100000 in decide

example : Lined (textOf twoDirs "output.txt".toList "t/b".toList) := by
  unfold Lined
  set_option maxRecDepth 100000 in decide

/-- What a worker prints. -/
example : runConsole (fl := strokes) {} (fun d : Nat => d) {}
    (fun _ _ => some ⟨.OK, [], [], .OK, .NONE, (3 : Nat)⟩) 5 ["t/a".toList] =
    some ("\n# test results:\n\n  t/a..3 ms\n\n1/1 test succeeded in 5 ms\n\n".toList, .OK) := by
  set_option maxRecDepth 100000 in decide

/-- If all texts are empty, the merged file has one empty line. -/
theorem C93_empty_refuted : ∃ dirs : Str → Option BatchDir,
    Lined (textOf dirs "output.txt".toList "a".toList) ∧
    (mergedFiles dirs ["a".toList]).get "output.txt".toList ≠
      some (["a".toList].flatMap (textOf dirs "output.txt".toList)) := by
  refine ⟨fun _ => some [("output.txt".toList, [])], ⟨by decide, Or.inl (by decide)⟩, by decide⟩

/-- The output of two tests whose names differ only in a dot in the place of a slash is in one file, the
later one, and is merged twice. -/
theorem C93_collision_refuted (text : Str) (h : Lined text) (h0 : text ≠ []) :
    (mergedFiles (fun _ => some [("output.txt".toList, text)]) ["b/a.b".toList, "b/a/b".toList]).get
      "output.txt".toList = some (text ++ text) ∧ batchName "b/a.b".toList = batchName "b/a/b".toList := by
  refine ⟨?_, by decide⟩
  generalize hfile : "output.txt".toList = file
  have e : ∀ n, textOf (fun _ => some [(file, text)]) file n = text := by
    intro n; simp [textOf]
  have hn : ∀ n ∈ ["b/a.b".toList, "b/a/b".toList],
      ((((fun _ => some [(file, text)] : Str → Option BatchDir) (batchName n)).getD []).map (·.1)).Nodup := by
    intro n _; simp
  have hs := (C93_files (fun _ => some [(file, text)]) ["b/a.b".toList, "b/a/b".toList] hn file).mpr
    ⟨by rw [← hfile]; decide, by rw [← hfile]; decide, "b/a.b".toList, List.mem_cons_self, text, by simp⟩
  obtain ⟨t, ht⟩ := Option.isSome_iff_exists.mp hs
  rw [ht, C93_text_partial _ _ hn file (fun n _ => by rw [e]; exact h) ht
    ⟨"b/a.b".toList, List.mem_cons_self, by rw [e]; exact h0⟩]
  rw [List.flatMap_cons, List.flatMap_cons, List.flatMap_nil, e, e, List.append_nil]

end Verif.Props
