import Verif.Spec.Images
import Verif.Spec.Hashing
import Verif.Lemmas.FS
import Verif.Lemmas.Lines
import Verif.Props.RelPath
import Verif.Props.CaseRun

/-! # C113: pictures are kept and compared by their contents -/

namespace Verif.Props
open Verif.Py Verif.Model Verif.Spec Verif.Lemmas

/-! ### Texts of paths -/

private theorem comp_relative {s : Str} (h : Component s) : ¬ Absolute s := by
  intro ha
  cases s with
  | nil => cases ha
  | cons c s =>
    injection ha with ha
    exact h.2.2.2 (by rw [ha]; exact List.mem_cons_self)

private theorem split_slash (a b : Str) (hb : '/' ∉ b) : split '/' (a ++ "/".toList ++ b) = split '/' a ++ [b] := by
  induction a with
  | nil =>
    change split '/' ('/' :: b) = [[]] ++ [b]
    simp [split, split_no_sep '/' b hb]
  | cons x a ih =>
    by_cases hx : x = '/'
    · subst hx
      change split '/' ('/' :: (a ++ "/".toList ++ b)) = split '/' ('/' :: a) ++ [b]
      simp only [split, if_true, ih, List.cons_append]
    · change split '/' (x :: (a ++ "/".toList ++ b)) = split '/' (x :: a) ++ [b]
      simp only [split, if_neg hx, ih]
      cases hs : split '/' a with
      | nil => exact absurd hs (split_ne_nil '/' a)
      | cons y ys => rfl

private theorem walk_snoc {d e ps : List Str} (h : Walk d ps e) {c : Str} (hc : Component c) :
    Walk d (ps ++ [c]) (e ++ [c]) := by
  induction h with
  | done d => exact .down hc.1 hc.2.1 hc.2.2.1 (.done _)
  | stay h _ ih => exact .stay h ih
  | up _ ih => exact .up ih
  | top _ ih => exact .top ih
  | down n1 n2 n3 _ ih => exact .down n1 n2 n3 ih

private theorem walk_blank {d e ps : List Str} (h : Walk d (ps ++ [[]]) e) : Walk d ps e := by
  generalize hq : ps ++ [[]] = qs at h
  induction h generalizing ps with
  | done d => exact absurd hq (by simp)
  | stay h hw ih =>
    cases ps with
    | nil => injection hq with _ h2; subst h2; exact hw
    | cons p ps => injection hq with h1 h2; subst h1; exact .stay h (ih h2)
  | up hw ih =>
    cases ps with
    | nil => injection hq with h1 _; exact absurd h1 (by decide)
    | cons p ps => injection hq with h1 h2; subst h1; exact .up (ih h2)
  | top hw ih =>
    cases ps with
    | nil => injection hq with h1 _; exact absurd h1 (by decide)
    | cons p ps => injection hq with h1 h2; subst h1; exact .top (ih h2)
  | down n1 n2 n3 hw ih =>
    cases ps with
    | nil => injection hq with h1 _; exact absurd h1.symm n1
    | cons p ps => injection hq with h1 h2; subst h1; exact .down n1 n2 n3 (ih h2)

/-- A name below a directory, as text. -/
private theorem join_shape (a : Str) {c : Str} (hc : Component c) :
    pathJoin a c = a ++ "/".toList ++ c ∧ a ≠ [] ∧ a.getLast? ≠ some '/' ∨
    (∃ a', a = a' ++ "/".toList ∧ pathJoin a c = a' ++ "/".toList ++ c) ∨
    a = [] ∧ pathJoin a c = c := by
  by_cases h0 : a = []
  · exact .inr (.inr ⟨h0, by rw [h0, pathJoin_nil]⟩)
  by_cases hl : a.getLast? = some '/'
  · refine .inr (.inl ?_)
    rcases List.eq_nil_or_concat a with h | ⟨a', x, h⟩
    · exact absurd h h0
    · subst h
      rw [List.concat_eq_append, List.getLast?_append] at hl
      injection hl with hl
      have hx : x = '/' := hl
      subst hx
      refine ⟨a', by rw [List.concat_eq_append]; rfl, ?_⟩
      rw [pathJoin_slash (comp_relative hc) (by rw [List.concat_eq_append, List.getLast?_append]; rfl), List.concat_eq_append]
      rfl
  · exact .inl ⟨pathJoin_plain (comp_relative hc) h0 hl, h0, hl⟩

private theorem denotes_abs {cwd a : Str} {place : List Str} (h : a.head? = some '/') :
    Denotes cwd a place ↔ Walk [] (split '/' a) place := by
  unfold Denotes
  rw [if_pos h]

private theorem denotes_rel {cwd a : Str} {place : List Str} (h : ¬ a.head? = some '/') :
    Denotes cwd a place ↔ ∃ d, Walk [] (split '/' cwd) d ∧ Walk d (split '/' a) place := by
  unfold Denotes
  rw [if_neg h]

private theorem join_denotes {cwd a c : Str} {place : List Str} (hp : Denotes cwd a place) (hc : Component c) :
    Denotes cwd (pathJoin a c) (place ++ [c]) := by
  rcases join_shape a hc with ⟨h1, h2, h3⟩ | ⟨a', h1, h2⟩ | ⟨h1, h2⟩
  · rw [h1]
    have hh : (a ++ "/".toList ++ c).head? = a.head? := by
      cases a with
      | nil => exact absurd rfl h2
      | cons x a => rfl
    by_cases ha : a.head? = some '/'
    · rw [denotes_abs ha] at hp
      rw [denotes_abs (hh.trans ha), split_slash a c hc.2.2.2]
      exact walk_snoc hp hc
    · rw [denotes_rel ha] at hp
      rw [denotes_rel (fun h => ha (hh.symm.trans h)), split_slash a c hc.2.2.2]
      obtain ⟨d, w1, w2⟩ := hp
      exact ⟨d, w1, walk_snoc w2 hc⟩
  · rw [h2]
    subst h1
    have hs : split '/' (a' ++ "/".toList) = split '/' a' ++ [[]] := by
      have := split_slash a' [] (by simp)
      rwa [List.append_nil] at this
    have hh : (a' ++ "/".toList ++ c).head? = (a' ++ "/".toList).head? := by
      cases a' with
      | nil => rfl
      | cons x a => rfl
    by_cases ha : (a' ++ "/".toList).head? = some '/'
    · rw [denotes_abs ha, hs] at hp
      rw [denotes_abs (hh.trans ha), split_slash a' c hc.2.2.2]
      exact walk_snoc (walk_blank hp) hc
    · rw [denotes_rel ha, hs] at hp
      rw [denotes_rel (fun h => ha (hh.symm.trans h)), split_slash a' c hc.2.2.2]
      obtain ⟨d, w1, w2⟩ := hp
      exact ⟨d, w1, walk_snoc (walk_blank w2) hc⟩
  · rw [h2]
    subst h1
    rw [denotes_rel (by intro h; cases h)] at hp
    rw [denotes_rel (fun h => comp_relative hc h), split_no_sep '/' c hc.2.2.2]
    obtain ⟨d, w1, w2⟩ := hp
    exact ⟨d, w1, walk_snoc (ps := []) (walk_blank (ps := []) w2) hc⟩

private theorem plain_iff (p : Str) : Plain p ↔ ∀ r, p = '/' :: '/' :: r → ∃ s, r = '/' :: s := by
  unfold Plain
  constructor
  · intro h r hr
    obtain ⟨s, hs⟩ := h ⟨r, hr.symm⟩
    have hs' : '/' :: '/' :: '/' :: s = p := hs
    rw [hr] at hs'
    simp only [List.cons.injEq, true_and] at hs'
    exact ⟨s, hs'.symm⟩
  · rintro h ⟨r, hr⟩
    obtain ⟨s, hs⟩ := h r hr.symm
    exact ⟨s, by rw [← hr, hs]; rfl⟩

private theorem join_plain {a c : Str} (ha : Plain a) (hc : Component c) : Plain (pathJoin a c) := by
  rw [plain_iff] at *
  intro r hr
  have hcs : ∀ y l, c = y :: l → y ≠ '/' := by
    rintro y l rfl rfl
    exact hc.2.2.2 List.mem_cons_self
  rcases join_shape a hc with ⟨h1, h2, h3⟩ | ⟨a', h1, h2⟩ | ⟨h1, h2⟩
  · rw [h1] at hr
    match a, h2, h3, ha with
    | [x], _, h3, _ =>
      change x :: '/' :: c = _ at hr
      injection hr with h4 h5
      subst h4
      exact absurd rfl h3
    | x :: y :: a, _, _, ha =>
      change x :: y :: (a ++ "/".toList ++ c) = _ at hr
      injection hr with h4 h5
      injection h5 with h5 h6
      subst h4 h5
      obtain ⟨s, hs⟩ := ha a rfl
      exact ⟨s ++ "/".toList ++ c, by rw [← h6, hs]; rfl⟩
  · rw [h2] at hr
    subst h1
    match a', ha with
    | [], _ =>
      change '/' :: c = _ at hr
      injection hr with _ h5
      exact absurd rfl (hcs _ _ h5)
    | [x], ha =>
      change x :: '/' :: c = _ at hr
      injection hr with h4 h5
      subst h4
      obtain ⟨s, hs⟩ := ha [] rfl
      cases hs
    | x :: y :: a, ha =>
      change x :: y :: (a ++ "/".toList ++ c) = _ at hr
      injection hr with h4 h5
      injection h5 with h5 h6
      subst h4 h5
      obtain ⟨s, hs⟩ := ha (a ++ "/".toList) rfl
      exact ⟨s ++ c, by rw [← h6, hs]; rfl⟩
  · rw [h2] at hr
    exact absurd rfl (hcs _ _ hr)

private theorem takeWhile_rev {c : Str} (hc : '/' ∉ c) (a : Str) :
    ((a ++ "/".toList ++ c).reverse.takeWhile (· ≠ '/')) = c.reverse ∧
    ((a ++ "/".toList ++ c).reverse.dropWhile (· ≠ '/')) = '/' :: a.reverse := by
  have hr : (a ++ "/".toList ++ c).reverse = c.reverse ++ '/' :: a.reverse := by simp
  rw [hr]
  have hall : ∀ x ∈ c.reverse, (decide (x ≠ '/')) = true := by
    intro x hx
    rw [decide_eq_true_eq]
    rintro rfl
    exact hc (List.mem_reverse.mp hx)
  rw [List.takeWhile_append_of_pos hall, List.dropWhile_append_of_pos hall]
  simp

private theorem baseName_join {c : Str} (hc : '/' ∉ c) (a : Str) : baseName (a ++ "/".toList ++ c) = c := by
  unfold baseName
  rw [(takeWhile_rev hc a).1, List.reverse_reverse]

private theorem dirName_join {c : Str} (hc : '/' ∉ c) {a : Str} (ha : a ≠ []) (hl : a.getLast? ≠ some '/') :
    dirName (a ++ "/".toList ++ c) = a := by
  unfold dirName
  rw [(takeWhile_rev hc a).2]
  rcases List.eq_nil_or_concat a with h | ⟨a', x, h⟩
  · exact absurd h ha
  · rw [List.concat_eq_append] at h
    subst h
    have hx : x ≠ '/' := by
      rintro rfl
      exact hl (by rw [List.getLast?_append]; rfl)
    have hb : (x == '/') = false := by simpa using hx
    simp [hb]

private theorem out_dir_text (b : BookPlace) (ht : Component b.test) :
    pathJoin b.base b.test ≠ [] ∧ (pathJoin b.base b.test).getLast? ≠ some '/' := by
  have hlast : ∀ a : Str, (a ++ b.test).getLast? ≠ some '/' := by
    intro a
    rcases List.eq_nil_or_concat b.test with h | ⟨t, x, h⟩
    · exact absurd h ht.1
    · rw [h, List.concat_eq_append, ← List.append_assoc, List.getLast?_append]
      intro e
      injection e with e
      have hx : x = '/' := e
      exact ht.2.2.2 (by rw [h, hx]; simp)
  have hne : ∀ a : Str, a ++ b.test ≠ [] := fun a h => ht.1 (List.append_eq_nil_iff.mp h).2
  rcases join_shape b.base ht with ⟨h1, _, _⟩ | ⟨a', _, h2⟩ | ⟨_, h2⟩
  · rw [h1]; exact ⟨hne _, hlast _⟩
  · rw [h2]; exact ⟨hne _, hlast _⟩
  · rw [h2]; exact ⟨by simpa using hne [], by simpa using hlast []⟩

/-- The text of a renamed file. -/
private theorem renamed_text (b : BookPlace) (ht : Component b.test) {name new : Str} (hn : Component name)
    (hw : Component new) :
    pathJoin (dirName (pathJoin (pathJoin b.base b.test) name)) new = pathJoin b.base b.test ++ "/".toList ++ new := by
  obtain ⟨h1, h2⟩ := out_dir_text b ht
  rw [pathJoin_plain (comp_relative hn) h1 h2, dirName_join hn.2.2.2 h1 h2, pathJoin_plain (comp_relative hw) h1 h2]

/-- **C113**: the line of a picture refers to the file in the directory of the test. -/
theorem C113_line (b : BookPlace) (hb : PlaceOK b) (name new : Str) (hn : Component name) (hw : Component new) :
    imageLine b (pathJoin (dirName (pathJoin (pathJoin b.base b.test) name)) new) none =
      pictureLine b.test new (stemName new) := by
  rw [renamed_text b hb.test hn hw]
  obtain ⟨h1, h2⟩ := out_dir_text b hb.test
  have hd1 := join_denotes hb.denotes hb.test
  have hd2 := join_denotes hd1 hw
  rw [pathJoin_plain (comp_relative hw) h1 h2] at hd2
  have hp := join_plain (join_plain hb.basePlain hb.test) hw
  rw [pathJoin_plain (comp_relative hw) h1 h2] at hp
  have hr := C68_inside_partial b.cwd b.base _ hb.cwd hb.cwdPlain hb.basePlain hp b.place [b.test, new]
    hb.denotes (by simpa using hd2) hb.notRoot
  unfold imageLine pictureLine
  rw [hr, baseName_join hw.2.2.2]
  simp [join]

/-- The alternative text of a picture with the postfix `.ext` is its digest. -/
theorem C113_alt (hash ext : Str) (hh : ∀ c ∈ hash, c.isAlphanum = true) (hne : hash ≠ []) (he : '.' ∉ ext) :
    stemName (hash ++ ".".toList ++ ext) = hash := by
  unfold stemName
  have hr : (hash ++ ".".toList ++ ext).reverse = ext.reverse ++ '.' :: hash.reverse := by simp
  have hall : ∀ x ∈ ext.reverse, (decide (x ≠ '.')) = true := by
    intro x hx
    rw [decide_eq_true_eq]
    rintro rfl
    exact he (List.mem_reverse.mp hx)
  rw [hr, List.dropWhile_append_of_pos hall]
  simp only [ne_eq, not_true_eq_false, decide_false, Bool.false_eq_true, not_false_eq_true, List.dropWhile_cons_of_neg]
  rw [if_neg]
  · simp
  · intro h
    obtain ⟨c, l, hl⟩ := List.exists_cons_of_ne_nil hne
    rw [List.all_eq_true] at h
    have hc : c ∈ hash := by rw [hl]; exact List.mem_cons_self
    have := h c (List.mem_reverse.mpr hc)
    have hd : c = '.' := by simpa using this
    have := hh c hc
    rw [hd] at this
    revert this
    decide

/-! ### Files -/

private theorem hash_component {sha : Str → Str} (hx : HexDigest sha) {p : Picture} (hp : '/' ∉ p.postfix_) :
    Component (hashName sha p) := by
  obtain ⟨n, hn, h⟩ := hx
  obtain ⟨h1, h2⟩ := h p.bytes
  have hne : sha p.bytes ≠ [] := by intro e; rw [e] at h1; simp at h1; omega
  obtain ⟨c, l, hl⟩ := List.exists_cons_of_ne_nil hne
  have hc : c.isAlphanum = true := h2 c (by rw [hl]; exact List.mem_cons_self)
  have hd : c ≠ '.' := by rintro rfl; revert hc; decide
  unfold hashName
  rw [hl]
  refine ⟨by simp, ?_, ?_, ?_⟩
  · intro e; injection e with e _; exact hd e
  · intro e; injection e with e _; exact hd e
  · intro e
    rcases List.mem_append.mp e with e | e
    · have := h2 '/' (by rw [hl]; exact e)
      revert this; decide
    · exact hp e

private theorem hash_inj {sha : Str → Str} (hx : HexDigest sha) {p q : Picture} (h : hashName sha p = hashName sha q) :
    sha p.bytes = sha q.bytes ∧ p.postfix_ = q.postfix_ := by
  obtain ⟨n, _, h1⟩ := hx
  exact List.append_inj h (by rw [(h1 p.bytes).1, (h1 q.bytes).1])

/-- The files after some pictures. -/
private structure After (sha : Str → Str) (b : BookPlace) (fs0 : FS) (done : List Picture) (fs : FS) : Prop where
  base : fs.get b.place = some .dir
  dir : fs.get b.dir = some .dir ∨ fs.get b.dir = none
  kept : ∀ p ∈ done, fs.get (b.dir ++ [hashName sha p]) = some (.file p.bytes)
  only : ∀ q r, fs.get (b.dir ++ q :: r) ≠ none → r = [] ∧ ∃ p ∈ done, q = hashName sha p
  rest : ∀ q, ¬ b.dir <+: q → fs.get q = fs0.get q

private theorem show_step {sha : Str → Str} (hx : HexDigest sha) {b : BookPlace} (hb : PlaceOK b) {fs0 fs : FS}
    {done ps : List Picture} {p : Picture} (hp : PictureOK sha ps p) (hsub : ∀ q ∈ done, q ∈ ps) (hps : p ∈ ps)
    (hno : NoCollision sha (fun t => ∃ q ∈ ps, t = q.bytes)) (ha : After sha b fs0 done fs) :
    ∃ fs', showPicture sha b p fs =
        .ok (fs', .tln (pictureLine b.test (hashName sha p) (stemName (hashName sha p)))) ∧
      After sha b fs0 (done ++ [p]) fs' := by
  have hw := hash_component hx hp.postfix_
  have hdir : b.dir ≠ b.place := by
    intro h
    have := congrArg List.length h
    simp [BookPlace.dir] at this
  have hbelow : ∀ (q : Str) (r : Path), b.dir ++ q :: r ≠ b.dir := by
    intro q r h
    have := congrArg List.length h
    simp at this
  have hplace : ∀ (q : Str) (r : Path), b.dir ++ q :: r ≠ b.place := by
    intro q r h
    have := congrArg List.length h
    simp [BookPlace.dir] at this
  -- after `file` and the writing
  obtain ⟨fs1, hf1, g1, g2, g3⟩ : ∃ fs1, writeBookFile b p.name p.bytes fs =
        .ok (fs1, b.dir ++ [p.name], pathJoin (pathJoin b.base b.test) p.name) ∧
      fs1.get b.dir = some .dir ∧ fs1.get (b.dir ++ [p.name]) = some (.file p.bytes) ∧
      ∀ q, q ≠ b.dir → q ≠ b.dir ++ [p.name] → fs1.get q = fs.get q := by
    have hne := hbelow p.name []
    unfold writeBookFile
    rcases ha.dir with h | h
    · have he : fs.exists_ b.dir = true := by simp [FS.exists_, h]
      have hd : fs.isDir b.dir = true := by simp [FS.isDir, h]
      simp only [he, if_true, hd]
      refine ⟨_, rfl, ?_, ?_, ?_⟩
      · unfold FS.write; rw [get_cons, if_neg (Ne.symm hne), h]
      · unfold FS.write; rw [get_cons, if_pos rfl]
      · intro q _ h2; unfold FS.write; rw [get_cons, if_neg h2]
    · have he : fs.exists_ b.dir = false := by simp [FS.exists_, h]
      have hd : FS.isDir ((b.dir, .dir) :: fs) b.dir = true := by simp [FS.isDir, get_cons]
      simp only [he, Bool.false_eq_true, if_false, hd, if_true]
      refine ⟨_, rfl, ?_, ?_, ?_⟩
      · unfold FS.write; rw [get_cons, if_neg (Ne.symm hne), get_cons, if_pos rfl]
      · unfold FS.write; rw [get_cons, if_pos rfl]
      · intro q h1 h2; unfold FS.write; rw [get_cons, if_neg h2, get_cons, if_neg h1]
  -- the renaming
  have hnew : b.dir ++ [hashName sha p] ≠ b.dir ++ [p.name] := by
    intro h
    have := List.append_cancel_left h
    injection this with h1 _
    exact hp.fresh p hps h1.symm
  have hdrop : (b.dir ++ [p.name]).dropLast = b.dir := by simp
  have hdrop2 : (b.dir ++ [hashName sha p]).dropLast = b.dir := by simp
  have hnotdir : fs1.get (b.dir ++ [hashName sha p]) ≠ some .dir := by
    rw [g3 _ (hbelow _ _) hnew]
    intro h
    obtain ⟨_, q, hq, he⟩ := ha.only (hashName sha p) [] (by rw [h]; simp)
    rw [he, ha.kept q hq] at h
    cases h
  have hren : fs1.rename (b.dir ++ [p.name]) (b.dir ++ [hashName sha p]) =
      .ok ((b.dir ++ [hashName sha p], .file p.bytes) :: fs1.filter (fun e => decide (e.1 ≠ b.dir ++ [p.name]))) := by
    unfold FS.rename
    rw [g2]
    dsimp only
    rw [if_neg (Ne.symm hnew), hdrop2]
    have : fs1.isDir b.dir = true := by simp [FS.isDir, g1]
    rw [this]
    simp only [Bool.not_true, Bool.false_eq_true, if_false]
  have hget : ∀ q, FS.get ((b.dir ++ [hashName sha p], .file p.bytes) ::
      fs1.filter (fun e => decide (e.1 ≠ b.dir ++ [p.name]))) q =
      if q = b.dir ++ [hashName sha p] then some (.file p.bytes)
      else if q = b.dir ++ [p.name] then none else fs1.get q := by
    intro q
    rw [get_cons, get_filter (fun x => decide (x ≠ b.dir ++ [p.name]))]
    by_cases h1 : q = b.dir ++ [hashName sha p]
    · rw [if_pos h1, if_pos h1]
    · rw [if_neg h1, if_neg h1]
      by_cases h2 : q = b.dir ++ [p.name]
      · rw [if_pos h2, if_neg (by simp [h2])]
      · rw [if_neg h2, if_pos (by simpa using h2)]
  refine ⟨(b.dir ++ [hashName sha p], .file p.bytes) :: fs1.filter (fun e => decide (e.1 ≠ b.dir ++ [p.name])), ?_, ?_⟩
  · unfold showPicture
    rw [hf1]
    simp only [bind, Except.bind]
    unfold renameToHash
    rw [g2]
    simp only [hdrop, bind, Except.bind]
    rw [show sha p.bytes ++ p.postfix_ = hashName sha p from rfl, hren]
    simp only [pure, Except.pure]
    rw [C113_line b hb p.name (hashName sha p) hp.name hw]
  · refine ⟨?_, ?_, ?_, ?_, ?_⟩
    · rw [hget, if_neg (Ne.symm (hplace _ _)), if_neg (Ne.symm (hplace _ _)),
        g3 _ (Ne.symm hdir) (Ne.symm (hplace _ _)), ha.base]
    · left
      rw [hget, if_neg (Ne.symm (hbelow _ _)), if_neg (Ne.symm (hbelow _ _)), g1]
    · intro q hq
      rw [hget]
      rcases List.mem_append.mp hq with hq | hq
      · by_cases he : hashName sha q = hashName sha p
        · rw [if_pos (by rw [he])]
          obtain ⟨h1, _⟩ := hash_inj hx he
          rw [hno _ _ ⟨q, hsub q hq, rfl⟩ ⟨p, hps, rfl⟩ h1]
        · have h1 : b.dir ++ [hashName sha q] ≠ b.dir ++ [hashName sha p] := by
            intro h
            have := List.append_cancel_left h
            injection this with h _
            exact he h
          have h2 : b.dir ++ [hashName sha q] ≠ b.dir ++ [p.name] := by
            intro h
            have := List.append_cancel_left h
            injection this with h _
            exact hp.fresh q (hsub q hq) h.symm
          rw [if_neg h1, if_neg h2, g3 _ (hbelow _ _) h2]
          exact ha.kept q hq
      · simp only [List.mem_cons, List.not_mem_nil, or_false] at hq
        rw [hq, if_pos rfl]
    · intro q r h
      rw [hget] at h
      by_cases h1 : b.dir ++ q :: r = b.dir ++ [hashName sha p]
      · have := List.append_cancel_left h1
        injection this with h2 h3
        exact ⟨h3, p, by simp, h2⟩
      · rw [if_neg h1] at h
        by_cases h2 : b.dir ++ q :: r = b.dir ++ [p.name]
        · rw [if_pos h2] at h; exact absurd rfl h
        · rw [if_neg h2, g3 _ (hbelow _ _) h2] at h
          obtain ⟨h3, p', h4, h5⟩ := ha.only q r h
          exact ⟨h3, p', by simp [h4], h5⟩
    · intro q h
      have h1 : q ≠ b.dir ++ [hashName sha p] := by rintro rfl; exact h (List.prefix_append _ _)
      have h2 : q ≠ b.dir ++ [p.name] := by rintro rfl; exact h (List.prefix_append _ _)
      have h3 : q ≠ b.dir := by rintro rfl; exact h (List.prefix_refl _)
      rw [hget, if_neg h1, if_neg h2, g3 q h3 h2]
      exact ha.rest q h

private theorem show_steps {sha : Str → Str} (hx : HexDigest sha) {b : BookPlace} (hb : PlaceOK b) {fs0 : FS}
    {all : List Picture} (hok : ∀ p ∈ all, PictureOK sha all p)
    (hno : NoCollision sha (fun t => ∃ q ∈ all, t = q.bytes)) :
    ∀ (ps done : List Picture) (fs : FS), done ++ ps = all → After sha b fs0 done fs →
    ∃ fs', showPictures sha b ps fs =
        .ok (fs', ps.map (fun p => .tln (pictureLine b.test (hashName sha p) (stemName (hashName sha p))))) ∧
      After sha b fs0 all fs' := by
  intro ps
  induction ps with
  | nil =>
    intro done fs hd ha
    rw [List.append_nil] at hd
    exact ⟨fs, rfl, hd ▸ ha⟩
  | cons p ps ih =>
    intro done fs hd ha
    have hm : p ∈ all := by rw [← hd]; simp
    obtain ⟨fs1, h1, h2⟩ := show_step hx hb (hok p hm) (fun q hq => by rw [← hd]; simp [hq]) hm hno ha
    obtain ⟨fs2, h3, h4⟩ := ih (done ++ [p]) fs1 (by rw [← hd]; simp) h2
    refine ⟨fs2, ?_, h4⟩
    simp only [showPictures, h1, bind, Except.bind, h3, pure, Except.pure, List.map_cons]

/-- **C113**: a test can show any pictures; in the end the directory of the test has each of them with its
contents under its digest, and nothing else, and nothing outside of it is touched. -/
theorem C113_kept (sha : Str → Str) (hx : HexDigest sha) (b : BookPlace) (hb : PlaceOK b) (fs : FS)
    (hf : FreshPlace b fs) (ps : List Picture) (hok : ∀ p ∈ ps, PictureOK sha ps p)
    (hno : NoCollision sha (fun t => ∃ q ∈ ps, t = q.bytes)) :
    ∃ fs', showPictures sha b ps fs =
        .ok (fs', ps.map (fun p => .tln (pictureLine b.test (hashName sha p) (stemName (hashName sha p))))) ∧
      (∀ p ∈ ps, fs'.get (b.dir ++ [hashName sha p]) = some (.file p.bytes)) ∧
      (∀ q r, fs'.get (b.dir ++ q :: r) ≠ none → r = [] ∧ ∃ p ∈ ps, q = hashName sha p) ∧
      ∀ q, ¬ b.dir <+: q → fs'.get q = fs.get q := by
  obtain ⟨fs', h1, h2⟩ := show_steps hx hb hok hno ps [] fs rfl
    ⟨hf.base, .inr (hf.empty _ (List.prefix_refl _)), (by intro p hp; cases hp),
      (by intro q r h; exact absurd (hf.empty _ (List.prefix_append _ _)) h), fun _ _ => rfl⟩
  exact ⟨fs', h1, h2.kept, h2.only, h2.rest⟩

/-! ### Comparison -/

private theorem line_inj {test a a' n n' : Str} (hn : '/' ∉ n) (hn' : '/' ∉ n')
    (h : pictureLine test n a = pictureLine test n' a') : n = n' := by
  unfold pictureLine at h
  have h1 := List.append_cancel_right h
  have e1 : baseName ("![".toList ++ a ++ "](".toList ++ test ++ "/".toList ++ n) = n := baseName_join hn _
  have e2 : baseName ("![".toList ++ a' ++ "](".toList ++ test ++ "/".toList ++ n') = n' := baseName_join hn' _
  rw [← e1, h1, e2]

private theorem map_prefix {α β : Type} {f : α → β} : ∀ {l m : List α},
    (∀ a ∈ l, ∀ b ∈ m, f a = f b → a = b) → (l.map f <+: m.map f ↔ l <+: m)
  | [], m, _ => by simp
  | a :: l, [], _ => by simp
  | a :: l, b :: m, h => by
    simp only [List.map_cons, List.cons_prefix_cons]
    rw [map_prefix (fun x hx y hy => h x (List.mem_cons_of_mem _ hx) y (List.mem_cons_of_mem _ hy))]
    constructor
    · rintro ⟨h1, h2⟩; exact ⟨h a List.mem_cons_self b List.mem_cons_self h1, h2⟩
    · rintro ⟨h1, h2⟩; exact ⟨by rw [h1], h2⟩

private theorem mem_stem {n : Str} {c : Char} (h : c ∈ stemName n) : c ∈ n := by
  unfold stemName at h
  cases hd : n.reverse.dropWhile (· ≠ '.') with
  | nil => rw [hd] at h; exact h
  | cons x before =>
    rw [hd] at h
    dsimp only at h
    split at h
    · exact h
    · have h1 : c ∈ x :: before := List.mem_cons_of_mem _ (List.mem_reverse.mp h)
      rw [← hd] at h1
      exact List.mem_reverse.mp ((List.dropWhile_sublist _).subset h1)

private theorem picture_text {c : Char} {test n : Str} (h0 : c ∉ "![](/)".toList) (ht : c ∉ test) (hn : c ∉ n) :
    c ∉ pictureLine test n (stemName n) := by
  unfold pictureLine
  simp only [List.mem_append, not_or]
  have hl : ∀ s : Str, (∀ x ∈ s, x ∈ "![](/)".toList) → c ∉ s := fun s hs hc => h0 (hs c hc)
  exact ⟨⟨⟨⟨⟨⟨hl _ (by decide), fun h => hn (mem_stem h)⟩, hl _ (by decide)⟩, ht⟩, hl _ (by decide)⟩, hn⟩,
    hl _ (by decide)⟩

/-- **C113**: a test that shows pictures passes exactly if its pictures are the first pictures of the accepted
snapshot: any change of a picture is a difference.  (That further pictures of the snapshot may be missing
is C07.) -/
theorem C113_compared (sha : Str → Str) (hx : HexDigest sha) (test : Str)
    (htest : '\n' ∉ test ∧ '\r' ∉ test ∧ '\x00' ∉ test) (ps qs : List Picture)
    (hps : ∀ p ∈ ps ++ qs, '/' ∉ p.postfix_ ∧ '\n' ∉ p.postfix_ ∧ '\r' ∉ p.postfix_ ∧ '\x00' ∉ p.postfix_)
    (hno : NoCollision sha (fun t => ∃ p ∈ ps ++ qs, t = p.bytes)) (e : Env)
    (hsnap : e.expFile = some (unlines (qs.map (fun p => pictureLine test (hashName sha p) (stemName (hashName sha p)))))) :
    ∃ s, execAll e (ps.map (fun p => .tln (pictureLine test (hashName sha p) (stemName (hashName sha p))))) (start e) = some s ∧
      (verdict e s = .OK ↔ ps.map shows <+: qs.map shows) := by
  have hclean : ∀ p ∈ ps ++ qs, ∀ c : Char, c ∉ "![](/)".toList → c.isAlphanum = false → c ∉ test →
      c ∉ p.postfix_ → c ∉ pictureLine test (hashName sha p) (stemName (hashName sha p)) := by
    intro p _ c h0 ha ht hp
    refine picture_text h0 ht ?_
    unfold hashName
    rw [List.mem_append, not_or]
    refine ⟨?_, hp⟩
    intro h
    obtain ⟨n, _, h1⟩ := hx
    rw [(h1 p.bytes).2 c h] at ha
    cases ha
  have hnl : ∀ p ∈ ps ++ qs, '\n' ∉ pictureLine test (hashName sha p) (stemName (hashName sha p)) := fun p hp =>
    hclean p hp '\n' (by decide) (by decide) htest.1 (hps p hp).2.1
  have hcr : ∀ p ∈ ps ++ qs, '\r' ∉ pictureLine test (hashName sha p) (stemName (hashName sha p)) := fun p hp =>
    hclean p hp '\r' (by decide) (by decide) htest.2.1 (hps p hp).2.2.1
  have hnul : ∀ p ∈ ps ++ qs, '\x00' ∉ pictureLine test (hashName sha p) (stemName (hashName sha p)) := fun p hp =>
    hclean p hp '\x00' (by decide) (by decide) htest.2.2 (hps p hp).2.2.2
  obtain ⟨s, h1, h2⟩ := C07_prefix_partial e _ hsnap
    (ps.map (fun p => pictureLine test (hashName sha p) (stemName (hashName sha p)))) (by
      intro l hl
      obtain ⟨p, hp, rfl⟩ := List.mem_map.mp hl
      exact ⟨hnl p (List.mem_append_left _ hp), hnul p (List.mem_append_left _ hp)⟩)
  refine ⟨s, ?_, ?_⟩
  · rw [← h1]
    simp [lineOps, Function.comp_def]
  · rw [h2, fileLines_unlines _ (by
      intro l hl
      obtain ⟨p, hp, rfl⟩ := List.mem_map.mp hl
      exact ⟨hnl p (List.mem_append_right _ hp), hcr p (List.mem_append_right _ hp)⟩)]
    have e1 : ∀ l : List Picture, l.map (fun p => pictureLine test (hashName sha p) (stemName (hashName sha p))) =
        (l.map shows).map (fun x => pictureLine test (sha x.1 ++ x.2) (stemName (sha x.1 ++ x.2))) := by
      intro l; rw [List.map_map]; rfl
    rw [e1 ps, e1 qs, map_prefix]
    intro x hxm y hym he
    obtain ⟨p, hp, rfl⟩ := List.mem_map.mp hxm
    obtain ⟨q, hq, rfl⟩ := List.mem_map.mp hym
    have hp' : p ∈ ps ++ qs := List.mem_append_left _ hp
    have hq' : q ∈ ps ++ qs := List.mem_append_right _ hq
    have h3 := line_inj (hash_component hx (hps p hp').1).2.2.2 (hash_component hx (hps q hq').1).2.2.2 he
    obtain ⟨h4, h5⟩ := hash_inj hx h3
    unfold shows
    rw [hno _ _ ⟨p, hp', rfl⟩ ⟨q, hq', rfl⟩ h4, h5]

/-! ### An example -/

/-- A digest for the example: twenty characters, the first of the text padded. -/
private def padSha (x : Str) : Str := ((x.filter Char.isAlphanum).take 20) ++ List.replicate (20 - ((x.filter Char.isAlphanum).take 20).length) '0'

private theorem padSha_hex : HexDigest padSha := by
  refine ⟨20, by omega, ?_⟩
  intro x
  unfold padSha
  refine ⟨by simp; omega, ?_⟩
  intro c hc
  rcases List.mem_append.mp hc with hc | hc
  · have h1 := List.mem_of_mem_take hc
    exact (List.mem_filter.mp h1).2
  · rw [(List.mem_replicate.mp hc).2]; decide

private def examplePlace : BookPlace :=
  ⟨"/home/me".toList, "books/.out/".toList, ["home".toList, "me".toList, "books".toList, ".out".toList], "plot".toList⟩

private def examplePictures : List Picture :=
  [⟨"x.png".toList, "red".toList, ".png".toList⟩, ⟨"x.png".toList, "blue".toList, ".png".toList⟩,
    ⟨"y.png".toList, "red".toList, ".png".toList⟩]

private theorem walk_two (d : List Str) {a b : Str} (ha : Component a) (hb : Component b) :
    Walk d [a, b, []] (d ++ [a] ++ [b]) :=
  .down ha.1 ha.2.1 ha.2.2.1 (.down hb.1 hb.2.1 hb.2.2.1 (.stay (.inl rfl) (.done _)))

example : PlaceOK examplePlace where
  cwd := rfl
  cwdPlain := by unfold Plain; decide
  basePlain := by unfold Plain; decide
  denotes := by
    have h1 : split '/' "/home/me".toList = [[], "home".toList, "me".toList] := by decide
    have h2 : split '/' "books/.out/".toList = ["books".toList, ".out".toList, []] := by decide
    have h3 : examplePlace.place = ["home".toList, "me".toList] ++ ["books".toList] ++ [".out".toList] := rfl
    rw [denotes_rel (by decide), h3]
    refine ⟨["home".toList, "me".toList], ?_, ?_⟩
    · change Walk [] (split '/' "/home/me".toList) ([] ++ ["home".toList] ++ ["me".toList])
      rw [h1]
      exact .stay (.inl rfl) (.down (by decide) (by decide) (by decide)
        (.down (by decide) (by decide) (by decide) (.done _)))
    · change Walk _ (split '/' "books/.out/".toList) _
      rw [h2]
      exact walk_two _ (by unfold Component; decide) (by unfold Component; decide)
  notRoot := List.cons_ne_nil _ _
  test := by unfold Component; decide

example : FreshPlace examplePlace [(examplePlace.place, .dir)] where
  base := by decide
  empty := by
    intro q hq
    rw [get_cons, if_neg]
    · rfl
    · rintro rfl
      have := hq.length_le
      revert this
      decide

example : (∀ p ∈ examplePictures, PictureOK padSha examplePictures p) ∧
    NoCollision padSha (fun t => ∃ q ∈ examplePictures, t = q.bytes) := by
  constructor
  · intro p hp
    refine ⟨?_, ?_, ?_⟩
    · unfold Component; revert p; decide
    · revert p; decide
    · revert p; decide
  · rintro a b ⟨p, hp, rfl⟩ ⟨q, hq, rfl⟩
    revert p q
    decide

/-- The files and lines of the example: the second picture does not replace the first. -/
example : (showPictures padSha examplePlace examplePictures [(examplePlace.place, .dir)]).toOption.map (fun x =>
      (x.1.get (examplePlace.dir ++ ["red00000000000000000.png".toList]),
        x.1.get (examplePlace.dir ++ ["blue0000000000000000.png".toList]),
        x.1.get (examplePlace.dir ++ ["x.png".toList]),
        x.2.map (fun o => match o with | .tln l => l | _ => []))) =
    some (some (.file "red".toList), some (.file "blue".toList), none,
      ["![red00000000000000000](plot/red00000000000000000.png)".toList,
        "![blue0000000000000000](plot/blue0000000000000000.png)".toList,
        "![red00000000000000000](plot/red00000000000000000.png)".toList]) := by decide +kernel

end Verif.Props
