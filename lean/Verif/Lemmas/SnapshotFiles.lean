import Verif.Lemmas.LoadsPrefix
import Verif.Lemmas.Functions
import Verif.Spec.SnapshotFiles

/-! # Reading the texts of snapshot files -/

namespace Verif.Lemmas
open Verif.Py Verif.Model Verif.Spec

/-! ### What is read once is read in the same way again -/

mutual
theorem asRead_twice (v : PyData) : asRead (asRead v) = asRead v := by
  match v with
  | .none => rfl
  | .bool b => rfl
  | .int i => rfl
  | .float t => rfl
  | .str s => rfl
  | .list items => rw [asRead, asRead, asReadItems_twice items]
  | .tuple items => rw [asRead, asRead, asReadItems_twice items]
  | .dict items => rw [asRead, asRead, asReadFields_twice items]
theorem asReadItems_twice (xs : List PyData) : asReadItems (asReadItems xs) = asReadItems xs := by
  match xs with
  | [] => rfl
  | x :: xs => rw [asReadItems, asReadItems, asRead_twice x, asReadItems_twice xs]
theorem asReadFields_twice (xs : List (PyKey × PyData)) : asReadFields (asReadFields xs) = asReadFields xs := by
  match xs with
  | [] => rfl
  | (k, x) :: xs => rw [asReadFields, asReadFields, asRead_twice x, asReadFields_twice xs]; rfl
end

mutual
theorem dumpIndent_asRead (n level : Nat) (v : PyData) : dumpIndent n level (asRead v) = dumpIndent n level v := by
  match v with
  | .none => rfl
  | .bool b => rfl
  | .int i => rfl
  | .float t => rfl
  | .str s => rfl
  | .list [] => rfl
  | .list (x :: xs) =>
    rw [asRead, asReadItems, dumpIndent, dumpIndent, dumpIndent_asRead n (level + 1) x, dumpIndentItems_asRead n level xs]
  | .tuple [] => rw [asRead, asReadItems, dumpIndent, dumpIndent]
  | .tuple (x :: xs) =>
    rw [asRead, asReadItems, dumpIndent, dumpIndent, dumpIndent_asRead n (level + 1) x, dumpIndentItems_asRead n level xs]
  | .dict [] => rfl
  | .dict ((k, x) :: xs) =>
    rw [asRead, asReadFields, dumpIndent, dumpIndent, dumpIndent_asRead n (level + 1) x, dumpIndentFields_asRead n level xs]
    rfl
theorem dumpIndentItems_asRead (n level : Nat) (xs : List PyData) :
    dumpIndentItems n level (asReadItems xs) = dumpIndentItems n level xs := by
  match xs with
  | [] => rfl
  | x :: xs =>
    rw [asReadItems, dumpIndentItems, dumpIndentItems, dumpIndent_asRead n (level + 1) x, dumpIndentItems_asRead n level xs]
theorem dumpIndentFields_asRead (n level : Nat) (xs : List (PyKey × PyData)) :
    dumpIndentFields n level (asReadFields xs) = dumpIndentFields n level xs := by
  match xs with
  | [] => rfl
  | (k, x) :: xs =>
    rw [asReadFields, dumpIndentFields, dumpIndentFields, dumpIndent_asRead n (level + 1) x,
      dumpIndentFields_asRead n level xs]
    rfl
end

mutual
theorem storable_asRead (v : PyData) (h : Storable v) : Storable (asRead v) := by
  match v, h with
  | .none, _ => exact .none
  | .bool b, _ => exact .bool b
  | .int i, _ => exact .int i
  | .float t, .float _ h => exact .float t h
  | .str s, _ => exact .str s
  | .list items, .list _ h => rw [asRead]; exact .list _ (storable_items items h)
  | .tuple items, .tuple _ h => rw [asRead]; exact .list _ (storable_items items h)
  | .dict items, .dict _ hk h =>
    rw [asRead]
    refine .dict _ ?_ (storable_fields items h)
    have : (asReadFields items).map (fun p => p.1.text) = items.map (fun p => p.1.text) := by
      rw [asReadFields_eq]
      unfold readFields
      rw [List.map_map, List.map_map]
      rfl
    rw [this]
    exact hk
theorem storable_items (xs : List PyData) (h : ∀ x ∈ xs, Storable x) : ∀ x ∈ asReadItems xs, Storable x := by
  match xs, h with
  | [], _ => intro x hx; cases hx
  | y :: ys, h =>
    intro x hx
    rw [asReadItems, List.mem_cons] at hx
    rcases hx with rfl | hx
    · exact storable_asRead y (h y List.mem_cons_self)
    · exact storable_items ys (fun z hz => h z (List.mem_cons_of_mem _ hz)) x hx
theorem storable_fields (xs : List (PyKey × PyData)) (h : ∀ p ∈ xs, Storable p.2) :
    ∀ p ∈ asReadFields xs, Storable p.2 := by
  match xs, h with
  | [], _ => intro x hx; cases hx
  | (k, y) :: ys, h =>
    intro x hx
    rw [asReadFields, List.mem_cons] at hx
    rcases hx with rfl | hx
    · exact storable_asRead y (h (k, y) List.mem_cons_self)
    · exact storable_fields ys (fun z hz => h z (List.mem_cons_of_mem _ hz)) x hx
end

/-! ### Dictionaries -/

theorem item_dictData (xs : Dict PyData) (name : Str) : (dictData xs).item name = Dict.get xs name := by
  unfold dictData PyData.item
  dsimp only
  induction xs with
  | nil => rfl
  | cons p xs ih =>
    obtain ⟨k, v⟩ := p
    rw [List.map_cons, List.find?_cons]
    by_cases h : k = name
    · subst h
      simp [Dict.get]
    · have : ((PyKey.str k, v).1 == PyKey.str name) = false := by simp [h]
      rw [this, Dict.get, if_neg h]
      exact ih

theorem stringItems_dictData (xs : Dict PyData) : stringItems (xs.map (fun p => (.str p.1, p.2))) = xs := by
  unfold stringItems
  induction xs with
  | nil => rfl
  | cons p xs ih => simp only [List.map_cons, List.filterMap_cons, ih]

theorem asRead_dictData (xs : Dict PyData) : asRead (dictData xs) = dictData (xs.map (fun p => (p.1, asRead p.2))) := by
  unfold dictData
  rw [asRead, asReadFields_eq]
  unfold readFields
  rw [List.map_map, List.map_map, List.map_map]
  rfl

theorem storable_dictData {xs : Dict PyData} (hn : (xs.map (·.1)).Nodup) (h : ∀ p ∈ xs, Storable p.2) :
    Storable (dictData xs) := by
  refine .dict _ ?_ ?_
  · rw [List.map_map]
    exact hn
  · intro p hp
    obtain ⟨q, hq, rfl⟩ := List.mem_map.mp hp
    exact h q hq

theorem faithful_dictData {xs : Dict PyData} (hn : (xs.map (·.1)).Nodup) (h : ∀ p ∈ xs, Faithful p.2) :
    Faithful (dictData xs) := by
  refine .dict _ ?_ ?_ ?_
  · intro p hp
    obtain ⟨q, _, rfl⟩ := List.mem_map.mp hp
    exact ⟨_, rfl⟩
  · have : (xs.map (fun p => (PyKey.str p.1, p.2))).map (·.1) = (xs.map (·.1)).map PyKey.str := by
      rw [List.map_map, List.map_map]; rfl
    rw [this]
    exact (List.pairwise_map.mpr (hn.imp (fun hab e => hab (by injection e))))
  · intro p hp
    obtain ⟨q, hq, rfl⟩ := List.mem_map.mp hp
    exact h q hq

theorem loads_dumpIndent (n : Nat) {v : PyData} (hv : Storable v) : loads (dumpIndent n 0 v) = some (asRead v) := by
  have h := scan_value n v 0 [] (2 * (dumpIndent n 0 v).length + 2) hv (by intro c t h; cases h) (by omega)
  rw [List.append_nil] at h
  obtain ⟨c, s, e, hc⟩ := dumpIndent_head n 0 hv
  unfold loads
  rw [show skipWs (dumpIndent n 0 v) = dumpIndent n 0 v by rw [e]; exact skipWs_stop (valueChar_ne hc).1, h]
  rfl

/-! ### Calls -/

/-- The JSON object of a call as it is written. -/
private theorem withHash_good {call : PyData} (h : GoodCall call) (x : Str) :
    ∃ items, call = .dict items ∧ withHash call x = .dict (items ++ [(.str "hash".toList, .str x)]) ∧
      Storable (withHash call x) := by
  obtain ⟨hs, items, rfl, hk⟩ := h
  have hnone : PyData.item (.dict items) "hash".toList = none := by
    unfold PyData.item
    dsimp only
    rw [Option.map_eq_none_iff, List.find?_eq_none]
    intro p hp e
    have e : p.1 = .str "hash".toList := by simpa using e
    exact hk p hp (by rw [e]; rfl)
  have e : withHash (.dict items) x = .dict (items ++ [(.str "hash".toList, .str x)]) := by
    unfold withHash
    dsimp only
    rw [hnone]
  refine ⟨items, rfl, e, ?_⟩
  rw [e]
  cases hs with
  | dict _ hn hv =>
    refine .dict _ ?_ ?_
    · rw [List.map_append, List.nodup_append]
      refine ⟨hn, by simp, ?_⟩
      intro a ha b hb
      obtain ⟨p, hp, rfl⟩ := List.mem_map.mp ha
      simp only [List.map_cons, List.map_nil, List.mem_singleton] at hb
      rw [hb]
      exact hk p hp
    · intro p hp
      rcases List.mem_append.mp hp with hp | hp
      · exact hv p hp
      · simp only [List.mem_singleton] at hp
        rw [hp]
        exact .str _

/-- The object of a call that has been read. -/
private theorem read_hash {call : PyData} (h : GoodCall call) (x : Str) :
    ∃ items, asRead (withHash call x) = .dict items ∧
      PyData.item (.dict items) "hash".toList = some (.str x) := by
  obtain ⟨items, e1, e2, -⟩ := withHash_good h x
  obtain ⟨-, items', e3, hk⟩ := h
  rw [e1] at e3
  injection e3 with e3
  subst e3
  refine ⟨_, by rw [e2, asRead], ?_⟩
  rw [asReadFields_eq]
  have := item_dictData (readFields (items ++ [(.str "hash".toList, .str x)])) "hash".toList
  unfold dictData at this
  rw [this]
  clear this e1 e2
  induction items with
  | nil => rfl
  | cons p items ih =>
    rw [List.cons_append]
    have hp := hk p List.mem_cons_self
    show Dict.get ((p.1.text, asRead p.2) :: readFields _) _ = _
    rw [Dict.get, if_neg hp]
    exact ih (fun q hq => hk q (List.mem_cons_of_mem _ hq))

/-- A snapshot that has been recorded now, or read from a file. -/
def GoodSnap {digest : Str → Str} {E : Type} (s : FnSnap (pyFunctions digest E)) : Prop :=
  Storable s.result ∧ ∃ call, GoodCall call ∧ (s.call = call ∨ s.call = asRead (withHash call s.hash))

variable {digest : Str → Str} {E : Type}

/-- What `GoodSnap` is made into by writing and reading. -/
def rereadSnap (s : FnSnap (pyFunctions digest E)) : FnSnap (pyFunctions digest E) :=
  ⟨asRead (withHash s.call s.hash), s.hash, asRead s.result⟩

private theorem withHash_read {call : PyData} (h : GoodCall call) (x : Str) :
    withHash (asRead (withHash call x)) x = asRead (withHash call x) := by
  obtain ⟨items, e1, e2⟩ := read_hash h x
  rw [e1]
  unfold withHash
  dsimp only
  rw [e2]

private theorem texts_eq {a b c d : PyData} (h1 : asRead a = asRead c) (h2 : asRead b = asRead d) :
    dumpIndent 4 0 (dictData [("call".toList, a), ("result".toList, b)]) =
      dumpIndent 4 0 (dictData [("call".toList, c), ("result".toList, d)]) := by
  rw [← dumpIndent_asRead 4 0 (dictData [("call".toList, a), ("result".toList, b)]),
    ← dumpIndent_asRead 4 0 (dictData [("call".toList, c), ("result".toList, d)]), asRead_dictData, asRead_dictData]
  simp only [List.map_cons, List.map_nil, h1, h2]

theorem callText_asRead (c : PyData) (h : Str) (r : PyData) : callText c h (asRead r) = callText c h r :=
  texts_eq rfl (asRead_twice r)

/-- The text of a good snapshot is that of a recorded call. -/
theorem good_text (s : FnSnap (pyFunctions digest E)) (h : GoodSnap s) :
    ∃ call, GoodCall call ∧ asRead (withHash s.call s.hash) = asRead (withHash call s.hash) ∧
      callText s.call s.hash s.result = callText call s.hash s.result := by
  obtain ⟨hr, call, hc, e | e⟩ := h
  · exact ⟨call, hc, by rw [e], by rw [e]⟩
  · refine ⟨call, hc, ?_, ?_⟩
    · rw [e, withHash_read hc, asRead_twice]
    · unfold callText
      rw [e, withHash_read hc]
      exact texts_eq (asRead_twice _) rfl

theorem rewritten_text {call : PyData} {x : Str} {result : PyData} (hc : GoodCall call) :
    callText (asRead (withHash call x)) x result = callText call x result := by
  unfold callText
  rw [withHash_read hc]
  exact texts_eq (asRead_twice _) rfl

theorem readCall_text {call : PyData} {x : Str} {result : PyData} (hc : GoodCall call) (hr : Storable result) :
    readCall digest E (callText call x result) = some ⟨asRead (withHash call x), x, asRead result⟩ := by
  obtain ⟨_, _, _, hw⟩ := withHash_good hc x
  obtain ⟨items, e1, e2⟩ := read_hash hc x
  have hs : Storable (dictData [("call".toList, withHash call x), ("result".toList, result)]) := by
    refine storable_dictData (show (["call".toList, "result".toList] : List Str).Nodup by decide) ?_
    intro p hp
    simp only [List.mem_cons, List.not_mem_nil, or_false] at hp
    rcases hp with rfl | rfl
    · exact hw
    · exact hr
  unfold readCall callText
  rw [loads_dumpIndent 4 hs, asRead_dictData]
  dsimp only
  rw [item_dictData, item_dictData]
  have g1 : Dict.get (List.map (fun p => (p.1, asRead p.2)) [("call".toList, withHash call x), ("result".toList, result)])
      "call".toList = some (asRead (withHash call x)) := rfl
  have g2 : Dict.get (List.map (fun p => (p.1, asRead p.2)) [("call".toList, withHash call x), ("result".toList, result)])
      "result".toList = some (asRead result) := rfl
  rw [g1, g2]
  dsimp only
  have g3 : callHash digest (asRead (withHash call x)) = some x := by
    unfold callHash
    rw [e1]
    dsimp only
    rw [e2]
  rw [g3]

theorem readCall_good (s : FnSnap (pyFunctions digest E)) (h : GoodSnap s) :
    readCall digest E (callText s.call s.hash s.result) = some (rereadSnap s) := by
  obtain ⟨call, hc, e1, e2⟩ := good_text s h
  rw [e2, readCall_text hc h.1]
  unfold rereadSnap
  rw [e1]

theorem good_reread (s : FnSnap (pyFunctions digest E)) (h : GoodSnap s) : GoodSnap (rereadSnap s) := by
  obtain ⟨call, hc, e1, -⟩ := good_text s h
  exact ⟨storable_asRead _ h.1, call, hc, .inr e1⟩

/-! ### Runs -/

/-- What the log shows depends only on the hashes and results of the snapshots. -/
theorem log_congr {T : FnTypes} (capture : Bool) (snaps snaps' : List (FnSnap T)) (answers : Nat → Except T.E T.V)
    (h : snaps.map (fun s => (s.hash, s.result)) = snaps'.map (fun s => (s.hash, s.result))) (p : Prog T) :
    ∀ calls calls' i, (runProg capture snaps answers p calls i).1 = (runProg capture snaps' answers p calls' i).1 := by
  have hf : ∀ x, (findSnap snaps x).map (·.result) = (findSnap snaps' x).map (·.result) := by
    intro x
    have key : ∀ l : List (FnSnap T), (l.find? (fun s => s.hash == x)).map (·.result) =
        ((l.map (fun s => (s.hash, s.result))).find? (fun q => q.1 == x)).map (·.2) := by
      intro l
      induction l with
      | nil => rfl
      | cons s l ih =>
        rw [List.map_cons, List.find?_cons, List.find?_cons]
        dsimp only
        cases hs : s.hash == x with
        | true => rfl
        | false => exact ih
    unfold findSnap
    rw [key, key, List.map_reverse, List.map_reverse, h]
  induction p with
  | done => intro calls calls' i; rfl
  | call c k ih =>
    intro calls calls' i
    have h1 : (snapshotCall capture snaps answers calls i c).1 = (snapshotCall capture snaps' answers calls' i c).1 ∧
        (snapshotCall capture snaps answers calls i c).2.2 = (snapshotCall capture snaps' answers calls' i c).2.2 := by
      unfold snapshotCall
      cases hh : T.hash c with
      | none => exact ⟨rfl, rfl⟩
      | some x =>
        dsimp only
        have := hf x
        cases h1 : findSnap snaps x with
        | some s =>
          cases h2 : findSnap snaps' x with
          | some s' =>
            rw [h1, h2, Option.map_some, Option.map_some] at this
            injection this with this
            dsimp only
            rw [this]
            exact ⟨rfl, rfl⟩
          | none => rw [h1, h2] at this; cases this
        | none =>
          cases h2 : findSnap snaps' x with
          | some s' => rw [h1, h2] at this; cases this
          | none =>
            dsimp only
            cases capture with
            | false => exact ⟨rfl, rfl⟩
            | true =>
              cases answers i with
              | error e => exact ⟨rfl, rfl⟩
              | ok v => exact ⟨rfl, rfl⟩
    simp only [runProg]
    rw [h1.1, h1.2, ih _ _ (snapshotCall capture snaps' answers calls' i c).2.1]

/-- Where the snapshots that are written come from. -/
theorem calls_from {T : FnTypes} (capture : Bool) (snaps : List (FnSnap T)) (answers : Nat → Except T.E T.V) (p : Prog T) :
    ∀ calls i, ∀ s ∈ (runProg capture snaps answers p calls i).2, s ∈ calls ∨ s ∈ snaps ∨
      ∃ e ∈ (runProg capture snaps answers p calls i).1, e.call = s.call ∧ e.outcome = .val s.result := by
  induction p with
  | done => intro calls i s hs; exact .inl hs
  | call c k ih =>
    intro calls i s hs
    simp only [runProg] at hs ⊢
    rcases ih _ _ _ s hs with h | h | ⟨e, he, h⟩
    · have : s ∈ calls ∨ s ∈ snaps ∨ (c = s.call ∧ (snapshotCall capture snaps answers calls i c).1 = .val s.result) := by
        clear hs
        unfold snapshotCall at h ⊢
        cases hh : T.hash c with
        | none => rw [hh] at h; exact .inl h
        | some x =>
          rw [hh] at h
          dsimp only at h ⊢
          cases h1 : findSnap snaps x with
          | some s' =>
            rw [h1] at h
            dsimp only at h
            unfold addCall at h
            split at h
            · exact .inl h
            · rcases List.mem_append.mp h with h | h
              · exact .inl h
              · simp only [List.mem_singleton] at h
                subst h
                unfold findSnap at h1
                exact .inr (.inl (List.mem_reverse.mp (List.mem_of_find?_eq_some h1)))
          | none =>
            rw [h1] at h
            dsimp only at h ⊢
            cases capture with
            | false => exact .inl h
            | true =>
              cases ha : answers i with
              | error e => rw [ha] at h; exact .inl h
              | ok v =>
                rw [ha] at h
                dsimp only at h
                rcases List.mem_append.mp h with h | h
                · exact .inl ((List.mem_filter.mp h).1)
                · simp only [List.mem_singleton] at h
                  subst h
                  exact .inr (.inr ⟨rfl, rfl⟩)
      rcases this with h | h | h
      · exact .inl h
      · exact .inr (.inl h)
      · exact .inr (.inr ⟨_, List.mem_cons_self, h⟩)
    · exact .inr (.inl h)
    · exact .inr (.inr ⟨e, List.mem_cons_of_mem _ he, h⟩)

private theorem set_mapped {α β : Type} (f : α → β) (d : Dict α) (k : Str) (v : α) :
    (Dict.set d k v).map (fun p => (p.1, f p.2)) = Dict.set (d.map (fun p => (p.1, f p.2))) k (f v) := by
  induction d with
  | nil => rfl
  | cons p d ih =>
    obtain ⟨k', v'⟩ := p
    rw [List.map_cons, Dict.set, Dict.set]
    dsimp only
    by_cases h : k' = k
    · rw [if_pos h, if_pos h]; rfl
    · rw [if_neg h, if_neg h, List.map_cons, ih]

theorem mem_setD {α : Type} {d : Dict α} {k : Str} {v : α} {p : Str × α} (h : p ∈ Dict.set d k v) :
    p ∈ d ∨ p = (k, v) := by
  induction d with
  | nil =>
    simp only [Dict.set, List.mem_singleton] at h
    exact .inr h
  | cons q d ih =>
    obtain ⟨k', v'⟩ := q
    unfold Dict.set at h
    by_cases hk : k' = k
    · rw [if_pos hk] at h
      rcases List.mem_cons.mp h with h | h
      · exact .inr h
      · exact .inl (List.mem_cons_of_mem _ h)
    · rw [if_neg hk] at h
      rcases List.mem_cons.mp h with h | h
      · exact .inl (h ▸ List.mem_cons_self)
      · rcases ih h with h | h
        · exact .inl (List.mem_cons_of_mem _ h)
        · exact .inr h

/-- The texts written are those of the values `writeCalls` keeps. -/
theorem writeTexts_files (calls : List (FnSnap (pyFunctions digest E))) (hc : ∀ s ∈ calls, GoodSnap s) :
    ∀ files : FnFiles (pyFunctions digest E), (∀ p ∈ files, GoodSnap p.2 ∧ p.1 = p.2.hash ++ ".json".toList ∧
        asRead p.2.result = p.2.result) →
    ∃ files', writeCalls calls files = some files' ∧
      writeTexts calls (files.map (fun p => (p.1, callText p.2.call p.2.hash p.2.result))) =
        files'.map (fun p => (p.1, callText p.2.call p.2.hash p.2.result)) ∧
      ∀ p ∈ files', GoodSnap p.2 ∧ p.1 = p.2.hash ++ ".json".toList ∧ asRead p.2.result = p.2.result := by
  induction calls with
  | nil => intro files hf; exact ⟨files, rfl, rfl, hf⟩
  | cons s calls ih =>
    intro files hf
    have hs := hc s List.mem_cons_self
    have hj : (pyFunctions digest E).json s.result = some (asRead s.result) := loads_dumpIndent 4 hs.1
    have hf' : ∀ p ∈ files.set (s.hash ++ ".json".toList)
        (⟨s.call, s.hash, asRead s.result⟩ : FnSnap (pyFunctions digest E)),
        GoodSnap p.2 ∧ p.1 = p.2.hash ++ ".json".toList ∧ asRead p.2.result = p.2.result := by
      intro p hp
      rcases mem_setD hp with h | rfl
      · exact hf p h
      · exact ⟨⟨storable_asRead _ hs.1, hs.2⟩, rfl, asRead_twice _⟩
    obtain ⟨files', h1, h2, h3⟩ := ih (fun x hx => hc x (List.mem_cons_of_mem _ hx)) _ hf'
    refine ⟨files', ?_, ?_, h3⟩
    · rw [writeCalls, hj]
      exact h1
    · rw [← h2, writeTexts]
      congr 1
      have := set_mapped (fun x : FnSnap (pyFunctions digest E) => callText x.call x.hash x.result) files
        (s.hash ++ ".json".toList) ⟨s.call, s.hash, asRead s.result⟩
      rw [this]
      congr 1
      exact (callText_asRead _ _ _).symm

/-- A rearrangement of images is the image of a rearrangement. -/
theorem perm_of_map {α β : Type} (f : α → β) {l : List α} {m : List β} (h : m.Perm (l.map f)) :
    ∃ l' : List α, l'.Perm l ∧ m = l'.map f := by
  generalize hx : l.map f = x at h
  induction h generalizing l with
  | nil => exact ⟨l, List.Perm.refl _, hx.symm⟩
  | cons a _ ih =>
    cases l with
    | nil => cases hx
    | cons b l =>
      rw [List.map_cons] at hx
      injection hx with e1 e2
      obtain ⟨l', h1, h2⟩ := ih e2
      exact ⟨b :: l', h1.cons b, by rw [List.map_cons, h2, e1]⟩
  | swap a b l0 =>
    match l, hx with
    | c :: d :: l, hx =>
      rw [List.map_cons, List.map_cons] at hx
      injection hx with e1 e2
      injection e2 with e2 e3
      exact ⟨d :: c :: l, List.Perm.swap c d l, by rw [List.map_cons, List.map_cons, e1, e2, e3]⟩
  | trans _ _ ih1 ih2 =>
    obtain ⟨l1, h1, h2⟩ := ih2 hx
    obtain ⟨l2, h3, h4⟩ := ih1 h2.symm
    exact ⟨l2, h3.trans h1, h4⟩

theorem mapM_some {α β : Type} {f : α → Option β} {g : α → β} {l : List α} (h : ∀ x ∈ l, f x = some (g x)) :
    l.mapM f = some (l.map g) := by
  induction l with
  | nil => rfl
  | cons x l ih =>
    rw [List.mapM_cons, h x List.mem_cons_self, ih (fun y hy => h y (List.mem_cons_of_mem _ hy))]
    rfl

theorem mapM_mem {α β : Type} {f : α → Option β} {l : List α} {m : List β} (h : l.mapM f = some m) :
    ∀ y ∈ m, ∃ x ∈ l, f x = some y := by
  induction l generalizing m with
  | nil =>
    injection h with h
    subst h
    intro y hy
    cases hy
  | cons x l ih =>
    rw [List.mapM_cons] at h
    cases hx : f x with
    | none => rw [hx] at h; cases h
    | some z =>
      rw [hx] at h
      cases hl : l.mapM f with
      | none => rw [hl] at h; cases h
      | some zs =>
        rw [hl] at h
        injection h with h
        subst h
        intro y hy
        rcases List.mem_cons.mp hy with rfl | hy
        · exact ⟨x, List.mem_cons_self, hx⟩
        · obtain ⟨x', h1, h2⟩ := ih hl y hy
          exact ⟨x', List.mem_cons_of_mem _ h1, h2⟩

end Verif.Lemmas
