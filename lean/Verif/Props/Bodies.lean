import Verif.Spec.Bodies
import Verif.Props.Hashing

/-! # C116: the bodies of requests -/

namespace Verif.Props
open Verif.Py Verif.Model Verif.Spec

private theorem alphabet : b64Alphabet = base64Digits := by decide

private theorem numeral_from (base : Nat) (ds : List Nat) :
    ∀ n, ds.foldl (fun n d => base * n + d) n = base ^ ds.length * n + numeral base ds := by
  induction ds with
  | nil => intro n; simp [numeral]
  | cons d ds ih =>
    intro n
    have h0 := ih (base * 0 + d)
    unfold numeral
    rw [List.foldl_cons, List.foldl_cons, ih, h0, List.length_cons, Nat.pow_succ]
    rw [Nat.mul_zero, Nat.zero_add, Nat.mul_add, Nat.mul_assoc, Nat.add_assoc]

private theorem numeral_append (base : Nat) (a b : List Nat) :
    numeral base (a ++ b) = base ^ b.length * numeral base a + numeral base b := by
  conv => lhs; unfold numeral
  rw [List.foldl_append, numeral_from]
  rfl

private theorem base64_ok : ∀ b : Bytes, ∃ (digits : List Nat) (pad : Nat), pad ≤ 2 ∧ (∀ d ∈ digits, d < 64) ∧
    b64encode b = digits.map b64Char ++ List.replicate pad '=' ∧
    3 * (digits.length + pad) = 4 * (b.length + pad) ∧
    numeral 64 digits * 64 ^ pad = numeral 256 (b.map (·.toNat)) * 256 ^ pad
  | [] => ⟨[], 0, by omega, by simp, rfl, rfl, rfl⟩
  | [a] => by
    have ha := a.toNat_lt
    refine ⟨[a.toNat / 4, a.toNat % 4 * 16], 2, by omega, ?_, rfl, rfl, ?_⟩
    · intro d hd
      simp only [List.mem_cons, List.not_mem_nil, or_false] at hd
      omega
    · simp only [numeral, List.foldl_cons, List.foldl_nil, List.map_cons, List.map_nil]
      omega
  | [a, b] => by
    have ha := a.toNat_lt
    have hb := b.toNat_lt
    refine ⟨[a.toNat / 4, a.toNat % 4 * 16 + b.toNat / 16, b.toNat % 16 * 4], 1, by omega, ?_, rfl, rfl, ?_⟩
    · intro d hd
      simp only [List.mem_cons, List.not_mem_nil, or_false] at hd
      omega
    · simp only [numeral, List.foldl_cons, List.foldl_nil, List.map_cons, List.map_nil]
      omega
  | a :: b :: c :: rest => by
    have ha := a.toNat_lt
    have hb := b.toNat_lt
    have hc := c.toNat_lt
    obtain ⟨ds, pad, h1, h2, h3, h4, h5⟩ := base64_ok rest
    refine ⟨[a.toNat / 4, a.toNat % 4 * 16 + b.toNat / 16, b.toNat % 16 * 4 + c.toNat / 64, c.toNat % 64] ++ ds,
      pad, h1, ?_, ?_, ?_, ?_⟩
    · intro d hd
      rcases List.mem_append.mp hd with hd | hd
      · simp only [List.mem_cons, List.not_mem_nil, or_false] at hd
        omega
      · exact h2 d hd
    · rw [b64encode, h3]; rfl
    · simp only [List.length_append, List.length_cons, List.length_nil]
      omega
    · have e : (a :: b :: c :: rest).map (·.toNat) = [a.toNat, b.toNat, c.toNat] ++ rest.map (·.toNat) := rfl
      rw [e, numeral_append, numeral_append, Nat.add_mul, Nat.add_mul, h5]
      have hl : 64 ^ ds.length * 64 ^ pad = 256 ^ rest.length * 256 ^ pad := by
        rw [← Nat.pow_add, ← Nat.pow_add]
        have h64 : (64 : Nat) = 4 ^ 3 := rfl
        have h256 : (256 : Nat) = 4 ^ 4 := rfl
        rw [h64, h256, ← Nat.pow_mul, ← Nat.pow_mul, h4]
      have hv : numeral 64 [a.toNat / 4, a.toNat % 4 * 16 + b.toNat / 16, b.toNat % 16 * 4 + c.toNat / 64,
          c.toNat % 64] = numeral 256 [a.toNat, b.toNat, c.toNat] := by
        simp only [numeral, List.foldl_cons, List.foldl_nil]
        omega
      rw [hv, List.length_map, Nat.mul_right_comm, hl, Nat.mul_right_comm (256 ^ _)]

/-- **C116.** The encoded body is the base 64 form of the bytes of the body: for a text those of its UTF-8
form.  Bodies that are neither a text nor bytes raise an exception. -/
theorem C116_encoding (b : RqBody) :
    match bodyBytes b with
    | some x => ∃ s, encodeBody b = some s ∧ IsBase64 x s
    | none => encodeBody b = none := by
  have key : ∀ x, IsBase64 x (b64encode x) := by
    intro x
    obtain ⟨ds, pad, h1, h2, h3, h4, h5⟩ := base64_ok x
    refine ⟨ds, pad, h1, h2, ?_, h4, h5⟩
    rw [h3, ← alphabet]
    rfl
  cases b with
  | text s => exact ⟨_, rfl, key _⟩
  | raw b => exact ⟨_, rfl, key _⟩
  | other => rfl

private theorem getD_at {l : Str} {d : Nat} (hd : d < l.length) : l.getD d '=' = l[d] := by
  rw [List.getD_eq_getElem?_getD, List.getElem?_eq_getElem hd]
  rfl

private theorem digit_inj : ∀ d, d < 64 → ∀ e, e < 64 → base64Digits.getD d '=' = base64Digits.getD e '=' → d = e := by
  have h : base64Digits.Nodup := by decide
  have hl : base64Digits.length = 64 := by decide
  intro d hd e he hde
  rw [← hl] at hd he
  rw [getD_at hd, getD_at he] at hde
  exact (List.getElem_inj h).mp hde

private theorem digit_not_pad : ∀ d, d < 64 → base64Digits.getD d '=' ≠ '=' := by
  have h : '=' ∉ base64Digits := by decide
  have hl : base64Digits.length = 64 := by decide
  intro d hd e
  rw [← hl] at hd
  rw [getD_at hd] at e
  exact h (e ▸ List.getElem_mem _)

private theorem digits_inj : ∀ (ds es : List Nat) (p q : Nat), (∀ d ∈ ds, d < 64) → (∀ d ∈ es, d < 64) →
    ds.map (fun d => base64Digits.getD d '=') ++ List.replicate p '=' =
      es.map (fun d => base64Digits.getD d '=') ++ List.replicate q '=' → ds = es ∧ p = q
  | [], [], p, q, _, _, h => by
    have := congrArg List.length h
    simpa using this
  | [], e :: es, p, q, _, he, h => by
    cases p with
    | zero => cases h
    | succ p =>
      exact absurd (List.cons.inj h).1.symm (digit_not_pad e (he e List.mem_cons_self))
  | d :: ds, [], p, q, hd, _, h => by
    cases q with
    | zero => cases h
    | succ q =>
      exact absurd (List.cons.inj h).1 (digit_not_pad d (hd d List.mem_cons_self))
  | d :: ds, e :: es, p, q, hd, he, h => by
    obtain ⟨h1, h2⟩ := List.cons.inj h
    obtain ⟨h3, h4⟩ := digits_inj ds es p q (fun x hx => hd x (List.mem_cons_of_mem _ hx))
      (fun x hx => he x (List.mem_cons_of_mem _ hx)) h2
    exact ⟨by rw [digit_inj d (hd d List.mem_cons_self) e (he e List.mem_cons_self) h1, h3], h4⟩

private theorem numeral_inj : ∀ (a b : Bytes), a.length = b.length →
    numeral 256 (a.map (·.toNat)) = numeral 256 (b.map (·.toNat)) → a = b := by
  have lt : ∀ a : Bytes, numeral 256 (a.map (·.toNat)) < 256 ^ a.length := by
    intro a
    induction a with
    | nil => decide
    | cons x a ih =>
      have e : (x :: a).map (·.toNat) = [x.toNat] ++ a.map (·.toNat) := rfl
      have hx := x.toNat_lt
      rw [e, numeral_append, List.length_map, List.length_cons, Nat.pow_succ]
      have : numeral 256 [x.toNat] = x.toNat := by simp [numeral]
      rw [this]
      have : 256 ^ a.length * x.toNat ≤ 256 ^ a.length * 255 := Nat.mul_le_mul_left _ (by omega)
      omega
  intro a
  induction a with
  | nil => intro b hb _; exact (List.length_eq_zero_iff.mp hb.symm).symm
  | cons x a ih =>
    intro b hb h
    cases b with
    | nil => cases hb
    | cons y b =>
      have hl : a.length = b.length := by simpa using hb
      have e : ∀ (x : UInt8) (a : Bytes), (x :: a).map (·.toNat) = [x.toNat] ++ a.map (·.toNat) := fun _ _ => rfl
      have one : ∀ x : UInt8, numeral 256 [x.toNat] = x.toNat := fun x => by simp [numeral]
      rw [e, e, numeral_append, numeral_append, one, one, List.length_map, List.length_map, hl] at h
      have h1 := lt a
      have h2 := lt b
      rw [hl] at h1
      have hxy : x.toNat = y.toNat := by
        have := congrArg (· / 256 ^ b.length) h
        simp only [Nat.mul_add_div (Nat.pow_pos (by decide : 0 < 256)), Nat.div_eq_of_lt h1, Nat.div_eq_of_lt h2,
          Nat.add_zero] at this
        exact this
      rw [hxy] at h
      rw [UInt8.toNat_inj.mp hxy, ih b hl (Nat.add_left_cancel h)]

/-- The bytes can be read off a base 64 text. -/
theorem C116_decodable {a b : Bytes} {s : Str} (ha : IsBase64 a s) (hb : IsBase64 b s) : a = b := by
  obtain ⟨ds, p, -, h2, h3, h4, h5⟩ := ha
  obtain ⟨es, q, -, g2, g3, g4, g5⟩ := hb
  obtain ⟨rfl, rfl⟩ := digits_inj ds es p q h2 g2 (h3.symm.trans g3)
  refine numeral_inj a b (by omega) ?_
  exact Nat.eq_of_mul_eq_mul_right (Nat.pow_pos (by decide)) (h5.symm.trans g5)

/-- Encoded bodies are the same exactly if the bytes of the bodies are. -/
private theorem encodeBody_inj {b b' : RqBody} {s s' : Str} (h : encodeBody b = some s) (h' : encodeBody b' = some s') :
    s = s' ↔ bodyBytes b = bodyBytes b' := by
  have k := C116_encoding b
  have k' := C116_encoding b'
  cases hb : bodyBytes b with
  | none => rw [hb] at k; rw [show encodeBody b = none from k] at h; cases h
  | some x =>
    cases hb' : bodyBytes b' with
    | none => rw [hb'] at k'; rw [show encodeBody b' = none from k'] at h'; cases h'
    | some y =>
      rw [hb] at k
      rw [hb'] at k'
      obtain ⟨t, e, i⟩ := k
      obtain ⟨t', e', i'⟩ := k'
      rw [h] at e; rw [h'] at e'
      cases e; cases e'
      constructor
      · rintro rfl; rw [C116_decodable i i']
      · intro hxy
        injection hxy with hxy
        subst hxy
        have f : ∀ b : RqBody, bodyBytes b = some x → encodeBody b = some (b64encode x) := by
          intro b hb
          cases b <;> first | (injection hb with hb; subst hb; rfl) | cases hb
        exact Option.some.inj ((h.symm.trans ((f b hb).trans (f b' hb').symm)).trans h')

/-- **C116.** Of two requests as a test makes them, one is taken for the other exactly if they have the same
URL and method, the same headers among those that are not ignored, bodies of the same bytes or both none,
and they are at the same place among equal ones.  (As in C111 the digest does not collide for the two.) -/
theorem C116_same (T : RqTypes) (sha : Str → Str) (ign : Ignore) {r r' : RawRq} {q q' : Rq}
    (hq : encodeRq r = some q) (hq' : encodeRq r' = some q')
    (hn : (r.headers.map (·.1)).Nodup) (hn' : (r'.headers.map (·.1)).Nodup) (n m : Nat)
    (hno : NoCollision sha (fun t => t = dumps (nthKey (shaT T sha) ign none q n).json.data ∨
      t = dumps (nthKey (shaT T sha) ign none q' m).json.data)) :
    nthHash (shaT T sha) ign none q n = nthHash (shaT T sha) ign none q' m ↔
      n = m ∧ r.url = r'.url ∧ r.method = r'.method ∧ r.body.map bodyBytes = r'.body.map bodyBytes ∧
      ∀ p, KeepsHeader T.lower ign p → (p ∈ r.headers ↔ p ∈ r'.headers) := by
  have parts : ∀ {r : RawRq} {q : Rq}, encodeRq r = some q → q.url = r.url ∧ q.method = r.method ∧
      q.headers = r.headers ∧ ((r.body = none ∧ q.body = none) ∨
        ∃ b s, r.body = some b ∧ q.body = some s ∧ encodeBody b = some s) := by
    intro r q h
    unfold encodeRq at h
    cases hb : r.body with
    | none => rw [hb] at h; cases h; exact ⟨rfl, rfl, rfl, .inl ⟨rfl, rfl⟩⟩
    | some b =>
      rw [hb] at h
      dsimp only at h
      cases he : encodeBody b with
      | none => rw [he] at h; cases h
      | some s => rw [he] at h; cases h; exact ⟨rfl, rfl, rfl, .inr ⟨b, s, rfl, rfl, he⟩⟩
  obtain ⟨a1, a2, a3, a4⟩ := parts hq
  obtain ⟨b1, b2, b3, b4⟩ := parts hq'
  have hbody : q.body = q'.body ↔ r.body.map bodyBytes = r'.body.map bodyBytes := by
    rcases a4 with ⟨c1, c2⟩ | ⟨b, s, c1, c2, c3⟩ <;> rcases b4 with ⟨d1, d2⟩ | ⟨b', s', d1, d2, d3⟩ <;>
      rw [c1, c2, d1, d2]
    · simp
    · simp
    · simp
    · rw [Option.some.injEq, Option.map_some, Option.map_some, Option.some.injEq]
      exact encodeBody_inj c3 d3
  rw [C111_same T sha ign q q' (a3 ▸ hn) (b3 ▸ hn') n m hno, a1, a2, a3, b1, b2, b3, hbody]

/-- The text `é` and its bytes are the same body; no body and an empty one are not. -/
example : ∃ q q' q1 q2 : Rq,
    encodeRq ⟨"u".toList, "POST".toList, [], some (.text "é".toList)⟩ = some q ∧ q.body = some "w6k=".toList ∧
    encodeRq ⟨"u".toList, "POST".toList, [], some (.raw [0xC3, 0xA9])⟩ = some q' ∧
    encodeRq ⟨"u".toList, "POST".toList, [], none⟩ = some q1 ∧
    encodeRq ⟨"u".toList, "POST".toList, [], some (.raw [])⟩ = some q2 ∧
    NoCollision id (fun _ => True) ∧
    nthHash (shaT numR id) .everything none q 0 = nthHash (shaT numR id) .everything none q' 0 ∧
    nthHash (shaT numR id) .everything none q1 0 ≠ nthHash (shaT numR id) .everything none q2 0 := by
  refine ⟨_, _, _, _, rfl, by decide, rfl, rfl, rfl, fun _ _ _ _ h => h, by decide +kernel, by decide +kernel⟩

end Verif.Props
