import Verif.Model.EncodeHex
import Verif.Spec.Sec1

/-!
C134–C136: the views of point encodings, hexadecimal strings, and `ReverseBytes`.
-/

set_option autoImplicit false

namespace Verif

open Sec1

namespace Hex

theorem fromHexChar_iff (c : UInt8) : ∀ d : Nat, (∃ v, fromHexChar c = some v ∧ v.toNat = d) ↔ Digit c d := by
  have h : ∀ c : Fin 256, ∀ d : Fin 16, (∃ v, fromHexChar (UInt8.ofNat c) = some v ∧ v.toNat = d) ↔ Digit (UInt8.ofNat c) d := by
    unfold Digit
    decide +kernel
  have h16 : ∀ c : Fin 256, ∀ v, fromHexChar (UInt8.ofNat c) = some v → v.toNat < 16 := by
    decide +kernel
  intro d
  have hc : UInt8.ofNat c.toNat = c := by simp
  by_cases hd : d < 16
  · have := h ⟨c.toNat, c.toNat_lt⟩ ⟨d, hd⟩
    rwa [hc] at this
  · constructor
    · rintro ⟨v, h1, rfl⟩
      have := h16 ⟨c.toNat, c.toNat_lt⟩ v (by rw [hc]; exact h1)
      omega
    · rintro (h1 | h1) <;> (rw [List.getElem?_eq_none (by simpa using hd)] at h1; cases h1)

theorem digit_lt {c : UInt8} {d : Nat} (h : Digit c d) : d < 16 := by
  by_contra hd
  rcases h with h | h <;> (rw [List.getElem?_eq_none (by simpa using hd)] at h; cases h)

theorem pair_toNat {x y : UInt8} (hx : x.toNat < 16) (hy : y.toNat < 16) : (x <<< 4 ||| y).toNat = 16 * x.toNat + y.toNat := by
  have h : ∀ a b : Fin 16, (UInt8.ofNat a <<< 4 ||| UInt8.ofNat b).toNat = 16 * a + b := by decide +kernel
  have := h ⟨_, hx⟩ ⟨_, hy⟩
  simpa using this

theorem digitsVal_foldl (ds : List Nat) (v : Nat) :
    ds.foldl (fun v d => 16 * v + d) v = v * 16 ^ ds.length + digitsVal ds := by
  induction ds generalizing v with
  | nil => simp [digitsVal]
  | cons d ds ih =>
    simp only [digitsVal, List.foldl_cons, List.length_cons]
    rw [ih, ih (16 * 0 + d), pow_succ]
    ring

theorem digitsVal_cons (d : Nat) (ds : List Nat) : digitsVal (d :: ds) = d * 16 ^ ds.length + digitsVal ds := by
  rw [digitsVal, List.foldl_cons, digitsVal_foldl]; ring

theorem digitsVal_lt (s : Bytes) (ds : List Nat) (h : List.Forall₂ Digit s ds) : digitsVal ds < 16 ^ ds.length := by
  induction h with
  | nil => simp [digitsVal]
  | cons h _ ih =>
    have := digit_lt h
    rw [digitsVal_cons, List.length_cons, pow_succ]
    nlinarith

/-- C135: the strings decoded are those that write the bytes returned, two digits a byte in either case. -/
theorem C135_decode (s b : Bytes) : decodeString s = .ok b ↔ Writes s b := by
  constructor
  · induction s using decodeString.induct generalizing b with
    | case1 => intro h; cases h; exact ⟨rfl, [], .nil, rfl⟩
    | case2 c h' => intro h; rw [decodeString, h'] at h; cases h
    | case3 c v h' => intro h; rw [decodeString, h'] at h; cases h
    | case4 c1 c2 rest x y h2 h1 ih =>
      intro h
      rw [decodeString, h1, h2] at h
      obtain ⟨r, hr, hb⟩ := Res.bind_eq_ok.1 h
      cases hb
      obtain ⟨hl, ds, hds, hv⟩ := ih r hr
      have d1 := (fromHexChar_iff c1 x.toNat).1 ⟨x, h1, rfl⟩
      have d2 := (fromHexChar_iff c2 y.toNat).1 ⟨y, h2, rfl⟩
      refine ⟨by simp only [List.length_cons, hl]; ring, x.toNat :: y.toNat :: ds, .cons d1 (.cons d2 hds), ?_⟩
      have hlen : ds.length = 2 * r.length := by rw [← hds.length_eq, hl]
      rw [digitsVal_cons, digitsVal_cons, beVal_cons, pair_toNat (digit_lt d1) (digit_lt d2), hv, List.length_cons, hlen, pow_succ,
        pow_mul]
      ring
    | case5 c1 c2 rest h' =>
      intro h
      rw [decodeString] at h
      split at h
      · rename_i x y h1 h2; exact absurd h2 (h' x y h1)
      · cases h
  · induction b generalizing s with
    | nil =>
      rintro ⟨hl, -⟩
      rw [List.length_eq_zero_iff.1 hl]; rfl
    | cons v b ih =>
      rintro ⟨hl, ds, hds, hv⟩
      match s, ds, hds with
      | c1 :: c2 :: rest, d1 :: d2 :: ds, .cons h1 (.cons h2 hds) =>
        have hlen : rest.length = 2 * b.length := by simp only [List.length_cons] at hl; omega
        have hdl : ds.length = 2 * b.length := by rw [← hds.length_eq, hlen]
        rw [digitsVal_cons, digitsVal_cons, beVal_cons, List.length_cons, hdl, pow_succ, pow_mul] at hv
        have hlt := digitsVal_lt rest ds hds
        rw [hdl, pow_mul] at hlt
        norm_num at hv hlt
        have hlt' := beVal_lt b
        have hpos : 0 < 256 ^ b.length := by positivity
        have e : (16 * d1 + d2) * 256 ^ b.length + digitsVal ds = v.toNat * 256 ^ b.length + beVal b := by rw [← hv]; ring
        have q1 : 16 * d1 + d2 = v.toNat := by
          have := congrArg (· / 256 ^ b.length) e
          simp only [Nat.mul_comm _ (256 ^ b.length), Nat.mul_add_div hpos, Nat.div_eq_of_lt hlt, Nat.div_eq_of_lt hlt'] at this
          omega
        have q2 : digitsVal ds = beVal b := by rw [q1] at e; omega
        obtain ⟨x, hx, ex⟩ := (fromHexChar_iff c1 d1).2 h1
        obtain ⟨y, hy, ey⟩ := (fromHexChar_iff c2 d2).2 h2
        rw [decodeString, hx, hy, ih rest ⟨hlen, ds, hds, q2⟩]
        have : x <<< 4 ||| y = v := UInt8.toNat_inj.1 (by
          rw [pair_toNat (ex ▸ digit_lt h1) (ey ▸ digit_lt h2), ex, ey, q1])
        simp only [Res.ok_bind, this]
      | [_], [_], .cons _ .nil => simp at hl; omega
      | [], [], .nil => simp at hl

theorem decode_encode (b : Bytes) : decodeString (encodeToString b) = .ok b := by
  induction b with
  | nil => rfl
  | cons v b ih =>
    have h : ∀ v : Fin 256, fromHexChar (toHexChar (UInt8.ofNat v >>> 4)) = some (UInt8.ofNat v >>> 4) ∧
        fromHexChar (toHexChar (UInt8.ofNat v &&& 15)) = some (UInt8.ofNat v &&& 15) ∧
        (UInt8.ofNat v >>> 4) <<< 4 ||| (UInt8.ofNat v &&& 15) = UInt8.ofNat v := by decide +kernel
    obtain ⟨h1, h2, h3⟩ := h ⟨v.toNat, v.toNat_lt⟩
    simp only [UInt8.ofNat_toNat] at h1 h2 h3
    rw [encodeToString, decodeString, h1, h2, ih]
    simp only [Res.ok_bind, h3]

/-- C135: encoding writes the bytes, in lower case. -/
theorem C135_encode (b : Bytes) : Writes (encodeToString b) b ∧
    ∀ c ∈ encodeToString b, ∃ d, d < 16 ∧ "0123456789abcdef".toList[d]?.map (·.toNat) = some c.toNat := by
  refine ⟨(C135_decode _ _).1 (decode_encode b), ?_⟩
  have h : ∀ v : Fin 256, ∃ d : Fin 16, "0123456789abcdef".toList[d.1]?.map (·.toNat) = some (toHexChar (UInt8.ofNat v >>> 4)).toNat := by
    decide +kernel
  have h' : ∀ v : Fin 256, ∃ d : Fin 16, "0123456789abcdef".toList[d.1]?.map (·.toNat) = some (toHexChar (UInt8.ofNat v &&& 15)).toNat := by
    decide +kernel
  induction b with
  | nil => simp [encodeToString]
  | cons v b ih =>
    intro c hc
    simp only [encodeToString, List.mem_cons] at hc
    rcases hc with rfl | rfl | hc
    · obtain ⟨d, hd⟩ := h ⟨v.toNat, v.toNat_lt⟩
      exact ⟨d, d.2, by simpa using hd⟩
    · obtain ⟨d, hd⟩ := h' ⟨v.toNat, v.toNat_lt⟩
      exact ⟨d, d.2, by simpa using hd⟩
    · exact ih c hc

end Hex

namespace Encode

/-! ### C134 -/

/-- The value `Coordinates` returns for a form. -/
def coordsOf : Form → Coords
  | .identity => .identityValue
  | .compact x => .compact x
  | .compressed x odd => .compressed x odd
  | .uncompressed x y => .uncompressed x y

theorem copyInto_self (x : Bytes) (h : x.length = 32) : copyInto 32 x = x := by
  simp [copyInto, ← h]

theorem compressY_eq (y : Bytes) (h : y ≠ []) : compressY y = .ok (if beVal y % 2 = 1 then 3 else 2) := by
  obtain ⟨l, b, rfl⟩ : ∃ l b, y = l ++ [b] := ⟨_, _, (List.dropLast_append_getLast h).symm⟩
  rw [compressY, List.getLast?_append, beVal_append]
  have : (beVal l * 256 ^ [b].length + beVal [b]) % 2 = b.toNat % 2 := by
    simp only [List.length_singleton, pow_one, beVal_cons, List.length_nil, pow_zero, mul_one, beVal_nil]
    omega
  rw [this]
  rfl

/-- C134, the formats: what `FromBytes` makes of an encoding in one of the four formats, and what its views return. -/
theorem C134_views_partial (f : Form) (h : f.Valid) :
    fromBytes f.bytes = .ok f.bytes ∧ len f.bytes = .ok f.bytes.length ∧ asBytes f.bytes = .ok f.bytes ∧
    coordinates f.bytes = .ok (coordsOf f) ∧ tag f.bytes = .ok (coordsOf f).tag ∧
    x f.bytes = .ok (match f with | .identity => [] | .compact x => x | .compressed x _ => x | .uncompressed x _ => x) ∧
    y f.bytes = .ok (match f with | .uncompressed _ y => y | _ => []) ∧
    isIdentityE f.bytes = .ok (match f with | .identity => true | _ => false) ∧
    isCompactE f.bytes = .ok (match f with | .compact _ => true | _ => false) ∧
    isCompressedE f.bytes = .ok (match f with | .compressed _ _ => true | _ => false) := by
  match f, h with
  | .identity, _ => exact ⟨rfl, rfl, rfl, rfl, rfl, rfl, rfl, rfl, rfl, rfl⟩
  | .compact a, h =>
    have hl : a.length = 32 := h
    have ht : a.take 32 = a := by rw [← hl, List.take_length]
    refine ⟨?_, ?_, ?_, ?_, rfl, ?_, ?_, rfl, rfl, rfl⟩ <;>
      simp [fromBytes, Form.bytes, len, asBytes, tag, messageLen, coordinates, coordsOf, isCompressed, x, y, hl, ht]
  | .compressed a true, h =>
    have hl : a.length = 32 := h
    have ht : a.take 32 = a := by rw [← hl, List.take_length]
    refine ⟨?_, ?_, ?_, ?_, rfl, ?_, ?_, rfl, rfl, rfl⟩ <;>
      simp [fromBytes, Form.bytes, len, asBytes, tag, messageLen, coordinates, coordsOf, isCompressed, x, y, hl, ht]
  | .compressed a false, h =>
    have hl : a.length = 32 := h
    have ht : a.take 32 = a := by rw [← hl, List.take_length]
    refine ⟨?_, ?_, ?_, ?_, rfl, ?_, ?_, rfl, rfl, rfl⟩ <;>
      simp [fromBytes, Form.bytes, len, asBytes, tag, messageLen, coordinates, coordsOf, isCompressed, x, y, hl, ht]
  | .uncompressed a b, h =>
    obtain ⟨hl, hb⟩ : a.length = 32 ∧ b.length = 32 := h
    have ht : (a ++ b).take 32 = a := by rw [← hl, List.take_left]
    have hd : (a ++ b).drop 32 = b := by rw [← hl, List.drop_left]
    have ht' : (a ++ b).take 64 = a ++ b := List.take_of_length_le (by simp [hl, hb])
    refine ⟨?_, ?_, ?_, ?_, rfl, ?_, ?_, rfl, rfl, rfl⟩ <;>
      simp [fromBytes, Form.bytes, len, asBytes, tag, messageLen, coordinates, coordsOf, isCompressed, x, y, hl, hb, ht, ht', hd,
        List.drop_append]

/-- C134, compression: the bytes and the coordinate of the compressed encoding are those of the short form; compressing again
changes nothing. -/
theorem C134_compress_partial (f : Form) (h : f.Valid) : ∃ e, compress f.bytes = .ok e ∧ asBytes e = .ok f.short.bytes ∧
    coordinates e = .ok (coordsOf f.short) ∧ compress e = .ok e := by
  have keep : ∀ g : Form, g.Valid → g.short = g → compress g.bytes = .ok g.bytes → ∃ e, compress g.bytes = .ok e ∧
      asBytes e = .ok g.short.bytes ∧ coordinates e = .ok (coordsOf g.short) ∧ compress e = .ok e := by
    intro g hg hs hc
    obtain ⟨-, -, h3, h4, -⟩ := C134_views_partial g hg
    exact ⟨_, hc, by rw [hs]; exact h3, by rw [hs]; exact h4, hc⟩
  match f, h with
  | .identity, h => exact keep _ h rfl rfl
  | .compact a, h => exact keep _ h rfl rfl
  | .compressed a true, h => exact keep _ h rfl rfl
  | .compressed a false, h => exact keep _ h rfl rfl
  | .uncompressed a b, h =>
    obtain ⟨hl, hb⟩ : a.length = 32 ∧ b.length = 32 := h
    have ht : (a ++ b).take 32 = a := by rw [← hl, List.take_left]
    have hd : (a ++ b).drop 32 = b := by rw [← hl, List.drop_left]
    have hc := compressY_eq b (by rintro rfl; simp at hb)
    refine ⟨affineBuffer (if beVal b % 2 = 1 then 3 else 2) a b, ?_, ?_, ?_, ?_⟩
    · simp [compress, Form.bytes, tag, isCompressed, fromAffineCoordinates, hl, hb, List.drop_append, hc]
    all_goals
      by_cases ho : beVal b % 2 = 1 <;>
      simp [asBytes, len, tag, messageLen, coordinates, coordsOf, Form.short, Form.bytes, affineBuffer, copyInto_self, isCompressed,
        compress, hl, hb, ho, ht]

/-- C134, construction: `FromAffineCoordinates` and `FromUnTaggedBytes` make the encodings of the forms. -/
theorem C134_construction_partial (a b : Bytes) (ha : a.length = 32) (hb : b.length = 32) :
    (∃ e, fromAffineCoordinates a b true = .ok e ∧ asBytes e = .ok (Form.uncompressed a b).short.bytes) ∧
    fromAffineCoordinates a b false = .ok (Form.uncompressed a b).bytes ∧
    fromUnTaggedBytes (a ++ b) = .ok (Form.uncompressed a b).bytes ∧ asBytes identity = .ok Form.identity.bytes ∧
    asBytes default = .ok Form.identity.bytes := by
  have e : fromAffineCoordinates a b false = .ok (Form.uncompressed a b).bytes := by
    simp [fromAffineCoordinates, affineBuffer, Form.bytes, copyInto_self, ha, hb]
  refine ⟨?_, e, ?_, rfl, rfl⟩
  · have hc := compressY_eq b (by rintro rfl; simp at hb)
    refine ⟨affineBuffer (if beVal b % 2 = 1 then 3 else 2) a b, by simp [fromAffineCoordinates, hc], ?_⟩
    have ht : (a ++ b).take 32 = a := by rw [← ha, List.take_left]
    by_cases ho : beVal b % 2 = 1 <;>
      simp [asBytes, len, tag, messageLen, Form.short, Form.bytes, affineBuffer, copyInto_self, ha, hb, ho, ht]
  · rw [fromUnTaggedBytes, if_neg (by simp [ha]), show (a ++ b).take 32 = a by rw [← ha, List.take_left],
      show (a ++ b).drop 32 = b by rw [← ha, List.drop_left], e]

/-- C134, what is accepted: the four formats, and single bytes that are no tag. -/
theorem C134_accepted (b e : Bytes) : fromBytes b = .ok e ↔
    e = b ∧ ((∃ f : Form, f.Valid ∧ b = f.bytes) ∨ ∃ t, t ∉ ([0, 2, 3, 4, 5] : Bytes) ∧ b = [t]) := by
  constructor
  · intro h
    match b with
    | [] => cases h
    | t :: r =>
      rw [fromBytes] at h
      split_ifs at h with hl
      rw [not_not] at hl
      refine ⟨(Res.ok.inj h).symm, ?_⟩
      by_cases ht : t ∈ ([0, 2, 3, 4, 5] : Bytes)
      · left
        simp only [List.mem_cons, List.not_mem_nil, or_false] at ht
        rcases ht with rfl | rfl | rfl | rfl | rfl
        · exact ⟨.identity, trivial, by simpa [messageLen, Form.bytes] using hl⟩
        · exact ⟨.compressed r false, by simpa [messageLen, Form.Valid] using hl, rfl⟩
        · exact ⟨.compressed r true, by simpa [messageLen, Form.Valid] using hl, rfl⟩
        · have hl' : r.length = 64 := by simpa [messageLen] using hl
          exact ⟨.uncompressed (r.take 32) (r.drop 32), ⟨by simp [hl'], by simp [hl']⟩, by simp [Form.bytes]⟩
        · exact ⟨.compact r, by simpa [messageLen, Form.Valid] using hl, rfl⟩
      · refine .inr ⟨t, ht, ?_⟩
        simp only [List.mem_cons, List.not_mem_nil, or_false, not_or] at ht
        have : (t :: r).length = 1 := by rw [hl, messageLen, if_neg (by tauto), if_neg ht.2.2.2.1, if_neg ht.2.2.2.2]
        simpa using this
  · rintro ⟨rfl, ⟨f, hf, rfl⟩ | ⟨t, ht, rfl⟩⟩
    · exact (C134_views_partial f hf).1
    · simp only [List.mem_cons, List.not_mem_nil, or_false, not_or] at ht
      simp [fromBytes, messageLen, ht]

/-- C134 is false: a single byte that is no tag is accepted, and then every view except `Tag`, `Len` and `AsBytes` panics;
`FromBytes` of no bytes panics. -/
theorem C134_false : (∀ t : UInt8, t ∉ ([0, 2, 3, 4, 5] : Bytes) → fromBytes [t] = .ok [t] ∧ (coordinates [t]).isPanic = true ∧
    (x [t]).isPanic = true ∧ (y [t]).isPanic = true ∧ (compress [t]).isPanic = true) ∧ (fromBytes []).isPanic = true := by
  refine ⟨fun t ht => ?_, rfl⟩
  have h1 := (C134_accepted [t] [t]).2 ⟨rfl, .inr ⟨t, ht, rfl⟩⟩
  simp only [List.mem_cons, List.not_mem_nil, or_false, not_or] at ht
  refine ⟨h1, ?_, ?_, ?_, ?_⟩ <;>
    simp [coordinates, x, y, compress, tag, isCompressed, ht, Res.isPanic]

/-- A form with both coordinates, whose second coordinate is odd. -/
example : (Form.uncompressed (List.replicate 32 1) (List.replicate 32 7)).Valid ∧
    (Form.uncompressed (List.replicate 32 1) (List.replicate 32 7)).short = .compressed (List.replicate 32 1) true :=
  ⟨⟨rfl, rfl⟩, by simp only [Form.short]; rw [decide_eq_true (by decide +kernel)]⟩

/-! ### C135, encodings as strings -/

/-- C135: what `FromStr` does with any string. -/
theorem C135_from_string (s : Bytes) :
    (∀ e, fromStr s = .ok e ↔ Writes s e ∧ fromBytes e = .ok e) ∧ ((fromStr s).isPanic = true ↔ s = []) := by
  constructor
  · intro e
    rw [fromStr, Res.bind_eq_ok]
    constructor
    · rintro ⟨b, hb, h⟩
      obtain ⟨rfl, -⟩ := (C134_accepted b e).1 h
      exact ⟨(Hex.C135_decode _ _).1 hb, h⟩
    · rintro ⟨hw, h⟩
      exact ⟨e, (Hex.C135_decode _ _).2 hw, h⟩
  · constructor
    · intro h
      have hd : ∀ s, (Hex.decodeString s).isPanic = false := by
        intro s
        induction s using Hex.decodeString.induct with
        | case1 => rfl
        | case2 c h' => rw [Hex.decodeString, h']; rfl
        | case3 c v h' => rw [Hex.decodeString, h']; rfl
        | case4 c1 c2 rest x y h2 h1 ih =>
          rw [Hex.decodeString, h1, h2]
          cases h : Hex.decodeString rest <;> simp_all [Res.isPanic]
        | case5 c1 c2 rest h' =>
          rw [Hex.decodeString]
          split
          · rename_i x y h1 h2; exact absurd h2 (h' x y h1)
          · rfl
      rw [fromStr] at h
      cases hs : Hex.decodeString s with
      | ok b =>
        rw [hs, Res.ok_bind] at h
        cases b with
        | nil =>
          have := ((Hex.C135_decode _ _).1 hs).1
          exact List.length_eq_zero_iff.1 this
        | cons t r =>
          rw [fromBytes] at h
          split_ifs at h <;> cases h
      | err e => rw [hs] at h; cases h
      | panic e => have := hd s; rw [hs] at this; cases this
      | diverge => rw [hs] at h; cases h
    · rintro rfl; rfl

/-- C135 holds in this form: what `FromBytes` accepts survives `ToString` and `FromStr`. -/
theorem C135_round_trip_partial (b e : Bytes) (h : fromBytes b = .ok e) : fromStr (toStr e) = .ok e := by
  obtain ⟨rfl, -⟩ := (C134_accepted b e).1 h
  rw [fromStr, toStr, Hex.decode_encode]
  exact h

/-- C135 is false: the string of an encoding compressed by this package, or of the identity, is refused by `FromStr`. -/
theorem C135_false : (∀ a b : Bytes, a.length = 32 → b.length = 32 →
      ∃ e, compress (Form.uncompressed a b).bytes = .ok e ∧ fromAffineCoordinates a b true = .ok e ∧
        (fromStr (toStr e)).isErr = true) ∧
    (fromStr (toStr identity)).isErr = true := by
  refine ⟨fun a b ha hb => ?_, by rw [fromStr, toStr, Hex.decode_encode]; rfl⟩
  have hc := compressY_eq b (by rintro rfl; simp at hb)
  refine ⟨affineBuffer (if beVal b % 2 = 1 then 3 else 2) a b, ?_, by simp [fromAffineCoordinates, hc], ?_⟩
  · simp [compress, Form.bytes, tag, isCompressed, fromAffineCoordinates, ha, hb, List.drop_append, hc]
  · rw [fromStr, toStr, Hex.decode_encode, Res.ok_bind, affineBuffer, fromBytes, copyInto_self a ha, copyInto_self b hb, if_pos]
    · rfl
    · by_cases ho : beVal b % 2 = 1 <;> simp [messageLen, ho, ha, hb]

/-- C135, what `ToString` writes: the whole buffer, 32 zero bytes for the identity and for `Default`, and tag and both coordinates
even when the encoding is compressed. -/
theorem C135_to_string : (∀ e, Writes (toStr e) e) ∧ Writes (toStr identity) (List.replicate 32 0) ∧
    Writes (toStr default) (List.replicate 32 0) ∧ (fromStr (toStr default)).isErr = true ∧
    ∀ a b : Bytes, a.length = 32 → b.length = 32 → ∃ e, fromAffineCoordinates a b true = .ok e ∧
      Writes (toStr e) ((if beVal b % 2 = 1 then 3 else 2) :: (a ++ b)) := by
  have h : ∀ e, Writes (toStr e) e := fun e => (Hex.C135_encode e).1
  refine ⟨h, h _, h _, by rw [fromStr, toStr, Hex.decode_encode]; rfl, fun a b ha hb => ?_⟩
  have hc := compressY_eq b (by rintro rfl; simp at hb)
  refine ⟨affineBuffer (if beVal b % 2 = 1 then 3 else 2) a b, by simp [fromAffineCoordinates, hc], ?_⟩
  have := h (affineBuffer (if beVal b % 2 = 1 then 3 else 2) a b)
  rw [affineBuffer, copyInto_self a ha, copyInto_self b hb] at this ⊢
  exact this

/-- Strings in upper case are accepted as well. -/
example : Writes ("0A".toList.map fun c => UInt8.ofNat c.toNat) [10] := (Hex.C135_decode _ _).1 (by decide +kernel)

end Encode

/-! ### C136 -/

theorem reverseLoop_spec (b : Bytes) : ∀ k i out, k ≤ b.length → i + k = b.length → out.length = b.length →
    reverseLoop b k i out = .ok (out.take i ++ (b.take k).reverse) := by
  intro k
  induction k with
  | zero => intro i out _ hi ho; rw [reverseLoop]; simp [show i = out.length by omega]
  | succ k ih =>
    intro i out hk hi ho
    rw [reverseLoop, List.getElem?_eq_getElem (by omega)]
    simp only
    rw [if_pos (by omega), ih _ _ (by omega) (by omega) (by simpa using ho), List.take_succ_eq_append_getElem (i := k) (l := b) (by omega),
      List.reverse_append, List.take_succ_eq_append_getElem (i := i) (by simp; omega)]
    simp [List.take_set_of_le]

/-- C136: the loop of `ReverseBytes` returns the bytes in reverse order: byte `i` of the result is byte `len-1-i` of the
argument. -/
theorem C136_reverse (b : Bytes) : ∃ out, reverseBytesLoop b = .ok out ∧ out.length = b.length ∧
    (∀ i, i < b.length → out[i]? = b[b.length - 1 - i]?) ∧ leVal out = beVal b ∧ reverseBytesLoop out = .ok b ∧
    reverseBytes b = out := by
  have h : ∀ b, reverseBytesLoop b = .ok b.reverse := fun b => by
    rw [reverseBytesLoop, reverseLoop_spec b _ _ _ le_rfl (by simp) (by simp)]
    simp
  refine ⟨b.reverse, h b, by simp, fun i hi => List.getElem?_reverse hi, (beVal_eq_leVal_reverse b).symm, by rw [h]; simp, rfl⟩

end Verif
