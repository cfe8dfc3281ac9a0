import Mathlib.Data.Nat.Size
import Verif.Lemmas.Point

/-!
Properties C04–C09 and C13–C15: point encodings, multiplication by a node index, the group, Pedersen commitments.
`RawPt` is what a decoder returns (identity or a pair of coordinates); `raw P` is the raw form of the curve point
`P`.
-/

namespace Verif

open Point

/-! ### C04 -/

/-- C04: `Serialize` always returns 33 bytes that `Deserialize` maps back to the point; distinct points have
distinct encodings. -/
theorem C04_point_roundtrip :
    (∀ P : Pt, ∃ b, serializeRes P = .ok b ∧ b.length = 33 ∧ deserialize K256 b = .ok (some (raw P))) ∧
    (∀ P Q : Pt, serializeRes P = serializeRes Q → P = Q) := by
  refine ⟨fun P => ⟨_, serializeRes_eq P, length_serialize P, deserialize_serialize P⟩, fun P Q h => ?_⟩
  rw [serializeRes_eq, serializeRes_eq] at h
  exact serialize_injective (by simpa using h)

/-- C04, the format: identity is 33 zero bytes; otherwise the SEC1 compressed form. -/
theorem C04_point_format :
    serializeRes 0 = .ok (List.replicate 33 0) ∧
    ∀ x y h, ∃ t : UInt8, ∃ xb : Bytes, serializeRes (Pt.mk x y h) = .ok (t :: xb) ∧ xb.length = 32 ∧
      beVal xb = x.val ∧ t.toNat = 2 + y.val % 2 := by
  refine ⟨serializeRes_eq 0, fun x y h => ⟨_, _, serializeRes_eq _, length_feBytes x, beVal_feBytes x, ?_⟩⟩
  by_cases hp : y.val % 2 = 1
  · simp [hp]
  · have : y.val % 2 = 0 := by omega
    simp [this]

example : (serialize G).length = 33 ∧ serialize G ≠ serialize 0 :=
  ⟨length_serialize G, fun h => G_ne_zero (serialize_injective h)⟩

/-! ### C05 -/

theorem C05_false :
    (∃ b, deserialize K256 b = .ok (some (raw 0)) ∧ b ≠ serialize 0) ∧
    (∃ b P, P ≠ 0 ∧ deserialize K256 b = .ok (some (raw P)) ∧ b ≠ serialize P) := by
  constructor
  · refine ⟨2 :: toBE 32 5, ?_, by decide +kernel⟩
    decide +kernel
  · -- x = p + 1 encodes the same point as x = 1
    have hon : OnCurve ((1 : Nat) : Fp)
        ((29896722852569046015560700294576055776214335159245303116488692907525646231534 : Nat) : Fp) :=
      onCurve_of_nat (by decide +kernel)
    refine ⟨2 :: toBE 32 (p + 1), Pt.mk _ _ hon, WeierstrassCurve.Affine.Point.some_ne_zero _, ?_, ?_⟩
    · rw [raw_mk]; decide +kernel
    · rw [serialize_mk]; decide +kernel

/-- C05, what the code guarantees: an accepted string has 33 bytes; the result is always a point of the curve; it is
the identity for the all-zero string *and whenever `x³+7` is not a square*, otherwise the unique point with this `x`
(reduced modulo `p`) and parity; and the decoding is canonical for every accepted string whose `x` is below `p` and
on the curve.  Missing from C05: rejection of the remaining strings (see `C05_false`). -/
theorem C05_canonical_decoding_partial (b : Bytes) :
    (∀ r, deserialize K256 b = .ok (some r) → b.length = 33 ∧ ∃ P : Pt, r = raw P) ∧
    deserialize K256 b ≠ .ok none ∧
    (∀ P : Pt, deserialize K256 b = .ok (some (raw P)) → P ≠ 0 → beVal b.tail < p → serialize P = b) ∧
    (∀ P : Pt, deserialize K256 b = .ok (some (raw P)) → P = 0 →
      b = List.replicate 33 0 ∨ ∀ y, ¬ OnCurve (beVal b.tail : Fp) y) := by
  by_cases hl : b.length = 33
  swap
  · have : deserialize K256 b = .err "invalid point" := by
      rw [deserialize, if_pos (show b.length ≠ pointBytes K256 from hl)]
    rw [this]
    exact ⟨by simp, by simp, by simp, by simp⟩
  have hp : pointBytes K256 = 33 := rfl
  by_cases hz : b.all (· == 0) = true
  · have hb : b = List.replicate 33 0 := by
      rw [List.eq_replicate_iff]
      refine ⟨hl, fun x hx => ?_⟩
      simpa using (List.all_eq_true.1 hz) x hx
    have hd : deserialize K256 b = .ok (some (raw 0)) := by rw [hb]; rfl
    rw [hd]
    refine ⟨fun r hr => ⟨hl, 0, ?_⟩, by simp, fun P hP h0 => ?_, fun P _ _ => Or.inl hb⟩
    · simpa using hr.symm
    · simp only [Res.ok.injEq, Option.some.injEq] at hP
      exact absurd (raw_injective hP).symm h0
  · obtain ⟨t, xb, rfl⟩ : ∃ t xb, b = t :: xb := by
      cases b with
      | nil => simp at hl
      | cons t xb => exact ⟨t, xb, rfl⟩
    have hxb : xb.length = 32 := by simpa using hl
    by_cases ht : t = 2 ∨ t = 3
    swap
    · have : deserialize K256 (t :: xb) = .err "invalid point, first byte should be 2 or 3" := by
        rw [deserialize, if_neg (by simp [hp, hxb]), if_neg hz, if_pos]
        simpa [not_or] using ht
      rw [this]
      exact ⟨by simp, by simp, by simp, by simp⟩
    have hd : deserialize K256 (t :: xb) = .ok (some (decompress xb (t.toNat % 2))) := by
      rw [deserialize, if_neg (by simp [hp, hxb]), if_neg hz, if_neg]
      · simp only [deserializeAnyFormat, if_true, k256Deserialize_compressed t ht xb hxb]
      · rcases ht with rfl | rfl <;> simp
    have hpar : t.toNat % 2 = 0 ∨ t.toNat % 2 = 1 := by omega
    obtain ⟨h1, h2, P0, hP0⟩ := decompress_spec xb (t.toNat % 2)
    rw [hd]
    simp only [Res.ok.injEq, Option.some.injEq, List.tail_cons]
    refine ⟨fun r hr => ⟨hl, P0, by rw [← hr, hP0]⟩, by simp, fun P hP hne hlt => ?_, fun P hP h0 => Or.inr ?_⟩
    · by_cases hex : ∃ y, OnCurve (beVal xb : Fp) y
      swap
      · push Not at hex
        rw [h2 hex] at hP
        exact absurd (raw_injective (hP.symm.trans raw_zero.symm)) hne
      obtain ⟨y, hy⟩ := hex
      obtain ⟨y', hy', hpy⟩ : ∃ y', OnCurve (beVal xb : Fp) y' ∧ y'.val % 2 = t.toNat % 2 := by
        by_cases he : y.val % 2 = t.toNat % 2
        · exact ⟨y, hy, he⟩
        · refine ⟨-y, by rw [OnCurve, neg_sq]; exact hy, ?_⟩
          rw [val_neg_parity (y_ne_zero hy)]; omega
      rw [h1 y' hy' hpy] at hP
      have hPe : P = Pt.mk _ _ hy' := raw_injective (by rw [← hP, raw_mk])
      rw [hPe, serialize_mk]
      refine List.cons_eq_cons.2 ⟨?_, ?_⟩
      · rcases ht with rfl | rfl
        · rw [if_neg]; rw [hpy]; decide
        · rw [if_pos]; rw [hpy]; rfl
      · apply beVal_inj (by rw [length_feBytes, hxb])
        rw [beVal_feBytes, ZMod.val_cast_of_lt hlt]
    · intro y hy
      obtain ⟨y', hy', hpy⟩ : ∃ y', OnCurve (beVal xb : Fp) y' ∧ y'.val % 2 = t.toNat % 2 := by
        by_cases he : y.val % 2 = t.toNat % 2
        · exact ⟨y, hy, he⟩
        · refine ⟨-y, by rw [OnCurve, neg_sq]; exact hy, ?_⟩
          rw [val_neg_parity (y_ne_zero hy)]; omega
      rw [h1 y' hy' hpy, h0] at hP
      cases hP

/-- The hypotheses of the canonicity clause are met, e.g. by the encoding of the generator. -/
example : deserialize K256 (serialize G) = .ok (some (raw G)) ∧ G ≠ 0 ∧ beVal (serialize G).tail < p := by
  refine ⟨deserialize_serialize G, G_ne_zero, ?_⟩
  have h : (serialize G).tail = Fe.asBytes (Gx : Fp) := rfl
  rw [h, beVal_feBytes]
  exact ZMod.val_lt _

/-- The second generator is the decoding of the constant in curve/point.go, and is not the identity. -/
theorem deserialize_generatorHBytes : deserialize K256 generatorHBytes = .ok (some (raw H)) ∧ H ≠ 0 := by
  refine ⟨?_, WeierstrassCurve.Affine.Point.some_ne_zero _⟩
  have : generatorHBytes = serialize H := by
    rw [H, serialize_mk]
    decide +kernel
  rw [this, deserialize_serialize]

/-! ### C06, C07 -/

/-- C06 fails for every point: the tag is not stripped, so the length check rejects the tagged encoding. -/
theorem C06_false (P : Pt) : (deserializeTagged (serializeTagged P)).isErr = true := by
  have h1 : (((1 : UInt8).toNat : Nat) : CurveType) = K256 := rfl
  have hp : pointBytes K256 = 33 := rfl
  simp only [serializeTagged, deserializeTagged, List.singleton_append]
  rw [deserialize, h1, hp, if_pos (by simp [length_serialize])]
  rfl

/-- C06 more strongly: no byte string at all is decoded to a point by `DeserializeTagged`. -/
theorem C06_never_a_point (b : Bytes) (r : RawPt) : deserializeTagged b ≠ .ok (some r) := by
  intro h
  match b with
  | [] => simp [deserializeTagged] at h
  | t :: xs =>
    simp only [deserializeTagged] at h
    by_cases ht : ((t.toNat : Nat) : CurveType) = K256
    · have ht1 : t = 1 := by
        have : t.toNat = 1 := by
          have : ((t.toNat : Nat) : Int) = 1 := ht
          omega
        exact UInt8.toNat_inj.1 (by rw [this]; rfl)
      subst ht1
      rw [deserialize] at h
      split at h
      · cases h
      · simp at h
    · rw [deserialize] at h
      split at h
      · cases h
      split at h
      · simp [identityOf, ht] at h
      split at h
      · cases h
      · simp [deserializeAnyFormat, ht] at h

/-- C06, the part that holds: the tagged encoding is the tag followed by the plain one, so dropping the tag and
using `Deserialize` restores the point.  Missing: `DeserializeTagged` itself does not do this. -/
theorem C06_tagged_point_partial (P : Pt) :
    (serializeTagged P).head? = some 1 ∧ deserialize K256 (serializeTagged P).tail = .ok (some (raw P)) :=
  ⟨rfl, deserialize_serialize P⟩

/-- C07 fails for every point but the identity: uncompressed serialisation panics. -/
theorem C07_false (P : Pt) (hP : P ≠ 0) : (serializeUncompressed P).isPanic = true := by
  simp only [serializeUncompressed, encodePoint, Encode.fromAffineCoordinates, Encode.conditionalSelect, hP,
    Encode.affineBuffer, Encode.len, Encode.tag]
  rfl

/-- C07, the part that holds: the identity, encoded as 33 zero bytes (which decode to it).  Missing: all others. -/
theorem C07_uncompressed_partial :
    serializeUncompressed 0 = .ok (List.replicate 33 0) ∧
    deserialize K256 (List.replicate 33 0) = .ok (some (raw 0)) := by
  refine ⟨?_, rfl⟩
  have hx : affineX 0 = 0 := rfl
  have hy : affineY 0 = 0 := rfl
  simp only [serializeUncompressed, encodePoint, Encode.fromAffineCoordinates, hx, hy, if_true,
    Encode.conditionalSelect, Res.ok_bind]
  simp
  decide

example : ∃ P : Pt, P ≠ 0 := ⟨G, G_ne_zero⟩

/-! ### C08, C09 -/

/-- C08 fails: empty input and a single unknown tag byte panic, and off-curve coordinates are accepted. -/
theorem C08_false :
    (deserializeAnyFormat K256 []).isPanic = true ∧ (deserializeAnyFormat K256 [1]).isPanic = true ∧
    (∃ b x y, deserializeAnyFormat K256 b = .ok (some (.aff x y)) ∧ ¬ OnCurve x y) ∧
    (unmarshalTagged []).isPanic = true ∧ (unmarshalTagged [1, 0]).isPanic = true := by
  refine ⟨rfl, rfl, ⟨4 :: (toBE 32 1 ++ toBE 32 1), 1, 1, ?_, by decide +kernel⟩, rfl, rfl⟩
  decide +kernel

/-- C08, the exact behaviour of the any-format decoder.  Missing from C08: totality on the listed strings and the
curve check in the uncompressed case. -/
theorem C08_any_format_partial (b : Bytes) :
    ((deserializeAnyFormat K256 b).isPanic = true ↔
      b = [] ∨ ∃ t : UInt8, b = [t] ∧ t ≠ 0 ∧ t ≠ 2 ∧ t ≠ 3 ∧ t ≠ 4 ∧ t ≠ 5) ∧
    (deserializeAnyFormat K256 b = .ok none ↔ b = [0]) ∧
    (∀ r, deserializeAnyFormat K256 b = .ok (some r) →
      (b.length = 33 ∧ (b.head? = some 2 ∨ b.head? = some 3 ∨ b.head? = some 5) ∧ ∃ P : Pt, r = raw P) ∨
      (b.length = 65 ∧ b.head? = some 4 ∧
        r = .aff (beVal ((b.drop 1).take 32) : Fp) (beVal (b.drop 33) : Fp))) ∧
    (b.length ≠ 1 ∧ b.length ≠ 33 ∧ b.length ≠ 65 ∧ b ≠ [] → (deserializeAnyFormat K256 b).isErr = true) := by
  have hd : ∀ b, deserializeAnyFormat K256 b = k256Deserialize b := fun b => rfl
  rw [hd]
  match b with
  | [] => refine ⟨by simp; rfl, ?_, ?_, by simp⟩ <;> simp [k256Deserialize, Encode.fromBytes]
  | t :: xs =>
    by_cases hc : t = 2 ∨ t = 3
    · by_cases hl : xs.length = 32
      · rw [k256Deserialize_compressed t hc xs hl]
        obtain ⟨P, hP⟩ := (decompress_spec xs (t.toNat % 2)).2.2
        refine ⟨?_, ?_, fun r hr => Or.inl ⟨by simp [hl], by rcases hc with rfl | rfl <;> simp, P, ?_⟩, ?_⟩
        · simp only [Res.isPanic_ok, Bool.false_eq_true, false_iff]
          rintro (h | ⟨t', h, -⟩)
          · cases h
          · simp only [List.cons.injEq] at h; rw [h.2] at hl; cases hl
        · simp only [Res.ok.injEq, reduceCtorEq, false_iff]
          intro h; simp only [List.cons.injEq] at h; rw [h.2] at hl; cases hl
        · simp only [Res.ok.injEq, Option.some.injEq] at hr; rw [← hr, hP]
        · simp [hl]
      · have hm : Encode.messageLen t = 33 := by rcases hc with rfl | rfl <;> rfl
        have he : k256Deserialize (t :: xs) = .err "point decode failed" := by
          simp [k256Deserialize, Encode.fromBytes, hm, hl]
        rw [he]
        refine ⟨?_, ?_, by simp, by simp⟩
        · simp only [Res.isPanic_err, Bool.false_eq_true, false_iff]
          rintro (h | ⟨t', h, h0, h2, h3, -⟩)
          · cases h
          · simp only [List.cons.injEq] at h
            rcases hc with rfl | rfl
            · exact h2 h.1.symm
            · exact h3 h.1.symm
        · simp only [reduceCtorEq, false_iff]
          intro h; simp only [List.cons.injEq] at h
          rcases hc with rfl | rfl <;> simp at h
    by_cases h4 : t = 4
    · subst h4
      by_cases hl : xs.length = 64
      · have hx : (xs.take 32).length = 32 := by simp [hl]
        have hy : (xs.drop 32).length = 32 := by simp [hl]
        have := k256Deserialize_uncompressed _ _ hx hy
        rw [List.take_append_drop] at this
        rw [this]
        refine ⟨?_, ?_, fun r hr => Or.inr ⟨by simp [hl], rfl, ?_⟩, ?_⟩
        · simp
        · simp
        · simp only [Res.ok.injEq, Option.some.injEq] at hr; rw [← hr]; rfl
        · simp [hl]
      · have hm : Encode.messageLen 4 = 65 := rfl
        have he : k256Deserialize (4 :: xs) = .err "point decode failed" := by
          simp [k256Deserialize, Encode.fromBytes, hm, hl]
        rw [he]
        exact ⟨by simp, by simp, by simp, by simp⟩
    by_cases h5 : t = 5
    · subst h5
      by_cases hl : xs.length = 32
      · rw [k256Deserialize_compact xs hl]
        obtain ⟨P, hP⟩ := (decompress_spec xs 0).2.2
        refine ⟨by simp, by simp, fun r hr => Or.inl ⟨by simp [hl], by simp, P, ?_⟩, by simp [hl]⟩
        simp only [Res.ok.injEq, Option.some.injEq] at hr; rw [← hr, hP]
      · have hm : Encode.messageLen 5 = 33 := rfl
        have he : k256Deserialize (5 :: xs) = .err "point decode failed" := by
          simp [k256Deserialize, Encode.fromBytes, hm, hl]
        rw [he]
        exact ⟨by simp, by simp, by simp, by simp⟩
    have hm : Encode.messageLen t = 1 := by simp [Encode.messageLen, hc, h4, h5]
    by_cases hl : xs = []
    · subst hl
      by_cases h0 : t = 0
      · subst h0
        exact ⟨by simp [k256Deserialize, Encode.fromBytes, hm, fromEncodedPoint, Encode.coordinates, Encode.tag],
          by simp [k256Deserialize, Encode.fromBytes, hm, fromEncodedPoint, Encode.coordinates, Encode.tag],
          by simp [k256Deserialize, Encode.fromBytes, hm, fromEncodedPoint, Encode.coordinates, Encode.tag], by simp⟩
      · have he : k256Deserialize [t] = .panic "slice bounds out of range" := by
          simp [k256Deserialize, Encode.fromBytes, hm, fromEncodedPoint, Encode.coordinates, Encode.tag, h0]
        rw [he]
        push Not at hc
        exact ⟨by simp [h0, hc.1, hc.2, h4, h5], by simp [h0], by simp, by simp⟩
    · have he : k256Deserialize (t :: xs) = .err "point decode failed" := by
        simp [k256Deserialize, Encode.fromBytes, hm, hl]
      rw [he]
      exact ⟨by simp [hl], by simp [hl], by simp, by simp⟩

/-- C09 fails for the identity: decoding its CBOR encoding is an error. -/
theorem C09_false : (unmarshalTagged (serializeTagged 0)).isErr = true := rfl

/-- C09 for every point except the identity.  Missing: the identity (see `C09_false`). -/
theorem C09_cbor_point_partial (P : Pt) (hP : P ≠ 0) : unmarshalTagged (serializeTagged P) = .ok (raw P) := by
  induction P using pt_cases with
  | h0 => exact absurd rfl hP
  | h1 x y h =>
    simp only [serializeTagged, List.singleton_append, unmarshalTagged, k256Deserialize_serialize_mk, Res.ok_bind,
      raw_mk]

/-! ### C13 -/

theorem mulLoop_eq (P : Pt) (s : Nat) : ∀ k res, mulLoop P s k res = 2 ^ k • res + (s % 2 ^ k) • P := by
  intro k
  induction k with
  | zero => intro res; simp [mulLoop, Nat.mod_one]
  | succ k ih =>
    intro res
    rw [mulLoop, ih]
    have hbit : (s >>> k) &&& 1 = (s / 2 ^ k) % 2 := by rw [Nat.shiftRight_eq_div_pow, Nat.and_one_is_mod]
    have hmod : s % 2 ^ (k + 1) = s % 2 ^ k + 2 ^ k * ((s / 2 ^ k) % 2) := by
      rw [pow_succ, Nat.mod_mul]
    rw [hbit, hmod]
    rcases Nat.mod_two_eq_zero_or_one (s / 2 ^ k) with h | h <;> rw [h]
    · simp only [zero_ne_one, if_false, mul_zero, add_zero, pow_succ]
      module
    · simp only [if_true, mul_one, pow_succ]
      module

/-- C13: the double-and-add loop computes the scalar multiple by the node's evaluation point. -/
theorem C13_mul_by_node_index (P : Pt) (i : NodeIndex) :
    mulByNodeIndex P i = scalarMul P (Scalar.fromNodeIndex i) := by
  rw [mulByNodeIndex, mulLoop_eq, Nat.mod_eq_of_lt (Nat.lt_size_self _), nsmul_zero, zero_add, scalarMul,
    Scalar.fromNodeIndex, Scalar.fromUint64, nsmul_eq_smul_Fn]

/-- For a non-negative index this is `(i+1)·P`. -/
theorem C13_mul_by_node_index_nonneg (P : Pt) (i : NodeIndex) (hi : i.toNat < 2 ^ 64 - 1) :
    mulByNodeIndex P i = (i.toNat + 1) • P := by
  rw [mulByNodeIndex, mulLoop_eq, Nat.mod_eq_of_lt (Nat.lt_size_self _), nsmul_zero, zero_add]
  congr 1
  rw [BitVec.toNat_add]
  simp only [BitVec.toNat_ofNat]
  omega

example : (12345#64 : NodeIndex).toNat < 2 ^ 64 - 1 ∧ mulByNodeIndex G 12345#64 = 12346 • G :=
  ⟨by decide, C13_mul_by_node_index_nonneg G 12345#64 (by decide)⟩

/-! ### C14, C15 -/

/-- C14: `p` and `n` are prime, the curve has exactly `n` points, every point is a unique scalar multiple of `G`
(equivalently a unique multiple `k·G` with `k < n`), `k·P` depends only on `k mod n`, and scalar arithmetic is
exponent arithmetic. -/
theorem C14_prime_order_group :
    p.Prime ∧ n.Prime ∧ Nat.card Pt = n ∧ G ≠ 0 ∧
    (∀ P : Pt, ∃! s : Fn, P = mulByG s) ∧
    (∀ P : Pt, ∃! k : Nat, k < n ∧ P = k • G) ∧
    (∀ (k : Nat) (P : Pt), scalarMul P (k : Fn) = k • P) ∧
    (∀ (s t : Fn) (P Q : Pt), scalarMul P (s + t) = scalarMul P s + scalarMul P t ∧
      scalarMul P (s * t) = scalarMul (scalarMul P t) s ∧ scalarMul (P + Q) s = scalarMul P s + scalarMul Q s ∧
      (s ≠ 0 → scalarMul (scalarMul P s) s⁻¹ = P)) := by
  have hu : ∀ P : Pt, ∃! s : Fn, P = mulByG s := by
    intro P
    obtain ⟨s, hs⟩ := exists_smul_eq G_ne_zero P
    refine ⟨s, hs, fun t ht => ?_⟩
    exact (smul_left_inj G_ne_zero).1 (ht.symm.trans hs)
  refine ⟨prime_p, prime_n, card_Pt, G_ne_zero, hu, fun P => ?_, fun k P => (nsmul_eq_smul_Fn k P).symm,
    fun s t P Q => ⟨add_smul s t P, mul_smul s t P, smul_add s P Q, fun hs => ?_⟩⟩
  · obtain ⟨s, hs, hun⟩ := hu P
    refine ⟨s.val, ⟨ZMod.val_lt s, ?_⟩, fun k hk => ?_⟩
    · rw [← smul_eq_val_nsmul]; exact hs
    · have := hun (k : Fn) (by show P = (k : Fn) • G; rw [← nsmul_eq_smul_Fn]; exact hk.2)
      rw [← this, ZMod.val_cast_of_lt hk.1]
  · rw [scalarMul, scalarMul, smul_smul, inv_mul_cancel₀ hs, one_smul]

theorem H_ne_zero : H ≠ 0 := WeierstrassCurve.Affine.Point.some_ne_zero _

/-- C15, perfect hiding: every commitment can be opened to every value, by exactly one mask. -/
theorem C15_pedersen_hiding (C : Pt) (v : Fn) : ∃! r : Fn, pedersen v r = C := by
  obtain ⟨r, hr⟩ := exists_smul_eq H_ne_zero (C - v • G)
  refine ⟨r, ?_, fun t ht => ?_⟩
  · show v • G + r • H = C
    rw [← hr]; abel
  · have ht' : v • G + t • H = C := ht
    apply (smul_left_inj H_ne_zero).1
    rw [← hr, ← ht']; abel

/-- C15, binding: two different openings of one commitment give the discrete logarithm of `H` to base `G`. -/
theorem C15_pedersen_binding (v r v' r' : Fn) (hne : (v, r) ≠ (v', r')) (heq : pedersen v r = pedersen v' r') :
    r ≠ r' ∧ H = mulByG ((v - v') / (r' - r)) := by
  have h : v • G + r • H = v' • G + r' • H := heq
  have hr : r ≠ r' := by
    rintro rfl
    have : v • G = v' • G := by simpa using h
    exact hne (by rw [(smul_left_inj G_ne_zero).1 this])
  have hd : r' - r ≠ 0 := sub_ne_zero.2 hr.symm
  refine ⟨hr, ?_⟩
  have e : (r' - r) • H = (v - v') • G := by
    rw [sub_smul, sub_smul, sub_eq_sub_iff_add_eq_add, add_comm, ← h, add_comm]
  rw [mulByG, div_eq_inv_mul, mul_smul, ← e, smul_smul, inv_mul_cancel₀ hd, one_smul]

/-- Two different openings of one commitment exist (they are just hard to find). -/
example : ∃ v r v' r' : Fn, (v, r) ≠ (v', r') ∧ pedersen v r = pedersen v' r' := by
  obtain ⟨r', hr', -⟩ := C15_pedersen_hiding (pedersen 0 0) 1
  exact ⟨0, 0, 1, r', by simp, hr'.symm⟩

end Verif
