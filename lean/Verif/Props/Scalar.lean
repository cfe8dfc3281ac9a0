import Verif.Lemmas.Scalar

/-!
Properties C01, C02, C03, C10, C11, C12, C16: encodings of scalars, wide reduction, node indices, high/low.
`beVal b` is the big-endian value of a byte string.
-/

namespace Verif

open Scalar

/-- C01: 32-byte encoding, round trip in both directions, exact acceptance condition on 32-byte strings. -/
theorem C01_scalar_roundtrip :
    (∀ s : Fn, (serialize s).length = 32 ∧ beVal (serialize s) = s.val ∧
      deserialize K256 (serialize s) = .ok (some s)) ∧
    (∀ b : Bytes, b.length = 32 →
      ((∃ s, deserialize K256 b = .ok (some s)) ↔ beVal b < n) ∧
      ((deserialize K256 b).isErr = true ↔ n ≤ beVal b) ∧
      (∀ s, deserialize K256 b = .ok (some s) → serialize s = b)) := by
  refine ⟨fun s => ⟨length_serialize s, beVal_serialize s, ?_⟩, fun b hb => ?_⟩
  · simp [deserialize, length_serialize, k256Deserialize_serialize]
  · have hd : deserialize K256 b =
        if beVal b < n then .ok (some (beVal b : Fn)) else .err "invalid byte sequence" := by
      simp only [deserialize, hb, k256Deserialize_eq]
      by_cases h : beVal b < n <;> simp [h]
    rw [hd]
    by_cases h : beVal b < n
    · refine ⟨by simp [h], by simp [h], fun s hs => ?_⟩
      simp only [h, if_true, Res.ok.injEq, Option.some.injEq] at hs
      subst hs
      apply beVal_inj (by rw [length_serialize, hb])
      rw [beVal_serialize, val_natCast_of_lt h]
    · exact ⟨by simp [h], by simp [h]; omega, fun s hs => by simp [h] at hs⟩

/-- Non-vacuity of C01: both an accepted and a rejected 32-byte string exist. -/
example : (∃ s, deserialize K256 (toBE 32 5) = .ok (some s)) ∧
    (deserialize K256 (toBE 32 n)).isErr = true := by
  constructor
  · rw [((C01_scalar_roundtrip.2 (toBE 32 5) (length_toBE _ _)).1), beVal_toBE]; decide +kernel
  · rw [((C01_scalar_roundtrip.2 (toBE 32 n) (length_toBE _ _)).2.1), beVal_toBE]; decide +kernel

/-- C02: the tagged encoding is the tag `1` followed by the 32-byte encoding and decodes to the scalar. -/
theorem C02_tagged_scalar_roundtrip (s : Fn) :
    serializeTagged s = 1 :: serialize s ∧ (serializeTagged s).length = 33 ∧
    deserializeTagged (serializeTagged s) = .ok (some s) := by
  refine ⟨rfl, by simp [serializeTagged, length_serialize], ?_⟩
  have h : k256Deserialize (1 :: serialize s) = .ok s := by
    rw [k256Deserialize_eq]
    simp only [List.length_cons, length_serialize, Nat.add_sub_cancel_left, List.drop_succ_cons, List.drop_zero]
    rw [beVal_serialize, if_pos (ZMod.val_lt s), ZMod.natCast_val, ZMod.cast_id]
  have h1 : (((1 : UInt8).toNat : Nat) : CurveType) = K256 := rfl
  simp only [serializeTagged, deserializeTagged, List.singleton_append]
  rw [if_pos h1, h]; rfl

/-- C03 does not hold of the code: strings of 1 and of 33 bytes decode, and one scalar has several accepted
encodings. -/
theorem C03_false :
    (∃ b s, b.length = 1 ∧ deserialize K256 b = .ok (some s)) ∧
    (∃ b s, b.length = 33 ∧ deserialize K256 b = .ok (some s)) ∧
    (∃ b b' s, b ≠ b' ∧ deserialize K256 b = .ok (some s) ∧ deserialize K256 b' = .ok (some s)) := by
  have e1 : deserialize K256 [1] = .ok (some 1) := by decide +kernel
  have e2 : deserialize K256 (7 :: toBE 32 1) = .ok (some 1) := by decide +kernel
  exact ⟨⟨_, _, rfl, e1⟩, ⟨_, _, by decide, e2⟩, ⟨_, _, _, by decide, e1, e2⟩⟩

/-- C03, what the code does: any non-empty string is decoded by its last 32 bytes (shorter ones as if padded with
leading zeros), accepted iff that value is below the group order; encodings of exactly 32 bytes are unique.
Missing from C03: rejection of the other lengths. -/
theorem C03_scalar_decoding_partial (b : Bytes) (hb : b ≠ []) :
    (∀ s, deserialize K256 b = .ok (some s) ↔
      beVal (b.drop (b.length - 32)) < n ∧ s = (beVal (b.drop (b.length - 32)) : Fn)) ∧
    ((deserialize K256 b).isErr = true ↔ n ≤ beVal (b.drop (b.length - 32))) ∧
    (∀ b' s, b.length = 32 → b'.length = 32 → deserialize K256 b = .ok (some s) →
      deserialize K256 b' = .ok (some s) → b = b') := by
  have hl : b.length ≠ 0 := by simpa using hb
  have hd : deserialize K256 b = if beVal (b.drop (b.length - 32)) < n then
      .ok (some (beVal (b.drop (b.length - 32)) : Fn)) else .err "invalid byte sequence" := by
    simp only [deserialize, k256Deserialize_eq]
    by_cases h : beVal (b.drop (b.length - 32)) < n <;> simp [h, hl]
  refine ⟨fun s => ?_, ?_, fun b' s h h' e e' => ?_⟩
  · rw [hd]; by_cases h : beVal (b.drop (b.length - 32)) < n <;> simp [h, eq_comm]
  · rw [hd]; by_cases h : beVal (b.drop (b.length - 32)) < n <;> simp [h]; omega
  · rw [← (C01_scalar_roundtrip.2 b h).2.2 s e, ← (C01_scalar_roundtrip.2 b' h').2.2 s e']

example : ([1] : Bytes) ≠ [] ∧ deserialize K256 [1] = .ok (some 1) := by
  exact ⟨by decide, by decide +kernel⟩

/-- C10: decoding the byte string carried by the CBOR encoding of a scalar restores it.  (The CBOR byte-string
layer itself is a dependency, assumed to be inverted by its decoder.) -/
theorem C10_cbor_scalar_roundtrip (s : Fn) : unmarshalTagged (serializeTagged s) = .ok s := by
  simp [serializeTagged, unmarshalTagged, k256Deserialize_serialize]

/-- C11, scalars: at most 64 bytes are reduced modulo the group order; longer input panics. -/
theorem C11_scalar_wide_reduction (b : Bytes) :
    (b.length ≤ 64 → fromBytesWide b = .ok (beVal b : Fn)) ∧
    (64 < b.length → (fromBytesWide b).isPanic = true) := by
  constructor
  · intro h
    rw [fromBytesWide, fromWideBytes, if_neg (by omega), leVal_copyInto_reverse,
      Nat.sub_eq_zero_of_le h, List.drop_zero]
  · intro h; simp [fromBytesWide, fromWideBytes, h]

/-- C11, field elements: the last 64 bytes are reduced modulo the field prime, whatever the length. -/
theorem C11_field_wide_reduction (b : Bytes) :
    Fe.fromBytesWide b = (beVal (b.drop (b.length - 64)) : Fp) ∧
    (b.length ≤ 64 → Fe.fromBytesWide b = (beVal b : Fp)) := by
  have h : Fe.fromBytesWide b = (beVal (b.drop (b.length - 64)) : Fp) := by
    rw [Fe.fromBytesWide, leVal_copyInto_reverse]
  exact ⟨h, fun hl => by rw [h, Nat.sub_eq_zero_of_le hl, List.drop_zero]⟩

/-- A 64-byte input above both moduli exists, so the reduction is exercised. -/
example : (List.replicate 64 (255 : UInt8)).length ≤ 64 ∧ n < beVal (List.replicate 64 (255 : UInt8)) ∧
    p < beVal (List.replicate 64 (255 : UInt8)) := by decide +kernel

/-- C12: distinct node indices give distinct scalars; the scalar is zero only for index -1, in particular never
for a non-negative index; and a non-negative index `i` gives the scalar `i+1`. -/
theorem C12_node_index_embedding :
    (∀ i j : NodeIndex, fromNodeIndex i = fromNodeIndex j ↔ i = j) ∧
    (∀ i : NodeIndex, fromNodeIndex i = 0 ↔ i.toInt = -1) ∧
    (∀ i : NodeIndex, 0 ≤ i.toInt → fromNodeIndex i ≠ 0 ∧ fromNodeIndex i = ((i.toInt + 1 : Int) : Fn)) := by
  have hn : 2 ^ 64 < n := by decide +kernel
  have hval : ∀ i : NodeIndex, (fromNodeIndex i).val = (i + 1#64).toNat := by
    intro i
    exact val_natCast_of_lt (lt_trans (i + 1#64).isLt hn)
  have hinj : ∀ i j : NodeIndex, fromNodeIndex i = fromNodeIndex j ↔ i = j := by
    intro i j
    constructor
    · intro h
      have h2 := congrArg ZMod.val h
      rw [hval, hval] at h2
      have h3 := BitVec.eq_of_toNat_eq h2
      simpa using h3
    · rintro rfl; rfl
  have h0 : fromNodeIndex (-1#64) = 0 := by
    have : (-1#64 + 1#64 : BitVec 64).toNat = 0 := by decide
    rw [fromNodeIndex, this]; simp [fromUint64]
  have hzero : ∀ i : NodeIndex, fromNodeIndex i = 0 ↔ i.toInt = -1 := by
    intro i
    rw [← h0, hinj]
    constructor
    · rintro rfl; decide
    · intro h
      apply BitVec.eq_of_toInt_eq
      rw [h]; decide
  refine ⟨hinj, hzero, fun i hi => ⟨?_, ?_⟩⟩
  · rw [Ne, hzero]; omega
  · have hlt : i.toNat < 2 ^ 63 := by
      rw [BitVec.toInt_eq_toNat_cond] at hi
      have := i.isLt
      split at hi <;> omega
    have e : i.toInt = (i.toNat : Int) := by
      rw [BitVec.toInt_eq_toNat_cond, if_pos (by omega)]
    have e2 : (i + 1#64).toNat = i.toNat + 1 := by
      rw [BitVec.toNat_add]; simp; omega
    rw [fromNodeIndex, e2, e, fromUint64]; push_cast; rfl

example : (0 : Int) ≤ (41#64 : NodeIndex).toInt ∧ fromNodeIndex 41#64 = 42 := by
  refine ⟨by decide, ?_⟩
  have h := (C12_node_index_embedding.2.2 41#64 (by decide)).2
  have e : (41#64 : NodeIndex).toInt = 41 := by decide
  rw [h, e]; norm_num

/-- C16: zero is low, exactly one of `s`, `-s` is high for non-zero `s`, the negation of a high scalar is low, and
"high" means a canonical value above half the group order. -/
theorem C16_high_low (s : Fn) :
    isHigh 0 = false ∧ (isHigh s = true ↔ n < 2 * s.val) ∧
    (s ≠ 0 → (isHigh s = true ↔ isHigh (-s) = false)) ∧ (isHigh s = true → isHigh (-s) = false) := by
  have hn : n / 2 < n := Nat.div_lt_self n_pos (by norm_num)
  have hodd : n % 2 = 1 := by decide +kernel
  have hhalf : orderHalf.val = n / 2 := val_natCast_of_lt hn
  have key : ∀ t : Fn, isHigh t = true ↔ n < 2 * t.val := by
    intro t; rw [isHigh, decide_eq_true_iff, hhalf]; omega
  have keyf : ∀ t : Fn, isHigh t = false ↔ ¬ n < 2 * t.val := by
    intro t; rw [← key t]; simp
  have hneg : ∀ t : Fn, t ≠ 0 → (-t).val = n - t.val := by
    intro t ht; rw [ZMod.neg_val]; simp [ht]
  have h0 : isHigh 0 = false := by rw [keyf]; simp
  refine ⟨h0, key s, fun hs => ?_, fun hs => ?_⟩
  · rw [key, keyf, hneg s hs]
    have := ZMod.val_lt s
    omega
  · have hs0 : s ≠ 0 := by rintro rfl; rw [h0] at hs; cases hs
    rw [keyf, hneg s hs0]
    rw [key] at hs
    have := ZMod.val_lt s
    omega

/-- Both classes are inhabited. -/
example : isHigh (-1) = true ∧ isHigh 1 = false := by
  have h1 : isHigh (1 : Fn) = false := by decide +kernel
  have := (C16_high_low (-1)).2.2.1 (by decide +kernel)
  rw [neg_neg] at this
  exact ⟨this.2 h1, h1⟩

/-- `ToScalarBytes` never returns its bytes: converting back always panics (documented disagreement, not a listed
property). -/
theorem toScalarBytes_unusable (s : Fn) : toScalarBytes s = none ∧ (toScalarBytesToScalar s).isPanic = true :=
  ⟨rfl, rfl⟩

end Verif
