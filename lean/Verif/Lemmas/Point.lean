import Mathlib.FieldTheory.Finite.Basic
import Verif.Model.Point
import Verif.Lemmas.Scalar

/-! Helper lemmas about field square roots and point encodings. -/

namespace Verif

theorem Fe.pow_eq (a : Fp) (e : Nat) (he : e < 2 ^ 300) : Fe.pow a e = a ^ e := by
  rw [Fe.pow, powMod_eq _ _ _ he one_lt_p, cast_mod_p, Nat.cast_pow, ZMod.natCast_val, ZMod.cast_id]

/-- Fermat: `a^(p-1) = 1`. -/
theorem fermat {a : Fp} (ha : a ≠ 0) : a ^ (p - 1) = 1 := ZMod.pow_card_sub_one_eq_one ha

/-- `a^((p+1)/4)` squares to `a` when `a` is a square. -/
theorem sqrt_pow_sq {a : Fp} (h : IsSquare a) : a ^ ((p + 1) / 4) * a ^ ((p + 1) / 4) = a := by
  obtain ⟨b, rfl⟩ := h
  by_cases hb : b = 0
  · subst hb
    have h4 : (p + 1) / 4 ≠ 0 := by decide +kernel
    simp [h4]
  · have e : (p + 1) / 4 + (p + 1) / 4 + ((p + 1) / 4 + (p + 1) / 4) = (p - 1) + 2 := by decide +kernel
    have hf := fermat hb
    calc (b * b) ^ ((p + 1) / 4) * (b * b) ^ ((p + 1) / 4)
        = b ^ ((p + 1) / 4 + (p + 1) / 4 + ((p + 1) / 4 + (p + 1) / 4)) := by ring
      _ = b * b := by rw [e, pow_add, hf]; ring

theorem Fe.sqrt_spec (a : Fp) :
    (IsSquare a → ∃ y, Fe.sqrt a = (y, 1) ∧ y * y = a) ∧ (¬ IsSquare a → Fe.sqrt a = (0, 0)) := by
  have he : (p + 1) / 4 < 2 ^ 300 := by decide +kernel
  constructor
  · intro h
    have := sqrt_pow_sq h
    refine ⟨a ^ ((p + 1) / 4), ?_, this⟩
    simp only [Fe.sqrt, Fe.pow_eq _ _ he, if_pos this]
  · intro h
    have : ¬ (a ^ ((p + 1) / 4) * a ^ ((p + 1) / 4) = a) := fun e => h ⟨_, e.symm⟩
    simp only [Fe.sqrt, Fe.pow_eq _ _ he, if_neg this]

namespace Point

theorem raw_zero : raw 0 = .inf := rfl
@[simp] theorem raw_mk (x y : Fp) (h : OnCurve x y) : raw (Pt.mk x y h) = .aff x y := rfl

theorem raw_injective : Function.Injective raw := by
  intro P Q h
  match P, Q with
  | .zero, .zero => rfl
  | .zero, .some _ _ _ => cases h
  | .some _ _ _, .zero => cases h
  | .some x y h1, .some x' y' h2 =>
    simp only [raw, RawPt.aff.injEq] at h
    obtain ⟨rfl, rfl⟩ := h
    rfl

theorem ofRaw?_raw (P : Pt) : ofRaw? (raw P) = some P := by
  match P with
  | .zero => rfl
  | .some x y h =>
    have : OnCurve x y := (nonsingular_iff x y).1 h
    simp [raw, ofRaw?, this, Pt.mk]

theorem ofRaw?_eq_some {r : RawPt} {P : Pt} : ofRaw? r = some P ↔ r = raw P := by
  constructor
  · intro h
    match r with
    | .inf => simp only [ofRaw?, Option.some.injEq] at h; subst h; rfl
    | .aff x y =>
      simp only [ofRaw?] at h
      split at h
      · simp only [Option.some.injEq] at h; subst h; rfl
      · cases h
  · rintro rfl; exact ofRaw?_raw P

/-- Induction on points in terms of the curve equation. -/
theorem pt_cases {motive : Pt → Prop} (h0 : motive 0)
    (h1 : ∀ x y h, motive (Pt.mk x y h)) (P : Pt) : motive P := by
  match P with
  | .zero => exact h0
  | .some x y h => exact h1 x y ((nonsingular_iff x y).1 h)

theorem onCurve_isSquare {x y : Fp} (h : OnCurve x y) : IsSquare (x ^ 3 + 7 : Fp) :=
  ⟨y, by rw [← sq]; exact h.symm⟩

/-- No point of the curve has `y = 0`. -/
theorem y_ne_zero {x y : Fp} (h : OnCurve x y) : y ≠ 0 := by
  rintro rfl
  apply neg7_not_cube x
  have : (0 : Fp) ^ 2 = x ^ 3 + 7 := h
  linear_combination -this

theorem length_feBytes (a : Fp) : (Fe.asBytes a).length = 32 := length_toBE _ _

theorem fp_val_lt_pow (s : Fp) : s.val < 256 ^ 32 := lt_trans (ZMod.val_lt s) (by decide +kernel)

theorem beVal_feBytes (a : Fp) : beVal (Fe.asBytes a) = a.val := beVal_toBE_of_lt (fp_val_lt_pow a)

theorem setBigInt_feBytes (a : Fp) : Fe.setBigIntBytes (Fe.asBytes a) = a := by
  rw [Fe.setBigIntBytes, beVal_feBytes, ZMod.natCast_val, ZMod.cast_id]

theorem copyInto_of_length {k : Nat} {b : Bytes} (h : b.length = k) : copyInto k b = b := by
  simp [copyInto, ← h]

theorem getLast?_toBE (k v : Nat) : (toBE (k + 1) v).getLast? = some (UInt8.ofNat (v % 256)) := by
  simp [toBE, toLE, List.getLast?_reverse]

theorem compressY_feBytes (y : Fp) :
    Encode.compressY (Fe.asBytes y) = .ok (if y.val % 2 = 1 then 3 else 2) := by
  have h : (UInt8.ofNat (y.val % 256)).toNat % 2 = y.val % 2 := by
    rw [UInt8.toNat_ofNat']; omega
  simp only [Encode.compressY, Fe.asBytes, getLast?_toBE, h]

/-- `Serialize` never fails and returns the compressed encoding. -/
theorem serializeRes_eq (P : Pt) : serializeRes P = .ok (serialize P) := by
  induction P using pt_cases with
  | h0 =>
    have hx : affineX 0 = 0 := rfl
    have hy : affineY 0 = 0 := rfl
    have hs : serialize 0 = List.replicate 33 0 := rfl
    simp only [serializeRes, encodePoint, Encode.fromAffineCoordinates, hx, hy, compressY_feBytes, if_true,
      Encode.conditionalSelect, Res.ok_bind, hs]
    simp
    decide
  | h1 x y h =>
    have hx : affineX (Pt.mk x y h) = x := rfl
    have hy : affineY (Pt.mk x y h) = y := rfl
    have h0 : Pt.mk x y h ≠ 0 := WeierstrassCurve.Affine.Point.some_ne_zero _
    have hs : serialize (Pt.mk x y h) = (if y.val % 2 = 1 then 3 else 2) :: Fe.asBytes x := rfl
    have hlen : ∀ t : UInt8, (t = 2 ∨ t = 3) → Encode.messageLen t = 33 := by
      rintro t (rfl | rfl) <;> rfl
    have ht : (if y.val % 2 = 1 then (3 : UInt8) else 2) = 2 ∨ (if y.val % 2 = 1 then (3 : UInt8) else 2) = 3 := by
      split <;> simp
    simp only [serializeRes, encodePoint, Encode.fromAffineCoordinates, hx, hy, compressY_feBytes, if_true,
      Encode.conditionalSelect, Res.ok_bind, hs, h0, if_false, Encode.affineBuffer, Encode.len, Encode.tag,
      Encode.asBytes, hlen _ ht, copyInto_of_length (length_feBytes _)]
    simp only [List.length_cons, List.length_append, length_feBytes]
    simp [length_feBytes, copyInto]
    rw [List.take_of_length_le (by simp [length_feBytes]), List.take_of_length_le (by simp [length_feBytes])]

/-- What the compressed decoder returns: the identity if `x³+7` is not a square, else the point with this `x` whose
`y` has the requested parity. -/
theorem decompress_spec (b : Bytes) (sg : Nat) :
    (∀ y, OnCurve (beVal b : Fp) y → y.val % 2 = sg → decompress b sg = .aff (beVal b : Fp) y) ∧
    ((∀ y, ¬ OnCurve (beVal b : Fp) y) → decompress b sg = .inf) ∧
    (∃ P : Pt, decompress b sg = raw P) := by
  by_cases hq : IsSquare ((beVal b : Fp) ^ 3 + 7 : Fp)
  · obtain ⟨y, hy, hyy⟩ := (Fe.sqrt_spec _).1 hq
    have hon : OnCurve (beVal b : Fp) y := by rw [OnCurve, sq]; exact hyy
    have hon' : OnCurve (beVal b : Fp) (-y) := by rw [OnCurve, neg_sq]; exact hon
    have hpar := val_neg_parity (y_ne_zero hon)
    have hd : decompress b sg = if y.val % 2 ≠ sg then .aff (beVal b : Fp) (-y) else .aff (beVal b : Fp) y := by
      simp [decompress, Fe.setBigIntBytes, hy]
    refine ⟨fun y' h' hp => ?_, fun h => absurd hon (h y), ?_⟩
    · rw [hd]
      split
      · rename_i hne
        rw [y_eq_of_parity h' hon' (by omega)]
      · rename_i he
        rw [y_eq_of_parity h' hon (by omega)]
    · rw [hd]
      split
      · exact ⟨Pt.mk _ _ hon', rfl⟩
      · exact ⟨Pt.mk _ _ hon, rfl⟩
  · have hd : decompress b sg = .inf := by
      simp [decompress, Fe.setBigIntBytes, (Fe.sqrt_spec _).2 hq]
    exact ⟨fun y h _ => absurd (onCurve_isSquare h) hq, fun _ => hd, 0, hd⟩

theorem k256Deserialize_compressed (t : UInt8) (ht : t = 2 ∨ t = 3) (xb : Bytes) (hx : xb.length = 32) :
    k256Deserialize (t :: xb) = .ok (some (decompress xb (t.toNat % 2))) := by
  have hlen : Encode.messageLen t = 33 := by rcases ht with rfl | rfl <;> rfl
  have hc : Encode.isCompressed t = true := by rcases ht with rfl | rfl <;> rfl
  have h0 : t ≠ 0 := by rcases ht with rfl | rfl <;> decide
  simp only [k256Deserialize, Encode.fromBytes, List.length_cons, hx, hlen, ne_eq, not_true, if_false,
    Res.ok_bind, fromEncodedPoint, Encode.coordinates, Encode.tag, h0, hc, if_true]
  have hnl : ¬ (32 + 1 < 33) := by norm_num
  simp only [hnl, if_false, Res.ok_bind]
  have : (List.drop 1 (t :: xb)).take 32 = xb := by simp [← hx]
  rw [this]
  rcases ht with rfl | rfl <;> rfl

theorem k256Deserialize_uncompressed (xb yb : Bytes) (hx : xb.length = 32) (hy : yb.length = 32) :
    k256Deserialize (4 :: (xb ++ yb)) = .ok (some (fromUncompressed xb yb)) := by
  have hlen : Encode.messageLen 4 = 65 := rfl
  have hc : Encode.isCompressed 4 = false := rfl
  simp only [k256Deserialize, Encode.fromBytes, List.length_cons, List.length_append, hx, hy, hlen, ne_eq, not_true,
    if_false, Res.ok_bind, fromEncodedPoint, Encode.coordinates, Encode.tag, hc]
  have h1 : (List.drop 1 (4 :: (xb ++ yb))).take 32 = xb := by simp [← hx]
  have h2 : List.drop 33 (4 :: (xb ++ yb)) = yb := by simp [← hx]
  rw [h1, h2]
  rfl

theorem k256Deserialize_compact (xb : Bytes) (hx : xb.length = 32) :
    k256Deserialize (5 :: xb) = .ok (some (decompress xb 0)) := by
  have hlen : Encode.messageLen 5 = 33 := rfl
  have hc : Encode.isCompressed 5 = false := rfl
  simp only [k256Deserialize, Encode.fromBytes, List.length_cons, hx, hlen, ne_eq, not_true,
    if_false, Res.ok_bind, fromEncodedPoint, Encode.coordinates, Encode.tag, hc]
  have h1 : (List.drop 1 (5 :: xb)).take 32 = xb := by simp [← hx]
  rw [h1]
  rfl

theorem length_serialize (P : Pt) : (serialize P).length = 33 := by
  induction P using pt_cases with
  | h0 => rfl
  | h1 x y h => exact congrArg (· + 1) (length_feBytes x)

theorem serialize_mk (x y : Fp) (h : OnCurve x y) :
    serialize (Pt.mk x y h) = (if y.val % 2 = 1 then 3 else 2) :: Fe.asBytes x := rfl

theorem k256Deserialize_serialize_mk (x y : Fp) (h : OnCurve x y) :
    k256Deserialize (serialize (Pt.mk x y h)) = .ok (some (.aff x y)) := by
  rw [serialize_mk, k256Deserialize_compressed _ (by split <;> simp) _ (length_feBytes x)]
  have hb : ((beVal (Fe.asBytes x) : Nat) : Fp) = x := setBigInt_feBytes x
  have := (decompress_spec (Fe.asBytes x) (y.val % 2)).1 y (by rw [hb]; exact h) rfl
  rw [hb] at this
  by_cases hp : y.val % 2 = 1
  · rw [if_pos hp]
    rw [hp] at this
    rw [show (3 : UInt8).toNat % 2 = 1 from rfl, this]
  · rw [if_neg hp]
    have h0 : y.val % 2 = 0 := by omega
    rw [h0] at this
    rw [show (2 : UInt8).toNat % 2 = 0 from rfl, this]

theorem deserialize_serialize (P : Pt) : deserialize K256 (serialize P) = .ok (some (raw P)) := by
  induction P using pt_cases with
  | h0 => rfl
  | h1 x y h =>
    have hp : pointBytes K256 = 33 := rfl
    have hne : (serialize (Pt.mk x y h)).all (· == 0) = false := by
      rw [serialize_mk]
      split <;> rfl
    have hh : ¬ ((serialize (Pt.mk x y h)).head? ≠ some 2 ∧ (serialize (Pt.mk x y h)).head? ≠ some 3) := by
      rw [serialize_mk]
      split <;> simp
    rw [deserialize, hp, length_serialize, if_neg (by simp), hne, if_neg hh]
    simp only [deserializeAnyFormat, if_true, k256Deserialize_serialize_mk, raw_mk]
    rfl

theorem serialize_injective : Function.Injective serialize := by
  intro P Q h
  have h1 := deserialize_serialize P
  rw [h, deserialize_serialize Q] at h1
  simp only [Res.ok.injEq, Option.some.injEq] at h1
  exact (raw_injective h1).symm

end Point

end Verif
