import Verif.Lemmas.HashToCurve
import Verif.Lemmas.Point

/-!
C142, C143: field elements (curve/fe.go, curve/k256_fe.go).
-/

namespace Verif

open H2C

theorem fe_fromBytes_eq (b : Bytes) :
    Fe.fromBytes b = if beVal (b.drop (b.length - 32)) < p then .ok (beVal (b.drop (b.length - 32)) : Fp)
      else .err "invalid byte sequence" := by
  rw [Fe.fromBytes, leVal_copyInto_reverse]

/-! ### C142 -/

/-- C142: square roots.  The flag says whether the argument is a square, the result is then a root of it and otherwise zero;
of an element and its negative, at least one has a root, and only zero has both. -/
theorem C142_sqrt (a : Fp) :
    ((Fe.sqrt a).2 = 1 ↔ ∃ b, b * b = a) ∧ ((Fe.sqrt a).2 = 1 ∨ (Fe.sqrt a).2 = 0) ∧
    ((Fe.sqrt a).2 = 1 → (Fe.sqrt a).1 * (Fe.sqrt a).1 = a) ∧ ((Fe.sqrt a).2 = 0 → (Fe.sqrt a).1 = 0) ∧
    ((Fe.sqrt a).2 = 1 ∨ (Fe.sqrt (-a)).2 = 1) ∧ ((Fe.sqrt a).2 = 1 ∧ (Fe.sqrt (-a)).2 = 1 ↔ a = 0) := by
  have key : ∀ a : Fp, (Fe.sqrt a).2 = 1 ↔ IsSquare a := fun a => by
    constructor
    · intro h
      by_contra hn
      rw [(Fe.sqrt_spec a).2 hn] at h
      simp at h
    · intro h
      obtain ⟨y, hy, -⟩ := (Fe.sqrt_spec a).1 h
      rw [hy]
  have hsq : IsSquare a ↔ ∃ b, b * b = a := ⟨fun ⟨b, h⟩ => ⟨b, h.symm⟩, fun ⟨b, h⟩ => ⟨b, h.symm⟩⟩
  have hodd : Odd ((p - 1) / 2) := by decide +kernel
  have hroot : ∀ a : Fp, a ^ ((p - 1) / 2) = 1 → IsSquare a := fun a h => by
    have e : (p + 1) / 4 + (p + 1) / 4 = (p - 1) / 2 + 1 := by decide +kernel
    exact ⟨a ^ ((p + 1) / 4), by rw [← pow_add, e, pow_add, h, one_mul, pow_one]⟩
  have hneg1 : ¬ IsSquare (-1 : Fp) := by
    rintro ⟨b, hb⟩
    have hb0 : b ≠ 0 := by rintro rfl; simp at hb
    have e : (p - 1) / 2 + (p - 1) / 2 = p - 1 := by decide +kernel
    have h1 : (b * b) ^ ((p - 1) / 2) = 1 := by rw [mul_pow, ← pow_add, e, fermat hb0]
    rw [← hb, hodd.neg_one_pow] at h1
    exact absurd h1 (by decide +kernel)
  refine ⟨(key a).trans hsq, ?_, fun h => ?_, fun h => ?_, ?_, ?_⟩
  · by_cases h : IsSquare a
    · exact Or.inl ((key a).2 h)
    · exact Or.inr (by rw [(Fe.sqrt_spec a).2 h])
  · obtain ⟨y, hy, hyy⟩ := (Fe.sqrt_spec a).1 ((key a).1 h)
    rw [hy]
    exact hyy
  · have hn : ¬ IsSquare a := fun hs => by
      rw [(key a).2 hs] at h
      simp at h
    rw [(Fe.sqrt_spec a).2 hn]
  · rw [key, key]
    by_cases h0 : a = 0
    · exact Or.inl (h0 ▸ ⟨0, by simp⟩)
    rcases half_pow h0 with h | h
    · exact Or.inl (hroot a h)
    · exact Or.inr (hroot (-a) (by rw [hodd.neg_pow, h, neg_neg]))
  · rw [key, key]
    constructor
    · rintro ⟨⟨b, hb⟩, ⟨c, hc⟩⟩
      by_contra h0
      have hb0 : b ≠ 0 := by rintro rfl; simp at hb; exact h0 hb
      exact hneg1 ⟨c / b, by
        rw [div_mul_div_comm, ← hc, ← hb]
        field_simp⟩
    · rintro rfl
      simp

/-- C142: inversion.  A receiver that is zero — as at every call in the package — becomes the inverse, or zero for zero; a
receiver that is not keeps its value if the argument is zero. -/
theorem C142_invert (r a : Fp) :
    (a ≠ 0 → a * Fe.invert r a = 1) ∧ Fe.invert r 0 = r ∧ Fe.invert 0 0 = 0 ∧ Fe.invert r 1 = 1 ∧
    (r = 0 → (Fe.isZero (Fe.invert r a) = 1 ↔ Fe.isZero a = 1)) ∧ (Fe.isZero a = 1 ↔ a = 0) ∧ (Fe.isZero a = 0 ↔ a ≠ 0) := by
  refine ⟨fun h => ?_, by simp [Fe.invert], by simp [Fe.invert], by simp [Fe.invert], ?_, ?_, ?_⟩
  · rw [Fe.invert, if_neg h, mul_inv_cancel₀ h]
  · rintro rfl
    by_cases h : a = 0 <;> simp [Fe.isZero, Fe.invert, h]
  all_goals by_cases h : a = 0 <;> simp [Fe.isZero, h]

/-- C142: the sign is the parity of the canonical value, and an element other than zero and its negative have different
signs. -/
theorem C142_sign (a : Fp) : Fe.sign a = a.val % 2 ∧ (a ≠ 0 → Fe.sign (-a) = 1 - Fe.sign a) ∧ Fe.sign 0 = 0 := by
  refine ⟨rfl, fun h => ?_, rfl⟩
  have hv : a.val ≠ 0 := by rwa [Ne, ZMod.val_eq_zero]
  have hlt := ZMod.val_lt a
  have e : (-a).val = p - a.val := by rw [ZMod.neg_val, if_neg h]
  have hp : p % 2 = 1 := by decide +kernel
  rw [Fe.sign, Fe.sign, e]
  omega

/-- C142: the progenitor `a ^ ((p - 3) / 4)`: its square times the element is 1 for squares other than zero and -1 for
elements that are not squares; its product with a square is the root that `Sqrt` returns. -/
theorem C142_progenitor (a : Fp) :
    Fe.progenitor a = a ^ ((p - 3) / 4) ∧ (a ≠ 0 → (Fe.sqrt a).2 = 1 → a * Fe.progenitor a ^ 2 = 1) ∧
    ((Fe.sqrt a).2 = 0 → a * Fe.progenitor a ^ 2 = -1) ∧ ((Fe.sqrt a).2 = 1 → a * Fe.progenitor a = (Fe.sqrt a).1) := by
  have hprog : Fe.progenitor a = a ^ ((p - 3) / 4) := Fe.pow_eq a _ (by decide +kernel)
  have hs : ∀ h : (Fe.sqrt a).2 = 1, (Fe.sqrt a).1 = a ^ ((p + 1) / 4) := fun h => by
    have he : Fe.pow a ((p + 1) / 4) = a ^ ((p + 1) / 4) := Fe.pow_eq a _ (by decide +kernel)
    rw [Fe.sqrt] at h ⊢
    by_cases hc : Fe.pow a ((p + 1) / 4) * Fe.pow a ((p + 1) / 4) = a
    · simp only [if_pos hc]
      exact he
    · simp only [if_neg hc] at h
      simp at h
  have hhalf : a * Fe.progenitor a ^ 2 = a ^ ((p - 1) / 2) := by
    have e : 1 + (p - 3) / 4 * 2 = (p - 1) / 2 := by decide +kernel
    rw [hprog, ← pow_mul, ← e, pow_add, pow_one]
  obtain ⟨h1, -, h3, -, -, -⟩ := C142_sqrt a
  have hpos : a ≠ 0 → (Fe.sqrt a).2 = 1 → a * Fe.progenitor a ^ 2 = 1 := fun h0 h => by
    obtain ⟨b, rfl⟩ := h1.1 h
    have hb : b ≠ 0 := by rintro rfl; simp at h0
    have e : (p - 1) / 2 + (p - 1) / 2 = p - 1 := by decide +kernel
    rw [hhalf, mul_pow, ← pow_add, e, fermat hb]
  refine ⟨hprog, hpos, fun h => ?_, fun h => ?_⟩
  · have hn : ¬ ∃ b, b * b = a := fun hb => by
      rw [h1.2 hb] at h
      simp at h
    have h0 : a ≠ 0 := fun e => hn ⟨0, by simp [e]⟩
    rcases half_pow h0 with hh | hh
    · exfalso
      apply hn
      refine ⟨a ^ ((p + 1) / 4), ?_⟩
      have e : (p + 1) / 4 + (p + 1) / 4 = (p - 1) / 2 + 1 := by decide +kernel
      rw [← pow_add, e, pow_add, hh, one_mul, pow_one]
    · rw [hhalf, hh]
  · have e : 1 + (p - 3) / 4 = (p + 1) / 4 := by decide +kernel
    rw [hs h, hprog, ← e, pow_add, pow_one]

/-- C142: the constants.  `Z` is -11 and no square; `C2` is the root of `-Z` that `Sqrt` returns; `A` and `B` are other than
zero. -/
theorem C142_constants :
    sswuZ = -11 ∧ Fe.sqrt sswuZ = (0, 0) ∧ Fe.sqrt (-sswuZ) = (sswuC2, 1) ∧ sswuA ≠ 0 ∧ sswuB = 1771 ∧
    ∀ k : Nat, ((sswuZ + k : Fp) = 0 ∧ ∀ j < k, (sswuZ + j : Fp) ≠ 0) ↔ k = 11 := by
  have hZ : sswuZ = -11 := by
    have h : ((Zn + 11 : Nat) : Fp) = ((0 : Nat) : Fp) := cast_eq_of_mod (by decide +kernel)
    push_cast at h
    rw [sswuZ_eq]
    linear_combination h
  have hC : Fe.sqrt (-sswuZ) = (sswuC2, 1) := by decide +kernel
  have hn : Fe.sqrt sswuZ = (0, 0) := by decide +kernel
  refine ⟨hZ, hn, hC, sswuA_ne, rfl, fun k => ?_⟩
  have hk : ∀ j : Nat, j < 11 → (sswuZ + j : Fp) ≠ 0 := fun j hj h => by
    have h' : ((11 - j : Nat) : Fp) = 0 := by
      rw [hZ] at h
      rw [Nat.cast_sub hj.le]
      push_cast
      linear_combination -h
    exact cast_ne_zero_of_mod (a := 11 - j) (by
      have : (11 - j) < p := lt_of_le_of_lt (Nat.sub_le _ _) (by decide +kernel)
      rw [Nat.mod_eq_of_lt this]
      omega) h'
  constructor
  · rintro ⟨h1, h2⟩
    by_contra hne
    rcases Nat.lt_or_gt_of_ne hne with h | h
    · exact hk k h h1
    · exact h2 11 h (by rw [hZ]; norm_num)
  · rintro rfl
    exact ⟨by rw [hZ]; norm_num, hk⟩

/-- C142: the bytes of an element are 32 and determine it; reading them gives it back. -/
theorem C142_bytes (a b : Fp) :
    (Fe.asBytes a).length = 32 ∧ beVal (Fe.asBytes a) = a.val ∧ Fe.fromBytes (Fe.asBytes a) = .ok a ∧
    (Fe.asBytes a = Fe.asBytes b ↔ Fe.equal a b = 1) ∧ Fe.equal a b ≤ 1 ∧ Fe.fromBytesWide (Fe.asBytes a) = a := by
  have hlt : a.val < 256 ^ 32 := lt_trans (ZMod.val_lt a) (by decide +kernel)
  have hltb : b.val < 256 ^ 32 := lt_trans (ZMod.val_lt b) (by decide +kernel)
  have hl : ∀ a : Fp, (Fe.asBytes a).length = 32 := fun a => length_toBE _ _
  have hv : beVal (Fe.asBytes a) = a.val := beVal_toBE_of_lt hlt
  refine ⟨hl a, hv, ?_, ?_, by rw [Fe.equal]; split <;> simp, ?_⟩
  · rw [fe_fromBytes_eq, hl, Nat.sub_self, List.drop_zero, hv, if_pos (ZMod.val_lt a), ZMod.natCast_val, ZMod.cast_id]
  · rw [Fe.equal]
    by_cases h : a = b
    · simp [h]
    · simp only [h, if_false]
      refine iff_of_false (fun e => h (ZMod.val_injective _ (toBE_inj hlt hltb e))) (by simp)
  · rw [Fe.fromBytesWide, leVal_copyInto_reverse, hl, show 32 - 64 = 0 from rfl, List.drop_zero, hv, ZMod.natCast_val, ZMod.cast_id]

/-! ### C143 -/

/-- C143 does not hold: a string of 33 bytes, and the empty one, are accepted. -/
theorem C143_false : (∀ a, Fe.fromBytes (7 :: Fe.asBytes a) = .ok a) ∧ Fe.fromBytes [] = .ok 0 := by
  refine ⟨fun a => ?_, by decide +kernel⟩
  have hl : (Fe.asBytes a).length = 32 := length_toBE _ _
  rw [fe_fromBytes_eq, List.length_cons, hl, List.drop_succ_cons, List.drop_zero, (C142_bytes a a).2.1, if_pos (ZMod.val_lt a),
    ZMod.natCast_val, ZMod.cast_id]

/-- C143: what the code does: the last 32 bytes count (shorter strings as if padded with zeros in front) and are accepted
exactly if their value is below the field's order; the largest string of 32 bytes is refused, and strings of exactly 32 bytes
are the bytes of the element they give.  Missing: rejection of other lengths. -/
theorem C143_decoding_partial (b : Bytes) :
    (∀ a, Fe.fromBytes b = .ok a ↔ beVal (b.drop (b.length - 32)) < p ∧ a = (beVal (b.drop (b.length - 32)) : Fp)) ∧
    ((Fe.fromBytes b).isErr = true ↔ p ≤ beVal (b.drop (b.length - 32))) ∧
    (∀ a, b.length = 32 → Fe.fromBytes b = .ok a → b = Fe.asBytes a) ∧
    (Fe.fromBytes (List.replicate 32 255)).isErr = true := by
  refine ⟨fun a => ?_, ?_, fun a hb h => ?_, by decide +kernel⟩
  · rw [fe_fromBytes_eq]; by_cases h : beVal (b.drop (b.length - 32)) < p <;> simp [h, eq_comm]
  · rw [fe_fromBytes_eq]; by_cases h : beVal (b.drop (b.length - 32)) < p <;> simp [h]; omega
  · rw [fe_fromBytes_eq, hb, Nat.sub_self, List.drop_zero] at h
    by_cases hlt : beVal b < p
    · rw [if_pos hlt] at h
      cases h
      rw [Fe.asBytes, ZMod.val_cast_of_lt hlt, ← hb, toBE_beVal]
    · rw [if_neg hlt] at h
      cases h

/-- C142: `FromBytesWide` gives the value of the last 64 bytes modulo the field's order, which is the value of the whole string if it has at
most 64 bytes. -/
theorem C142_wide (b : Bytes) :
    Fe.fromBytesWide b = (beVal (b.drop (b.length - 64)) : Fp) ∧ (b.length ≤ 64 → Fe.fromBytesWide b = (beVal b : Fp)) := by
  have h : Fe.fromBytesWide b = (beVal (b.drop (b.length - 64)) : Fp) := by rw [Fe.fromBytesWide, leVal_copyInto_reverse]
  refine ⟨h, fun hl => ?_⟩
  rw [h, Nat.sub_eq_zero_of_le hl, List.drop_zero]

/-- 2 at the front of 64 bytes counts. -/
example : Fe.fromBytesWide (2 :: List.replicate 63 0) = (2 ^ 505 : Fp) := by
  rw [(C142_wide _).2 (by simp)]
  decide +kernel

end Verif
