import Mathlib.Tactic.FieldSimp
import Mathlib.Tactic.LinearCombination
import Verif.Model.HashToCurve
import Verif.Lemmas.Point
import Verif.Lemmas.Xmd

/-! Helper lemmas for hash to curve: square-root ratios, the SSWU map, the isogeny. -/

namespace Verif

namespace H2C

theorem cast_eq_of_mod {a b : Nat} (h : a % p = b % p) : ((a : Nat) : Fp) = ((b : Nat) : Fp) :=
  (ZMod.natCast_eq_natCast_iff _ _ _).2 h

theorem cast_ne_zero_of_mod {a : Nat} (h : a % p ≠ 0) : ((a : Nat) : Fp) ≠ 0 := by
  rw [Ne, natCast_eq_zero_iff_p]
  exact fun hd => h (Nat.mod_eq_zero_of_dvd hd)

def An : Nat := 0x3F8731ABDD661ADCA08A5558F0F5D272E953D363CB6F0E5D405447C01A444533
def Bn : Nat := 0x6eb
def Zn : Nat := 0xfffffffffffffffffffffffffffffffffffffffffffffffffffffffefffffc24
def C2n : Nat := 0x31fdf302724013e57ad13fb38f842afeec184f00a74789dd286729c8303c4a59

theorem sswuA_eq : sswuA = ((An : Nat) : Fp) := rfl
theorem sswuB_eq : sswuB = ((Bn : Nat) : Fp) := rfl
theorem sswuZ_eq : sswuZ = ((Zn : Nat) : Fp) := rfl
theorem sswuC2_eq : sswuC2 = ((C2n : Nat) : Fp) := rfl

theorem sswuA_ne : sswuA ≠ 0 := by rw [sswuA_eq]; exact cast_ne_zero_of_mod (by decide +kernel)
theorem sswuZ_ne : sswuZ ≠ 0 := by rw [sswuZ_eq]; exact cast_ne_zero_of_mod (by decide +kernel)
theorem c2_sq : sswuC2 * sswuC2 = -sswuZ := by
  have h : ((C2n * C2n + Zn : Nat) : Fp) = ((0 : Nat) : Fp) := cast_eq_of_mod (by decide +kernel)
  push_cast at h
  rw [sswuC2_eq, sswuZ_eq]
  linear_combination h

/-- The right-hand side of the isogenous curve. -/
def g' (x : Fp) : Fp := x ^ 3 + sswuA * x + sswuB

theorem half_pow {a : Fp} (ha : a ≠ 0) : a ^ ((p - 1) / 2) = 1 ∨ a ^ ((p - 1) / 2) = -1 := by
  have e : (p - 1) / 2 + (p - 1) / 2 = p - 1 := by decide +kernel
  have h : a ^ ((p - 1) / 2) * a ^ ((p - 1) / 2) = 1 := by rw [← pow_add, e, fermat ha]
  exact mul_self_eq_one_iff.1 h

/-- `sqrtRatio u v` (for `v ≠ 0`) returns a root of `u/v`, or of `Z·u/v` with flag 0; and the flag is 1 whenever
`u/v` is a square. -/
theorem sqrtRatio_spec (u v : Fp) (hv : v ≠ 0) :
    ∃ y q, sqrtRatio u v = .ok (y, q) ∧ ((q = 1 ∧ y * y * v = u) ∨ (q = 0 ∧ y * y * v = sswuZ * u)) ∧
      ((∃ s, s * s * v = u) → q = 1) := by
  have hprog : ∀ a, Fe.progenitor a = a ^ ((p - 3) / 4) := fun a =>
    Fe.pow_eq a _ (by decide +kernel)
  have hexp : (p - 3) / 4 + (p - 3) / 4 + 1 = (p - 1) / 2 := by decide +kernel
  set w := v * v * (u * v) with hw
  set y1 := w ^ ((p - 3) / 4) * (u * v) with hy1
  have hsr : sqrtRatio u v = .ok (cmov (y1 * sswuC2) y1 (if y1 * y1 * v = u then 1 else 0),
      if y1 * y1 * v = u then 1 else 0) := by
    simp only [sqrtRatio, hv, if_false, hprog]
    rfl
  rw [hsr]
  -- y1² v = χ u
  have hkey : u ≠ 0 → y1 * y1 * v = w ^ ((p - 1) / 2) * u := by
    intro hu
    have : v * v * v * u ≠ 0 := by simp [hu, hv]
    have hwu : w ^ ((p - 1) / 2) = w ^ ((p - 3) / 4) * w ^ ((p - 3) / 4) * w := by
      rw [← hexp, pow_succ, pow_add]
    rw [hwu, hy1]
    ring
  by_cases hu : u = 0
  · have h0 : y1 * y1 * v = u := by
      rw [hy1, hu]; ring
    refine ⟨_, _, rfl, Or.inl ⟨by rw [if_pos h0], ?_⟩, fun _ => by rw [if_pos h0]⟩
    rw [if_pos h0, cmov, if_pos rfl, h0]
  · have hw0 : w ≠ 0 := by rw [hw]; simp [hu, hv]
    have h1 := hkey hu
    rcases half_pow hw0 with hχ | hχ
    · have h0 : y1 * y1 * v = u := by rw [h1, hχ, one_mul]
      refine ⟨_, _, rfl, Or.inl ⟨by rw [if_pos h0], ?_⟩, fun _ => by rw [if_pos h0]⟩
      rw [if_pos h0, cmov, if_pos rfl, h0]
    · have h0 : y1 * y1 * v ≠ u := by
        rw [h1, hχ]
        intro h
        have h2 : (2 : Fp) * u = 0 := by linear_combination -h
        rcases mul_eq_zero.1 h2 with h | h
        · exact two_ne_zero_p h
        · exact hu h
      refine ⟨_, _, rfl, Or.inr ⟨by rw [if_neg h0], ?_⟩, ?_⟩
      · rw [if_neg h0, cmov, if_neg (by norm_num)]
        have h2 : y1 * y1 * v = -u := by rw [h1, hχ]; ring
        linear_combination (y1 * y1 * v) * c2_sq - sswuZ * h2
      · rintro ⟨s, hs⟩
        exfalso
        have hs0 : s ≠ 0 := by rintro rfl; apply hu; rw [← hs]; ring
        have hwsq : w = (s * (v * v)) ^ 2 := by rw [hw, ← hs]; ring
        have e : 2 * ((p - 1) / 2) = p - 1 := by decide +kernel
        have h3 : w ^ ((p - 1) / 2) = 1 := by
          rw [hwsq, ← pow_mul, e]
          exact fermat (by simp [hs0, hv])
        rw [h3] at hχ
        apply two_ne_zero_p
        linear_combination hχ

/-- In the exceptional case of SSWU, `x1 = B/(Z·A)` gives a square. -/
theorem exceptional_square : ∃ s : Fp, s * s * ((sswuZ * sswuA) * (sswuZ * sswuA) * (sswuZ * sswuA)) =
    (sswuB * sswuB + (sswuZ * sswuA) * (sswuZ * sswuA) * sswuA) * sswuB +
      (sswuZ * sswuA) * (sswuZ * sswuA) * (sswuZ * sswuA) * sswuB := by
  refine ⟨((0x2899ff0720f53efb09af4823587b279e148bb16bed075ba60fc2a97aff6ae188 : Nat) : Fp), ?_⟩
  have h : ((0x2899ff0720f53efb09af4823587b279e148bb16bed075ba60fc2a97aff6ae188 *
      0x2899ff0720f53efb09af4823587b279e148bb16bed075ba60fc2a97aff6ae188 * (Zn * An * (Zn * An) * (Zn * An)) : Nat) :
      Fp) = (((Bn * Bn + Zn * An * (Zn * An) * An) * Bn + Zn * An * (Zn * An) * (Zn * An) * Bn : Nat) : Fp) :=
    cast_eq_of_mod (by decide +kernel)
  rw [sswuA_eq, sswuB_eq, sswuZ_eq]
  push_cast at h ⊢
  linear_combination h

/-- The SSWU map always succeeds and lands on the isogenous curve `y² = x³ + A'x + B'`. -/
theorem sswu_spec (u : Fp) : ∃ x y, sswu u = .ok (x, y) ∧ y ^ 2 = g' x := by
  set tv1 := sswuZ * (u * u) with htv1
  set t := tv1 * tv1 + tv1 with ht
  set tv3 := (t + 1) * sswuB with htv3
  set tv4 := cmov sswuZ (-t) (if t = 0 then 0 else 1) * sswuA with htv4
  have h4 : tv4 ≠ 0 := by
    rw [htv4]
    apply mul_ne_zero _ sswuA_ne
    rw [cmov]
    by_cases h : t = 0
    · rw [if_neg (by simp [h])]; exact sswuZ_ne
    · rw [if_pos (by simp [h])]; exact neg_ne_zero.2 h
  set N := (tv3 * tv3 + tv4 * tv4 * sswuA) * tv3 + tv4 * tv4 * tv4 * sswuB with hN
  have h6 : tv4 * tv4 * tv4 ≠ 0 := by simp [h4]
  obtain ⟨y1, q, hs, hq, hsq⟩ := sqrtRatio_spec N (tv4 * tv4 * tv4) h6
  have hsw : sswu u = .ok (cmov (tv1 * tv3) tv3 q * tv4⁻¹,
      cmov (-(cmov (tv1 * u * y1) y1 q)) (cmov (tv1 * u * y1) y1 q)
        ((Fe.sign u) ^^^ (Fe.sign (cmov (tv1 * u * y1) y1 q)) ^^^ 1)) := by
    show (sqrtRatio N (tv4 * tv4 * tv4) >>= _) = _
    rw [hs]; rfl
  refine ⟨_, _, hsw, ?_⟩
  have hsign : ∀ (y : Fp) (c : Nat), (cmov (-y) y c) ^ 2 = y ^ 2 := by
    intro y c; rw [cmov]; split
    · rfl
    · rw [neg_sq]
  rw [hsign]
  have hgx1 : g' (tv3 * tv4⁻¹) * (tv4 * tv4 * tv4) = N := by
    rw [g', hN]; field_simp
  rcases hq with ⟨rfl, hy⟩ | ⟨rfl, hy⟩
  · rw [cmov, if_pos rfl, cmov, if_pos rfl]
    apply mul_right_cancel₀ h6
    rw [hgx1, ← hy]; ring
  · have ht0 : t ≠ 0 := by
      intro h0
      have : (0 : Nat) = 1 := hsq (by
        obtain ⟨s, hs⟩ := exceptional_square
        refine ⟨s, ?_⟩
        have e4 : tv4 = sswuZ * sswuA := by rw [htv4, cmov, if_neg (by simp [h0])]
        have e3 : tv3 = sswuB := by rw [htv3, h0]; ring
        rw [hN, e3, e4]; exact hs)
      exact absurd this (by norm_num)
    have e4 : tv4 = -t * sswuA := by rw [htv4, cmov, if_pos (by simp [ht0])]
    have hA := sswuA_ne
    rw [cmov, if_neg (by norm_num), cmov, if_neg (by norm_num)]
    have hgx2 : g' (tv1 * tv3 * tv4⁻¹) = tv1 ^ 3 * g' (tv3 * tv4⁻¹) := by
      have hx : tv3 * tv4⁻¹ * (t * sswuA) = -((t + 1) * sswuB) := by
        rw [e4, htv3]; field_simp
      have hx' : t * (sswuA * (tv3 * tv4⁻¹) + sswuB) = -sswuB := by linear_combination hx
      have e : g' (tv1 * tv3 * tv4⁻¹) - tv1 ^ 3 * g' (tv3 * tv4⁻¹) =
          (1 - tv1) * (t * (sswuA * (tv3 * tv4⁻¹) + sswuB) + sswuB) := by
        rw [g', g', ht]; ring
      rw [hx'] at e
      have : g' (tv1 * tv3 * tv4⁻¹) - tv1 ^ 3 * g' (tv3 * tv4⁻¹) = 0 := by rw [e]; ring
      exact sub_eq_zero.1 this
    rw [hgx2]
    apply mul_right_cancel₀ h6
    have hr : tv1 ^ 3 * g' (tv3 * tv4⁻¹) * (tv4 * tv4 * tv4) = tv1 ^ 3 * N := by rw [← hgx1]; ring
    rw [hr]
    have : tv1 = sswuZ * (u * u) := htv1
    calc (tv1 * u * y1) ^ 2 * (tv4 * tv4 * tv4) = tv1 ^ 2 * (u * u) * (y1 * y1 * (tv4 * tv4 * tv4)) := by ring
      _ = tv1 ^ 2 * (sswuZ * (u * u)) * N := by rw [hy]; ring
      _ = tv1 ^ 3 * N := by rw [← this]; ring

/-! ### The isogeny -/

/-- Minus the x coordinate of the kernel of the isogeny: `x_den = (x + t)²`, `y_den = (x + t)³`. -/
def tn : Nat := 0x76d6e37b21c1ee0efbe2596a8daa112a0369b5b20faf20dde2952b309546368a

theorem xden_eq (x : Fp) : x2Xc1C2 x c4 c5 = (x + (tn : Fp)) ^ 2 := by
  have h4 : ((c4 : Nat) : Fp) = ((2 * tn : Nat) : Fp) := cast_eq_of_mod (by decide +kernel)
  have h5 : ((c5 : Nat) : Fp) = ((tn * tn : Nat) : Fp) := cast_eq_of_mod (by decide +kernel)
  push_cast at h4 h5
  rw [x2Xc1C2, h4, h5]; ring

theorem yden_eq (x : Fp) : x3X2c1Xc2C3 x c10 c11 c12 = (x + (tn : Fp)) ^ 3 := by
  have h10 : ((c10 : Nat) : Fp) = ((3 * tn : Nat) : Fp) := cast_eq_of_mod (by decide +kernel)
  have h11 : ((c11 : Nat) : Fp) = ((3 * (tn * tn) : Nat) : Fp) := cast_eq_of_mod (by decide +kernel)
  have h12 : ((c12 : Nat) : Fp) = ((tn * tn * tn : Nat) : Fp) := cast_eq_of_mod (by decide +kernel)
  push_cast at h10 h11 h12
  rw [x3X2c1Xc2C3, x2Xc1C2, h10, h11, h12]; ring

/-- The kernel of the isogeny has no rational point: `g'(-t)` is not a square. -/
theorem g'_kernel_not_square (y : Fp) : y ^ 2 ≠ g' (-(tn : Fp)) := by
  intro h
  have hg : g' (-(tn : Fp)) = ((((p - tn) ^ 3 + An * (p - tn) + Bn) % p : Nat) : Fp) := by
    rw [cast_mod_p]
    have : ((p - tn : Nat) : Fp) = -(tn : Fp) := cast_p_sub (by decide +kernel)
    push_cast
    rw [this, g', sswuA_eq, sswuB_eq]
  set gn : Nat := ((p - tn) ^ 3 + An * (p - tn) + Bn) % p with hgn
  have hpow : powMod gn ((p - 1) / 2) p = p - 1 := by decide +kernel
  have h1 : ((gn : Nat) : Fp) ^ ((p - 1) / 2) = -1 := by
    have e := powMod_eq gn ((p - 1) / 2) p (by decide +kernel) one_lt_p
    rw [hpow] at e
    have e2 : ((gn ^ ((p - 1) / 2) : Nat) : Fp) = ((p - 1 : Nat) : Fp) := by
      rw [← cast_mod_p, ← e]
    rw [Nat.cast_pow] at e2
    rw [e2, cast_p_sub one_lt_p.le, Nat.cast_one]
  rw [← hg, ← h, ← pow_mul, show 2 * ((p - 1) / 2) = p - 1 by decide +kernel] at h1
  by_cases hy : y = 0
  · rw [hy, zero_pow (by decide +kernel)] at h1
    have : (1 : Fp) = 0 := by linear_combination h1
    exact one_ne_zero this
  · rw [fermat hy] at h1
    apply two_ne_zero_p
    linear_combination h1

/-- The polynomial identity of the isogeny, checked coefficient by coefficient:
`g'(x)·y_num² = x_num³ + 7·(x+t)^6`. -/
theorem isogeny_identity (x : Fp) :
    g' x * (x3c1X2c2Xc3C4 x c6 c7 c8 c9) ^ 2 =
      (x3c1X2c2Xc3C4 x c0 c1 c2 c3) ^ 3 + 7 * (x + (tn : Fp)) ^ 6 := by
  have h0 : ((Bn * c9 * c9 : Nat) : Fp) = ((c3 * c3 * c3 + 7 * tn ^ 6 : Nat) : Fp) := cast_eq_of_mod (by decide +kernel)
  have h1 : ((An * c9 * c9 + Bn * c8 * c9 + Bn * c9 * c8 : Nat) : Fp) = ((c2 * c3 * c3 + c3 * c2 * c3 + c3 * c3 * c2 + 42 * tn ^ 5 : Nat) : Fp) := cast_eq_of_mod (by decide +kernel)
  have h2 : ((An * c8 * c9 + An * c9 * c8 + Bn * c7 * c9 + Bn * c8 * c8 + Bn * c9 * c7 : Nat) : Fp) = ((c1 * c3 * c3 + c2 * c2 * c3 + c2 * c3 * c2 + c3 * c1 * c3 + c3 * c2 * c2 + c3 * c3 * c1 + 105 * tn ^ 4 : Nat) : Fp) := cast_eq_of_mod (by decide +kernel)
  have h3 : ((c9 * c9 + An * c7 * c9 + An * c8 * c8 + An * c9 * c7 + Bn * c6 * c9 + Bn * c7 * c8 + Bn * c8 * c7 + Bn * c9 * c6 : Nat) : Fp) = ((c0 * c3 * c3 + c1 * c2 * c3 + c1 * c3 * c2 + c2 * c1 * c3 + c2 * c2 * c2 + c2 * c3 * c1 + c3 * c0 * c3 + c3 * c1 * c2 + c3 * c2 * c1 + c3 * c3 * c0 + 140 * tn ^ 3 : Nat) : Fp) := cast_eq_of_mod (by decide +kernel)
  have h4 : ((c8 * c9 + c9 * c8 + An * c6 * c9 + An * c7 * c8 + An * c8 * c7 + An * c9 * c6 + Bn * c6 * c8 + Bn * c7 * c7 + Bn * c8 * c6 : Nat) : Fp) = ((c0 * c2 * c3 + c0 * c3 * c2 + c1 * c1 * c3 + c1 * c2 * c2 + c1 * c3 * c1 + c2 * c0 * c3 + c2 * c1 * c2 + c2 * c2 * c1 + c2 * c3 * c0 + c3 * c0 * c2 + c3 * c1 * c1 + c3 * c2 * c0 + 105 * tn ^ 2 : Nat) : Fp) := cast_eq_of_mod (by decide +kernel)
  have h5 : ((c7 * c9 + c8 * c8 + c9 * c7 + An * c6 * c8 + An * c7 * c7 + An * c8 * c6 + Bn * c6 * c7 + Bn * c7 * c6 : Nat) : Fp) = ((c0 * c1 * c3 + c0 * c2 * c2 + c0 * c3 * c1 + c1 * c0 * c3 + c1 * c1 * c2 + c1 * c2 * c1 + c1 * c3 * c0 + c2 * c0 * c2 + c2 * c1 * c1 + c2 * c2 * c0 + c3 * c0 * c1 + c3 * c1 * c0 + 42 * tn ^ 1 : Nat) : Fp) := cast_eq_of_mod (by decide +kernel)
  have h6 : ((c6 * c9 + c7 * c8 + c8 * c7 + c9 * c6 + An * c6 * c7 + An * c7 * c6 + Bn * c6 * c6 : Nat) : Fp) = ((c0 * c0 * c3 + c0 * c1 * c2 + c0 * c2 * c1 + c0 * c3 * c0 + c1 * c0 * c2 + c1 * c1 * c1 + c1 * c2 * c0 + c2 * c0 * c1 + c2 * c1 * c0 + c3 * c0 * c0 + 7 * tn ^ 0 : Nat) : Fp) := cast_eq_of_mod (by decide +kernel)
  have h7 : ((c6 * c8 + c7 * c7 + c8 * c6 + An * c6 * c6 : Nat) : Fp) = ((c0 * c0 * c2 + c0 * c1 * c1 + c0 * c2 * c0 + c1 * c0 * c1 + c1 * c1 * c0 + c2 * c0 * c0 : Nat) : Fp) := cast_eq_of_mod (by decide +kernel)
  have h8 : ((c6 * c7 + c7 * c6 : Nat) : Fp) = ((c0 * c0 * c1 + c0 * c1 * c0 + c1 * c0 * c0 : Nat) : Fp) := cast_eq_of_mod (by decide +kernel)
  have h9 : ((c6 * c6 : Nat) : Fp) = ((c0 * c0 * c0 : Nat) : Fp) := cast_eq_of_mod (by decide +kernel)
  push_cast at h0 h1 h2 h3 h4 h5 h6 h7 h8 h9
  simp only [g', sswuA_eq, sswuB_eq, x3c1X2c2Xc3C4]
  generalize ((c0 : Nat) : Fp) = c0' at *
  generalize ((c1 : Nat) : Fp) = c1' at *
  generalize ((c2 : Nat) : Fp) = c2' at *
  generalize ((c3 : Nat) : Fp) = c3' at *
  generalize ((c6 : Nat) : Fp) = c6' at *
  generalize ((c7 : Nat) : Fp) = c7' at *
  generalize ((c8 : Nat) : Fp) = c8' at *
  generalize ((c9 : Nat) : Fp) = c9' at *
  generalize ((An : Nat) : Fp) = An' at *
  generalize ((Bn : Nat) : Fp) = Bn' at *
  generalize ((tn : Nat) : Fp) = tn' at *
  linear_combination x ^ 0 * h0 + x ^ 1 * h1 + x ^ 2 * h2 + x ^ 3 * h3 + x ^ 4 * h4 + x ^ 5 * h5 + x ^ 6 * h6 + x ^ 7 * h7 + x ^ 8 * h8 + x ^ 9 * h9

/-- The isogeny maps every point of `y² = x³ + A'x + B'` to secp256k1. -/
theorem isogeny_onCurve (x y : Fp) (h : y ^ 2 = g' x) : OnCurve (isogeny x y).1 (isogeny x y).2 := by
  have hx : x + (tn : Fp) ≠ 0 := by
    intro h0
    have : x = -(tn : Fp) := by linear_combination h0
    rw [this] at h
    exact g'_kernel_not_square y h
  have hid := isogeny_identity x
  simp only [OnCurve, isogeny, xden_eq, yden_eq]
  generalize x3c1X2c2Xc3C4 x c6 c7 c8 c9 = yn at *
  generalize x3c1X2c2Xc3C4 x c0 c1 c2 c3 = xn at *
  have hx5 : ((x + (tn : Fp)) ^ 2 * (x + (tn : Fp)) ^ 3)⁻¹ * (x + (tn : Fp)) ^ 3 = ((x + (tn : Fp)) ^ 2)⁻¹ := by
    field_simp
  have hx5' : ((x + (tn : Fp)) ^ 2 * (x + (tn : Fp)) ^ 3)⁻¹ * (x + (tn : Fp)) ^ 2 = ((x + (tn : Fp)) ^ 3)⁻¹ := by
    field_simp
  rw [hx5, hx5']
  have h6 : (x + (tn : Fp)) ^ 6 ≠ 0 := pow_ne_zero _ hx
  apply mul_right_cancel₀ h6
  have e1 : (y * (yn * ((x + (tn : Fp)) ^ 3)⁻¹)) ^ 2 * (x + (tn : Fp)) ^ 6 = y ^ 2 * yn ^ 2 := by
    field_simp
  have e2 : ((xn * ((x + (tn : Fp)) ^ 2)⁻¹) ^ 3 + 7) * (x + (tn : Fp)) ^ 6 = xn ^ 3 + 7 * (x + (tn : Fp)) ^ 6 := by
    field_simp
  rw [e1, e2, h, hid]

/-- Mapping a field element to the curve always yields a point on it. -/
theorem mapToCurve_spec (u : Fp) : ∃ P : Pt, mapToCurve u = .ok (some (Point.raw P)) := by
  obtain ⟨x, y, hs, hg⟩ := sswu_spec u
  have hon := isogeny_onCurve x y hg
  refine ⟨Pt.mk _ _ hon, ?_⟩
  rw [mapToCurve, hs]
  simp only [Res.ok_bind, Point.fromFieldElems, Point.deserializeAnyFormat, if_true]
  have := Point.k256Deserialize_uncompressed _ _ (Point.length_feBytes (isogeny x y).1)
    (Point.length_feBytes (isogeny x y).2)
  simp only [List.cons_append, List.nil_append] at this ⊢
  rw [this, Point.fromUncompressed, Point.setBigInt_feBytes, Point.setBigInt_feBytes, Point.raw_mk]

end H2C

end Verif
