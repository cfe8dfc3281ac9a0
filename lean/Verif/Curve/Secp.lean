import Verif.Curve.Primes
import Mathlib.AlgebraicGeometry.EllipticCurve.Affine.Point
import Mathlib.FieldTheory.Finite.Basic
import Mathlib.Data.ZMod.Basic

/-!
The curve secp256k1 `y² = x³ + 7` over `ZMod p`, as Mathlib's type of affine points with its group
law, and an evaluator on natural numbers that the kernel can run, proved to compute Mathlib's
group law.
-/

namespace Verif

/-- Field elements (curve/k256_fe.go; kryptology `k256/fp`). -/
abbrev Fp := ZMod p

/-- Scalars (curve/k256_scalar.go; kryptology `k256/fq`). -/
abbrev Fn := ZMod n

theorem p_pos : 0 < p := prime_p.pos
theorem n_pos : 0 < n := prime_n.pos

/-- secp256k1, curve/k256_fe.go:13-14 `A = 0`, `B = 7`. -/
def E : WeierstrassCurve.Affine Fp where
  a₁ := 0
  a₂ := 0
  a₃ := 0
  a₄ := 0
  a₆ := 7

@[simp] theorem E_a₁ : E.a₁ = 0 := rfl
@[simp] theorem E_a₂ : E.a₂ = 0 := rfl
@[simp] theorem E_a₃ : E.a₃ = 0 := rfl
@[simp] theorem E_a₄ : E.a₄ = 0 := rfl
@[simp] theorem E_a₆ : E.a₆ = 7 := rfl

/-- Points of the curve (curve/k256_point.go; kryptology `k256` `EllipticPoint`). -/
abbrev Pt := E.Point

/-- `(x, y)` satisfies the curve equation. -/
def OnCurve (x y : Fp) : Prop := y ^ 2 = x ^ 3 + 7

instance (x y : Fp) : Decidable (OnCurve x y) := inferInstanceAs (Decidable (_ = _))

theorem natCast_eq_zero_iff_p (a : Nat) : ((a : Nat) : Fp) = 0 ↔ p ∣ a :=
  ZMod.natCast_eq_zero_iff a p

theorem E_equation_iff (x y : Fp) : E.Equation x y ↔ OnCurve x y := by
  rw [WeierstrassCurve.Affine.equation_iff]
  simp [OnCurve]

theorem E_Δ_ne : E.Δ ≠ 0 := by
  have : E.Δ = -(((432 * 49 : ℕ)) : Fp) := by
    simp only [WeierstrassCurve.Δ, WeierstrassCurve.b₂, WeierstrassCurve.b₄, WeierstrassCurve.b₆,
      WeierstrassCurve.b₈, E_a₁, E_a₂, E_a₃, E_a₄, E_a₆]
    push_cast
    ring
  rw [this, neg_ne_zero, Ne, natCast_eq_zero_iff_p]
  intro h
  have := Nat.le_of_dvd (by norm_num) h
  revert this
  decide +kernel

theorem nonsingular_iff (x y : Fp) : E.Nonsingular x y ↔ OnCurve x y := by
  rw [← E_equation_iff, WeierstrassCurve.Affine.equation_iff_nonsingular_of_Δ_ne_zero E_Δ_ne]

/-- The affine point with the given coordinates. -/
def Pt.mk (x y : Fp) (h : OnCurve x y) : Pt := .some x y ((nonsingular_iff x y).2 h)

/-! ### An evaluator on natural numbers -/

/-- Inverse modulo `p` by Fermat (0 for 0). -/
def invN (a : Nat) : Nat := powMod a (p - 2) p

/-- The chord-and-tangent law on pairs of residues (`none` is the identity). -/
def addN : Option (Nat × Nat) → Option (Nat × Nat) → Option (Nat × Nat)
  | none, Q => Q
  | P, none => P
  | some (x₁, y₁), some (x₂, y₂) =>
    if x₁ = x₂ ∧ (y₁ + y₂) % p = 0 then none
    else
      let l := if x₁ = x₂ then 3 * (x₁ * x₁) * invN (2 * y₁) % p
        else (y₁ + (p - y₂)) * invN (x₁ + (p - x₂)) % p
      let x₃ := (l * l + (p - x₁) + (p - x₂)) % p
      some (x₃, (l * (x₁ + (p - x₃)) + (p - y₁)) % p)

/-- Double-and-add, least significant bit first, `fuel` bits. -/
def smulN : Nat → Nat → Option (Nat × Nat) → Option (Nat × Nat) → Option (Nat × Nat)
  | 0, _, _, acc => acc
  | fuel + 1, k, P, acc =>
      smulN fuel (k / 2) (addN P P) (if k % 2 = 1 then addN acc P else acc)

/-- `P` is represented by the pair of residues. -/
def RepN : Option (Nat × Nat) → Pt → Prop
  | none, P => P = 0
  | some (x, y), P => x < p ∧ y < p ∧ ∃ h : OnCurve x y, P = Pt.mk x y h

theorem natCast_inj_p {a b : Nat} (ha : a < p) (hb : b < p) : ((a : Fp) = (b : Fp)) ↔ a = b := by
  rw [ZMod.natCast_eq_natCast_iff, Nat.ModEq, Nat.mod_eq_of_lt ha, Nat.mod_eq_of_lt hb]

theorem cast_mod_p (a : Nat) : ((a % p : Nat) : Fp) = (a : Fp) := by
  rw [ZMod.natCast_mod]

theorem cast_p_sub {a : Nat} (ha : a ≤ p) : ((p - a : Nat) : Fp) = -(a : Fp) := by
  rw [Nat.cast_sub ha, ZMod.natCast_self, zero_sub]

theorem one_lt_p : 1 < p := prime_p.one_lt
theorem p_lt : p < 2 ^ 256 := by decide +kernel
theorem n_lt : n < 2 ^ 256 := by decide +kernel

theorem cast_invN (a : Nat) : ((invN a : Nat) : Fp) = (a : Fp)⁻¹ := by
  have hlt : p - 2 < 2 ^ 300 := by decide +kernel
  rw [invN, powMod_eq _ _ _ hlt one_lt_p, cast_mod_p, Nat.cast_pow]
  by_cases h : (a : Fp) = 0
  · rw [h, inv_zero, zero_pow]
    have : p ≠ 2 := by decide +kernel
    have := prime_p.two_le
    omega
  · have h1 : (a : Fp) ^ (p - 1) = 1 := ZMod.pow_card_sub_one_eq_one h
    have : p - 1 = (p - 2) + 1 := by have := prime_p.two_le; omega
    rw [this, pow_succ] at h1
    exact eq_inv_of_mul_eq_one_left h1

theorem two_ne_zero_p : (2 : Fp) ≠ 0 := by
  have h : ((2 : Nat) : Fp) ≠ ((0 : Nat) : Fp) := by
    rw [Ne, natCast_inj_p]
    · norm_num
    · decide +kernel
    · exact p_pos
  simpa using h

theorem RepN_addN {a b : Option (Nat × Nat)} {P Q : Pt} (hP : RepN a P) (hQ : RepN b Q) :
    RepN (addN a b) (P + Q) := by
  match a, b with
  | none, b =>
    have : P = 0 := hP
    subst this; rw [zero_add]
    cases b <;> exact hQ
  | some (x₁, y₁), none =>
    have : Q = 0 := hQ
    subst this; rw [add_zero]; exact hP
  | some (x₁, y₁), some (x₂, y₂) =>
    obtain ⟨hx1, hy1, h1, rfl⟩ := hP
    obtain ⟨hx2, hy2, h2, rfl⟩ := hQ
    have hneg : E.negY (x₂ : Fp) (y₂ : Fp) = -(y₂ : Fp) := by
      simp [WeierstrassCurve.Affine.negY]
    have hc : (x₁ = x₂ ∧ (y₁ + y₂) % p = 0) ↔ ((x₁ : Fp) = x₂ ∧ (y₁ : Fp) = E.negY x₂ y₂) := by
      rw [natCast_inj_p hx1 hx2, hneg]
      refine and_congr_right fun _ => ?_
      rw [eq_neg_iff_add_eq_zero, ← Nat.cast_add, natCast_eq_zero_iff_p, Nat.dvd_iff_mod_eq_zero]
    simp only [addN, Pt.mk]
    by_cases h : (x₁ = x₂ ∧ (y₁ + y₂) % p = 0)
    · rw [if_pos h]
      have h' := hc.1 h
      exact WeierstrassCurve.Affine.Point.add_of_Y_eq h'.1 h'.2
    · rw [if_neg h]
      have h' := fun c => h (hc.2 c)
      rw [WeierstrassCurve.Affine.Point.add_some h']
      set l := (if x₁ = x₂ then 3 * (x₁ * x₁) * invN (2 * y₁) % p
        else (y₁ + (p - y₂)) * invN (x₁ + (p - x₂)) % p) with hl
      have hlc : (l : Fp) = E.slope (x₁ : Fp) x₂ y₁ y₂ := by
        by_cases hx : x₁ = x₂
        · have hxc : (x₁ : Fp) = x₂ := by rw [hx]
          have hyne : (y₁ : Fp) ≠ E.negY x₂ y₂ := fun c => h' ⟨hxc, c⟩
          have hyy : (y₁ : Fp) = y₂ := WeierstrassCurve.Affine.Y_eq_of_Y_ne
            ((E_equation_iff _ _).2 h1) ((E_equation_iff _ _).2 h2) hxc hyne
          rw [WeierstrassCurve.Affine.slope_of_Y_ne hxc hyne, hl, if_pos hx, cast_mod_p]
          push_cast
          rw [cast_invN]
          push_cast
          simp only [WeierstrassCurve.Affine.negY, E_a₁, E_a₂, E_a₃, E_a₄]
          rw [div_eq_mul_inv]
          congr 1
          · ring
          · congr 1; ring
        · have hxc : (x₁ : Fp) ≠ x₂ := fun c => hx ((natCast_inj_p hx1 hx2).1 c)
          rw [WeierstrassCurve.Affine.slope_of_X_ne hxc, hl, if_neg hx, cast_mod_p]
          push_cast
          rw [cast_invN]
          push_cast
          rw [cast_p_sub hx2.le, cast_p_sub hy2.le, div_eq_mul_inv, sub_eq_add_neg, sub_eq_add_neg]
      have hx3 : (((l * l + (p - x₁) + (p - x₂)) % p : Nat) : Fp)
          = E.addX (x₁ : Fp) x₂ (E.slope (x₁ : Fp) x₂ y₁ y₂) := by
        rw [cast_mod_p]; push_cast
        rw [cast_p_sub hx1.le, cast_p_sub hx2.le, hlc]
        simp only [WeierstrassCurve.Affine.addX, E_a₁, E_a₂]
        ring
      have hy3 : (((l * (x₁ + (p - (l * l + (p - x₁) + (p - x₂)) % p)) + (p - y₁)) % p : Nat) : Fp)
          = E.addY (x₁ : Fp) x₂ y₁ (E.slope (x₁ : Fp) x₂ y₁ y₂) := by
        rw [cast_mod_p]; push_cast
        rw [cast_p_sub (Nat.mod_lt _ p_pos).le, cast_p_sub hy1.le, hlc, hx3]
        simp only [WeierstrassCurve.Affine.addY, WeierstrassCurve.Affine.negAddY,
          WeierstrassCurve.Affine.negY, E_a₁, E_a₃]
        ring
      refine ⟨Nat.mod_lt _ p_pos, Nat.mod_lt _ p_pos, ?_⟩
      have hns := WeierstrassCurve.Affine.nonsingular_add ((nonsingular_iff _ _).2 h1)
        ((nonsingular_iff _ _).2 h2) h'
      rw [nonsingular_iff, ← hx3, ← hy3] at hns
      refine ⟨hns, ?_⟩
      simp only [hx3, hy3]
      rfl

theorem RepN_smulN : ∀ fuel k (a acc : Option (Nat × Nat)) (P A : Pt), k < 2 ^ fuel → RepN a P →
    RepN acc A → RepN (smulN fuel k a acc) (A + k • P) := by
  intro fuel
  induction fuel with
  | zero =>
    intro k a acc P A hk hP hA
    have : k = 0 := by simpa using hk
    subst this
    simpa [smulN] using hA
  | succ f ih =>
    intro k a acc P A hk hP hA
    have hk2 : k / 2 < 2 ^ f := by
      rw [Nat.div_lt_iff_lt_mul (by norm_num)]; rw [pow_succ] at hk; exact hk
    have hsplit : k • P = (k % 2) • P + (k / 2) • (P + P) := by
      rw [← two_nsmul, ← mul_nsmul, ← add_nsmul, Nat.mod_add_div]
    rw [smulN, hsplit, ← add_assoc]
    refine ih _ _ _ _ _ hk2 (RepN_addN hP hP) ?_
    rcases Nat.mod_two_eq_zero_or_one k with h | h
    · rw [if_neg (by omega), h, zero_nsmul, add_zero]; exact hA
    · rw [if_pos h, h, one_nsmul]; exact RepN_addN hA hP

/-! ### The standard generator -/

def Gx : Nat := 0x79BE667EF9DCBBAC55A06295CE870B07029BFCDB2DCE28D959F2815B16F81798
def Gy : Nat := 0x483ADA7726A3C4655DA4FBFC0E1108A8FD17B448A68554199C47D08FFB10D4B8

theorem G_onCurve_nat : Gy ^ 2 % p = (Gx ^ 3 + 7) % p := by decide +kernel

theorem onCurve_of_nat {x y : Nat} (h : y ^ 2 % p = (x ^ 3 + 7) % p) : OnCurve (x : Fp) (y : Fp) := by
  have : ((y ^ 2 : ℕ) : Fp) = ((x ^ 3 + 7 : ℕ) : Fp) := (ZMod.natCast_eq_natCast_iff _ _ _).2 h
  simpa [OnCurve] using this

/-- The standard base point, curve/point.go:42-49 `GeneratorG`. -/
def G : Pt := Pt.mk Gx Gy (onCurve_of_nat G_onCurve_nat)

theorem Gx_lt : Gx < p := by decide +kernel
theorem Gy_lt : Gy < p := by decide +kernel

theorem RepN_G : RepN (some (Gx, Gy)) G :=
  ⟨Gx_lt, Gy_lt, onCurve_of_nat G_onCurve_nat, rfl⟩

theorem smulN_n_G : smulN 256 n (some (Gx, Gy)) none = none := by decide +kernel

theorem nsmul_eq_zero_of_smulN {fuel k : Nat} {a : Option (Nat × Nat)} {P : Pt} (hk : k < 2 ^ fuel)
    (hP : RepN a P) (h : smulN fuel k a none = none) : k • P = 0 := by
  have h0 : RepN none (0 : Pt) := rfl
  have := RepN_smulN fuel k a none P 0 hk hP h0
  rw [h, zero_add] at this
  exact this

theorem n_nsmul_G : n • G = 0 := nsmul_eq_zero_of_smulN n_lt RepN_G smulN_n_G

theorem G_ne_zero : G ≠ 0 := WeierstrassCurve.Affine.Point.some_ne_zero _

end Verif
