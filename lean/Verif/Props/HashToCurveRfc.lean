import Verif.Spec.Rfc9380Curve
import Verif.Props.HashToCurve

/-! C118: hashing to the curve is that of RFC 9380. -/

set_option autoImplicit false

namespace Verif

open H2C Rfc9380

theorem H2C.sswuA_rfc : sswuA = A' := rfl

theorem H2C.sswuB_rfc : sswuB = B' := by decide +kernel

theorem H2C.sswuZ_rfc : sswuZ = Z := by decide +kernel

theorem H2C.g_rfc (x : Fp) : g' x = g x := by rw [g', g, sswuA_rfc, sswuB_rfc]

/-- The map of the code is the one of RFC 9380. -/
theorem H2C.sswu_rfc (u : Fp) : ∃ x y, sswu u = .ok (x, y) ∧ Sswu u x y := by
  set tv1 := sswuZ * (u * u) with htv1
  set t := tv1 * tv1 + tv1 with ht
  set tv3 := (t + 1) * sswuB with htv3
  set tv4 := cmov sswuZ (-t) (if t = 0 then 0 else 1) * sswuA with htv4
  have hA := sswuA_ne
  have hZ := sswuZ_ne
  have h4 : tv4 ≠ 0 := by
    rw [htv4]
    apply mul_ne_zero _ sswuA_ne
    rw [cmov]
    by_cases h : t = 0
    · rw [if_neg (by simp [h])]; exact sswuZ_ne
    · rw [if_pos (by simp [h])]; exact neg_ne_zero.2 h
  set N := (tv3 * tv3 + tv4 * tv4 * sswuA) * tv3 + tv4 * tv4 * tv4 * sswuB with hN
  have h6 : tv4 * tv4 * tv4 ≠ 0 := by simp [h4]
  obtain ⟨y1, q, hs, hq, hsq⟩ := sqrtRatio_spec N (tv4 * tv4 * tv4) h6
  set y := cmov (tv1 * u * y1) y1 q with hy
  have hsw : sswu u = .ok (cmov (tv1 * tv3) tv3 q * tv4⁻¹, cmov (-y) y ((Fe.sign u) ^^^ (Fe.sign y) ^^^ 1)) := by
    show (sqrtRatio N (tv4 * tv4 * tv4) >>= _) = _
    rw [hs]; rfl
  have hgx1 : g' (tv3 * tv4⁻¹) * (tv4 * tv4 * tv4) = N := by
    rw [g', hN]; field_simp
  -- the first candidate
  have hpoly : Z ^ 2 * u ^ 4 + Z * u ^ 2 = t := by rw [ht, htv1, sswuZ_rfc]; ring
  have hx1 : x1 u = tv3 * tv4⁻¹ := by
    rw [x1]
    simp only [hpoly, inv0]
    by_cases h0 : t = 0
    · have e4 : tv4 = sswuZ * sswuA := by rw [htv4, cmov, if_neg (by simp [h0])]
      have e3 : tv3 = sswuB := by rw [htv3, h0]; ring
      rw [if_pos h0, if_pos rfl, e3, e4, ← sswuA_rfc, ← sswuB_rfc, ← sswuZ_rfc, div_eq_mul_inv]
    · have e4 : tv4 = -t * sswuA := by rw [htv4, cmov, if_pos (by simp [h0])]
      rw [if_neg h0, if_neg (by simpa using h0), e4, htv3, ← sswuA_rfc, ← sswuB_rfc]
      field_simp
  have hx2 : x2 u = tv1 * tv3 * tv4⁻¹ := by rw [x2, hx1, htv1, sswuZ_rfc]; ring
  have hsquare : IsSquare (g (x1 u)) ↔ q = 1 := by
    rw [hx1, ← g_rfc]
    constructor
    · rintro ⟨s, e⟩
      exact hsq ⟨s, by rw [← e, hgx1]⟩
    · rintro rfl
      rcases hq with ⟨-, h⟩ | ⟨h, -⟩
      · refine ⟨y1, mul_right_cancel₀ h6 ?_⟩
        rw [hgx1, h]
      · exact absurd h (by norm_num)
  obtain ⟨x', y', hsw', hg⟩ := sswu_spec u
  rw [hsw] at hsw'
  obtain ⟨rfl, rfl⟩ : cmov (tv1 * tv3) tv3 q * tv4⁻¹ = x' ∧ cmov (-y) y ((Fe.sign u) ^^^ (Fe.sign y) ^^^ 1) = y' := by
    simpa using hsw'
  refine ⟨_, _, hsw, fun h => ?_, fun h => ?_, by rw [hg, g_rfc], ?_⟩
  · rw [hx1, cmov, if_pos (hsquare.1 h)]
  · rw [hx2, cmov, if_neg fun e => h (hsquare.2 e)]
  · by_cases h0 : y = 0
    · left
      rw [h0, cmov]
      split <;> simp
    · right
      have hp : ∀ a : Fp, sgn0 a = Fe.sign a := fun _ => rfl
      have hneg : Fe.sign (-y) = 1 - Fe.sign y := by
        rw [Fe.sign, Fe.sign, ZMod.neg_val, if_neg h0]
        have h1 := ZMod.val_lt y
        have h2 : y.val ≠ 0 := by simpa using h0
        have h3 : p % 2 = 1 := by decide +kernel
        omega
      rw [hp, hp, cmov]
      have b1 : Fe.sign u = 0 ∨ Fe.sign u = 1 := by rw [Fe.sign]; omega
      have b2 : Fe.sign y = 0 ∨ Fe.sign y = 1 := by rw [Fe.sign]; omega
      rcases b1 with e1 | e1 <;> rcases b2 with e2 | e2 <;> simp [e1, e2, hneg]

theorem H2C.xDen_rfc (x : Fp) : xDen x = x2Xc1C2 x c4 c5 := by
  rw [xDen, x2Xc1C2]
  have e1 : ((c4 : Nat) : Fp) = k21 := rfl
  have e2 : ((c5 : Nat) : Fp) = k20 := rfl
  rw [e1, e2]
  ring

theorem H2C.yDen_rfc (x : Fp) : yDen x = x3X2c1Xc2C3 x c10 c11 c12 := by
  rw [yDen, x3X2c1Xc2C3, x2Xc1C2]
  have e1 : ((c10 : Nat) : Fp) = k42 := rfl
  have e2 : ((c11 : Nat) : Fp) = k41 := rfl
  have e3 : ((c12 : Nat) : Fp) = k40 := rfl
  rw [e1, e2, e3]
  ring

theorem H2C.xNum_rfc (x : Fp) : xNum x = x3c1X2c2Xc3C4 x c0 c1 c2 c3 := by
  rw [xNum, x3c1X2c2Xc3C4]
  have e1 : ((c0 : Nat) : Fp) = k13 := rfl
  have e2 : ((c1 : Nat) : Fp) = k12 := rfl
  have e3 : ((c2 : Nat) : Fp) = k11 := rfl
  have e4 : ((c3 : Nat) : Fp) = k10 := rfl
  rw [e1, e2, e3, e4]
  ring

theorem H2C.yNum_rfc (x : Fp) : yNum x = x3c1X2c2Xc3C4 x c6 c7 c8 c9 := by
  rw [yNum, x3c1X2c2Xc3C4]
  have e1 : ((c6 : Nat) : Fp) = k33 := rfl
  have e2 : ((c7 : Nat) : Fp) = k32 := rfl
  have e3 : ((c8 : Nat) : Fp) = k31 := rfl
  have e4 : ((c9 : Nat) : Fp) = k30 := rfl
  rw [e1, e2, e3, e4]
  ring

/-- The denominators of the isogeny are not zero at points of the curve. -/
theorem H2C.den_ne_zero {x y : Fp} (h : y ^ 2 = g x) : xDen x ≠ 0 ∧ yDen x ≠ 0 := by
  have hx : x + (tn : Fp) ≠ 0 := by
    intro h0
    have : x = -(tn : Fp) := by linear_combination h0
    rw [this, ← g_rfc] at h
    exact g'_kernel_not_square y h
  rw [xDen_rfc, yDen_rfc, xden_eq, yden_eq]
  exact ⟨pow_ne_zero _ hx, pow_ne_zero _ hx⟩

theorem H2C.mapToCurve_rfc (u : Fp) : ∃ Q : Pt, mapToCurve u = .ok (some (Point.raw Q)) ∧ MapToCurve u Q := by
  obtain ⟨x, y, hs, hr⟩ := sswu_rfc u
  have hg := hr.root
  obtain ⟨hx, hy⟩ := den_ne_zero hg
  have hon := isogeny_onCurve x y (by rw [hg, g_rfc])
  have h1 : (isogeny x y).1 = xNum x / xDen x := by
    simp only [isogeny, ← xDen_rfc, ← yDen_rfc, ← xNum_rfc]
    field_simp
  have h2 : (isogeny x y).2 = y * (yNum x / yDen x) := by
    simp only [isogeny, ← xDen_rfc, ← yDen_rfc, ← yNum_rfc]
    field_simp
  refine ⟨Pt.mk _ _ hon, ?_, x, y, hr, .inr ⟨hx, hy, by rw [← h1, ← h2]; exact hon, ?_⟩⟩
  · rw [mapToCurve, hs]
    simp only [Res.ok_bind, Point.fromFieldElems, Point.deserializeAnyFormat, if_true]
    have := Point.k256Deserialize_uncompressed _ _ (Point.length_feBytes (isogeny x y).1)
      (Point.length_feBytes (isogeny x y).2)
    simp only [List.cons_append, List.nil_append] at this ⊢
    rw [this, Point.fromUncompressed, Point.setBigInt_feBytes, Point.setBigInt_feBytes, Point.raw_mk]
  · congr 1

/-- C118: the relations transcribed from the RFC determine the result. -/
theorem C118_rfc_unique (H : Bytes → Bytes) (msg dst : Bytes) (R R' : Pt) (h : HashToCurve H msg dst R)
    (h' : HashToCurve H msg dst R') : R = R' := by
  have hsw : ∀ u x y x' y', Sswu u x y → Sswu u x' y' → x = x' ∧ y = y' := by
    intro u x y x' y' h h'
    have hx : x = x' := by
      by_cases hq : IsSquare (g (x1 u))
      · rw [h.first hq, h'.first hq]
      · rw [h.second hq, h'.second hq]
    subst hx
    refine ⟨rfl, ?_⟩
    have he : y ^ 2 = y' ^ 2 := by rw [h.root, h'.root]
    rcases sq_eq_sq_iff_eq_or_eq_neg.1 he with e | e
    · exact e
    · by_cases h0 : y' = 0
      · rw [e, h0, neg_zero]
      · exfalso
        have hy : y ≠ 0 := by rw [e]; simpa using h0
        have s1 := h.sign.resolve_left hy
        have s2 := h'.sign.resolve_left h0
        rw [s1, e] at s2
        rw [sgn0, sgn0, ZMod.neg_val, if_neg h0] at s2
        have h1 := ZMod.val_lt y'
        have h3 : p % 2 = 1 := by decide +kernel
        omega
  have hm : ∀ u Q Q', MapToCurve u Q → MapToCurve u Q' → Q = Q' := by
    rintro u Q Q' ⟨x, y, hs, hq⟩ ⟨x', y', hs', hq'⟩
    obtain ⟨rfl, rfl⟩ := hsw u x y x' y' hs hs'
    obtain ⟨hx, hy⟩ := den_ne_zero hs.root
    rcases hq with ⟨h, -⟩ | ⟨-, -, k, rfl⟩
    · exact h.elim (fun e => absurd e hx) (fun e => absurd e hy)
    · rcases hq' with ⟨h, -⟩ | ⟨-, -, k', rfl⟩
      · exact h.elim (fun e => absurd e hx) (fun e => absurd e hy)
      · rfl
  obtain ⟨b, Q0, Q1, e1, e2, e3, rfl⟩ := h
  obtain ⟨b', Q0', Q1', e1', e2', e3', rfl⟩ := h'
  rw [e1] at e1'
  obtain rfl := Option.some.inj e1'
  rw [hm _ _ _ e2 e2', hm _ _ _ e3 e3']

/-- C118: `HashToCurveRo` returns, for every message and separator and every hash function, the point that RFC 9380
prescribes. -/
theorem C118_hash_to_curve_rfc (P : Prim) (msg dst : Bytes) :
    ∃ Q : Pt, hashToCurve P msg dst = .ok (Point.raw Q) ∧ HashToCurve P.sha256 msg dst Q := by
  obtain ⟨out, h1, -, h⟩ := hashToField_ok P 2 msg dst (by norm_num)
  obtain ⟨A, hA, hA'⟩ := mapToCurve_rfc (beVal (block48 out 0) : Fp)
  obtain ⟨B, hB, hB'⟩ := mapToCurve_rfc (beVal (block48 out 1) : Fp)
  refine ⟨A + B, ?_, out, A, B, h1, hA', hB', rfl⟩
  have h' : hashToField P 2 msg dst = .ok [(beVal (block48 out 0) : Fp), (beVal (block48 out 1) : Fp)] := h
  rw [hashToCurve, h', Res.ok_bind]
  simp only [hA, hB, Res.ok_bind, addRaw, Point.ofRaw?_raw]

/-- C118, the map for the exceptional input `u = 0`: `x` is the first candidate there, as `g(B'/(Z·A'))` is a square. -/
example : ∃ Q : Pt, mapToCurve 0 = .ok (some (Point.raw Q)) ∧ MapToCurve 0 Q := mapToCurve_rfc 0

end Verif
