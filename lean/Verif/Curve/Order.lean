import Verif.Curve.Secp
import Mathlib.Algebra.Module.ZMod
import Mathlib.GroupTheory.Perm.Cycle.Type
import Mathlib.GroupTheory.OrderOfElement

/-!
secp256k1 has exactly `n` points.  Proof: `n • G = 0` with `n` prime, so `n` divides the number of points;
there are at most `2p + 1 < 3n` points (two per abscissa and the identity); there is no point of order two
(`-7` is not a cube); hence the number is `n`.  The points are therefore a module over `ZMod n`.
-/

namespace Verif

/-! ### Parity of the ordinate -/

theorem p_odd : p % 2 = 1 := by decide +kernel

/-- Negation flips the parity of a non-zero residue. -/
theorem val_neg_parity {y : Fp} (hy : y ≠ 0) : (-y).val % 2 = 1 - y.val % 2 := by
  have hv : (-y).val = p - y.val := by
    rw [ZMod.neg_val]; simp [hy]
  have := ZMod.val_lt y
  have := p_odd
  omega

theorem onCurve_same_x {x y y' : Fp} (h : OnCurve x y) (h' : OnCurve x y') : y = y' ∨ y = -y' := by
  have : (y - y') * (y + y') = 0 := by
    have h1 : y ^ 2 = y' ^ 2 := by rw [h, h']
    linear_combination h1
  rcases mul_eq_zero.1 this with h | h
  · exact Or.inl (sub_eq_zero.1 h)
  · exact Or.inr (eq_neg_of_add_eq_zero_left h)

theorem y_eq_of_parity {x y y' : Fp} (h : OnCurve x y) (h' : OnCurve x y')
    (hp : y.val % 2 = y'.val % 2) : y = y' := by
  rcases onCurve_same_x h h' with e | e
  · exact e
  · by_cases hz : y' = 0
    · rw [e, hz, neg_zero]
    · rw [e, val_neg_parity hz] at hp
      omega

/-- The abscissa and the parity of the ordinate of a point. -/
def xpar : Pt → Option (Fp × Bool)
  | .zero => none
  | .some x y _ => some (x, decide (y.val % 2 = 1))

theorem xpar_injective : Function.Injective xpar := by
  intro P Q h
  match P, Q with
  | .zero, .zero => rfl
  | .zero, .some x y hh => simp [xpar] at h
  | .some x y hh, .zero => simp [xpar] at h
  | .some x y hh, .some x' y' hh' =>
    simp only [xpar, Option.some.injEq, Prod.mk.injEq, decide_eq_decide] at h
    obtain ⟨hx, hy⟩ := h
    subst hx
    have : y = y' := by
      apply y_eq_of_parity ((nonsingular_iff _ _).1 hh) ((nonsingular_iff _ _).1 hh')
      rcases Nat.mod_two_eq_zero_or_one y.val with h | h <;>
        rcases Nat.mod_two_eq_zero_or_one y'.val with h' | h' <;> omega
    subst this
    rfl

instance : NeZero p := ⟨p_pos.ne'⟩
instance : NeZero n := ⟨n_pos.ne'⟩

instance : Finite Pt := Finite.of_injective xpar xpar_injective

theorem card_Pt_le : Nat.card Pt ≤ 2 * p + 1 := by
  have h := Nat.card_le_card_of_injective xpar xpar_injective
  have : Nat.card (Option (Fp × Bool)) = 2 * p + 1 := by
    rw [Nat.card_eq_fintype_card, Fintype.card_option, Fintype.card_prod, ZMod.card, Fintype.card_bool]
    ring
  rw [this] at h
  exact h

theorem addOrderOf_G : addOrderOf G = n := by
  have hd : addOrderOf G ∣ n := addOrderOf_dvd_of_nsmul_eq_zero n_nsmul_G
  rcases (Nat.dvd_prime prime_n).1 hd with h | h
  · exact absurd (AddMonoid.addOrderOf_eq_one_iff.1 h) G_ne_zero
  · exact h

theorem n_dvd_card : n ∣ Nat.card Pt := addOrderOf_G ▸ addOrderOf_dvd_natCard G

theorem neg7_not_cube (x : Fp) : x ^ 3 ≠ -7 := by
  intro h
  have hx : x ≠ 0 := by
    rintro rfl
    rw [zero_pow (by norm_num), eq_comm, neg_eq_zero] at h
    have h7 : ((7 : Nat) : Fp) = ((0 : Nat) : Fp) := by simpa using h
    rw [natCast_inj_p (by decide +kernel) p_pos] at h7
    norm_num at h7
  have h1 : x ^ (p - 1) = 1 := ZMod.pow_card_sub_one_eq_one hx
  have hd : p - 1 = 3 * ((p - 1) / 3) := by decide +kernel
  rw [hd, pow_mul, h] at h1
  have hc : (-7 : Fp) = ((p - 7 : Nat) : Fp) := by
    rw [cast_p_sub (by decide +kernel)]; norm_num
  rw [hc, zmod_pow_eq_one_iff _ _ _ (by decide +kernel) one_lt_p] at h1
  revert h1
  decide +kernel

theorem no_order_two (P : Pt) (h : P + P = 0) : P = 0 := by
  match P with
  | .zero => rfl
  | .some x y hh =>
    exfalso
    have hn := eq_neg_of_add_eq_zero_left h
    rw [WeierstrassCurve.Affine.Point.neg_some] at hn
    have hy : y = E.negY x y := by injection hn
    have hy2 : y = -y := by simpa [WeierstrassCurve.Affine.negY] using hy
    have hy0 : y = 0 := by
      have : (2 : Fp) * y = 0 := by linear_combination hy2
      exact (mul_eq_zero.1 this).resolve_left two_ne_zero_p
    have hc := (nonsingular_iff _ _).1 hh
    rw [hy0, OnCurve] at hc
    exact neg7_not_cube x (by linear_combination -hc)

theorem card_Pt : Nat.card Pt = n := by
  obtain ⟨k, hk⟩ := n_dvd_card
  have hpos : 0 < Nat.card Pt := Nat.card_pos
  have hle := card_Pt_le
  have h3 : 2 * p + 1 < 3 * n := by decide +kernel
  have hk3 : k < 3 := by
    by_contra hcon
    have : n * 3 ≤ n * k := Nat.mul_le_mul_left n (by omega)
    omega
  have hk0 : k ≠ 0 := by rintro rfl; omega
  have hk2 : k ≠ 2 := by
    rintro rfl
    have : 2 ∣ Nat.card Pt := ⟨n, by rw [hk, mul_comm]⟩
    obtain ⟨P, hP⟩ := exists_prime_addOrderOf_dvd_card' 2 this
    have h2 : P + P = 0 := by rw [← two_nsmul, ← hP, addOrderOf_nsmul_eq_zero]
    have := no_order_two P h2
    rw [this, addOrderOf_zero] at hP
    omega
  have : k = 1 := by omega
  rw [hk, this, mul_one]

theorem n_nsmul (P : Pt) : n • P = 0 := by
  rw [← card_Pt]; exact card_nsmul_eq_zero'

/-- Points form a vector space over the scalars: this is what `ScalarMul` computes. -/
instance : Module Fn Pt := AddCommGroup.zmodModule n_nsmul

theorem nsmul_eq_smul_Fn (k : Nat) (P : Pt) : k • P = (k : Fn) • P := (Nat.cast_smul_eq_nsmul Fn k P).symm

theorem smul_eq_val_nsmul (s : Fn) (P : Pt) : s • P = s.val • P := by
  rw [nsmul_eq_smul_Fn, ZMod.natCast_val, ZMod.cast_id]

/-- Every point is a multiple of any non-identity point. -/
theorem exists_smul_eq {B : Pt} (hB : B ≠ 0) (P : Pt) : ∃ s : Fn, P = s • B := by
  have ho : addOrderOf B = n := by
    have hd : addOrderOf B ∣ n := addOrderOf_dvd_of_nsmul_eq_zero (n_nsmul B)
    rcases (Nat.dvd_prime prime_n).1 hd with h | h
    · exact absurd (AddMonoid.addOrderOf_eq_one_iff.1 h) hB
    · exact h
  have hc : Nat.card (AddSubgroup.zmultiples B) = Nat.card Pt := by
    rw [Nat.card_zmultiples, ho, card_Pt]
  have htop : AddSubgroup.zmultiples B = ⊤ := AddSubgroup.eq_top_of_card_eq _ hc
  have hm : P ∈ AddSubgroup.zmultiples B := by rw [htop]; trivial
  obtain ⟨z, hz⟩ := AddSubgroup.mem_zmultiples_iff.1 hm
  exact ⟨(z : Fn), by rw [← hz, Int.cast_smul_eq_zsmul]⟩

theorem smul_eq_zero_iff' {s : Fn} {P : Pt} : s • P = 0 ↔ s = 0 ∨ P = 0 := smul_eq_zero

theorem smul_left_inj {B : Pt} (hB : B ≠ 0) {s t : Fn} : s • B = t • B ↔ s = t := by
  constructor
  · intro h
    have : (s - t) • B = 0 := by rw [sub_smul, h, sub_self]
    rcases smul_eq_zero.1 this with h | h
    · exact sub_eq_zero.1 h
    · exact absurd h hB
  · rintro rfl; rfl

end Verif
