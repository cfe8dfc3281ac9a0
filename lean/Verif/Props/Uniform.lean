import Verif.Props.HashToCurve
import Verif.Props.Field
import Mathlib.Data.Int.CardIntervalMod
import Mathlib.Algebra.Order.BigOperators.Group.Finset

/-!
C147: reduction of long byte strings spreads them evenly.
-/

set_option autoImplicit false

namespace Verif

open H2C

namespace Uniform

/-- Of the byte strings of length `L`, those whose value leaves the remainder `v`. -/
theorem card_mod (L m v : Nat) (hm : 0 < m) (hv : v < m) :
    Nat.card {b : Bytes // b.length = L ∧ beVal b % m = v} = 256 ^ L / m + if v < 256 ^ L % m then 1 else 0 := by
  have e : {b : Bytes // b.length = L ∧ beVal b % m = v} ≃ {k : Nat // k ∈ (Finset.range (256 ^ L)).filter (· ≡ v [MOD m])} :=
    { toFun := fun b => ⟨beVal b.1, by
        have := beVal_lt b.1
        rw [b.2.1] at this
        exact Finset.mem_filter.2 ⟨Finset.mem_range.2 this, by rw [Nat.ModEq, b.2.2, Nat.mod_eq_of_lt hv]⟩⟩
      invFun := fun k => ⟨toBE L k.1, by
        obtain ⟨h1, h2⟩ := Finset.mem_filter.1 k.2
        rw [Nat.ModEq, Nat.mod_eq_of_lt hv] at h2
        exact ⟨length_toBE _ _, by rw [beVal_toBE_of_lt (Finset.mem_range.1 h1), h2]⟩⟩
      left_inv := fun b => Subtype.ext (by
        show toBE L (beVal b.1) = b.1
        obtain ⟨b, rfl, h⟩ := b
        exact toBE_beVal b)
      right_inv := fun k => Subtype.ext (by
        exact beVal_toBE_of_lt (Finset.mem_range.1 (Finset.mem_filter.1 k.2).1)) }
  rw [Nat.card_congr e, Nat.card_eq_fintype_card, Fintype.card_coe, ← Nat.count_eq_card_filter_range,
    Nat.count_modEq_card _ hm, Nat.mod_eq_of_lt hv]

theorem cast_eq_iff {m : Nat} [NeZero m] (k : Nat) (v : ZMod m) : (k : ZMod m) = v ↔ k % m = v.val := by
  rw [← ZMod.val_natCast, ZMod.val_injective m |>.eq_iff]

/-- Of `N` things, `⌊N/m⌋` or one more go to each of `m` places: the distance from even. -/
theorem distance {m : Nat} [NeZero m] (N : Nat) (hN : 0 < N) (c : ZMod m → Nat) (hc : ∀ v, c v = N / m ∨ c v = N / m + 1) :
    ∑ v : ZMod m, |(c v : ℚ) / N - 1 / m| ≤ m / N := by
  have hm : 0 < m := Nat.pos_of_ne_zero (NeZero.ne m)
  have hN' : (0 : ℚ) < N := by exact_mod_cast hN
  have hm' : (0 : ℚ) < m := by exact_mod_cast hm
  have h : ∀ v : ZMod m, |(c v : ℚ) / N - 1 / m| ≤ 1 / N := by
    intro v
    have e : (c v : ℚ) / N - 1 / m = (c v * m - N) / (N * m) := by field_simp
    rw [e, abs_div, abs_of_pos (mul_pos hN' hm'), div_le_div_iff₀ (mul_pos hN' hm') hN', one_mul]
    have h1 : |(c v : ℚ) * m - N| ≤ m := by
      have hd := Nat.div_add_mod N m
      have hlt := Nat.mod_lt N hm
      have hd' : (N : ℚ) = m * (N / m : Nat) + (N % m : Nat) := by exact_mod_cast hd.symm
      have hlt' : ((N % m : Nat) : ℚ) ≤ m := by exact_mod_cast hlt.le
      have h0' : (0 : ℚ) ≤ ((N % m : Nat) : ℚ) := by positivity
      rw [abs_le]
      rcases hc v with h | h <;> rw [h] <;> push_cast <;> constructor <;> nlinarith
    nlinarith
  calc _ ≤ ∑ _v : ZMod m, (1 : ℚ) / N := Finset.sum_le_sum fun v _ => h v
    _ = _ := by rw [Finset.sum_const, Finset.card_univ, ZMod.card, nsmul_eq_mul]; ring

end Uniform

open Uniform

/-- C147: every scalar is the reduction of `⌊256^L/n⌋` byte strings of length `L`, or of one more. -/
theorem C147_scalar (L : Nat) (hL : L ≤ 64) (v : Fn) :
    Nat.card {b : Bytes // b.length = L ∧ Scalar.fromBytesWide b = .ok v} =
      256 ^ L / n + if v.val < 256 ^ L % n then 1 else 0 := by
  rw [← card_mod L n v.val (by decide +kernel) (ZMod.val_lt v)]
  refine Nat.card_congr (Equiv.subtypeEquivRight fun b => and_congr_right fun hb => ?_)
  rw [(C11_scalar_wide_reduction b).1 (by omega), Res.ok.injEq, cast_eq_iff]

/-- C147: the same for field elements. -/
theorem C147_field (L : Nat) (hL : L ≤ 64) (v : Fp) :
    Nat.card {b : Bytes // b.length = L ∧ Fe.fromBytesWide b = v} = 256 ^ L / p + if v.val < 256 ^ L % p then 1 else 0 := by
  rw [← card_mod L p v.val (by decide +kernel) (ZMod.val_lt v)]
  refine Nat.card_congr (Equiv.subtypeEquivRight fun b => and_congr_right fun hb => ?_)
  rw [Fe.fromBytesWide, leVal_copyInto_reverse, Nat.sub_eq_zero_of_le (by omega), List.drop_zero, cast_eq_iff]

/-- C147: reducing 48 evenly distributed bytes, as hash-to-scalar does, gives scalars whose distribution has a distance of less
than 2^-128 from the even one. -/
theorem C147_distance_scalar :
    (1 / 2 : ℚ) * ∑ v : Fn, |(Nat.card {b : Bytes // b.length = 48 ∧ Scalar.fromBytesWide b = .ok v} : ℚ) / 256 ^ 48 - 1 / n| <
      1 / 2 ^ 128 := by
  have h := distance (m := n) (256 ^ 48) (by positivity)
    (fun v => Nat.card {b : Bytes // b.length = 48 ∧ Scalar.fromBytesWide b = .ok v}) fun v => by
      rw [C147_scalar 48 (by norm_num)]
      split_ifs
      · exact Or.inr rfl
      · exact Or.inl rfl
  have h2 : (n : ℚ) / (256 ^ 48 : Nat) < 1 / 2 ^ 128 := by
    have : (n : ℚ) < 2 ^ 256 := by exact_mod_cast (by decide +kernel : n < 2 ^ 256)
    rw [div_lt_div_iff₀ (by positivity) (by positivity)]
    push_cast
    nlinarith
  have h0 : 0 ≤ ∑ v : Fn, |(Nat.card {b : Bytes // b.length = 48 ∧ Scalar.fromBytesWide b = .ok v} : ℚ) / (256 ^ 48 : Nat) - 1 / n| :=
    Finset.sum_nonneg fun _ _ => abs_nonneg _
  push_cast at h h0 h2
  linarith

/-- C147: the same for the field elements of hash-to-curve. -/
theorem C147_distance_field :
    (1 / 2 : ℚ) * ∑ v : Fp, |(Nat.card {b : Bytes // b.length = 48 ∧ Fe.fromBytesWide b = v} : ℚ) / 256 ^ 48 - 1 / p| <
      1 / 2 ^ 128 := by
  have h := distance (m := p) (256 ^ 48) (by positivity)
    (fun v => Nat.card {b : Bytes // b.length = 48 ∧ Fe.fromBytesWide b = v}) fun v => by
      rw [C147_field 48 (by norm_num)]
      split_ifs
      · exact Or.inr rfl
      · exact Or.inl rfl
  have h2 : (p : ℚ) / (256 ^ 48 : Nat) < 1 / 2 ^ 128 := by
    have : (p : ℚ) < 2 ^ 256 := by exact_mod_cast (by decide +kernel : p < 2 ^ 256)
    rw [div_lt_div_iff₀ (by positivity) (by positivity)]
    push_cast
    nlinarith
  have h0 : 0 ≤ ∑ v : Fp, |(Nat.card {b : Bytes // b.length = 48 ∧ Fe.fromBytesWide b = v} : ℚ) / (256 ^ 48 : Nat) - 1 / p| :=
    Finset.sum_nonneg fun _ _ => abs_nonneg _
  push_cast at h h0 h2
  linarith

/-- The scalars that hash-to-scalar makes of `48 k` bytes (C18). -/
def Uniform.scalarsOf (k : Nat) (u : Bytes) : List Fn := (List.range k).map fun i => (beVal (block48 u i) : Fn)

theorem Uniform.scalarsOf_append (k : Nat) {a u : Bytes} (ha : a.length = 48) :
    scalarsOf (k + 1) (a ++ u) = (beVal a : Fn) :: scalarsOf k u := by
  rw [scalarsOf, List.range_succ_eq_map, List.map_cons, List.map_map]
  congr 1
  · rw [block48, Nat.mul_zero, List.drop_zero, ← ha, List.take_left]
  · refine List.map_congr_left fun i _ => ?_
    show ((beVal (block48 (a ++ u) (i + 1)) : Nat) : Fn) = (beVal (block48 u i) : Fn)
    rw [block48, block48, List.drop_append, List.drop_of_length_le (by omega), List.nil_append, ha]
    congr 4

/-- C147: asking for several scalars at once, each list of scalars comes from the product of the numbers above, so the scalars
are independent. -/
theorem C147_joint (vs : List Fn) :
    Nat.card {u : Bytes // u.length = 48 * vs.length ∧ scalarsOf vs.length u = vs} =
      (vs.map fun v => Nat.card {b : Bytes // b.length = 48 ∧ Scalar.fromBytesWide b = .ok v}).prod := by
  induction vs with
  | nil =>
    rw [List.map_nil, List.prod_nil, Nat.card_eq_one_iff_exists]
    refine ⟨⟨[], rfl, rfl⟩, fun u => Subtype.ext ?_⟩
    simpa using u.2.1
  | cons v vs ih =>
    rw [List.map_cons, List.prod_cons, ← ih, ← Nat.card_prod]
    have hsc : ∀ b : Bytes, b.length = 48 → (Scalar.fromBytesWide b = .ok v ↔ (beVal b : Fn) = v) := fun b hb => by
      rw [(C11_scalar_wide_reduction b).1 (by omega), Res.ok.injEq]
    refine Nat.card_congr
      { toFun := fun u => (⟨u.1.take 48, ?_⟩, ⟨u.1.drop 48, ?_⟩)
        invFun := fun x => ⟨x.1.1 ++ x.2.1, ?_⟩
        left_inv := fun u => Subtype.ext (List.take_append_drop 48 u.1)
        right_inv := fun x => ?_ }
    · obtain ⟨u, h1, h2⟩ := u
      rw [List.length_cons] at h1 h2
      have hl : (u.take 48).length = 48 := by rw [List.length_take]; omega
      rw [← List.take_append_drop 48 u, scalarsOf_append _ hl] at h2
      exact ⟨hl, (hsc _ hl).2 (List.cons.inj h2).1⟩
    · obtain ⟨u, h1, h2⟩ := u
      rw [List.length_cons] at h1 h2
      have hl : (u.take 48).length = 48 := by rw [List.length_take]; omega
      rw [← List.take_append_drop 48 u, scalarsOf_append _ hl] at h2
      exact ⟨by show (u.drop 48).length = _; rw [List.length_drop]; omega, (List.cons.inj h2).2⟩
    · obtain ⟨⟨a, a1, a2⟩, ⟨u, u1, u2⟩⟩ := x
      refine ⟨?_, ?_⟩
      · simp only [List.length_append, List.length_cons, a1, u1]; ring
      · rw [List.length_cons, scalarsOf_append _ a1, (hsc _ a1).1 a2, u2]
    · obtain ⟨⟨a, a1, a2⟩, ⟨u, u1, u2⟩⟩ := x
      simp only [Prod.mk.injEq, Subtype.mk.injEq]
      exact ⟨by rw [← a1, List.take_left], by rw [← a1, List.drop_left]⟩

/-- Hash-to-scalar applies `scalarsOf` to the expansion of its input. -/
theorem C147_hash_to_scalar (P : Prim) (count : Nat) (input dst : Bytes) (h : count * 48 ≤ 8160) : ∃ u : Bytes,
    u.length = 48 * count ∧ Rfc9380.expandMessageXmd P.sha256 input dst (count * 48) = some u ∧
      hashToScalar P count input dst = .ok (scalarsOf count u) := by
  obtain ⟨u, h1, h2, h3⟩ := hashToScalar_ok P count input dst h
  exact ⟨u, by omega, h1, h3⟩

/-- The number of strings for the scalars 0 and `n - 1`: they differ by one. -/
example : Nat.card {b : Bytes // b.length = 48 ∧ Scalar.fromBytesWide b = .ok 0} =
    Nat.card {b : Bytes // b.length = 48 ∧ Scalar.fromBytesWide b = .ok (-1)} + 1 := by
  rw [C147_scalar 48 (by norm_num), C147_scalar 48 (by norm_num), if_pos (by decide +kernel), if_neg (by decide +kernel)]

end Verif
