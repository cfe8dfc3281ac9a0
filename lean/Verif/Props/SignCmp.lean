import Verif.Model.SignCmp
import Verif.Props.Sign

/-!
C173: what signing takes from the library's comparison of scalars.
-/

set_option autoImplicit false

namespace Verif

open Sign Dealings

namespace Sign

theorem combine_eq_with : @combine = combineWith Scalar.isHigh := rfl

theorem verify_eq_with (P : Prim) (t : Signature) (path : List Key.Index) (hashedMsg randomness : Bytes) (keyT presigT : Option Com) :
    t.verify P path hashedMsg randomness keyT presigT = t.verifyWith Scalar.isHigh P path hashedMsg randomness keyT presigT := rfl

theorem verifyWith_iff (high : Fn → Bool) (P : Prim) (sig : Signature) (path : List Key.Index) (hashedMsg randomness : Bytes)
    (keyT presigT : Option Com) :
    sig.verifyWith high P path hashedMsg randomness keyT presigT = .ok () ↔
      high sig.s = false ∧ (⟨sig.r, lowOf sig.s⟩ : Signature).verify P path hashedMsg randomness keyT presigT = .ok () := by
  have h1 : sig.verifyWith high P path hashedMsg randomness keyT presigT = .ok () ↔
      sig.r ≠ 0 ∧ sig.s ≠ 0 ∧ hashedMsg.length ≤ 64 ∧
      ∃ d pk, deriveRho P hashedMsg randomness path keyT presigT = .ok d ∧ constantTerm keyT = .ok pk ∧
        sig.r = d.rho ∧ high sig.s = false ∧
        ((beVal hashedMsg : Fn) / sig.s) • G + (sig.r / sig.s) • (d.keyTweak • G + pk) ≠ 0 ∧
        Point.affineX (((beVal hashedMsg : Fn) / sig.s) • G + (sig.r / sig.s) • (d.keyTweak • G + pk)) =
          Point.affineX d.randomizedPresig := by
    rw [Signature.verifyWith]
    by_cases h0 : sig.r = 0 ∨ sig.s = 0
    · rw [if_pos h0]
      constructor
      · intro h; cases h
      · rintro ⟨h1, h2, -⟩
        rcases h0 with h | h
        · exact absurd h h1
        · exact absurd h h2
    rw [if_neg h0]
    rw [not_or] at h0
    constructor
    · intro h
      obtain ⟨e, he, h⟩ := Res.bind_eq_ok.1 h
      obtain ⟨hm, rfl⟩ := convertHash_ok he
      obtain ⟨d, hd, h⟩ := Res.bind_eq_ok.1 h
      split_ifs at h with h1
      obtain ⟨pk, hpk, h⟩ := Res.bind_eq_ok.1 h
      simp only [Point.mulByG, Point.mulPoints, ← div_eq_mul_inv] at h
      split_ifs at h with h2 h3
      rw [not_or, not_not, Bool.not_eq_true] at h1
      exact ⟨h0.1, h0.2, hm, d, pk, hd, hpk, h1.1, h1.2, h2, not_not.1 h3⟩
    · rintro ⟨-, -, hm, d, pk, hd, hpk, h1, h2, h3, h4⟩
      rw [convertHash_eq hm, Res.ok_bind, hd, Res.ok_bind, if_neg (by rw [not_or, not_not, h2]; exact ⟨h1, by simp⟩), hpk,
        Res.ok_bind]
      simp only [Point.mulByG, Point.mulPoints, ← div_eq_mul_inv]
      rw [if_neg h3, if_neg (not_not.2 h4)]
  rw [h1, verify_iff]
  simp only [isHigh_lowOf, lowOf_ne_zero]
  rcases lowOf_cases sig.s with e | e
  · simp only [e]
    constructor
    · rintro ⟨a, b, c, d, pk, e1, e2, e3, e4, e5⟩
      exact ⟨e4, a, b, c, d, pk, e1, e2, e3, trivial, e5⟩
    · rintro ⟨e4, a, b, c, d, pk, e1, e2, e3, -, e5⟩
      exact ⟨a, b, c, d, pk, e1, e2, e3, e4, e5⟩
  · simp only [e, div_neg, neg_smul, ← neg_add, neg_ne_zero, affineX_neg]
    constructor
    · rintro ⟨a, b, c, d, pk, e1, e2, e3, e4, e5⟩
      exact ⟨e4, a, b, c, d, pk, e1, e2, e3, trivial, e5⟩
    · rintro ⟨e4, a, b, c, d, pk, e1, e2, e3, -, e5⟩
      exact ⟨a, b, c, d, pk, e1, e2, e3, e4, e5⟩

theorem lowOf_neg (s : Fn) : lowOf (-s) = lowOf s := by
  by_cases h0 : s = 0
  · rw [h0, neg_zero]
  have h := (C16_high_low s).2.2.1 h0
  rw [← lowOf_eq, ← lowOf_eq]
  by_cases h1 : Scalar.isHigh s = true
  · rw [if_pos h1, if_neg (by simp [h.1 h1])]
  · have h2 : Scalar.isHigh (-s) = true := by
      by_contra h3
      exact h1 (h.2 (by simpa using h3))
    rw [if_pos h2, if_neg h1, neg_neg]

theorem combineWith_raw (P : Prim) (path : List Key.Index) (hashedMsg randomness : Bytes) (keyT presigT : Option Com) (t : Int)
    (shares : ShareMap) : ∃ raw : Res (Fn × Fn), ∀ high : Fn → Bool,
      combineWith high P path hashedMsg randomness keyT presigT t shares =
        raw >>= fun x => .ok ⟨x.1, if high x.2 then -x.2 else x.2⟩ := by
  by_cases h : (shares.length : Int) < t
  · exact ⟨.err "insufficient dealings", fun high => by rw [combineWith, if_pos h]; rfl⟩
  cases hd : deriveRho P hashedMsg randomness path keyT presigT with
  | err e => exact ⟨.err e, fun high => by rw [combineWith, if_neg h, hd]; rfl⟩
  | panic e => exact ⟨.panic e, fun high => by rw [combineWith, if_neg h, hd]; rfl⟩
  | diverge => exact ⟨.diverge, fun high => by rw [combineWith, if_neg h, hd]; rfl⟩
  | ok d =>
    by_cases h0 : t < 0
    · exact ⟨.panic "makeslice: cap out of range", fun high => by rw [combineWith, if_neg h, hd, Res.ok_bind, if_pos h0]; rfl⟩
    rcases hs : scan 0 t [] [] [] shares with ⟨xs, nums, dens⟩
    cases hc : Lagr.atZero xs with
    | err e => exact ⟨.err e, fun high => by rw [combineWith, if_neg h, hd, Res.ok_bind, if_neg h0, hs]; simp only [hc]; rfl⟩
    | panic e => exact ⟨.panic e, fun high => by rw [combineWith, if_neg h, hd, Res.ok_bind, if_neg h0, hs]; simp only [hc]; rfl⟩
    | diverge => exact ⟨.diverge, fun high => by rw [combineWith, if_neg h, hd, Res.ok_bind, if_neg h0, hs]; simp only [hc]; rfl⟩
    | ok c =>
      cases hn : Lagr.interpolateScalar c nums with
      | err e => exact ⟨.err e, fun high => by
          rw [combineWith, if_neg h, hd, Res.ok_bind, if_neg h0, hs]; simp only [hc, Res.ok_bind, hn]; rfl⟩
      | panic e => exact ⟨.panic e, fun high => by
          rw [combineWith, if_neg h, hd, Res.ok_bind, if_neg h0, hs]; simp only [hc, Res.ok_bind, hn]; rfl⟩
      | diverge => exact ⟨.diverge, fun high => by
          rw [combineWith, if_neg h, hd, Res.ok_bind, if_neg h0, hs]; simp only [hc, Res.ok_bind, hn]; rfl⟩
      | ok nu =>
        cases hm : Lagr.interpolateScalar c dens with
        | err e => exact ⟨.err e, fun high => by
            rw [combineWith, if_neg h, hd, Res.ok_bind, if_neg h0, hs]; simp only [hc, Res.ok_bind, hn, hm]; rfl⟩
        | panic e => exact ⟨.panic e, fun high => by
            rw [combineWith, if_neg h, hd, Res.ok_bind, if_neg h0, hs]; simp only [hc, Res.ok_bind, hn, hm]; rfl⟩
        | diverge => exact ⟨.diverge, fun high => by
            rw [combineWith, if_neg h, hd, Res.ok_bind, if_neg h0, hs]; simp only [hc, Res.ok_bind, hn, hm]; rfl⟩
        | ok de => exact ⟨.ok (d.rho, nu * de⁻¹), fun high => by
            rw [combineWith, if_neg h, hd, Res.ok_bind, if_neg h0, hs]; simp only [hc, Res.ok_bind, hn, hm]⟩

/-- What the kept number is, and half of the group order in this form. -/
theorem montgomeryHigh_iff (s : Fn) : montgomeryHigh s = true ↔ (2 * n - 2 ^ 256) / 2 < (s * 2 ^ 256).val := by
  have h : (Scalar.orderHalf * 2 ^ 256).val = (2 * n - 2 ^ 256) / 2 := by decide +kernel
  rw [montgomeryHigh, decide_eq_true_iff, h]

end Sign

/-- C173, for every rule of `IsHigh`: combination fails as before and otherwise gives the same signature up to the sign of `s`;
`Verify` accepts what it accepted up to the sign, if the rule does not call `s` high; and a signature that is combined and valid is
accepted unless the rule calls both `s` and `-s` high. -/
theorem C173_any_rule (high : Fn → Bool) (P : Prim) (path : List Key.Index) (hashedMsg randomness : Bytes) (keyT presigT : Option Com) :
    (∀ (t : Int) (shares : ShareMap), match combine P path hashedMsg randomness keyT presigT t shares with
      | .ok sig => ∃ sig', combineWith high P path hashedMsg randomness keyT presigT t shares = .ok sig' ∧ sig'.r = sig.r ∧
          (sig'.s = sig.s ∨ sig'.s = -sig.s) ∧
          (sig.verify P path hashedMsg randomness keyT presigT = .ok () →
            (sig'.verifyWith high P path hashedMsg randomness keyT presigT = .ok () ↔ ¬ (high sig.s = true ∧ high (-sig.s) = true)))
      | .err e => combineWith high P path hashedMsg randomness keyT presigT t shares = .err e
      | .panic e => combineWith high P path hashedMsg randomness keyT presigT t shares = .panic e
      | .diverge => combineWith high P path hashedMsg randomness keyT presigT t shares = .diverge) ∧
    (∀ sig : Signature, sig.verifyWith high P path hashedMsg randomness keyT presigT = .ok () ↔
      high sig.s = false ∧ ((⟨sig.r, sig.s⟩ : Signature).verify P path hashedMsg randomness keyT presigT = .ok () ∨
        (⟨sig.r, -sig.s⟩ : Signature).verify P path hashedMsg randomness keyT presigT = .ok ())) := by
  have low' : ∀ s : Fn, Scalar.isHigh s = false → lowOf s = s := fun s h => by rw [← lowOf_eq, if_neg (by simp [h])]
  constructor
  · intro t shares
    obtain ⟨raw, hraw⟩ := combineWith_raw P path hashedMsg randomness keyT presigT t shares
    rw [combine_eq_with, hraw Scalar.isHigh, hraw high]
    cases raw with
    | err e => rfl
    | panic e => rfl
    | diverge => rfl
    | ok x =>
      obtain ⟨r, s⟩ := x
      simp only [Res.ok_bind]
      refine ⟨_, rfl, rfl, ?_, fun hv => ?_⟩
      · rw [lowOf_eq]
        rcases lowOf_cases s with e | e <;> rw [e] <;> split_ifs <;> simp
      · have hl : lowOf (if high s = true then -s else s) = lowOf s := by
          split_ifs
          · exact lowOf_neg s
          · rfl
        rw [verifyWith_iff, hl]
        rw [lowOf_eq] at hv ⊢
        simp only [hv, and_true]
        rcases lowOf_cases s with e | e <;> rw [e] <;> by_cases h1 : high s = true <;> by_cases h2 : high (-s) = true <;>
          simp [h1, h2]
  · intro sig
    rw [verifyWith_iff]
    refine and_congr_right fun _ => ⟨fun h => ?_, fun h => ?_⟩
    · rcases lowOf_cases sig.s with e | e <;> rw [e] at h
      · exact .inl h
      · exact .inr h
    · have hs : ∀ s : Fn, (⟨sig.r, s⟩ : Signature).verify P path hashedMsg randomness keyT presigT = .ok () → lowOf s = s := by
        intro s h
        obtain ⟨-, -, -, _, _, -, -, -, h, -⟩ := (verify_iff ..).1 h
        exact low' s h
      rcases h with h | h
      · rw [hs _ h]; exact h
      · rw [← lowOf_neg, hs _ h]; exact h

/-- C173: were scalars compared as the library keeps them, multiplied by `2^256`, then `IsHigh` would be no classification of the
scalars into low and high ones: it would call some low ones high and some high ones not.  Both `s` and `-s` would be called high
for `2^256 - n - 1` scalars, a share of less than `2^(-126)`; of all other pairs but 0 exactly one would be. -/
theorem C173_montgomery :
    (∃ s : Fn, s ≠ 0 ∧ 2 * s.val < n ∧ montgomeryHigh s = true) ∧ (∃ s : Fn, n < 2 * s.val ∧ montgomeryHigh s = false) ∧
    (∀ s : Fn, s ≠ 0 → montgomeryHigh s = true ∨ montgomeryHigh (-s) = true) ∧
    Nat.card {s : Fn // montgomeryHigh s = true ∧ montgomeryHigh (-s) = true} = 2 ^ 256 - n - 1 := by
  have hR : (2 : Fn) ^ 256 ≠ 0 := by decide +kernel
  have key : ∀ v : Nat, v < n → (2 * n - 2 ^ 256) / 2 < v ∨ (2 * n - 2 ^ 256) / 2 < n - v := by
    have e : (2 * n - 2 ^ 256) / 2 + (2 * n - 2 ^ 256) / 2 < n := by decide +kernel
    generalize (2 * n - 2 ^ 256) / 2 = T at e
    intro v hv
    omega
  have hval : ∀ v : Fn, v ≠ 0 → (-v).val = n - v.val := fun v hv => by
    rw [ZMod.neg_val, if_neg hv]
  refine ⟨⟨2 ^ 127, by decide +kernel, by decide +kernel, by decide +kernel⟩, ⟨-(2 ^ 127), by decide +kernel, by decide +kernel⟩,
    fun s hs => ?_, ?_⟩
  · rw [montgomeryHigh_iff, montgomeryHigh_iff, neg_mul, hval _ (mul_ne_zero hs hR)]
    exact key _ (ZMod.val_lt _)
  · have e1 : {s : Fn // montgomeryHigh s = true ∧ montgomeryHigh (-s) = true} ≃
        {v : Fn // (2 * n - 2 ^ 256) / 2 < v.val ∧ (2 * n - 2 ^ 256) / 2 < (-v).val} :=
      (Equiv.mulRight₀ _ hR).subtypeEquiv fun s => by
        rw [montgomeryHigh_iff, montgomeryHigh_iff, neg_mul]
        rfl
    have e2 : {v : Fn // (2 * n - 2 ^ 256) / 2 < v.val ∧ (2 * n - 2 ^ 256) / 2 < (-v).val} ≃
        Finset.Ioo ((2 * n - 2 ^ 256) / 2) (n - (2 * n - 2 ^ 256) / 2) :=
      { toFun := fun v => ⟨v.1.val, by
          have h0 : v.1 ≠ 0 := fun h => by
            have := v.2.1
            rw [h, ZMod.val_zero] at this
            omega
          have h := v.2
          rw [hval _ h0] at h
          exact Finset.mem_Ioo.2 ⟨h.1, Nat.lt_sub_of_add_lt (by have := Nat.add_lt_of_lt_sub h.2; rwa [Nat.add_comm])⟩⟩
        invFun := fun k => ⟨((k.1 : Nat) : Fn), by
          have hk := Finset.mem_Ioo.1 k.2
          have hkn : k.1 < n := lt_of_lt_of_le hk.2 (Nat.sub_le ..)
          have hv : ((k.1 : Nat) : Fn).val = k.1 := by rw [ZMod.val_natCast, Nat.mod_eq_of_lt hkn]
          have h0 : ((k.1 : Nat) : Fn) ≠ 0 := fun h => by
            rw [h, ZMod.val_zero] at hv
            have := hk.1
            rw [← hv] at this
            exact Nat.not_lt_zero _ this
          rw [hval _ h0, hv]
          exact ⟨hk.1, Nat.lt_sub_of_add_lt (by have := Nat.add_lt_of_lt_sub hk.2; rwa [Nat.add_comm])⟩⟩
        left_inv := fun v => Subtype.ext (ZMod.natCast_zmod_val v.1)
        right_inv := fun k => Subtype.ext (by
          have hk := Finset.mem_Ioo.1 k.2
          have hkn : k.1 < n := lt_of_lt_of_le hk.2 (Nat.sub_le ..)
          exact (ZMod.val_natCast ..).trans (Nat.mod_eq_of_lt hkn)) }
    rw [Nat.card_congr (e1.trans e2), Nat.card_eq_fintype_card, Fintype.card_coe, Nat.card_Ioo]
    decide +kernel

/-- There are signatures to which C173 applies: whoever never calls a scalar high accepts them with both signs. -/
example : ∃ (P : Prim) (S : Secrets) (sig : Signature), sig.s ≠ -sig.s ∧ ∀ s, (s = sig.s ∨ s = -sig.s) →
    (⟨sig.r, s⟩ : Signature).verifyWith (fun _ => false) P [] [5] [] (unmasked S.x) (unmasked S.kappa) = .ok () := by
  obtain ⟨S, sh, bad, sig, sig', -, -, -, hv, -⟩ := C99_false
  have hs : sig.s ≠ 0 := ((verify_iff ..).1 hv).2.1
  refine ⟨Mega.zeroPrim, S, sig, fun h => hs ?_, fun s h => ((C173_any_rule ..).2 _).2 ⟨rfl, ?_⟩⟩
  · have h2 : (2 : Fn) * sig.s = 0 := by rw [two_mul]; nth_rw 1 [h]; exact neg_add_cancel _
    exact (mul_eq_zero.1 h2).resolve_left (by decide +kernel)
  · rcases h with rfl | rfl
    · exact .inl hv
    · exact .inr (by rw [neg_neg]; exact hv)

end Verif
