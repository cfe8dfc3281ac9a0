import Verif.Props.Dealings
import Verif.Props.Complaints

/-! C82: what follows from accepting the identity as a public key. -/

set_option autoImplicit false

namespace Verif

open Dealings Mega

/-- C82 is false, and it matters: the identity is accepted as public key of a recipient, and then everybody can open the dealings made for this
recipient, with zero for the private key; what they get is the share of this recipient. -/
theorem C82_false_opened (P : Prim) (shares : Shares) (seed : Seed) (t : Int) (keys : List Fn) (dealer : NodeIndex) (ad : Bytes) (d : Dealing)
    (hs : shares ≠ .other) (h : new P shares seed t (keys.map Point.mulByG) dealer ad = .ok d) :
    ∃ values mask : List Fn, (values.length : Int) = t ∧ (mask.length : Int) = t ∧ (∀ s, shares.secret = some s → values.head? = some s) ∧
      ∀ i : NodeIndex, 0 ≤ i.toInt → (keys.map Point.mulByG)[i.toInt.toNat]? = some 0 →
        verifyPublicKey K256 (Point.serialize 0) = .ok () ∧
        openDealing P d ad dealer i 0 0 = .ok
          (if shares.hidden then .pedersen ((toPoly values).eval (place i)) ((toPoly mask).eval (place i))
            else .simple ((toPoly values).eval (place i))) := by
  obtain ⟨values, mask, c, cm, hcm, hc, hv, hm, hsec, -, -, -, hdec⟩ := C85_dealing_contents P shares seed t keys dealer ad d hs h
  refine ⟨values, mask, hv, hm, hsec, fun i h0 hi => ⟨?_, ?_⟩⟩
  · have : Point.serialize 0 = List.replicate 33 0 := by decide +kernel
    rw [this]
    exact C82_false.1
  · rw [List.getElem?_map] at hi
    obtain ⟨k, hk, hk0⟩ := Option.map_eq_some_iff.1 hi
    have : k = 0 := (smul_left_inj G_ne_zero).1 (hk0.trans (zero_smul Fn G).symm)
    subst this
    have := hdec i 0 h0 hk
    rw [show (0 : Fn) • G = 0 from zero_smul Fn G] at this
    rw [openDealing.eq_def, hc, hcm]
    exact this

/-- A dealing for two recipients, the second with the identity as public key. -/
example : ∃ d, new zeroPrim .random ⟨[]⟩ 1 (([3, 0] : List Fn).map Point.mulByG) 0 [] = .ok d ∧
    (([3, 0] : List Fn).map Point.mulByG)[(1 : NodeIndex).toInt.toNat]? = some 0 := by
  obtain ⟨d, hd⟩ := dealing_exists .random ⟨[]⟩ 1 (([3, 0] : List Fn).map Point.mulByG) 0 [] (by norm_num) (by simp)
  refine ⟨d, hd, ?_⟩
  show some (Point.mulByG 0) = some 0
  rw [show Point.mulByG 0 = 0 from zero_smul Fn G]

end Verif
