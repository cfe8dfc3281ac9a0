import Verif.Model.Sign

/-!
sign/combined_sig.go with the rule of `IsHigh` as a parameter.

`IsHigh` (curve/k256_scalar.go:127-130) asks the library for a comparison, `s.scalar.Cmp(OrderHalf) > 0`.  The library is not
available here; `Scalar.isHigh` assumes that `Cmp` compares the numbers that the scalars stand for.  The definitions of this file do
not assume it.
-/

set_option autoImplicit false

namespace Verif.Sign

open Dealings

/-- sign/combined_sig.go:18-66 `NewThresholdEcdsaCombinedSigInternal`, `combine` for any `IsHigh` in line 58. -/
def combineWith (high : Fn → Bool) (P : Prim) (path : List Key.Index) (hashedMsg randomness : Bytes) (keyT presigT : Option Com)
    (threshold : Int) (shares : ShareMap) : Res Signature :=
  if (shares.length : Int) < threshold then .err "insufficient dealings"
  else do
    let d ← deriveRho P hashedMsg randomness path keyT presigT
    if threshold < 0 then .panic "makeslice: cap out of range"
    else do
      let (xs, nums, dens) := scan 0 threshold [] [] [] shares
      let coefficients ← Lagr.atZero xs
      let numerator ← Lagr.interpolateScalar coefficients nums
      let denominator ← Lagr.interpolateScalar coefficients dens
      let sigma := numerator * denominator⁻¹
      let normSigma := if high sigma then -sigma else sigma
      .ok ⟨d.rho, normSigma⟩

/-- sign/combined_sig.go:68-98 `Verify`, for any `IsHigh` in line 80. -/
def Signature.verifyWith (high : Fn → Bool) (P : Prim) (t : Signature) (path : List Key.Index) (hashedMsg randomness : Bytes)
    (keyT presigT : Option Com) : Res Unit :=
  if t.r = 0 ∨ t.s = 0 then .err "invalid signature"
  else do
    let msg ← convertHashToInteger hashedMsg
    let d ← deriveRho P hashedMsg randomness path keyT presigT
    if t.r ≠ d.rho ∨ high t.s = true then .err "invalid signature"
    else do
      let masterPublicKey ← constantTerm keyT
      let publicKey := Point.mulByG d.keyTweak + masterPublicKey
      let sInv := t.s⁻¹
      let u1 := msg * sInv
      let u2 := t.r * sInv
      let rp := Point.mulPoints G u1 publicKey u2
      if rp = 0 then .err "invalid signature"
      else if Point.affineX rp ≠ Point.affineX d.randomizedPresig then .err "invalid signature"
      else .ok ()

/-- curve/k256_scalar.go:127-130 `IsHigh`, if `Cmp` compared Montgomery representations (the number `s` is kept as `s * 2^256`
modulo the group order) instead of numbers. -/
def montgomeryHigh (s : Fn) : Bool := decide ((Scalar.orderHalf * 2 ^ 256).val < (s * 2 ^ 256).val)

end Verif.Sign
