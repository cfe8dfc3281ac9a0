import Verif.Model.Scalar

/-!
Model of curve/fe.go and curve/k256_fe.go: field elements as values of `Fp = ZMod p`.
-/

namespace Verif

namespace Fe

/-- Exponentiation in `Fp` by square and multiply (what kryptology `Field.Exp` computes). -/
def pow (a : Fp) (e : Nat) : Fp := ((powMod a.val e p : Nat) : Fp)

/-- curve/k256_fe.go:35-45 `FromBytes` (via curve/fe.go:107-113). -/
def fromBytes (bytes : Bytes) : Res Fp :=
  let r := copyInto 32 (reverseBytes bytes)
  if leVal r < p then .ok (leVal r : Fp) else .err "invalid byte sequence"

/-- curve/k256_fe.go:47-54 `FromBytesWide` (via curve/fe.go:115-122, error always nil). -/
def fromBytesWide (bytes : Bytes) : Fp := (leVal (copyInto 64 (reverseBytes bytes)) : Fp)

/-- `SetBigInt(new(big.Int).SetBytes(b))`: the big-endian value reduced modulo `p`
(curve/k256_fe.go:33, curve/k256_point.go:48,50,59). -/
def setBigIntBytes (b : Bytes) : Fp := (beVal b : Fp)

/-- curve/k256_fe.go:135-138 `Invert`: kryptology leaves the receiver as it is if the argument is zero. -/
def invert (receiver a : Fp) : Fp := if a = 0 then receiver else a⁻¹

/-- curve/k256_fe.go:162-164 `IsZero`. -/
def isZero (a : Fp) : Nat := if a = 0 then 1 else 0

/-- curve/k256_fe.go:127-129 `Equal`. -/
def equal (a b : Fp) : Nat := if a = b then 1 else 0

/-- curve/k256_fe.go:145-153 `Sqrt`, with kryptology's square root for `p ≡ 3 (mod 4)`: `a^((p+1)/4)` and a flag
saying whether its square is `a`; the receiver is set to zero if not. -/
def sqrt (a : Fp) : Fp × Nat :=
  let y := pow a ((p + 1) / 4)
  if y * y = a then (y, 1) else (0, 0)

/-- curve/k256_fe.go:155-160 `Progenitor`: `a^((p-3)/4)`. -/
def progenitor (a : Fp) : Fp := pow a ((p - 3) / 4)

/-- curve/k256_fe.go:166-174 `AsBytes`: 32 bytes big-endian, left-padded (the panic branch cannot be reached as
values are below `p < 2^256`). -/
def asBytes (a : Fp) : Bytes := toBE 32 a.val

/-- curve/k256_fe.go:176-179 `Sign`: parity of the canonical value. -/
def sign (a : Fp) : Nat := a.val % 2

end Fe

end Verif
