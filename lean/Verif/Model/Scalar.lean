import Verif.Base.Res
import Verif.Base.Bytes
import Verif.Curve.Order

/-!
Model of curve/types.go, curve/scalar.go and curve/k256_scalar.go.

A `*Secp256k1Scalar` holds a kryptology `native.Field` for the modulus `n`; it is modelled by its value in
`Fn = ZMod n`.  The in-place methods `Add`, `Sub`, `Mul`, `Invert`, `Negate`, `Assign`, `Clone`
(curve/k256_scalar.go:63-109) are `+ - * ⁻¹ - id id` on values; aliasing between receivers and arguments is
not modelled.
-/

namespace Verif

/-- curve/types.go:7 `EccCurveType` (a Go `int`). -/
abbrev CurveType := Int

/-- curve/types.go:4. -/
def K256 : CurveType := 1

/-- curve/types.go:50-52 `PointBytes` (with `FieldBytes`, `FieldBits`, lines 29-39): unknown curves have 0 field
bits. -/
def pointBytes (c : CurveType) : Nat := if c = K256 then 33 else 1

namespace Scalar

/-- kryptology `Field.SetBytes` for `fq`: little-endian, fails iff the value is not below the modulus.
(Dependency contract.) -/
def setBytes (buf : Bytes) : Res Fn :=
  if leVal buf < n then .ok (leVal buf : Fn) else .err "invalid byte sequence"

/-- curve/k256_scalar.go:22-32 `EccK256Scalar.Deserialize`. -/
def k256Deserialize (bytes : Bytes) : Res Fn := setBytes (copyInto 32 (reverseBytes bytes))

/-- curve/scalar.go:60-71 `Scalar.Deserialize`; for an unknown curve the result is `(nil, nil)`. -/
def deserialize (curve : CurveType) (bytes : Bytes) : Res (Option Fn) :=
  if bytes.length = 0 then .err "invalid scalar"
  else if curve = K256 then do
    let s ← k256Deserialize bytes
    .ok (some s)
  else .ok none

/-- curve/scalar.go:46-58 `Scalar.DeserializeTagged`; note that `bytes[0:]` still contains the tag. -/
def deserializeTagged (bytes : Bytes) : Res (Option Fn) :=
  match bytes with
  | [] => .err "invalid scalar"
  | t :: _ =>
    if (t.toNat : CurveType) = K256 then do
      let s ← k256Deserialize bytes
      .ok (some s)
    else .ok none

/-- curve/k256_scalar.go:111-114 `Serialize` (`Bytes()` is the 32-byte little-endian canonical value). -/
def serialize (s : Fn) : Bytes := reverseBytes (toLE 32 s.val)

/-- curve/k256_scalar.go:116-121 `SerializeTagged`. -/
def serializeTagged (s : Fn) : Bytes := [1] ++ serialize s

/-- curve/k256_scalar.go:51-58 `FromWideBytes`: the slice expression `r[:len(bytes)]` of a 64-byte array panics
for longer input.  `SetBytesWide` reduces the 512-bit little-endian value (dependency contract). -/
def fromWideBytes (bytes : Bytes) : Res Fn :=
  if 64 < bytes.length then .panic "slice bounds out of range"
  else .ok (leVal (copyInto 64 (reverseBytes bytes)) : Fn)

/-- curve/scalar.go:73-81 `Scalar.FromBytesWide` for K256 (its error is always nil). -/
def fromBytesWide (bytes : Bytes) : Res Fn := fromWideBytes bytes

/-- curve/k256_scalar.go:45-49 `FromUint64` (argument below 2^64). -/
def fromUint64 (k : Nat) : Fn := (k : Fn)

/-- common/types.go:3 `NodeIndex`, a Go `int`: 64-bit two's complement. -/
abbrev NodeIndex := BitVec 64

/-- curve/scalar.go:135-137 `FromNodeIndex`: `uint64(index)+1` wraps. -/
def fromNodeIndex (i : NodeIndex) : Fn := fromUint64 (i + 1#64).toNat

/-- curve/k256_scalar.go:14 `OrderHalf = GroupOrder / 2` as a field element. -/
def orderHalf : Fn := ((n / 2 : Nat) : Fn)

/-- curve/k256_scalar.go:127-130 `IsHigh`.  `Cmp` is modelled as comparison of canonical values (dependency
contract). -/
def isHigh (s : Fn) : Bool := decide (orderHalf.val < s.val)

/-- curve/k256_scalar.go:135-146 `UnmarshalCBOR`, after the CBOR layer has produced the byte string: `bytes[1:]`
panics on an empty string. -/
def unmarshalTagged (bytes : Bytes) : Res Fn :=
  match bytes with
  | [] => .panic "slice bounds out of range"
  | _ :: rest => k256Deserialize rest

/-- curve/scalar.go:116-124 `ToScalarBytes`: the 32-byte array is filled but never assigned to the result, which
stays a nil interface. -/
def toScalarBytes (s : Fn) : Option Bytes :=
  let _k256 := copyInto 32 (serialize s)
  none

/-- curve/k256_scalar.go:160-166 `Secp256K1ScalarBytes.ToScalar`. -/
def scalarBytesToScalar (b : Bytes) : Res Fn :=
  match k256Deserialize b with
  | .ok s => .ok s
  | _ => .panic "invalid byte sequence"

/-- Calling `ToScalar` on the interface returned by `ToScalarBytes`: a nil interface panics. -/
def toScalarBytesToScalar (s : Fn) : Res Fn :=
  match toScalarBytes s with
  | none => .panic "nil pointer dereference"
  | some b => scalarBytesToScalar b

end Scalar

export Scalar (NodeIndex)

end Verif
