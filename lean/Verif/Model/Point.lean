import Verif.Model.FieldElem
import Verif.Model.Encode

/-!
Model of curve/point.go and curve/k256_point.go.

Points handled by the protocol are values of `Pt` (points *on* the curve).  Decoding does not always check the
curve equation, so decoders return `RawPt`: the identity or an arbitrary pair of coordinates (a projective point
with `Z = 1`).
-/

namespace Verif

/-- A `*Secp256k1Point` as produced by the decoders: identity, or affine coordinates that need not be on the
curve. -/
inductive RawPt where
  | inf
  | aff (x y : Fp)
  deriving DecidableEq

namespace Point

/-- A curve point seen as a raw point. -/
def raw : Pt → RawPt
  | .zero => .inf
  | .some x y _ => .aff x y

/-- The curve point with these coordinates, if they satisfy the equation. -/
def ofRaw? : RawPt → Option Pt
  | .inf => some 0
  | .aff x y => if h : OnCurve x y then some (Pt.mk x y h) else none

/-- Affine x coordinate, 0 for the identity: curve/k256_point.go:190-192 `AffineX` (`GetX` after `ToAffine`,
dependency contract). -/
def affineX : Pt → Fp
  | .zero => 0
  | .some x _ _ => x

/-- curve/k256_point.go:194-196 `AffineY`. -/
def affineY : Pt → Fp
  | .zero => 0
  | .some _ y _ => y

/-- curve/k256_point.go:47-57 `fromUncompressed`: coordinates are reduced modulo `p`; no curve check. -/
def fromUncompressed (xb yb : Bytes) : RawPt := .aff (Fe.setBigIntBytes xb) (Fe.setBigIntBytes yb)

/-- curve/k256_point.go:58-79 `decompress`: if `x³+7` is not a square the *identity* is returned (nil error). -/
def decompress (bytes : Bytes) (sign : Nat) : RawPt :=
  let x := Fe.setBigIntBytes bytes
  let rhs := x ^ 3 + 7
  let (y, wasQr) := Fe.sqrt rhs
  if wasQr = 1 then
    if y.val % 2 ≠ sign then .aff x (-y) else .aff x y
  else .inf

/-- curve/k256_point.go:80-97 `fromEncodedPoint`: the type switch has a case for `*IdentityCoordinates` only, so
for the identity *value* no case matches and the result is `(nil, nil)`. -/
def fromEncodedPoint (e : Bytes) : Res (Option RawPt) := do
  match ← Encode.coordinates e with
  | .identityValue => .ok none
  | .compact x => .ok (some (decompress x 0))
  | .compressed x yIsOdd => .ok (some (decompress x (if yIsOdd then 1 else 0)))
  | .uncompressed x y => .ok (some (fromUncompressed x y))

/-- curve/k256_point.go:39-45 `EccK256Point.Deserialize`. -/
def k256Deserialize (bytes : Bytes) : Res (Option RawPt) := do
  let e ← Encode.fromBytes bytes
  fromEncodedPoint e

/-- curve/point.go:126-132 `DeserializeAnyFormat`. -/
def deserializeAnyFormat (curve : CurveType) (bytes : Bytes) : Res (Option RawPt) :=
  if curve = K256 then k256Deserialize bytes else .ok none

/-- curve/point.go:33-40 `Identity` (nil for unknown curves). -/
def identityOf (curve : CurveType) : Option RawPt := if curve = K256 then some .inf else none

/-- curve/point.go:106-125 `Deserialize`.  (With length at least 1 after the first test, `bytes[0]` exists.) -/
def deserialize (curve : CurveType) (bytes : Bytes) : Res (Option RawPt) :=
  if bytes.length ≠ pointBytes curve then .err "invalid point"
  else if bytes.all (· == 0) then .ok (identityOf curve)
  else if bytes.head? ≠ some 2 ∧ bytes.head? ≠ some 3 then .err "invalid point, first byte should be 2 or 3"
  else deserializeAnyFormat curve bytes

/-- curve/point.go:100-105 `DeserializeTagged`: the tag byte is *not* removed before decoding. -/
def deserializeTagged (bytes : Bytes) : Res (Option RawPt) :=
  match bytes with
  | [] => .err "invalid point, bytes is empty"
  | t :: _ => deserialize (t.toNat : CurveType) bytes

/-- curve/point.go:67-78 `FromFieldElems`. -/
def fromFieldElems (x y : Fp) : Res (Option RawPt) :=
  deserializeAnyFormat K256 ([4] ++ Fe.asBytes x ++ Fe.asBytes y)

/-- curve/k256_point.go:153-165 `encodePoint`: `result[0:encode.Len()]` of a 33-byte slice panics when the encoding
is longer. -/
def encodePoint (P : Pt) (compress : Bool) : Res Bytes := do
  let a ← Encode.fromAffineCoordinates (Fe.asBytes (affineX P)) (Fe.asBytes (affineY P)) compress
  let choice := if P = 0 then 1 else 0
  let e := Encode.conditionalSelect a Encode.identity choice
  let l ← Encode.len e
  if 33 < l then .panic "slice bounds out of range"
  else do
    let b ← Encode.asBytes e
    .ok (copyInto 33 (b.take l))

/-- curve/k256_point.go:166-168 `Serialize`. -/
def serializeRes (P : Pt) : Res Bytes := encodePoint P true

/-- curve/k256_point.go:186-188 `SerializeUncompressed`. -/
def serializeUncompressed (P : Pt) : Res Bytes := encodePoint P false

/-- The bytes returned by `Serialize`; `Verif.Point.serializeRes_eq` proves that `Serialize` returns exactly this
and never fails. -/
def serialize : Pt → Bytes
  | .zero => List.replicate 33 0
  | .some x y _ => (if y.val % 2 = 1 then 3 else 2) :: Fe.asBytes x

/-- curve/k256_point.go:179-184 `SerializeTagged`. -/
def serializeTagged (P : Pt) : Bytes := [1] ++ serialize P

/-- curve/k256_point.go:206-217 `UnmarshalCBOR`, after the CBOR layer has produced the byte string: `bytes[1:]`
panics on an empty string and `tmp.point` on a nil `tmp`. -/
def unmarshalTagged (bytes : Bytes) : Res RawPt :=
  match bytes with
  | [] => .panic "slice bounds out of range"
  | _ :: rest => do
    match ← k256Deserialize rest with
    | none => .panic "nil pointer dereference"
    | some P => .ok P

/-- The double-and-add loop of curve/k256_point.go:138-143, from bit `k-1` down to bit 0 of `s`. -/
def mulLoop (P : Pt) (s : Nat) : Nat → Pt → Pt
  | 0, res => res
  | k + 1, res =>
    let res := res + res
    let res := if (s >>> k) &&& 1 = 1 then res + P else res
    mulLoop P s k res

/-- curve/k256_point.go:134-145 `MulByNodeIndex`: `uint64(scalar + 1)` wraps; the number of loop iterations is
`64 - LeadingZeros64`, i.e. the bit length. -/
def mulByNodeIndex (P : Pt) (i : NodeIndex) : Pt :=
  let s64 := (i + 1#64).toNat
  mulLoop P s64 (Nat.size s64) 0

/-- curve/k256_point.go:128-133 `ScalarMul` (dependency contract: the group action). -/
def scalarMul (P : Pt) (s : Fn) : Pt := s • P

/-- curve/point.go:95-98 `MulByG`. -/
def mulByG (s : Fn) : Pt := s • G

/-- curve/point.go:55, the encoding of the second generator. -/
def generatorHBytes : Bytes :=
  toBE 33 0x037bdcfc024cf697a41fd3cda2436c843af5669e50042be3314a532d5b70572f59

def Hx : Nat := 0x7bdcfc024cf697a41fd3cda2436c843af5669e50042be3314a532d5b70572f59
/-- The odd square root of `Hx³ + 7`. -/
def Hy : Nat := 0xd0689a54614bc1041fbb0db90411eef02d54a61ebcfe25b12741942ad3d84f1

theorem H_onCurve_nat : Hy ^ 2 % p = (Hx ^ 3 + 7) % p := by decide +kernel

/-- curve/point.go:51-62 `GeneratorH`; `Verif.Point.deserialize_generatorHBytes` proves that decoding the constant
gives this point. -/
def H : Pt := Pt.mk Hx Hy (onCurve_of_nat H_onCurve_nat)

/-- curve/point.go:80-87 `MulPoints` (kryptology `SumOfProducts`, dependency contract). -/
def mulPoints (P : Pt) (s : Fn) (Q : Pt) (t : Fn) : Pt := s • P + t • Q

/-- curve/point.go:89-93 `Pedersen`. -/
def pedersen (s t : Fn) : Pt := mulPoints G s H t

end Point

end Verif
