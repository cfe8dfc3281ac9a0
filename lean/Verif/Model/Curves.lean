import Verif.Model.HashToCurve
import Verif.Model.Mega

/-!
Model of the functions that take a curve type, for every curve type: curve/types.go and the switches of curve/scalar.go,
curve/fe.go and curve/point.go.  The other modules model what these do for K256; `C132_k256` says that it is the same.
An object is `Option …`, `none` being nil.
-/

set_option autoImplicit false

namespace Verif.Curves

/-! ### curve/types.go -/

/-- curve/types.go:9-16 `FromTag`. -/
def fromTag (tag : UInt8) : CurveType := if tag = 1 then K256 else 0

/-- curve/types.go:17-24 `ScalarBits`. -/
def scalarBits (c : CurveType) : Nat := if c = K256 then 256 else 0

/-- curve/types.go:25-27 `ScalarBytes`. -/
def scalarBytes (c : CurveType) : Nat := (scalarBits c + 7) / 8

/-- curve/types.go:29-36 `FieldBits`. -/
def fieldBits (c : CurveType) : Nat := if c = K256 then 256 else 0

/-- curve/types.go:37-39 `FieldBytes`. -/
def fieldBytes (c : CurveType) : Nat := (fieldBits c + 7) / 8

/-- curve/types.go:41-48 `SecurityLevel`. -/
def securityLevel (c : CurveType) : Nat := if c = K256 then 128 else 0

/-- curve/types.go:50-52 `PointBytes`. -/
def pointBytes (c : CurveType) : Nat := 1 + fieldBytes c

/-- curve/types.go:54-61 `Tag`. -/
def tag (c : CurveType) : UInt8 := if c = K256 then 1 else 0

/-- curve/types.go:63-70 `String`. -/
def name (c : CurveType) : Bytes := if c = K256 then ascii "secp256k1" else []

/-! ### curve/scalar.go -/

namespace Scalar

/-- curve/scalar.go:83-90 `Zero`. -/
def zero (c : CurveType) : Option Fn := if c = K256 then some 0 else none

/-- curve/scalar.go:92-99 `One`. -/
def one (c : CurveType) : Option Fn := if c = K256 then some 1 else none

/-- curve/scalar.go:126-133 `FromUint64`. -/
def fromUint64 (c : CurveType) (k : Nat) : Option Fn := if c = K256 then some (Verif.Scalar.fromUint64 k) else none

/-- curve/scalar.go:135-137 `FromNodeIndex`. -/
def fromNodeIndex (c : CurveType) (i : Verif.Scalar.NodeIndex) : Option Fn := fromUint64 c (i + 1#64).toNat

/-- curve/scalar.go:73-81 `FromBytesWide`. -/
def fromBytesWide (c : CurveType) (bytes : Bytes) : Res (Option Fn) :=
  if c = K256 then do
    let s ← Verif.Scalar.fromWideBytes bytes
    .ok (some s)
  else .ok none

/-- curve/scalar.go:103-108, the loop of `Random` (`none`: it never returns); the scalar returned may be nil. -/
def randomLoop (c : CurveType) (r : Rng) (buf : Bytes) : Option (Option Fn × Rng) :=
  let (buf', r') := r.xorKeyStream buf
  match Verif.Scalar.deserialize c buf' with
  | .ok s => some (s, r')
  | _ => randomLoop c r' buf'
partial_fixpoint

/-- curve/scalar.go:101-109 `Random`. -/
def random (c : CurveType) (r : Rng) : Res (Option Fn × Rng) :=
  match randomLoop c r (List.replicate (scalarBytes c) 0) with
  | some x => .ok x
  | none => .diverge

/-- curve/scalar.go:111-114 `FromSeed`. -/
def fromSeed (P : Prim) (c : CurveType) (s : Seed) : Res (Option Fn) := do
  let (x, _) ← random c (s.rng P)
  .ok x

/-- curve/hash_to_curve.go:124-142 `HashToScalar` (= `Scalar.HashToSeveralScalar`, curve/scalar.go:42-44). -/
def hashToScalars (P : Prim) (c : CurveType) (count : Int) (input dst : Bytes) : Res (List (Option Fn)) := do
  let fieldLen := (scalarBits c + securityLevel c + 7) / 8
  let uniform ← Xmd.expandMessageXmd P input dst (H2C.goInt (count * fieldLen))
  H2C.makeSlice count
  Res.mapM' (fun i =>
    if uniform.length < (i + 1) * fieldLen then .panic "slice bounds out of range"
    else fromBytesWide c ((uniform.drop (i * fieldLen)).take fieldLen)) (List.range count.toNat)

/-- curve/scalar.go:34-40 `Scalar.HashToScalar`. -/
def hashToScalar (P : Prim) (c : CurveType) (input dst : Bytes) : Res (Option Fn) := do
  let h ← hashToScalars P c 1 input dst
  Mega.index h 0

end Scalar

/-! ### curve/fe.go -/

namespace Field

/-- curve/fe.go:31-105 `Zero`, `One`, `A`, `B`, `SswuA`, `SswuB`, `SswuZ`, `SswuC2`: the switch, for the value it has on K256. -/
def constant (c : CurveType) (value : Fp) : Option Fp := if c = K256 then some value else none

/-- curve/fe.go:107-113 `FromBytes`. -/
def fromBytes (c : CurveType) (bytes : Bytes) : Res (Option Fp) :=
  if c = K256 then do
    let a ← Fe.fromBytes bytes
    .ok (some a)
  else .ok none

/-- curve/fe.go:115-122 `FromBytesWide` (for at most 64 bytes). -/
def fromBytesWide (c : CurveType) (bytes : Bytes) : Res (Option Fp) :=
  .ok (if c = K256 then some (Fe.fromBytesWide bytes) else none)

/-- curve/hash_to_curve.go:104-122 `HashToField`. -/
def hashToField (P : Prim) (c : CurveType) (count : Int) (input dst : Bytes) : Res (List (Option Fp)) := do
  let fieldLen := (fieldBits c + securityLevel c + 7) / 8
  let uniform ← Xmd.expandMessageXmd P input dst (H2C.goInt (count * fieldLen))
  H2C.makeSlice count
  Res.mapM' (fun i =>
    if uniform.length < (i + 1) * fieldLen then .panic "slice bounds out of range"
    else fromBytesWide c ((uniform.drop (i * fieldLen)).take fieldLen)) (List.range count.toNat)

end Field

/-! ### curve/point.go -/

namespace Point

/-- curve/point.go:42-49 `GeneratorG`. -/
def generatorG (c : CurveType) : Option Pt := if c = K256 then some G else none

/-- curve/point.go:51-62 `GeneratorH`: an error is turned into a panic. -/
def generatorH (c : CurveType) : Res (Option RawPt) :=
  match Verif.Point.deserialize c (if c = K256 then Verif.Point.generatorHBytes else []) with
  | .err e => .panic e
  | r => r

/-- curve/hash_to_curve.go:90-102 `MapToCurve`; on a nil field element `sswu` panics at its first line. -/
def mapToCurve : Option Fp → Res (Option RawPt)
  | some u => H2C.mapToCurve u
  | none => .panic "nil pointer dereference"

/-- curve/hash_to_curve.go:144-159 `HashToCurveRo` (= `Point.HashToPoint`, curve/point.go:64-66). -/
def hashToPoint (P : Prim) (c : CurveType) (input dst : Bytes) : Res RawPt := do
  let u ← Field.hashToField P c 2 input dst
  let u0 ← Mega.index u 0
  let q0 ← mapToCurve u0
  let u1 ← Mega.index u 1
  let q1 ← mapToCurve u1
  H2C.addRaw q0 q1

end Point

/-! ### mega/key.go -/

/-- mega/key.go:14-19 `GenKeypair` (with lines 71-73, 78-83); `MulByG` of a nil scalar panics. -/
def genKeypair (P : Prim) (c : CurveType) (seed : Seed) : Res (Pt × Fn) := do
  let (secret, _) ← Scalar.random c (seed.rng P)
  match secret with
  | some s => .ok (Verif.Point.mulByG s, s)
  | none => .panic "nil pointer dereference"

end Verif.Curves
