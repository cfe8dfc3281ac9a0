import Verif.Model.Seed
import Verif.Model.Point

/-!
Model of curve/hash_to_curve.go for K256 (the branches for other curves cannot be reached: K256 is the only
`EccFieldElement` implementation).
-/

namespace Verif

namespace H2C

/-- curve/k256_fe.go:77, 80, 83, 86. -/
def sswuA : Fp := ((0x3F8731ABDD661ADCA08A5558F0F5D272E953D363CB6F0E5D405447C01A444533 : Nat) : Fp)
def sswuB : Fp := ((0x00000000000000000000000000000000000000000000000000000000000006eb : Nat) : Fp)
def sswuZ : Fp := ((0xfffffffffffffffffffffffffffffffffffffffffffffffffffffffefffffc24 : Nat) : Fp)
def sswuC2 : Fp := ((0x31fdf302724013e57ad13fb38f842afeec184f00a74789dd286729c8303c4a59 : Nat) : Fp)

/-- curve/hash_to_curve.go:8-13 `cmov`: `b` if `choice` is 1, else `a`. -/
def cmov (a b : Fp) (choice : Nat) : Fp := if choice = 1 then b else a

/-- curve/hash_to_curve.go:15-36 `sqrtRatio`, K256 branch. -/
def sqrtRatio (u v : Fp) : Res (Fp × Nat) :=
  if v = 0 then .err "invalid arguments : v == 0"
  else
    let tv1 := v * v
    let tv2 := u * v
    let tv1 := tv1 * tv2
    let y1 := Fe.progenitor tv1
    let y1 := y1 * tv2
    let y2 := y1 * sswuC2
    let tv3 := y1 * y1
    let tv3 := tv3 * v
    let isQr := if tv3 = u then 1 else 0
    .ok (cmov y2 y1 isQr, isQr)

/-- curve/hash_to_curve.go:48-88 `sswu`. -/
def sswu (u : Fp) : Res (Fp × Fp) := do
  let tv1 := sswuZ * (u * u)
  let tv2 := tv1 * tv1
  let tv2 := tv2 + tv1
  let tv3 := tv2 + 1
  let tv3 := tv3 * sswuB
  let choice := if tv2 = 0 then 0 else 1
  let tv4 := cmov sswuZ (-tv2) choice
  let tv4 := tv4 * sswuA
  let tv2 := tv3 * tv3
  let tv6 := tv4 * tv4
  let tv5 := tv6 * sswuA
  let tv2 := tv2 + tv5
  let tv2 := tv2 * tv3
  let tv6 := tv6 * tv4
  let tv5 := tv6 * sswuB
  let tv2 := tv2 + tv5
  let x := tv1 * tv3
  let (y1, isGx1Square) ← sqrtRatio tv2 tv6
  let y := tv1 * u
  let y := y * y1
  let x := cmov x tv3 isGx1Square
  let y := cmov y y1 isGx1Square
  let e1 := (Fe.sign u) ^^^ (Fe.sign y) ^^^ 1
  let y := cmov (-y) y e1
  let x := x * tv4⁻¹
  .ok (x, y)

/-- curve/hash_to_curve.go:190-204 `K256C`. -/
def c0 : Nat := 0x8E38E38E38E38E38E38E38E38E38E38E38E38E38E38E38E38E38E38DAAAAA88C
def c1 : Nat := 0x534C328D23F234E6E2A413DECA25CAECE4506144037C40314ECBD0B53D9DD262
def c2 : Nat := 0x07D3D4C80BC321D5B9F315CEA7FD44C5D595D2FC0BF63B92DFFF1044F17C6581
def c3 : Nat := 0x8E38E38E38E38E38E38E38E38E38E38E38E38E38E38E38E38E38E38DAAAAA8C7
def c4 : Nat := 0xEDADC6F64383DC1DF7C4B2D51B54225406D36B641F5E41BBC52A56612A8C6D14
def c5 : Nat := 0xD35771193D94918A9CA34CCBB7B640DD86CD409542F8487D9FE6B745781EB49B
def c6 : Nat := 0x2F684BDA12F684BDA12F684BDA12F684BDA12F684BDA12F684BDA12F38E38D84
def c7 : Nat := 0x29A6194691F91A73715209EF6512E576722830A201BE2018A765E85A9ECEE931
def c8 : Nat := 0xC75E0C32D5CB7C0FA9D0A54B12A0A6D5647AB046D686DA6FDFFC90FC201D71A3
def c9 : Nat := 0x4BDA12F684BDA12F684BDA12F684BDA12F684BDA12F684BDA12F684B8E38E23C
def c10 : Nat := 0x6484AA716545CA2CF3A70C3FA8FE337E0A3D21162F0D6299A7BF8192BFD2A76F
def c11 : Nat := 0x7A06534BB8BDB49FD5E9E6632722C2989467C1BFC8E8D978DFB425D2685C2573
def c12 : Nat := 0xFFFFFFFFFFFFFFFFFFFFFFFFFFFFFFFFFFFFFFFFFFFFFFFFFFFFFFFEFFFFF93B

/-- curve/hash_to_curve.go:162-168 `x2Xc1C2`. -/
def x2Xc1C2 (x c1 c2 : Fp) : Fp := x * (x + c1) + c2

/-- curve/hash_to_curve.go:171-176 `x3X2c1Xc2C3`. -/
def x3X2c1Xc2C3 (x c1 c2 c3 : Fp) : Fp := x * x2Xc1C2 x c1 c2 + c3

/-- curve/hash_to_curve.go:179-187 `x3c1X2c2Xc3C4`. -/
def x3c1X2c2Xc3C4 (x c1 c2 c3 c4 : Fp) : Fp := ((x * c1 + c2) * x + c3) * x + c4

/-- curve/hash_to_curve.go:216-229 `sswuIsogenySecp256k1`. -/
def isogeny (x y : Fp) : Fp × Fp :=
  let xnum := x3c1X2c2Xc3C4 x c0 c1 c2 c3
  let xden := x2Xc1C2 x c4 c5
  let ynum := x3c1X2c2Xc3C4 x c6 c7 c8 c9
  let yden := x3X2c1Xc2C3 x c10 c11 c12
  let inv := xden * yden
  let inv := inv⁻¹
  (xnum * (inv * yden), y * (ynum * (inv * xden)))

/-- curve/hash_to_curve.go:90-102 `MapToCurve`. -/
def mapToCurve (u : Fp) : Res (Option RawPt) := do
  let (x, y) ← sswu u
  let (x, y) := isogeny x y
  Point.fromFieldElems x y

/-- The value of a Go `int` after an operation whose mathematical result is `x`: 64 bits, two's complement. -/
def goInt (x : Int) : Int := x.bmod (2 ^ 64)

/-- `make([]T, 0, count)` for an interface type `T`, of 16 bytes (curve/hash_to_curve.go:113,133): it panics on negative counts and
on those that need more than the 2^48 bytes a program can address. -/
def makeSlice (count : Int) : Res Unit :=
  if count < 0 ∨ 2 ^ 44 < count then .panic "makeslice: cap out of range" else .ok ()

/-- curve/hash_to_curve.go:104-122 `HashToField` for K256: `(256+128+7)/8 = 48` bytes per element.  `count` is a Go `int`; the product
with 48 (line 108) wraps. -/
def hashToField (P : Prim) (count : Int) (input dst : Bytes) : Res (List Fp) := do
  let uniform ← Xmd.expandMessageXmd P input dst (goInt (count * 48))
  makeSlice count
  Res.mapM' (fun i =>
    if uniform.length < (i + 1) * 48 then .panic "slice bounds out of range"
    else .ok (Fe.fromBytesWide ((uniform.drop (i * 48)).take 48))) (List.range count.toNat)

/-- curve/hash_to_curve.go:124-142 `HashToScalar` for K256. -/
def hashToScalar (P : Prim) (count : Int) (input dst : Bytes) : Res (List Fn) := do
  let uniform ← Xmd.expandMessageXmd P input dst (goInt (count * 48))
  makeSlice count
  Res.mapM' (fun i =>
    if uniform.length < (i + 1) * 48 then .panic "slice bounds out of range"
    else Scalar.fromBytesWide ((uniform.drop (i * 48)).take 48)) (List.range count.toNat)

/-- `AddPoints` on decoded points.  Points off the curve have no group law: that case is made a panic here, and
`C17` proves it does not occur. -/
def addRaw (a b : Option RawPt) : Res RawPt :=
  match a, b with
  | some a, some b =>
    match Point.ofRaw? a, Point.ofRaw? b with
    | some A, some B => .ok (Point.raw (A + B))
    | _, _ => .panic "not modelled: addition of points off the curve"
  | _, _ => .panic "nil pointer dereference"

/-- curve/hash_to_curve.go:144-159 `HashToCurveRo` (= `Point.HashToPoint`, curve/point.go:64-66). -/
def hashToCurve (P : Prim) (input dst : Bytes) : Res RawPt := do
  let u ← hashToField P 2 input dst
  match u with
  | [u0, u1] => do
    let q0 ← mapToCurve u0
    let q1 ← mapToCurve u1
    addRaw q0 q1
  | _ => .panic "index out of range"

end H2C

end Verif
