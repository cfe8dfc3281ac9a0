import Verif.Model.HeapDealings
import Verif.Model.HashToCurve

/-!
curve/k256_fe.go and curve/hash_to_curve.go on memory.

The thirteen field elements of the global variable `K256C` are objects like all others, at the addresses `K i`; that they hold
the constants is a hypothesis of the theorems, that they are never written to a conclusion.
-/

set_option autoImplicit false

namespace Verif.Heap

/-! ### curve/k256_fe.go -/

/-- A new field element: curve/k256_fe.go:28-87 `FromHex`, `FromBytes`, `FromBytesWide`, `Zero`, `One`, `FieldA`, … -/
def newFe (v : Fp) : Go Addr := fun m => (.ok m.next, (m.setFe m.next v).bump)
/-- Reading a field element: curve/k256_fe.go:127-129, 162-182 `Equal`, `IsZero`, `AsBytes`, `Sign`, `BigInt`. -/
def readFe (a : Addr) : Go Fp := fun m => (.ok (m.fe a), m)
/-- curve/k256_fe.go:97-100 `Assign`. -/
def assignFe (s o : Addr) : Go Addr := fun m => (.ok s, m.setFe s (m.fe o))
/-- curve/k256_fe.go:93-95 `Clone`. -/
def cloneFe (s : Addr) : Go Addr := do
  let z ← newFe 0
  assignFe z s
/-- curve/k256_fe.go:102-107 `Add`. -/
def addFe (s l r : Addr) : Go Addr := fun m => (.ok s, m.setFe s (m.fe l + m.fe r))
/-- curve/k256_fe.go:109-114 `Sub`. -/
def subFe (s l r : Addr) : Go Addr := fun m => (.ok s, m.setFe s (m.fe l - m.fe r))
/-- curve/k256_fe.go:115-120 `Mul`. -/
def mulFe (s l r : Addr) : Go Addr := fun m => (.ok s, m.setFe s (m.fe l * m.fe r))
/-- curve/k256_fe.go:122-125 `Square`. -/
def squareFe (s o : Addr) : Go Addr := fun m => (.ok s, m.setFe s (m.fe o * m.fe o))
/-- curve/k256_fe.go:131-133 `CAssign`. -/
def cassignFe (s o : Addr) (choice : Nat) : Go Unit := fun m =>
  (.ok (), m.setFe s (if choice = 1 then m.fe o else m.fe s))
/-- curve/k256_fe.go:135-138 `Invert`: the receiver keeps its value if the argument is zero (dependency contract). -/
def invFe (s o : Addr) : Go Addr := fun m => (.ok s, m.setFe s (if m.fe o = 0 then m.fe s else (m.fe o)⁻¹))
/-- curve/k256_fe.go:140-143 `Negate`. -/
def negFe (s o : Addr) : Go Addr := fun m => (.ok s, m.setFe s (-m.fe o))
/-- curve/k256_fe.go:145-153 `Sqrt`: the receiver is set to zero if there is no root. -/
def sqrtFe (s o : Addr) : Go (Addr × Nat) := fun m =>
  (.ok (s, (Fe.sqrt (m.fe o)).2), m.setFe s (Fe.sqrt (m.fe o)).1)
/-- curve/k256_fe.go:155-160 `Progenitor`. -/
def progenitorFe (s o : Addr) : Go Addr := fun m => (.ok s, m.setFe s (Fe.progenitor (m.fe o)))

/-! ### curve/hash_to_curve.go -/

/-- curve/hash_to_curve.go:8-13 `cmov`. -/
def cmov (a b : Addr) (choice : Nat) : Go Addr := do
  let r ← newFe 0
  let _ ← assignFe r a
  cassignFe r b choice
  pure r

/-- curve/hash_to_curve.go:15-46 `sqrtRatio`, K256 branch. -/
def sqrtRatio (u v : Addr) : Go (Addr × Nat) := do
  let vv ← readFe v
  if vv = 0 then Go.err "invalid arguments : v == 0"
  else do
    let c2 ← newFe H2C.sswuC2
    let z ← newFe 0
    let tv1 ← squareFe z v
    let z ← newFe 0
    let tv2 ← mulFe z u v
    let tv1 ← mulFe tv1 tv1 tv2
    let z ← newFe 0
    let y1 ← progenitorFe z tv1
    let y1 ← mulFe y1 y1 tv2
    let z ← newFe 0
    let y2 ← mulFe z y1 c2
    let z ← newFe 0
    let tv3 ← squareFe z y1
    let tv3 ← mulFe tv3 tv3 v
    let a ← readFe tv3
    let b ← readFe u
    let isQr := if a = b then 1 else 0
    let y ← cmov y2 y1 isQr
    pure (y, isQr)

/-- curve/hash_to_curve.go:48-88 `sswu`. -/
def sswu (u : Addr) : Go (Addr × Addr) := do
  let a ← newFe H2C.sswuA
  let b ← newFe H2C.sswuB
  let z ← newFe H2C.sswuZ
  let one ← newFe 1
  let t ← newFe 0
  let s ← newFe 0
  let s ← squareFe s u
  let tv1 ← mulFe t z s
  let t ← newFe 0
  let tv2 ← squareFe t tv1
  let tv2 ← addFe tv2 tv2 tv1
  let t ← newFe 0
  let tv3 ← addFe t tv2 one
  let tv3 ← mulFe tv3 tv3 b
  let tv2v ← readFe tv2
  let choice := if tv2v = 0 then 0 else 1
  let t ← newFe 0
  let neg ← negFe t tv2
  let tv4 ← cmov z neg choice
  let tv4 ← mulFe tv4 tv4 a
  let tv2 ← squareFe tv2 tv3
  let t ← newFe 0
  let tv6 ← squareFe t tv4
  let t ← newFe 0
  let tv5 ← mulFe t tv6 a
  let tv2 ← addFe tv2 tv2 tv5
  let tv2 ← mulFe tv2 tv2 tv3
  let tv6 ← mulFe tv6 tv6 tv4
  let t ← newFe 0
  let tv5 ← mulFe t tv6 b
  let tv2 ← addFe tv2 tv2 tv5
  let t ← newFe 0
  let x ← mulFe t tv1 tv3
  let (y1, isGx1Square) ← sqrtRatio tv2 tv6
  let t ← newFe 0
  let y ← mulFe t tv1 u
  let y ← mulFe y y y1
  let x ← cmov x tv3 isGx1Square
  let y ← cmov y y1 isGx1Square
  let uv ← readFe u
  let yv ← readFe y
  let e1 := (Fe.sign uv) ^^^ (Fe.sign yv) ^^^ 1
  let t ← newFe 0
  let neg ← negFe t y
  let y ← cmov neg y e1
  let inv ← invFe tv4 tv4
  let x ← mulFe x x inv
  pure (x, y)

/-- curve/hash_to_curve.go:162-168 `x2Xc1C2`. -/
def x2Xc1C2 (x c1 c2 : Addr) : Go Addr := do
  let r ← newFe 0
  let r ← addFe r x c1
  let r ← mulFe r x r
  addFe r r c2

/-- curve/hash_to_curve.go:171-176 `x3X2c1Xc2C3`. -/
def x3X2c1Xc2C3 (x c1 c2 c3 : Addr) : Go Addr := do
  let r ← x2Xc1C2 x c1 c2
  let r ← mulFe r x r
  addFe r r c3

/-- curve/hash_to_curve.go:179-187 `x3c1X2c2Xc3C4`. -/
def x3c1X2c2Xc3C4 (x c1 c2 c3 c4 : Addr) : Go Addr := do
  let r ← newFe 0
  let r ← mulFe r x c1
  let r ← addFe r r c2
  let r ← mulFe r r x
  let r ← addFe r r c3
  let r ← mulFe r r x
  addFe r r c4

/-- curve/hash_to_curve.go:216-229 `sswuIsogenySecp256k1`: the second argument is overwritten. -/
def isogeny (K : Fin 13 → Addr) (x y : Addr) : Go (Addr × Addr) := do
  let xnum ← x3c1X2c2Xc3C4 x (K 0) (K 1) (K 2) (K 3)
  let xden ← x2Xc1C2 x (K 4) (K 5)
  let ynum ← x3c1X2c2Xc3C4 x (K 6) (K 7) (K 8) (K 9)
  let yden ← x3X2c1Xc2C3 x (K 10) (K 11) (K 12)
  let t ← newFe 0
  let inv ← mulFe t xden yden
  let inv ← invFe inv inv
  let t ← newFe 0
  let s ← newFe 0
  let s ← mulFe s inv yden
  let x ← mulFe t xnum s
  let inv ← mulFe inv inv xden
  let ynum ← mulFe ynum ynum inv
  let y ← mulFe y y ynum
  pure (x, y)

/-- curve/point.go:67-78 `FromFieldElems`: the coordinates go through bytes, so the point does not refer to `x` and `y`.
Points off the curve are not modelled (as in `Verif.H2C.addRaw`). -/
def fromFieldElems (x y : Addr) : Go (Option Addr) := do
  let xv ← readFe x
  let yv ← readFe y
  let r ← Go.lift (Point.fromFieldElems xv yv)
  match r with
  | none => pure none
  | some r =>
    match Point.ofRaw? r with
    | none => Go.panic "not modelled: points off the curve"
    | some Q => do
      let a ← newPt Q
      pure (some a)

/-- curve/hash_to_curve.go:90-102 `MapToCurve`. -/
def mapToCurve (K : Fin 13 → Addr) (u : Addr) : Go (Option Addr) := do
  let (x, y) ← sswu u
  let (x, y) ← isogeny K x y
  fromFieldElems x y

/-- curve/hash_to_curve.go:104-122 `HashToField`. -/
def hashToField (P : Prim) (count : Int) (input dst : Bytes) : Go (List Addr) := do
  let uniform ← Go.lift (Xmd.expandMessageXmd P input dst (H2C.goInt (count * 48)))
  Go.lift (H2C.makeSlice count)
  Go.mapM' (fun i =>
    if uniform.length < (i + 1) * 48 then Go.panic "slice bounds out of range"
    else newFe (Fe.fromBytesWide ((uniform.drop (i * 48)).take 48))) (List.range count.toNat)

/-- curve/hash_to_curve.go:124-142 `HashToScalar`. -/
def hashToScalar (P : Prim) (count : Int) (input dst : Bytes) : Go (List Addr) := do
  let uniform ← Go.lift (Xmd.expandMessageXmd P input dst (H2C.goInt (count * 48)))
  Go.lift (H2C.makeSlice count)
  Go.mapM' (fun i =>
    if uniform.length < (i + 1) * 48 then Go.panic "slice bounds out of range"
    else do
      let v ← Go.lift (Scalar.fromBytesWide ((uniform.drop (i * 48)).take 48))
      newSc v) (List.range count.toNat)

/-- curve/hash_to_curve.go:144-159 `HashToCurveRo`. -/
def hashToCurve (P : Prim) (K : Fin 13 → Addr) (input dst : Bytes) : Go Addr := do
  let u ← hashToField P 2 input dst
  match u with
  | [u0, u1] => do
    let q0 ← mapToCurve K u0
    let q1 ← mapToCurve K u1
    match q0, q1 with
    | some q0, some q1 => addPt q0 q0 q1
    | _, _ => Go.panic "nil pointer dereference"
  | _ => Go.panic "index out of range"

end Verif.Heap
