import Verif.Model.Commitment

/-!
A memory model of the arithmetic objects.

Scalars, points and polynomials are handled through pointers in Go: `r.Add(a, b)` writes to the object `r` points
to, and `r`, `a`, `b` may point to the same object.  Here a pointer is an address, the memory holds the objects, and
the functions of curve/k256_scalar.go, curve/k256_point.go, curve/point.go, poly/poly.go, poly/lagrange.go and
poly/commitment.go are written as sequences of the reads, writes and allocations the code performs.

The pair of a `*Secp256k1Scalar` and the `*native.Field` inside it (and likewise for points) is one object: every
constructor allocates both together, and no arithmetic method replaces the inner pointer of an existing object (the
`UnmarshalCBOR` methods do, by one that was just allocated, curve/k256_scalar.go:135-146).  A kryptology operation
reads its operands before it writes its result (dependency contract).  Slices that are written to after their
creation are only written to by the function that made them, so they are lists of addresses.
-/

set_option autoImplicit false

namespace Verif.Heap

/-- Addresses; one address space for all kinds of objects. -/
scoped notation "Addr" => Nat

/-- An object: its kind and its address. -/
inductive Obj where
  | sc (a : Addr)
  | pt (a : Addr)
  | po (a : Addr)
  | fe (a : Addr)

/-- The memory: objects of each kind, and the first address never used.  No code reads `touched`; it keeps record of the objects
that were written to at some time, so that statements can speak about writes that are undone later. -/
structure Mem where
  sc : Addr → Fn
  pt : Addr → Pt
  /-- poly/poly.go:16-19: the coefficient pointers of a polynomial. -/
  po : Addr → List Addr
  /-- Field elements, curve/k256_fe.go:14-16. -/
  fe : Addr → Fp
  next : Addr
  touched : Set Obj

namespace Mem

def setSc (m : Mem) (a : Addr) (v : Fn) : Mem := { m with sc := Function.update m.sc a v, touched := insert (.sc a) m.touched }
def setPt (m : Mem) (a : Addr) (v : Pt) : Mem := { m with pt := Function.update m.pt a v, touched := insert (.pt a) m.touched }
def setPo (m : Mem) (a : Addr) (v : List Addr) : Mem := { m with po := Function.update m.po a v, touched := insert (.po a) m.touched }
def setFe (m : Mem) (a : Addr) (v : Fp) : Mem := { m with fe := Function.update m.fe a v, touched := insert (.fe a) m.touched }

/-- One more address in use. -/
def bump (m : Mem) : Mem := { m with next := m.next + 1 }

end Mem

/-- Code that reads and writes memory.  What it has written stays written when it returns an error or panics. -/
def Go (α : Type) : Type := Mem → Res α × Mem

namespace Go

variable {α β : Type}

instance : Monad Go where
  pure a := fun m => (.ok a, m)
  bind g f := fun m =>
    match g m with
    | (.ok a, m) => f a m
    | (.err e, m) => (.err e, m)
    | (.panic e, m) => (.panic e, m)
    | (.diverge, m) => (.diverge, m)

/-- Return an error. -/
def err (e : String) : Go α := fun m => (.err e, m)
/-- Panic. -/
def panic (e : String) : Go α := fun m => (.panic e, m)
/-- Code that computes on values only. -/
def lift (r : Res α) : Go α := fun m => (r, m)

/-- A loop that fills a slice. -/
def mapM' (f : α → Go β) : List α → Go (List β)
  | [] => pure []
  | a :: as => do
    let b ← f a
    let bs ← mapM' f as
    pure (b :: bs)

/-- A loop. -/
def forM' (f : α → Go Unit) : List α → Go Unit
  | [] => pure ()
  | a :: as => do
    f a
    forM' f as

end Go

/-! ### curve/k256_scalar.go -/

/-- A new scalar object: curve/k256_scalar.go:33-49 `Zero`, `One`, `FromUint64`. -/
def newSc (v : Fn) : Go Addr := fun m => (.ok m.next, (m.setSc m.next v).bump)
/-- Reading a scalar: curve/k256_scalar.go:96-100, 123-125 `Equal`, `IsZero`. -/
def readSc (a : Addr) : Go Fn := fun m => (.ok (m.sc a), m)
/-- curve/k256_scalar.go:63-68 `Add`. -/
def addSc (s l r : Addr) : Go Addr := fun m => (.ok s, m.setSc s (m.sc l + m.sc r))
/-- curve/k256_scalar.go:70-75 `Sub`. -/
def subSc (s l r : Addr) : Go Addr := fun m => (.ok s, m.setSc s (m.sc l - m.sc r))
/-- curve/k256_scalar.go:77-82 `Mul`. -/
def mulSc (s l r : Addr) : Go Addr := fun m => (.ok s, m.setSc s (m.sc l * m.sc r))
/-- curve/k256_scalar.go:84-88 `Invert`: the receiver keeps its value if the argument is zero (dependency
contract). -/
def invSc (s o : Addr) : Go Addr := fun m => (.ok s, m.setSc s (if m.sc o = 0 then m.sc s else (m.sc o)⁻¹))
/-- curve/k256_scalar.go:90-94 `Negate`. -/
def negSc (s o : Addr) : Go Addr := fun m => (.ok s, m.setSc s (-m.sc o))
/-- curve/k256_scalar.go:101-105 `Assign`. -/
def assignSc (s o : Addr) : Go Addr := fun m => (.ok s, m.setSc s (m.sc o))
/-- curve/k256_scalar.go:107-109 `Clone`. -/
def cloneSc (s : Addr) : Go Addr := do
  let z ← newSc 0
  assignSc z s

/-! ### curve/k256_point.go and curve/point.go -/

/-- A new point object: curve/k256_point.go:23-38, curve/point.go:33-62. -/
def newPt (v : Pt) : Go Addr := fun m => (.ok m.next, (m.setPt m.next v).bump)
/-- Reading a point: curve/k256_point.go `Equal`, `Serialize`, `AffineX`. -/
def readPt (a : Addr) : Go Pt := fun m => (.ok (m.pt a), m)
/-- curve/k256_point.go:102-107 `AddPoints`. -/
def addPt (s l r : Addr) : Go Addr := fun m => (.ok s, m.setPt s (m.pt l + m.pt r))
/-- curve/k256_point.go:109-114 `SubPoints`. -/
def subPt (s l r : Addr) : Go Addr := fun m => (.ok s, m.setPt s (m.pt l - m.pt r))
/-- curve/k256_point.go:116-120 `Double`. -/
def dblPt (s o : Addr) : Go Addr := fun m => (.ok s, m.setPt s (m.pt o + m.pt o))
/-- curve/k256_point.go:122-126 `Clone`. -/
def clonePt (s : Addr) : Go Addr := fun m => (.ok m.next, (m.setPt m.next (m.pt s)).bump)
/-- curve/k256_point.go:128-133 `ScalarMul`. -/
def smulPt (s o k : Addr) : Go Addr := fun m => (.ok s, m.setPt s (m.sc k • m.pt o))
/-- curve/k256_point.go:147-151 `LinComb`. -/
def linComb (s p k q l : Addr) : Go Addr := fun m => (.ok s, m.setPt s (m.sc k • m.pt p + m.sc l • m.pt q))

/-- curve/k256_point.go:138-143, the loop of `MulByNodeIndex`, from bit `k-1` down. -/
def mulNodeLoop (s : Addr) (s64 : Nat) : Nat → Addr → Go Addr
  | 0, res => pure res
  | k + 1, res => do
    let res ← dblPt res res
    if (s64 >>> k) &&& 1 = 1 then do
      let res ← addPt res res s
      mulNodeLoop s s64 k res
    else mulNodeLoop s s64 k res

/-- curve/k256_point.go:134-145 `MulByNodeIndex`. -/
def mulByNodeIndex (s : Addr) (i : NodeIndex) : Go Addr := do
  let s64 := (i + 1#64).toNat
  let res ← newPt 0
  mulNodeLoop s s64 (Nat.size s64) res

/-- curve/point.go:80-87 `MulPoints` (the new point holds the identity before it is written). -/
def mulPoints (p k q l : Addr) : Go Addr := do
  let s ← newPt 0
  linComb s p k q l

/-- curve/point.go:89-93 `Pedersen`. -/
def pedersen (k l : Addr) : Go Addr := do
  let g ← newPt G
  let h ← newPt Point.H
  mulPoints g k h l

/-- curve/point.go:95-98 `MulByG`. -/
def mulByG (k : Addr) : Go Addr := do
  let g ← newPt G
  smulPt g g k

/-! ### poly/poly.go -/

/-- poly/poly.go:21-33 `New`, `Zero`. -/
def newPo (cs : List Addr) : Go Addr := fun m => (.ok m.next, (m.setPo m.next cs).bump)
/-- The coefficient pointers of a polynomial. -/
def readPo (p : Addr) : Go (List Addr) := fun m => (.ok (m.po p), m)
/-- `p.coefficients = cs`. -/
def writePo (p : Addr) (cs : List Addr) : Go Unit := fun m => (.ok (), m.setPo p cs)

/-- poly/poly.go:68-73 `Coeff`. -/
def coeff (p : Addr) (idx : Nat) : Go Addr := do
  let cs ← readPo p
  if h : idx < cs.length then do
    let z ← newSc 0
    assignSc z cs[idx]
  else newSc 0

/-- poly/poly.go:94-104 `Add`. -/
def polyAdd (p lhs rhs : Addr) : Go Addr := do
  let l ← readPo lhs
  let r ← readPo rhs
  let res ← Go.mapM' (fun i => do
    let x ← coeff lhs i
    let y ← coeff rhs i
    addSc x x y) (List.range (max l.length r.length))
  writePo p res
  pure p

/-- poly/poly.go:114-119, the loops of `Mul` over the pairs of coefficient pointers with the sum of their
indices. -/
def polyMulStep (coeffs : List Addr) (e : Nat × Addr × Addr) : Go Unit := do
  let tmp ← newSc 0
  let tmp ← mulSc tmp e.2.1 e.2.2
  if h : e.1 < coeffs.length then do
    let _ ← addSc coeffs[e.1] coeffs[e.1] tmp
    pure ()
  else Go.panic "index out of range"

/-- The iterations of the two nested loops of poly/poly.go:114-115, in order. -/
def mulPairs (l r : List Addr) : List (Nat × Addr × Addr) :=
  l.zipIdx.flatMap fun ca => r.zipIdx.map fun cb => (ca.2 + cb.2, ca.1, cb.1)

/-- poly/poly.go:107-122 `Mul`. -/
def polyMul (p lhs rhs : Addr) : Go Addr := do
  let l ← readPo lhs
  let r ← readPo rhs
  let coeffs ← Go.mapM' (fun _ => newSc 0) (List.range (max (l.length + r.length) 1 - 1))
  Go.forM' (polyMulStep coeffs) (mulPairs l r)
  writePo p coeffs
  pure p

/-- poly/poly.go:124-131 `MulScalar`. -/
def polyMulScalar (p lhs scalar : Addr) : Go Addr := do
  let l ← readPo lhs
  let cs ← readPo p
  let coeffs ← Go.mapM' (fun i => do
    let z ← newSc 0
    if h : i < cs.length then mulSc z cs[i] scalar else Go.panic "index out of range") (List.range l.length)
  writePo p coeffs
  pure p

/-- poly/poly.go:143-147, the loop of `EvaluateAt` over the remaining coefficients, last first. -/
def evalLoop (x : Addr) : List Addr → Addr → Go Addr
  | [], ans => pure ans
  | c :: cs, ans => do
    let coeff ← cloneSc c
    let ans ← mulSc ans ans x
    let ans ← addSc ans ans coeff
    evalLoop x cs ans

/-- poly/poly.go:137-149 `EvaluateAt`. -/
def evaluateAt (p x : Addr) : Go Addr := do
  let cs ← readPo p
  match cs.reverse with
  | [] => newSc 0
  | _ :: rest => do
    let ans ← coeff p (cs.length - 1)
    evalLoop x rest ans

/-- poly/poly.go:174-187, the loop of `Interpolate`. -/
def interpolateLoop (one : Addr) : Addr → Addr → List (Addr × Addr) → Go Addr
  | poly, _, [] => pure poly
  | poly, base, s :: rest => do
    let x ← cloneSc s.1
    let y ← cloneSc s.2
    let z ← newSc 0
    let px ← evaluateAt poly x
    let diff ← subSc z y px
    let inv ← evaluateAt base x
    let inv ← invSc inv inv
    let v ← readSc inv
    if v = 0 then Go.err "inv is zero"
    else do
      let diff ← mulSc diff diff inv
      let base ← polyMulScalar base base diff
      let poly ← polyAdd poly poly base
      let x ← negSc x x
      let lin ← newPo [x, one]
      let base ← polyMul base base lin
      interpolateLoop one poly base rest

/-- poly/poly.go:165-189 `Interpolate`. -/
def interpolate : List (Addr × Addr) → Go Addr
  | [] => newPo []
  | s :: rest => do
    let one ← newSc 1
    let y0 ← cloneSc s.2
    let poly ← newPo [y0]
    let s0 ← cloneSc s.1
    let s0 ← negSc s0 s0
    let c0 ← cloneSc s0
    let c1 ← cloneSc one
    let base ← newPo [c0, c1]
    interpolateLoop one poly base rest

/-! ### poly/lagrange.go -/

/-- poly/lagrange.go:54-57, the loop of `InterpolatePoint`. -/
def interpolatePointLoop : List (Addr × Addr) → Addr → Go Addr
  | [], result => pure result
  | (c, y) :: rest, result => do
    let coefficient ← cloneSc c
    let sample ← clonePt y
    let sample ← smulPt sample sample coefficient
    let result ← addPt result result sample
    interpolatePointLoop rest result

/-- poly/lagrange.go:48-59 `InterpolatePoint`. -/
def interpolatePoint (l y : List Addr) : Go Addr :=
  if y.length ≠ l.length then Go.err "interpolation error"
  else if l.length = 0 then Go.panic "index out of range"
  else do
    let result ← newPt 0
    interpolatePointLoop (l.zip y) result

/-- poly/lagrange.go:67-70, the loop of `InterpolateScalar`. -/
def interpolateScalarLoop : List (Addr × Addr) → Addr → Go Addr
  | [], result => pure result
  | (c, y) :: rest, result => do
    let coefficient ← cloneSc c
    let sample ← cloneSc y
    let sample ← mulSc sample sample coefficient
    let result ← addSc result result sample
    interpolateScalarLoop rest result

/-- poly/lagrange.go:61-72 `InterpolateScalar`. -/
def interpolateScalar (l y : List Addr) : Go Addr :=
  if y.length ≠ l.length then Go.err "interpolation error"
  else if l.length = 0 then Go.panic "index out of range"
  else do
    let result ← newSc 0
    interpolateScalarLoop (l.zip y) result

/-- poly/lagrange.go:108-112: the entries after the first, over all scalars but the last. -/
def prefixLoop (value : Addr) : List Addr → Addr → Go (List Addr)
  | [], _ => pure []
  | s :: rest, tmp => do
    let x ← cloneSc s
    let x ← subSc x x value
    let tmp ← mulSc tmp tmp x
    let n ← cloneSc tmp
    let ns ← prefixLoop value rest tmp
    pure (n :: ns)

/-- poly/lagrange.go:115-119 over the pairs `(scalars[i], numerator[i-1])`, from the last to the first. -/
def suffixLoop (value : Addr) : List (Addr × Addr) → Addr → Go Unit
  | [], _ => pure ()
  | (s, n) :: rest, tmp => do
    let x ← cloneSc s
    let x ← subSc x x value
    let tmp ← mulSc tmp tmp x
    let _ ← mulSc n n tmp
    suffixLoop value rest tmp

/-- poly/lagrange.go:123-129, the inner loop for the denominator. -/
def denomLoop (xi : Addr) : List Addr → Addr → Go Addr
  | [], denom => pure denom
  | s :: rest, denom => do
    let xj ← cloneSc s
    let vi ← readSc xi
    let vj ← readSc xj
    if vi = vj then denomLoop xi rest denom
    else do
      let diff ← subSc xj xj xi
      let denom ← mulSc denom denom diff
      denomLoop xi rest denom

/-- poly/lagrange.go:120-136, one iteration of the last loop. -/
def finishStep (scalars : List Addr) (e : Addr × Addr) : Go Unit := do
  let one ← newSc 1
  let denom ← denomLoop e.2 scalars one
  let inv ← invSc denom denom
  let v ← readSc inv
  if v = 0 then Go.err "interpolation error"
  else do
    let _ ← mulSc e.1 e.1 inv
    pure ()

/-- poly/lagrange.go:88-140 `AtValue`: the pointers to the coefficients. -/
def atValue (value : Addr) (samples : List NodeIndex) : Go (List Addr) :=
  if samples.length = 0 then Go.err "samples is empty"
  else if samples.length = 1 then do
    let o ← newSc 1
    pure [o]
  else if Lagr.hasDuplicates [] samples then Go.err "duplicate node index"
  else do
    let scalars ← Go.mapM' (fun i => newSc (Scalar.fromNodeIndex i)) samples
    let tmp ← newSc 1
    let n0 ← cloneSc tmp
    let ns ← prefixLoop value scalars.dropLast tmp
    let numerator := n0 :: ns
    let tmp ← newSc 1
    suffixLoop value (scalars.tail.zip numerator.dropLast).reverse tmp
    Go.forM' (finishStep scalars) (numerator.zip scalars)
    pure numerator

/-- poly/lagrange.go:84-86 `AtZero`. -/
def atZero (samples : List NodeIndex) : Go (List Addr) := do
  let z ← newSc 0
  atValue z samples

/-! ### poly/commitment.go -/

/-- poly/commitment.go:124-128, the loop of `evaluateAt` over the points from the last to the first. -/
def evalPointsLoop (i : NodeIndex) : List Addr → Addr → Go Addr
  | [], acc => pure acc
  | pt :: rest, acc => do
    let acc ← mulByNodeIndex acc i
    let acc ← addPt acc acc pt
    evalPointsLoop i rest acc

/-- poly/commitment.go:121-130 `evaluateAt`. -/
def evaluatePointsAt (points : List Addr) (i : NodeIndex) : Go Addr :=
  if points.length = 0 then Go.panic "index out of range"
  else do
    let acc ← newPt 0
    evalPointsLoop i points.reverse acc

/-- poly/poly.go:76-84 `NonZeroCoefficients`. -/
def nonZeroCoefficients (p : Addr) : Go Nat := fun m => (.ok (Poly.nonZeroCoefficients ((m.po p).map m.sc)), m)

/-- poly/commitment.go:142-151 `simpleCommitment.Create`: the pointers to the points. -/
def createSimple (poly : Addr) (num : Int) : Go (List Addr) := do
  let nz ← nonZeroCoefficients poly
  if (nz : Int) > num then Go.err "Polynomial has more coefficients than expected"
  else Go.mapM' (fun i => do
    let c ← coeff poly i
    mulByG c) (List.range num.toNat)

/-- poly/commitment.go:263-272 `pedersenCommitment.Create`. -/
def createPedersen (values masking : Addr) (num : Int) : Go (List Addr) := do
  let nv ← nonZeroCoefficients values
  let nm ← nonZeroCoefficients masking
  if (nv : Int) > num ∨ (nm : Int) > num then Go.err "Polynomial has more coefficients than expected"
  else Go.mapM' (fun i => do
    let c ← coeff values i
    let d ← coeff masking i
    pedersen c d) (List.range num.toNat)

/-- poly/commitment.go:152-160, 274-282 `Clone`. -/
def cloneCommitment (points : List Addr) : Go (List Addr) := Go.mapM' clonePt points

/-- poly/commitment.go:237-239, 360-362 `ConstantTerm`. -/
def constantTerm (points : List Addr) : Go Addr :=
  match points with
  | [] => Go.panic "index out of range"
  | pt :: _ => clonePt pt

end Verif.Heap
