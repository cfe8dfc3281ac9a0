import Verif.Model.Scalar
import Verif.Model.Point
import Verif.Model.Seed

/-!
Model of poly/poly.go and poly/lagrange.go.

A `*Polynomial` is its coefficient list (lowest degree first); its curve is K256, the only curve there is.  The methods
that store into their receiver return the new coefficient list of the receiver.  All operations of both files write to
freshly allocated or cloned scalars only, so the functional reading is exact; the one method that *reads* its receiver
where it should read an argument (`MulScalar`) has the receiver as a parameter.
-/

namespace Verif

namespace Poly

/-- poly/poly.go:68-73 `Coeff` for a non-negative index (no caller passes another). -/
def coeff (p : List Fn) (idx : Nat) : Fn := if h : idx < p.length then p[idx] else 0

/-- poly/poly.go:76-84 `NonZeroCoefficients`: the number of coefficients that are not zero (not the degree bound). -/
def nonZeroCoefficients (p : List Fn) : Nat :=
  let zeros := p.foldl (fun zeros c => if c = 0 then zeros + 1 else zeros) 0
  p.length - zeros

/-- poly/poly.go:85-91 `IsZero`. -/
def isZero (p : List Fn) : Nat := if nonZeroCoefficients p = 0 then 1 else 0

/-- poly/poly.go:94-104 `Add`. -/
def add (lhs rhs : List Fn) : List Fn :=
  (List.range (max lhs.length rhs.length)).map fun i => coeff lhs i + coeff rhs i

/-- poly/poly.go:115-118, the inner loop of `Mul`: `coeffs[i+j] += ca*cb`, starting at `k = i+j`.  (`k` is always in
range, see `Verif.Poly.mul_index_lt`.) -/
def mulInner (ca : Fn) (coeffs : List Fn) (k : Nat) : List Fn → List Fn
  | [] => coeffs
  | cb :: rest => mulInner ca (coeffs.set k (coeffs.getD k 0 + ca * cb)) (k + 1) rest

/-- poly/poly.go:114-119, the outer loop of `Mul`. -/
def mulOuter (rhs : List Fn) (coeffs : List Fn) (i : Nat) : List Fn → List Fn
  | [] => coeffs
  | ca :: rest => mulOuter rhs (mulInner ca coeffs i rhs) (i + 1) rest

/-- poly/poly.go:107-122 `Mul`. -/
def mul (lhs rhs : List Fn) : List Fn :=
  let nCoeffs := max (lhs.length + rhs.length) 1 - 1
  mulOuter rhs (List.replicate nCoeffs 0) 0 lhs

/-- poly/poly.go:124-131 `MulScalar`: the number of coefficients is the argument's but the values are the
*receiver's*; indexing a shorter receiver panics. -/
def mulScalar (recv lhs : List Fn) (scalar : Fn) : Res (List Fn) :=
  Res.mapM' (fun i => if h : i < recv.length then .ok (recv[i] * scalar) else .panic "index out of range")
    (List.range lhs.length)

/-- poly/poly.go:137-149 `EvaluateAt` (Horner, from the last coefficient down). -/
def evaluateAt (p : List Fn) (x : Fn) : Fn :=
  match p.reverse with
  | [] => 0
  | c :: cs => cs.foldl (fun ans coeff => ans * x + coeff) c

/-- poly/poly.go:151-162 `Equal`. -/
def equal (p rhs : List Fn) : Nat :=
  if (List.range (max p.length rhs.length)).all fun i => coeff p i = coeff rhs i then 1 else 0

/-- poly/poly.go:35-44 `Random`: `make` panics on a negative size. -/
def randomCoeffs (r : Rng) : Nat → Res (List Fn × Rng)
  | 0 => .ok ([], r)
  | k + 1 => do
    let (c, r) ← Scalar.random r
    let (cs, r) ← randomCoeffs r k
    .ok (c :: cs, r)

/-- poly/poly.go:35-44 `Random`. -/
def random (num : Int) (r : Rng) : Res (List Fn × Rng) :=
  if num < 0 then .panic "makeslice: len out of range" else randomCoeffs r num.toNat

/-- poly/poly.go:46-62 `RandomWithConstant`; `make` panics on a negative size. -/
def randomWithConstant (constant : Fn) (num : Int) (r : Rng) : Res (List Fn × Rng) :=
  if num = 0 then .err "Cannot have degree=0 polynomial with given constant"
  else if num < 0 then .panic "makeslice: len out of range"
  else do
    let (cs, r) ← randomCoeffs r (num.toNat - 1)
    .ok (constant :: cs, r)

/-- poly/poly.go:174-187, the loop of `Interpolate`.  `Invert` of zero gives zero (dependency contract). -/
def interpolateLoop (poly base : List Fn) : List (Fn × Fn) → Res (List Fn)
  | [] => .ok poly
  | (x, y) :: rest => do
    let diff := y - evaluateAt poly x
    let inv := (evaluateAt base x)⁻¹
    if inv = 0 then .err "inv is zero"
    else do
      let diff := diff * inv
      let base ← mulScalar base base diff
      let poly := add poly base
      let base := mul base [-x, 1]
      interpolateLoop poly base rest

/-- poly/poly.go:165-189 `Interpolate`. -/
def interpolate : List (Fn × Fn) → Res (List Fn)
  | [] => .ok []
  | (x0, y0) :: rest => interpolateLoop [y0] [-x0, 1] rest

end Poly

/-! ### poly/lagrange.go -/

namespace Lagr

/-- poly/lagrange.go:73-82 `checkForDuplicates`: `true` means the error. -/
def hasDuplicates (seen : List NodeIndex) : List NodeIndex → Bool
  | [] => false
  | i :: rest => if i ∈ seen then true else hasDuplicates (i :: seen) rest

/-- poly/lagrange.go:105-112: `numerator[i]` is the product of `x_j - value` for `j < i`. -/
def prefixProds (value : Fn) (tmp : Fn) : List Fn → List Fn
  | [] => []
  | x :: xs => tmp :: prefixProds value (tmp * (x - value)) xs

/-- poly/lagrange.go:114-119, the loop from the right: entry `i` is multiplied by the product `tmp` of `x_j - value`
for `j > i`.  Returns the new entries and `tmp`. -/
def suffixLoop (value : Fn) : List Fn → List Fn → List Fn × Fn
  | x :: xs, m :: ms =>
    let (ms', tmp) := suffixLoop value xs ms
    (m * tmp :: ms', tmp * (x - value))
  | _, _ => ([], 1)

/-- poly/lagrange.go:122-129, the denominator for `xi`. -/
def denom (xi : Fn) (scalars : List Fn) : Fn :=
  scalars.foldl (fun denom xj => if xi = xj then denom else denom * (xj - xi)) 1

/-- poly/lagrange.go:120-136, the last loop (stops at the first failure). -/
def finish (scalars : List Fn) : List (Fn × Fn) → Res (List Fn)
  | [] => .ok []
  | (lagrange, xi) :: rest => do
    let inv := (denom xi scalars)⁻¹
    if inv = 0 then .err "interpolation error"
    else do
      let cs ← finish scalars rest
      .ok (lagrange * inv :: cs)

/-- poly/lagrange.go:88-140 `AtValue`. -/
def atValue (value : Fn) (samples : List NodeIndex) : Res (List Fn) :=
  if samples.length = 0 then .err "samples is empty"
  else if samples.length = 1 then .ok [1]
  else if hasDuplicates [] samples then .err "duplicate node index"
  else
    let scalars := samples.map Scalar.fromNodeIndex
    let numerator := (suffixLoop value scalars (prefixProds value 1 scalars)).1
    finish scalars (numerator.zip scalars)

/-- poly/lagrange.go:84-86 `AtZero`. -/
def atZero (samples : List NodeIndex) : Res (List Fn) := atValue 0 samples

/-- poly/lagrange.go:19-26 `New`. -/
def new (coefficients : List Fn) : Res (List Fn) :=
  if coefficients.length = 0 then .err "coefficients is empty" else .ok coefficients

/-- poly/lagrange.go:48-59 `InterpolatePoint` (the samples are cloned before being multiplied); an empty coefficient
list panics on `l.coefficients[0]`. -/
def interpolatePoint (l : List Fn) (y : List Pt) : Res Pt :=
  if y.length ≠ l.length then .err "interpolation error"
  else if l.length = 0 then .panic "index out of range"
  else .ok ((l.zip y).foldl (fun result cs => result + Point.scalarMul cs.2 cs.1) 0)

/-- poly/lagrange.go:61-72 `InterpolateScalar`. -/
def interpolateScalar (l : List Fn) (y : List Fn) : Res Fn :=
  if y.length ≠ l.length then .err "interpolation error"
  else if l.length = 0 then .panic "index out of range"
  else .ok ((l.zip y).foldl (fun result cs => result + cs.2 * cs.1) 0)

end Lagr

end Verif
