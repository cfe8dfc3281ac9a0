import Verif.Model.Poly
import Verif.Model.Prim

/-!
Model of poly/commitment.go.

The CBOR layer is taken to be faithful (`Unmarshal` inverts `Marshal` on the wire structs): the serialised form of an
opening or commitment is modelled by the wire struct whose leaves are the byte strings produced by the scalars' and
points' own `MarshalCBOR` methods (the tagged encodings).
-/

namespace Verif

/-- poly/commitment.go:381 `PolynomialCommitmentType` of the two commitments. -/
inductive Kind where
  | simple
  | pedersen
  deriving DecidableEq, Repr

/-- The numbers of poly/commitment.go:376-379. -/
def Kind.toInt : Kind → Int
  | .simple => 1
  | .pedersen => 2

/-- A non-nil `CommitmentOpening` (poly/commitment.go:32-40).  The methods have value receivers, so both the array types
and pointers to them implement the interface; a type assertion tells them apart. -/
inductive Opening where
  | simple (v : Fn)
  | simplePtr (v : Fn)
  | pedersen (v m : Fn)
  | pedersenPtr (v m : Fn)
  deriving DecidableEq

/-- The wire struct of poly/commitment.go:42-46; `message` holds the CBOR byte strings of the scalars. -/
structure OpeningWire where
  curveType : Int
  commitType : Int
  message : List Bytes
  deriving DecidableEq

namespace Opening

/-- poly/commitment.go:79-90 and 98-109 `Serialize`: *both* kinds write the commit type `Simple`. -/
def serialize : Opening → OpeningWire
  | .simple v | .simplePtr v => ⟨K256, Kind.toInt .simple, [Scalar.serializeTagged v]⟩
  | .pedersen v m | .pedersenPtr v m =>
    ⟨K256, Kind.toInt .simple, [Scalar.serializeTagged v, Scalar.serializeTagged m]⟩

/-- Decoding one scalar in place (curve/k256_scalar.go:135-146): an error leaves the zero it was initialised with,
because the caller ignores it. -/
def decodeScalar (b : Bytes) : Res Fn :=
  match Scalar.unmarshalTagged b with
  | .ok s => .ok s
  | .err _ => .ok 0
  | .panic e => .panic e
  | .diverge => .diverge

/-- What `Deserialize` returns without an error: an opening all of whose scalars are set, or a pointer to an array
some of whose scalars are nil interfaces (a message with too few elements). -/
inductive Decoded where
  | opening (o : Opening)
  | withNil (kind : Kind)
  deriving DecidableEq

/-- poly/commitment.go:52-75 `Deserialize`; the error of the inner `Unmarshal` is ignored.  How the CBOR library fills
an array from a message of another length is an assumption (its source is not available here): surplus elements are
skipped, and missing ones leave a nil element.  `Serialize` never writes too few elements. -/
def deserialize (c : OpeningWire) : Res Decoded :=
  if c.commitType = 1 ∧ c.curveType = K256 then
    match c.message with
    | [] => .ok (.withNil .simple)
    | b :: _ => do
      let v ← decodeScalar b
      .ok (.opening (.simplePtr v))
  else if c.commitType = 2 ∧ c.curveType = K256 then
    match c.message with
    | [] => .ok (.withNil .pedersen)
    | [b] => do
      let _ ← decodeScalar b
      .ok (.withNil .pedersen)
    | b :: b' :: _ => do
      let v ← decodeScalar b
      let m ← decodeScalar b'
      .ok (.opening (.pedersenPtr v m))
  else .err "unknown commitment type"

/-- poly/commitment.go:94-96, 113-115 `ToCommitmentOpeningBytes` followed by `ToCommitmentOpening` (lines 22-24,
28-30): `ToScalarBytes` returns nil, on which `ToScalar` panics. -/
def bytesRoundTrip : Opening → Res Opening
  | .simple v | .simplePtr v => do
    let v ← Scalar.toScalarBytesToScalar v
    .ok (.simplePtr v)
  | .pedersen v m | .pedersenPtr v m => do
    let v ← Scalar.toScalarBytesToScalar v
    let m ← Scalar.toScalarBytesToScalar m
    .ok (.pedersenPtr v m)

end Opening

/-- A non-nil `PolynomialCommitment` (poly/commitment.go:117-119, 253-255, interface 383-397). -/
structure Commitment where
  kind : Kind
  points : List Pt

noncomputable instance : DecidableEq Commitment := Classical.decEq _

namespace Commitment

/-- poly/commitment.go:218-220, 341-343 `CurveType`: indexes the first point. -/
def curveType (c : Commitment) : Res CurveType :=
  match c.points with
  | [] => .panic "index out of range"
  | _ :: _ => .ok K256

/-- poly/commitment.go:124-128, the loop of `evaluateAt`, from the last point to the first. -/
def evalLoop (i : NodeIndex) : List Pt → Pt
  | [] => 0
  | pt :: rest => Point.mulByNodeIndex (evalLoop i rest) i + pt

/-- poly/commitment.go:121-130 `evaluateAt` (also the methods of lines 240-242, 363-365). -/
def evaluateAt (c : Commitment) (i : NodeIndex) : Res Pt := do
  let _ ← c.curveType
  .ok (evalLoop i c.points)

/-- poly/commitment.go:142-151 `simpleCommitment.Create`.  A negative `num` fails the first test, so `make` never
panics. -/
def createSimple (poly : List Fn) (num : Int) : Res Commitment :=
  if (Poly.nonZeroCoefficients poly : Int) > num then .err "Polynomial has more coefficients than expected"
  else .ok ⟨.simple, (List.range num.toNat).map fun i => Point.mulByG (Poly.coeff poly i)⟩

/-- poly/commitment.go:263-272 `pedersenCommitment.Create`. -/
def createPedersen (values masking : List Fn) (num : Int) : Res Commitment :=
  if (Poly.nonZeroCoefficients values : Int) > num ∨ (Poly.nonZeroCoefficients masking : Int) > num then
    .err "Polynomial has more coefficients than expected"
  else .ok ⟨.pedersen, (List.range num.toNat).map fun i => Point.pedersen (Poly.coeff values i) (Poly.coeff masking i)⟩

/-- poly/commitment.go:237-239, 360-362 `ConstantTerm`. -/
def constantTerm (c : Commitment) : Res Pt :=
  match c.points with
  | [] => .panic "index out of range"
  | pt :: _ => .ok pt

/-- poly/commitment.go:184-194, 307-317 `StableRepresentation`. -/
def stableRepresentation (c : Commitment) : Res Bytes := do
  let _ ← c.curveType
  let tag : UInt8 := match c.kind with
    | .simple => 83
    | .pedersen => 80
  .ok ([tag, 1] ++ c.points.flatMap Point.serialize)

/-- poly/commitment.go:207-217, 330-340 `Equal`: lengths and points are compared, kinds are not. -/
def equal (c other : Commitment) : Nat :=
  if c.points.length ≠ other.points.length then 0
  else if (c.points.zip other.points).all fun pq => decide (pq.1 = pq.2) then 1 else 0

/-- poly/commitment.go:227-235, 350-358 `VerifyIs`. -/
def verifyIs (c : Commitment) (kind : Kind) (curve : CurveType) : Res Unit := do
  let ct ← c.curveType
  if ct ≠ curve then .err "curve type mismatch"
  else if c.kind ≠ kind then .err "unexpected commitment type"
  else .ok ()

/-- poly/commitment.go:244-251, 366-374 `CheckOpening`: the type assertion panics for every other dynamic type. -/
def checkOpening (c : Commitment) (i : NodeIndex) (o : Opening) : Res Bool :=
  match c.kind, o with
  | .simple, .simple v => do
    let eval ← c.evaluateAt i
    .ok (decide (eval = Point.mulByG v))
  | .pedersen, .pedersen v m => do
    let eval ← c.evaluateAt i
    .ok (decide (eval = Point.pedersen v m))
  | _, _ => .panic "interface conversion"

/-- poly/commitment.go:221-226, 344-349 `ReturnOpeningIfConsistent`. -/
def returnOpeningIfConsistent (c : Commitment) (i : NodeIndex) (o : Opening) : Res Opening := do
  if ← c.checkOpening i o then .ok o else .err "invalid commitment"

end Commitment

/-- The wire struct of poly/commitment.go:132-136; `message` holds the CBOR byte strings of the points. -/
structure CommitmentWire where
  curveType : Int
  commitmentType : Int
  message : List Bytes

namespace Commitment

/-- poly/commitment.go:162-182, 284-305 `Serialize`. -/
def serialize (c : Commitment) : Res CommitmentWire := do
  let ct ← c.curveType
  .ok ⟨ct, c.kind.toInt, c.points.map Point.serializeTagged⟩

/-- poly/commitment.go:401-424 `Deserialize`.  The result is a `*SimpleCommitment` whose points need not be on the curve
(`RawPt`); Pedersen commitments are not supported. -/
def deserialize (c : CommitmentWire) : Res (Kind × List RawPt) :=
  if c.commitmentType = 1 ∧ c.curveType = K256 then do
    let points ← Res.mapM' Point.unmarshalTagged c.message
    .ok (.simple, points)
  else .err "invalid commitment"

end Commitment

end Verif
