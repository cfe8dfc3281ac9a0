import Mathlib.Data.List.Lex
import Mathlib.Data.Nat.Digits.Defs
import Verif.Base.OMap
import Verif.Model.Point
import Verif.Model.HashToCurve

/-!
Model of ro/ro.go: the random oracle with named inputs.
-/

namespace Verif

/-- Go's `<` on strings: lexicographic on bytes. -/
def nameKey (name : Bytes) : List Nat := name.map UInt8.toNat

/-- `fmt.Sprintf("%d", i)` for a non-negative index. -/
def decimal (i : Nat) : Bytes :=
  if i = 0 then [48] else (Nat.digits 10 i).reverse.map fun d => UInt8.ofNat (48 + d)

/-- ro/ro.go:20-24. -/
structure Ro where
  domainSeparator : Bytes
  inputSize : Nat
  inputs : List (Bytes × Bytes)
  deriving DecidableEq

namespace Ro

/-- ro/ro.go:13-18, the input types. -/
def tyByteString : UInt8 := 1
def tyInteger : UInt8 := 2
def tyPoint : UInt8 := 3
def tyScalar : UInt8 := 4

/-- ro/ro.go:28-34 `NewRandomOracle`. -/
def new (domainSeparator : Bytes) : Ro := ⟨domainSeparator, 0, []⟩

/-- ro/ro.go:36-57 `AddInput`: the error (if any) and the state after the call. -/
def addInput (r : Ro) (name input : Bytes) (ty : UInt8) : Option String × Ro :=
  if (OMap.get nameKey name r.inputs).isSome then (some "random oracle input had same name", r)
  else if name.length = 0 ∨ name.length > 255 then (some "invalid name length", r)
  else if input.length > 255 then (some "invalid input length", r)
  else
    let encodedInput := [ty] ++ toBE 4 input.length ++ input
    (none, { r with
      inputSize := r.inputSize + (1 + name.length + encodedInput.length)
      inputs := OMap.set nameKey name encodedInput r.inputs })

/-- ro/ro.go:59-62 `AddPoint`. -/
def addPoint (r : Ro) (name : Bytes) (pt : Pt) : Option String × Ro :=
  r.addInput name (Point.serializeTagged pt) tyPoint

/-- ro/ro.go:64-71 `AddPoints`, from index `i` on: stops at the first error. -/
def addPointsFrom (name : Bytes) : Nat → Ro → List Pt → Option String × Ro
  | _, r, [] => (none, r)
  | i, r, pt :: pts =>
    match r.addPoint (name ++ ascii "[" ++ decimal i ++ ascii "]") pt with
    | (some e, r) => (some e, r)
    | (none, r) => addPointsFrom name (i + 1) r pts

/-- ro/ro.go:64-71 `AddPoints`. -/
def addPoints (r : Ro) (name : Bytes) (pts : List Pt) : Option String × Ro := addPointsFrom name 0 r pts

/-- ro/ro.go:73-77 `AddScalar`. -/
def addScalar (r : Ro) (name : Bytes) (s : Fn) : Option String × Ro :=
  r.addInput name (Scalar.serializeTagged s) tyScalar

/-- ro/ro.go:79-81 `AddBytesString`. -/
def addBytesString (r : Ro) (name v : Bytes) : Option String × Ro := r.addInput name v tyByteString

/-- ro/ro.go:83-87 `AddUint64` (argument below 2^64). -/
def addUint64 (r : Ro) (name : Bytes) (i : Nat) : Option String × Ro := r.addInput name (toBE 8 i) tyInteger

/-- ro/ro.go:89-93 `AddUint32` (argument below 2^32; also encoded on 8 bytes). -/
def addUint32 (r : Ro) (name : Bytes) (i : Nat) : Option String × Ro := r.addInput name (toBE 8 i) tyInteger

/-- ro/ro.go:110-122 `formRoInput`: `byte(len(name))`, name, data, in ascending order of names. -/
def formRoInput (r : Ro) : Res Bytes :=
  if r.inputs.length = 0 then .err "invalid input length"
  else .ok (r.inputs.flatMap fun e => [UInt8.ofNat e.1.length] ++ e.1 ++ e.2)

/-- The separator of curve outputs, ro/ro.go:108,136: `"%s-%s"` with the name of the curve (K256 only). -/
def curveDst (r : Ro) : Bytes := r.domainSeparator ++ ascii "-" ++ ascii "secp256k1"

/-- ro/ro.go:103-109 `OutputScalars`. -/
def outputScalars (P : Prim) (r : Ro) (cnt : Int) : Res (List Fn) := do
  let roInput ← r.formRoInput
  H2C.hashToScalar P cnt roInput r.curveDst

/-- ro/ro.go:95-101 `OutputScalar`. -/
def outputScalar (P : Prim) (r : Ro) : Res Fn := do
  let res ← r.outputScalars P 1
  match res with
  | [] => .panic "index out of range"
  | s :: _ => .ok s

/-- ro/ro.go:124-129 `OutputByteString`. -/
def outputByteString (P : Prim) (r : Ro) (length : Int) : Res Bytes := do
  let input ← r.formRoInput
  Xmd.expandMessageXmd P input r.domainSeparator length

/-- ro/ro.go:131-137 `OutputPoint`. -/
def outputPoint (P : Prim) (r : Ro) : Res RawPt := do
  let input ← r.formRoInput
  H2C.hashToCurve P input r.curveDst

end Ro

end Verif
