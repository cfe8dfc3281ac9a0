import Verif.Base.Res
import Verif.Base.Bytes

/-!
Model of curve/encode.go (SEC1-style point encodings, field size 32).
An `EncodePoint32` is its byte slice.
-/

namespace Verif

namespace Encode

/-- curve/encode.go:29-41 `Tag.MessageLen(32)`; unknown tags have length 1. -/
def messageLen (tag : UInt8) : Nat :=
  if tag = 2 ∨ tag = 3 then 33
  else if tag = 4 then 65
  else if tag = 5 then 33
  else 1

/-- curve/encode.go:21-23. -/
def isCompressed (tag : UInt8) : Bool := tag == 2 || tag == 3

/-- curve/encode.go:42-47 `CompressY` for a non-empty `y` (`y[len(y)-1]` panics on an empty one). -/
def compressY (y : Bytes) : Res UInt8 :=
  match y.getLast? with
  | none => .panic "index out of range"
  | some b => .ok (if b.toNat % 2 = 1 then 3 else 2)

/-- curve/encode.go:259-261 `EncodePoint32.Tag`; panics on an empty slice. -/
def tag (e : Bytes) : Res UInt8 :=
  match e with
  | [] => .panic "index out of range"
  | t :: _ => .ok t

/-- curve/encode.go:122-131 `FromBytes`. -/
def fromBytes (input : Bytes) : Res Bytes :=
  match input with
  | [] => .panic "index out of range"
  | t :: _ => if input.length ≠ messageLen t then .err "point decode failed" else .ok input

/-- curve/encode.go:178-180 `Len`. -/
def len (e : Bytes) : Res Nat := do
  let t ← tag e
  .ok (messageLen t)

/-- curve/encode.go:182-184 `AsBytes`: `bytes[0:Len()]` (panics if the slice is shorter; every slice built by
this file has capacity equal to its length). -/
def asBytes (e : Bytes) : Res Bytes := do
  let l ← len e
  if e.length < l then .panic "slice bounds out of range" else .ok (e.take l)

/-- Overwrite a zeroed `1+32+32` byte buffer: curve/encode.go:153-156 (`copy` into the fixed windows truncates
longer and leaves zero behind shorter input). -/
def affineBuffer (t : UInt8) (x y : Bytes) : Bytes := t :: (copyInto 32 x ++ copyInto 32 y)

/-- curve/encode.go:146-158 `FromAffineCoordinates`; the buffer has 65 bytes even when compressed. -/
def fromAffineCoordinates (x y : Bytes) (compress : Bool) : Res Bytes := do
  let t ← if compress then compressY y else .ok 4
  .ok (affineBuffer t x y)

/-- curve/encode.go:141-144 `FromUnTaggedBytes`; `input[0:32]` panics on short input. -/
def fromUnTaggedBytes (input : Bytes) : Res Bytes :=
  if input.length < 32 then .panic "slice bounds out of range"
  else fromAffineCoordinates (input.take 32) (input.drop 32) false

/-- curve/encode.go:160-164 `Identity`: 32 zero bytes. -/
def identity : Bytes := List.replicate 32 0

/-- curve/encode.go:166-176 `ConditionalSelect`. -/
def conditionalSelect (a b : Bytes) (choice : Nat) : Bytes := if choice = 0 then a else b

/-- The dynamic types returned by `Coordinates`.  `IdentityCoordinates` is returned *by value* while the other three
are returned as pointers (curve/encode.go:211-231). -/
inductive Coords where
  | identityValue
  | compact (x : Bytes)
  | compressed (x : Bytes) (yIsOdd : Bool)
  | uncompressed (x y : Bytes)
  deriving Repr, DecidableEq

/-- curve/encode.go:211-231 `Coordinates`: the slice expressions panic if fewer than 33 bytes are present. -/
def coordinates (e : Bytes) : Res Coords := do
  let t ← tag e
  if t = 0 then .ok .identityValue
  else if e.length < 33 then .panic "slice bounds out of range"
  else
    let x := (e.drop 1).take 32
    let y := e.drop 33
    if isCompressed t then .ok (.compressed x (t.toNat % 2 = 1))
    else if t = 5 then .ok (.compact x)
    else .ok (.uncompressed x y)

/-- curve/encode.go:202-209 `Compress`. -/
def compress (e : Bytes) : Res Bytes := do
  let t ← tag e
  if t = 5 ∨ isCompressed t = true ∨ t = 0 then .ok e
  else if e.length < 33 then .panic "slice bounds out of range"
  else fromAffineCoordinates ((e.drop 1).take 32) (e.drop 33) true

/-- curve/encode.go:233-246 `X` (`nil` is the empty slice; the identity *value* matches no case and also gives
nil). -/
def x (e : Bytes) : Res Bytes := do
  match ← coordinates e with
  | .identityValue => .ok []
  | .compact x => .ok x
  | .compressed x _ => .ok x
  | .uncompressed x _ => .ok x

/-- curve/encode.go:248-257 `Y`. -/
def y (e : Bytes) : Res Bytes := do
  match ← coordinates e with
  | .uncompressed _ y => .ok y
  | _ => .ok []

end Encode

end Verif
