import Verif.Model.Commitment
import Verif.Spec.Cbor

/-!
The bytes written by `Serialize` in poly/commitment.go and by `MarshalCBOR` in curve/k256_point.go and
curve/k256_scalar.go.

`cbor.Marshal` is the function of github.com/fxamacker/cbor v2.4.0 with its default options, whose source is not available
here; it is taken to write the shortest heads of RFC 8949, structs as maps from the names of the fields, in the order of
declaration, byte slices as byte strings, arrays and slices as arrays, values with a `MarshalCBOR` method and
`cbor.RawMessage` as the bytes they hold.  `cbor.Unmarshal` is taken to read, from a document that is a map with exactly
the names of the fields of the struct as keys, in the order of declaration, what RFC 8949 says these bytes are; other
documents are not modelled.
-/

namespace Verif

namespace Cbor

/-- The initial byte of an item and its argument (RFC 8949, section 3), in the shortest form. -/
def head (major n : Nat) : Bytes :=
  if n < 24 then [UInt8.ofNat (major * 32 + n)]
  else if n < 256 then UInt8.ofNat (major * 32 + 24) :: toBE 1 n
  else if n < 65536 then UInt8.ofNat (major * 32 + 25) :: toBE 2 n
  else if n < 4294967296 then UInt8.ofNat (major * 32 + 26) :: toBE 4 n
  else UInt8.ofNat (major * 32 + 27) :: toBE 8 n

/-- `cbor.Marshal` of an `int`. -/
def marshalInt (i : Int) : Bytes := if 0 ≤ i then head 0 i.toNat else head 1 (-1 - i).toNat

/-- `cbor.Marshal` of a `[]byte` (curve/k256_point.go:203, curve/k256_scalar.go:132). -/
def marshalBytes (b : Bytes) : Bytes := head 2 b.length ++ b

/-- `cbor.Marshal` of a string, the name of a field. -/
def marshalText (b : Bytes) : Bytes := head 3 b.length ++ b

/-- `cbor.Marshal` of a slice or an array whose elements have a `MarshalCBOR` method
(poly/commitment.go:80, 99, 171, 293). -/
def marshalArray (l : List Bytes) : Bytes := head 4 l.length ++ l.flatten

/-- `cbor.Marshal` of a struct (poly/commitment.go:89, 108, 181, 304): a map from the names of the fields. -/
def marshalStruct (fields : List (String × Bytes)) : Bytes :=
  head 5 fields.length ++ (fields.map fun f => marshalText (ascii f.1) ++ f.2).flatten

end Cbor

open Cbor

/-- curve/k256_scalar.go:131-133 `MarshalCBOR`. -/
def Scalar.marshalCBOR (s : Fn) : Bytes := marshalBytes (Scalar.serializeTagged s)

/-- curve/k256_point.go:202-204 `MarshalCBOR`. -/
def Point.marshalCBOR (P : Pt) : Bytes := marshalBytes (Point.serializeTagged P)

/-- The bytes of the wire struct of poly/commitment.go:42-46 (`data` of lines 80 and 99, and the result of lines 89 and
108). -/
def OpeningWire.marshal (w : OpeningWire) : Bytes :=
  marshalStruct [("CurveType", marshalInt w.curveType), ("CommitType", marshalInt w.commitType),
    ("Message", marshalArray (w.message.map marshalBytes))]

/-- The bytes of the wire struct of poly/commitment.go:132-136 (`data` of lines 171 and 293, and the result of lines 181
and 304). -/
def CommitmentWire.marshal (w : CommitmentWire) : Bytes :=
  marshalStruct [("CurveType", marshalInt w.curveType), ("CommitmentType", marshalInt w.commitmentType),
    ("Message", marshalArray (w.message.map marshalBytes))]

/-- poly/commitment.go:79-90, 98-109 `Serialize`: the bytes. -/
def Opening.serializeBytes (o : Opening) : Bytes := o.serialize.marshal

/-- poly/commitment.go:162-182, 284-305 `Serialize`: the bytes.  Also dealings/combined_commitment.go:16-18, 24-26. -/
def Commitment.serializeBytes (c : Commitment) : Res Bytes := do
  let w ← c.serialize
  .ok w.marshal

/-- The data item of an integer. -/
def Cbor.Item.int (i : Int) : Item := if 0 ≤ i then .unsigned i.toNat else .negative (-1 - i).toNat

/-- The document that holds a wire struct of poly/commitment.go:42-46. -/
def OpeningWire.item (w : OpeningWire) : Item :=
  .map [.text (ascii "CurveType"), .int w.curveType, .text (ascii "CommitType"), .int w.commitType,
    .text (ascii "Message"), .array (w.message.map Item.bytes)]

/-- The document that holds a wire struct of poly/commitment.go:132-136. -/
def CommitmentWire.item (w : CommitmentWire) : Item :=
  .map [.text (ascii "CurveType"), .int w.curveType, .text (ascii "CommitmentType"), .int w.commitmentType,
    .text (ascii "Message"), .array (w.message.map Item.bytes)]

open Classical in
/-- poly/commitment.go:52-75 `Deserialize`, from the bytes. -/
noncomputable def Opening.deserializeBytes (b : Bytes) : Res Opening.Decoded :=
  if h : ∃ w : OpeningWire, Is b w.item then Opening.deserialize h.choose else .panic "not modelled"

open Classical in
/-- poly/commitment.go:401-424 `Deserialize`, from the bytes. -/
noncomputable def Commitment.deserializeBytes (b : Bytes) : Res (Kind × List RawPt) :=
  if h : ∃ w : CommitmentWire, Is b w.item then Commitment.deserialize h.choose else .panic "not modelled"

end Verif
