import Verif.Model.Encode

/-!
The rest of curve/encode.go: hexadecimal strings and the small accessors.  A Go string is its bytes.
Also the loop of `ReverseBytes` (common/utils.go).
-/

set_option autoImplicit false

namespace Verif

namespace Hex

/-- `reverseHexTable` of Go's encoding/hex (entries above 15 are `none`). -/
def fromHexChar (c : UInt8) : Option UInt8 :=
  if 48 ≤ c ∧ c ≤ 57 then some (c - 48)
  else if 97 ≤ c ∧ c ≤ 102 then some (c - 97 + 10)
  else if 65 ≤ c ∧ c ≤ 70 then some (c - 65 + 10)
  else none

/-- `hex.DecodeString` of Go's encoding/hex: pairs of digits are decoded one after the other, and a digit left over at the
end is an error. -/
def decodeString : Bytes → Res Bytes
  | [] => .ok []
  | [c] => match fromHexChar c with
    | none => .err "invalid byte"
    | some _ => .err "odd length hex string"
  | a :: b :: rest => match fromHexChar a, fromHexChar b with
    | some x, some y => do
      let r ← decodeString rest
      .ok ((x <<< 4 ||| y) :: r)
    | _, _ => .err "invalid byte"

/-- `hextable[v]` of Go's encoding/hex, for `v` below 16. -/
def toHexChar (v : UInt8) : UInt8 := if v < 10 then 48 + v else 97 + (v - 10)

/-- `hex.EncodeToString` of Go's encoding/hex. -/
def encodeToString : Bytes → Bytes
  | [] => []
  | v :: rest => toHexChar (v >>> 4) :: toHexChar (v &&& 15) :: encodeToString rest

end Hex

namespace Encode

/-- curve/encode.go:133-139 `FromStr`. -/
def fromStr (str : Bytes) : Res Bytes := do
  let bytes ← Hex.decodeString str
  fromBytes bytes

/-- curve/encode.go:186-188 `ToString`: all bytes of the buffer. -/
def toStr (e : Bytes) : Bytes := Hex.encodeToString e

/-- curve/encode.go:113-116 `Default`. -/
def default : Bytes := List.replicate 32 0

/-- curve/encode.go:190-192 `IsCompact` (with lines 18-20). -/
def isCompactE (e : Bytes) : Res Bool := do
  let t ← tag e
  .ok (t == 5)

/-- curve/encode.go:194-196 `IsCompressed` (with lines 21-23). -/
def isCompressedE (e : Bytes) : Res Bool := do
  let t ← tag e
  .ok (isCompressed t)

/-- curve/encode.go:198-200 `IsIdentity` (with lines 25-27). -/
def isIdentityE (e : Bytes) : Res Bool := do
  let t ← tag e
  .ok (t == 0)

/-- curve/encode.go:56-58, 64-66, 73-78, 85-87 `Coordinates.Tag`. -/
def Coords.tag : Coords → UInt8
  | .identityValue => 0
  | .compact _ => 5
  | .compressed _ yIsOdd => if yIsOdd then 3 else 2
  | .uncompressed _ _ => 4

end Encode

/-- common/utils.go:6-8, the loop of `ReverseBytes` with `j = k - 1`. -/
def reverseLoop (inBytes : Bytes) : Nat → Nat → Bytes → Res Bytes
  | 0, _, out => .ok out
  | k + 1, i, out =>
    match inBytes[k]? with
    | none => .panic "index out of range"
    | some x => if i < out.length then reverseLoop inBytes k (i + 1) (out.set i x) else .panic "index out of range"

/-- common/utils.go:3-11 `ReverseBytes`, statement by statement (`reverseBytes` is what the rest of the model uses). -/
def reverseBytesLoop (inBytes : Bytes) : Res Bytes :=
  reverseLoop inBytes inBytes.length 0 (List.replicate inBytes.length 0)

end Verif
