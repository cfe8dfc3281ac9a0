import Verif.Base.Bytes

/-!
What the byte strings and hexadecimal strings of curve/encode.go stand for.
-/

set_option autoImplicit false

namespace Verif.Sec1

/-- A point in one of the formats. -/
inductive Form where
  | identity
  | compact (x : Bytes)
  | compressed (x : Bytes) (odd : Bool)
  | uncompressed (x y : Bytes)

/-- Coordinates have 32 bytes. -/
def Form.Valid : Form → Prop
  | .identity => True
  | .compact x => x.length = 32
  | .compressed x _ => x.length = 32
  | .uncompressed x y => x.length = 32 ∧ y.length = 32

/-- The encoding: a tag and the coordinates. -/
def Form.bytes : Form → Bytes
  | .identity => [0]
  | .compact x => 5 :: x
  | .compressed x false => 2 :: x
  | .compressed x true => 3 :: x
  | .uncompressed x y => 4 :: (x ++ y)

/-- Leaving out the second coordinate except for its parity. -/
def Form.short : Form → Form
  | .uncompressed x y => .compressed x (beVal y % 2 = 1)
  | f => f

/-- `c` is the digit `d`, in lower or upper case. -/
def Digit (c : UInt8) (d : Nat) : Prop :=
  ("0123456789abcdef".toList[d]?.map (·.toNat) = some c.toNat) ∨ ("0123456789ABCDEF".toList[d]?.map (·.toNat) = some c.toNat)

/-- The number written by digits, most significant first. -/
def digitsVal (ds : List Nat) : Nat := ds.foldl (fun v d => 16 * v + d) 0

/-- The string writes the bytes in hexadecimal, two digits a byte. -/
def Writes (s b : Bytes) : Prop :=
  s.length = 2 * b.length ∧ ∃ ds, List.Forall₂ Digit s ds ∧ digitsVal ds = beVal b

end Verif.Sec1
