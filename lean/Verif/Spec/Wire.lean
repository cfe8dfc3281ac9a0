import Verif.Model.Sign
import Verif.Model.Complaints

/-!
The bytes that each step of the protocol hashes, written out.  A message is a sequence of fields in ascending order of names; a field is the
length of its name in one byte, the name, one byte for the type of the value, the length of the value in four bytes, and the value.  Values of more
than 255 bytes are left out.
-/

set_option autoImplicit false

namespace Verif.Wire

def field (name : String) (type : UInt8) (value : Bytes) : Bytes :=
  if value.length ≤ 255 then UInt8.ofNat (ascii name).length :: (ascii name ++ type :: (toBE 4 value.length ++ value)) else []

def string (name : String) (b : Bytes) : Bytes := field name 1 b

/-- Indices are cut to four bytes and written in eight. -/
def index (name : String) (i : NodeIndex) : Bytes := field name 2 (toBE 8 (i.toNat % 2 ^ 32))

/-- Points are written with the number of the curve, compressed. -/
noncomputable def point (name : String) (A : Pt) : Bytes := field name 3 (1 :: Point.serialize A)

def scalar (name : String) (s : Fn) : Bytes := field name 4 (1 :: Scalar.serialize s)

noncomputable def pads (dealer recipient : NodeIndex) (ad : Bytes) (pk eph shared : Pt) : Bytes :=
  [string "associated_data" ad, index "dealer_index" dealer, point "ephemeral_key" eph, point "public_key" pk,
    index "recipient_index" recipient, point "shared_secret" shared].flatten

noncomputable def popBase (ad : Bytes) (dealer : NodeIndex) (eph : Pt) : Bytes :=
  [string "associated_data" ad, index "dealer_index" dealer, point "ephemeral_key" eph].flatten

noncomputable def dlog (g h gx hx c1 c2 : Pt) (ad : Bytes) : Bytes :=
  [string "associated_data" ad, point "commitment1" c1, point "commitment2" c2, point "instance_g" g, point "instance_g_x" gx,
    point "instance_h" h, point "instance_h_x" hx].flatten

noncomputable def equalOpenings (g h a b c : Pt) (ad : Bytes) : Bytes :=
  [string "associated_data" ad, point "commitment" c, point "instance_a" a, point "instance_b" b, point "instance_g" g,
    point "instance_h" h].flatten

noncomputable def product (g h lhs rhs prod c1 c2 : Pt) (ad : Bytes) : Bytes :=
  [string "associated_data" ad, point "commitment1" c1, point "commitment2" c2, point "instance_g" g, point "instance_h" h,
    point "instance_lhs" lhs, point "instance_product" prod, point "instance_rhs" rhs].flatten

noncomputable def complaint (ad : Bytes) (receiver dealer : NodeIndex) (pk : Pt) : Bytes :=
  [string "associated_data" ad, index "dealer_index" dealer, index "receiver_index" receiver, point "receiver_public_key" pk].flatten

noncomputable def randomizer (randomness hashedMsg : Bytes) (preSig : Pt) (keyTweak : Fn) : Bytes :=
  [string "hashed_message" hashedMsg, scalar "key_tweak" keyTweak, point "pre_sig" preSig, string "randomness" randomness].flatten

end Verif.Wire
