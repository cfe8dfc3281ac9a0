import Verif.Model.Point
import Verif.Model.Prim

/-!
BIP32 public derivation (https://github.com/bitcoin/bips/blob/master/bip-0032.mediawiki, CKDpub), with indices of any
length as in the code.
-/

namespace Verif.Bip32

/-- The number `parse256(I_L)` of the HMAC output for an extended key and an index. -/
def il (P : Prim) (K : Pt) (c : Bytes) (i : Bytes) : Nat := beVal ((P.hmacSha512 c (Point.serialize K ++ i)).take 32)

/-- The child chain code `I_R`. -/
def ir (P : Prim) (K : Pt) (c : Bytes) (i : Bytes) : Bytes := (P.hmacSha512 c (Point.serialize K ++ i)).drop 32

/-- CKDpub: "In case parse256(I_L) ≥ n or K_i is the point at infinity, the resulting key is invalid, and one should
proceed with the next value for i." -/
def ckdPub (P : Prim) (Kc : Pt × Bytes) (i : Bytes) : Option (Pt × Bytes) :=
  if il P Kc.1 Kc.2 i ≥ n ∨ il P Kc.1 Kc.2 i • G + Kc.1 = 0 then none
  else some (il P Kc.1 Kc.2 i • G + Kc.1, ir P Kc.1 Kc.2 i)

/-- Derivation along a path with no invalid step. -/
def derive (P : Prim) : Pt × Bytes → List Bytes → Option (Pt × Bytes)
  | Kc, [] => some Kc
  | Kc, i :: path => (ckdPub P Kc i).bind fun Kc' => derive P Kc' path

/-- The step without the validity check (`I_L` acts on the group, i.e. is reduced modulo its order). -/
def step (P : Prim) (Kc : Pt × Bytes) (i : Bytes) : Pt × Bytes :=
  (il P Kc.1 Kc.2 i • G + Kc.1, ir P Kc.1 Kc.2 i)

end Verif.Bip32
