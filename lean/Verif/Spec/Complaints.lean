import Verif.Spec.Transcript

/-! What a recipient's share of a dealing is, and when it is a good one. -/

set_option autoImplicit false

namespace Verif.Dealings

open Mega

/-- The dealing has a ciphertext and a non-empty commitment, and both are for pairs or both for single values. -/
def Matched (d : Dealing) (ct : Cipher) (cm : Commitment) : Prop :=
  d.ciphertext = some ct ∧ d.commitment = some cm ∧ cm.points ≠ [] ∧
    cm.kind = (if ct.isPair then .pedersen else .simple)

/-- The ciphertext has an entry for recipient `i`, and removing the pads that belong to `shared` leaves `o`. -/
def ShareUnder (P : Prim) (ad : Bytes) (dealer i : NodeIndex) (pk shared : Pt) (o : Opening) : Cipher → Prop
  | .single m => ∃ e h : Fn, 0 ≤ i.toInt ∧ m.ctexts[i.toInt.toNat]? = some e ∧
      hashToScalars P .single dealer i ad pk m.ephemeralKey shared = .ok [h] ∧ o = .simple (e - h)
  | .pair m => ∃ e1 e2 h1 h2 : Fn, 0 ≤ i.toInt ∧ m.ctexts[i.toInt.toNat]? = some (e1, e2) ∧
      hashToScalars P .pairs dealer i ad pk m.ephemeralKey shared = .ok [h1, h2] ∧ o = .pedersen (e1 - h1) (e2 - h2)

/-- The ciphertext's proof of possession is accepted, and the share of the recipient with private key `k` opens the
commitment. -/
def GoodShare (P : Prim) (ad : Bytes) (dealer i : NodeIndex) (k : Fn) (pk : Pt) (ct : Cipher) (cm : Commitment) : Prop :=
  ct.popAccepted P ad dealer ∧ ∃ o, ShareUnder P ad dealer i pk (k • ct.ephemeral) o ct ∧ Opens cm i o

end Verif.Dealings
