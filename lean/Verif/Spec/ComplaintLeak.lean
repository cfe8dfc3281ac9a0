import Verif.Spec.SeedReuse
import Verif.Spec.Complaints

/-!
What somebody can make of a dealing that was sent by another.
-/

set_option autoImplicit false

namespace Verif.Dealings

open Mega

/-- The public keys and the proof of a ciphertext, without entries. -/
def Cipher.emptied : Cipher → Cipher
  | .single m => .single ⟨m.ephemeralKey, m.popPublicKey, m.popProof, []⟩
  | .pair m => .pair ⟨m.ephemeralKey, m.popPublicKey, m.popProof, []⟩

/-- The dealing, with such a ciphertext. -/
def Dealing.emptied (d : Dealing) : Dealing := ⟨d.ciphertext.map Cipher.emptied, d.commitment, d.proof⟩

/-- The second public key of the proof of possession. -/
def Cipher.popPublic : Cipher → Pt
  | .single m => m.popPublicKey
  | .pair m => m.popPublicKey

/-- Whether the entries are pairs, as a ciphertext type. -/
def Cipher.ctype : Cipher → CType
  | .single _ => .single
  | .pair _ => .pairs

/-- The proof of possession of the ciphertext is about a true statement: the discrete logarithm of the ephemeral key is that of the second
public key to the base `B`. -/
def Cipher.popTrue (c : Cipher) (B : Pt) : Prop := ∃ b : Fn, c.ephemeral = b • G ∧ c.popPublic = b • B

end Verif.Dealings
