import Verif.Spec.Oracle

/-!
What somebody who complains ends with, for C184.
-/

set_option autoImplicit false

namespace Verif.Oracle

/-- A complaint of the owner of a private key about a ciphertext: the shared secret they say they have with the ephemeral key, the associated
data of the proof, and the proof (complaints/complaints.go:17-20). -/
structure Accusation where
  ephemeral : Pt
  key : Fn
  shared : Pt
  assoc : Bytes
  proof : Zk.Proof

/-- What the proof says: the shared secret is that of the ephemeral key and the owner's key. -/
def Accusation.claim (x : Accusation) : DlogClaim := ⟨G, x.ephemeral, x.key • G, x.shared, x.assoc, x.proof⟩

/-- The shared secret is wrong and the proof is accepted. -/
def Accusation.Deceives {D : Finset Question} (O : D → Fn) (x : Accusation) : Prop :=
  x.shared ≠ x.key • x.ephemeral ∧ Accepted O x.claim.asks x.proof.challenge

end Verif.Oracle
