import Verif.Spec.SeedReuse
import Verif.Spec.Protocol

/-!
What everybody can make of a complaint that the protocol driver makes.
-/

set_option autoImplicit false

namespace Verif.DriverLeak

open Protocol Dealings Complaints

/-- The key of a receiver, computed from the encoded commitment of the transcript, the number of the receiver, the number of the dealer and the
complaint, all of which are public. -/
def key (P : Prim) (encoded : Bytes) (receiver dealer : NodeIndex) (c : Complaint) : Res Fn := do
  let root ← Seed.fromBytes P encoded
  let own ← root.derive P (ascii "complaint-" ++ decimal receiver.toNat)
  let seed ← own.derive P (label dealer)
  let (nonce, _) ← Scalar.random (seed.rng P)
  .ok (c.proof.witness nonce)

/-- The node with this number and this key cannot verify one of the dealings of the round. -/
def Damaged (P : Prim) (s : Setup) (R : Round) (y : NodeIndex × Fn) : Prop :=
  ∃ x ∈ R.dealings, ∃ e, privateVerify P x.2 K256 y.2 (y.2 • G) s.ad x.1 y.1 = .err e

/-- The node with this number and this key makes complaints in the round, and each of them is accepted and gives away the key of the node,
unless the challenge of its proof is zero. -/
def GivesAway (P : Prim) (encoded : Bytes) (s : Setup) (R : Round) (y : NodeIndex × Fn) : Prop :=
  ∃ seed cs, generateComplaints P R.dealings s.ad y.1 y.2 (y.2 • G) seed = .ok cs ∧ cs ≠ [] ∧
    ∀ x ∈ cs, (∃ d, (x.1, d) ∈ R.dealings ∧ Complaints.verify P x.2 d x.1 y.1 (y.2 • G) s.ad = .ok ()) ∧
      (x.2.proof.challenge ≠ 0 → key P encoded y.1 x.1 x.2 = .ok y.2)

/-- Some node of the round has a damaged dealing, and every node that has one gives its key away. -/
def Revealed (P : Prim) (cbor : Commitment → Res Bytes) (s : Setup) (R : Round) : Prop :=
  (∃ y ∈ s.receivers, Damaged P s R y) ∧
  ∃ encoded, cbor R.transcript.c = .ok encoded ∧ ∀ y ∈ s.receivers, Damaged P s R y → GivesAway P encoded s R y

end Verif.DriverLeak
