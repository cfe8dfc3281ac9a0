import Verif.Spec.ComplaintLeak
import Verif.Lemmas.Zk

/-!
Dealings outside of the context that they were made for.  A context is a dealer and associated data.
-/

set_option autoImplicit false

namespace Verif.Dealings

open Mega Zk

/-- Somebody takes the dealing for one of this dealer with this associated data: `PubliclyVerify` or `PrivateVerify` accepts, or a share is
decrypted from it. -/
def Dealing.TakenFor (P : Prim) (d : Dealing) (dealer : NodeIndex) (ad : Bytes) : Prop :=
  (∃ curve op t receivers, publiclyVerify P d curve op t dealer receivers ad = .ok ()) ∨
  (∃ curve k pk i, privateVerify P d curve k pk ad dealer i = .ok ()) ∨
  ∃ k pk i o, openDealing P d ad dealer i k pk = .ok o

/-- Two different hash inputs give the same base of the proof of possession. -/
def Cipher.SameBase (P : Prim) (c : Cipher) (dealer dealer' : NodeIndex) (ad ad' : Bytes) : Prop :=
  (popTranscript c.ctype ad dealer c.ephemeral).Disjoint (popTranscript c.ctype ad' dealer' c.ephemeral) ∧
  ∃ B, computePopBase P c.ctype ad dealer c.ephemeral = .ok B ∧ computePopBase P c.ctype ad' dealer' c.ephemeral = .ok B

/-- Two different hash inputs give the challenge of the proof of possession: the two that its verification hashes for the two dealers, where
`B` and `B'` are the bases that belong to them. -/
def Cipher.SameChallenge (P : Prim) (c : Cipher) (dealer dealer' : NodeIndex) (ad ad' : Bytes) : Prop :=
  ∃ B B' : Pt, computePopBase P c.ctype ad dealer c.ephemeral = .ok B ∧ computePopBase P c.ctype ad' dealer' c.ephemeral = .ok B' ∧
    let z := c.popProof.response
    let e := c.popProof.challenge
    let i : Dlog.Instance := ⟨G, B, c.ephemeral, c.popPublic⟩
    let i' : Dlog.Instance := ⟨G, B', c.ephemeral, c.popPublic⟩
    (Dlog.transcript i (z • G - e • c.ephemeral) (z • B - e • c.popPublic) ad).Disjoint
      (Dlog.transcript i' (z • G - e • c.ephemeral) (z • B' - e • c.popPublic) ad') ∧
    Dlog.hashToChallenge P i (z • G - e • c.ephemeral) (z • B - e • c.popPublic) ad = .ok e ∧
    Dlog.hashToChallenge P i' (z • G - e • c.ephemeral) (z • B' - e • c.popPublic) ad' = .ok e

end Verif.Dealings
