import Verif.Spec.HeapView
import Verif.Model.HeapZk

/-!
Which objects proofs, ciphertexts, commitments and openings refer to, and which values they stand for.
-/

set_option autoImplicit false

namespace Verif.Heap

namespace View

/-- Proofs with one response. -/
def proof : View ProofObj Zk.Proof :=
  (sc.prod sc).via (fun o => (o.challenge, o.response)) fun v => ⟨v.1, v.2⟩

/-- Proofs of a product. -/
def productProof : View ProductProofObj Zk.Product.Proof :=
  (sc.prod (sc.prod sc)).via (fun o => (o.challenge, o.response1, o.response2)) fun v => ⟨v.1, v.2.1, v.2.2⟩

/-- The ephemeral key with its proof of possession. -/
def eph : View EphObj (Fn × Pt × Pt × Zk.Proof) :=
  (sc.prod (pt.prod (pt.prod proof))).via (fun o => (o.beta, o.v, o.popPublic, o.proof)) id

/-- Ciphertexts, the entries of which are seen by `V`. -/
def ciphertext {ο ν : Type} (V : View ο ν) : View (CiphertextObj ο) (Mega.Ciphertext ν) :=
  (pt.prod (pt.prod (proof.prod V.list))).via (fun o => (o.ephemeralKey, o.popPublicKey, o.popProof, o.ctexts))
    fun v => ⟨v.1, v.2.1, v.2.2.1, v.2.2.2⟩

/-- Polynomial commitments. -/
def commitment : View CommitmentObj Commitment :=
  (data.prod pt.list).via (fun o => (o.kind, o.points)) fun v => ⟨v.1, v.2⟩

/-- Openings. -/
def opening : View OpeningObj Opening where
  objs
    | .simple v => [.sc v]
    | .simplePtr v => [.sc v]
    | .pedersen v m => [.sc v, .sc m]
    | .pedersenPtr v m => [.sc v, .sc m]
  val mem
    | .simple v => .simple (mem.sc v)
    | .simplePtr v => .simplePtr (mem.sc v)
    | .pedersen v m => .pedersen (mem.sc v) (mem.sc m)
    | .pedersenPtr v m => .pedersenPtr (mem.sc v) (mem.sc m)
  frame {m m' o} h := by
    cases o with
    | simple v => exact congrArg _ (h (.sc v) (by simp))
    | simplePtr v => exact congrArg _ (h (.sc v) (by simp))
    | pedersen v w => exact congrArg₂ _ (h (.sc v) (by simp)) (h (.sc w) (by simp))
    | pedersenPtr v w => exact congrArg₂ _ (h (.sc v) (by simp)) (h (.sc w) (by simp))

end View

end Verif.Heap
