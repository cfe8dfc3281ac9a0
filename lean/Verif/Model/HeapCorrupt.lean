import Verif.Model.HeapDealings
import Verif.Model.Protocol

/-!
testutils/test_utils.go on memory: the functions that damage dealings, and dealings/zk_proof.go `Clone`.

As in the code, targets are not checked: a target outside the ciphertext panics, a repeated one is added to repeatedly.
-/

set_option autoImplicit false

namespace Verif.Heap

/-- dealings/zk_proof.go:24-28, 37-41 `Clone`: the result is a pointer in both cases; cloning an embedded nil pointer panics. -/
def cloneProofVal : ProofValObj → Go ProofValObj
  | .masked pf | .maskedVal pf => do
    let pf ← Go.nonNil pf
    let c ← cloneProof pf
    pure (.masked (some c))
  | .product pf | .productVal pf => do
    let pf ← Go.nonNil pf
    let c ← cloneProductProof pf
    pure (.product (some c))

/-- testutils/test_utils.go:23-25 and 38-40: the randomizer is added in place to the entries of the targets. -/
def addAtTargets (ctexts : List Addr) (randomizer : Addr) : List NodeIndex → Go Unit
  | [] => pure ()
  | target :: rest => do
    let c ← Go.index ctexts target.toInt
    let _ ← addSc c c randomizer
    addAtTargets ctexts randomizer rest

/-- testutils/test_utils.go:17-47: the entries of a single ciphertext are cloned, those of a pair ciphertext are not, nor
is the proof of possession of either. -/
def corruptCipher (randomizer : Addr) (targets : List NodeIndex) : Option CipherObj → Go (Option CipherObj)
  | some (.single c) => do
    let ctexts ← Go.mapM' cloneSc c.ctexts
    addAtTargets ctexts randomizer targets
    let eph ← clonePt c.ephemeralKey
    let pop ← clonePt c.popPublicKey
    pure (some (.single ⟨eph, pop, c.popProof, ctexts⟩))
  | some (.pair c) => do
    addAtTargets (c.ctexts.map Prod.fst) randomizer targets
    let eph ← clonePt c.ephemeralKey
    let pop ← clonePt c.popPublicKey
    pure (some (.pair ⟨eph, pop, c.popProof, c.ctexts⟩))
  | none => pure none

/-- testutils/test_utils.go:48-51. -/
def cloneProofOpt : Option ProofValObj → Go (Option ProofValObj)
  | none => pure none
  | some pf => do
    let c ← cloneProofVal pf
    pure (some c)

/-- testutils/test_utils.go:12-57 `CorruptDealing`. -/
def corruptDealing (P : Prim) (d : DealingObj) (targets : List NodeIndex) (seed : Seed) : Go DealingObj := do
  let com ← Go.nonNil d.commitment
  let _ ← com.curveType
  let r ← Go.lift (Scalar.random (seed.rng P))
  let randomizer ← newSc r.1
  let ct ← corruptCipher randomizer targets d.ciphertext
  let proof ← cloneProofOpt d.proof
  let points ← cloneCommitment com.points
  pure ⟨ct, some ⟨com.kind, points⟩, proof⟩

/-- The number of entries: mega/ciphertext.go:155-157, 264-266 `Recipients`. -/
def CipherObj.recipients : CipherObj → Nat
  | .single c => c.ctexts.length
  | .pair c => c.ctexts.length

/-- testutils/test_utils.go:59-66 `CorruptDealingForAllRecipients`. -/
def corruptDealingForAll (P : Prim) (d : DealingObj) (seed : Seed) : Go DealingObj := do
  let ct ← Go.nonNil d.ciphertext
  corruptDealing P d ((List.range ct.recipients).map Protocol.node) seed

end Verif.Heap
