import Verif.Model.HeapCorrupt
import Verif.Spec.HeapDealings

/-! Conditions on the arguments of `CorruptDealing`. -/

set_option autoImplicit false

namespace Verif.Heap

open Protocol (node)

/-- The targets are entries of a ciphertext of `k` entries. -/
def InRange (k : Nat) (targets : List NodeIndex) : Prop := ∀ t ∈ targets, 0 ≤ t.toInt ∧ t.toInt < k

/-- The entries of the targets. -/
def targetObjs (as : List Addr) (targets : List NodeIndex) : Set Obj :=
  {x | ∃ i, node i ∈ targets ∧ ∃ a, as[i]? = some a ∧ x = .sc a}

/-- Proofs as `NewIDkgDealingInternal` makes them: behind a pointer, with a proof inside. -/
def PointerProof (d : DealingObj) : Prop :=
  ∀ p, d.proof = some p → (∃ pf, p = .masked (some pf)) ∨ ∃ pf, p = .product (some pf)

end Verif.Heap
