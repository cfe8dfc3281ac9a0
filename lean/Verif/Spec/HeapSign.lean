import Verif.Spec.HeapDealings
import Verif.Model.HeapSign

/-!
Which objects signature shares, signatures and complaints refer to, and which values they stand for.
-/

set_option autoImplicit false

namespace Verif.Heap.View

/-- The results of `DeriveRho`. -/
def derived : View DerivedObj Sign.Derived :=
  (sc.prod (sc.prod (sc.prod pt))).via (fun o => (o.rho, o.keyTweak, o.randomizer, o.randomizedPresig))
    fun v => ⟨v.1, v.2.1, v.2.2.1, v.2.2.2⟩

/-- Signature shares. -/
def sigShare : View SigShareObj Sign.SigShare :=
  (opening.opt.prod opening.opt).via (fun o => (o.sigmaNumerator, o.sigmaDenominator)) fun v => ⟨v.1, v.2⟩

/-- Signatures. -/
def signature : View SignatureObj Sign.Signature :=
  (sc.prod sc).via (fun o => (o.r, o.s)) fun v => ⟨v.1, v.2⟩

/-- Complaints. -/
def complaint : View ComplaintObj Complaints.Complaint :=
  (proof.prod pt).via (fun o => (o.proof, o.sharedSecret)) fun v => ⟨v.1, v.2⟩

end Verif.Heap.View
