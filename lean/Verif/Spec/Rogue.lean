import Verif.Spec.TranscriptExact

/-!
A dealer that deals last and chooses its commitment so that the transcript becomes what it wants.
-/

set_option autoImplicit false

namespace Verif.Dealings

/-- The points that dealer `j` puts into its commitment, in place of `own`, so that the points `now` of the transcript become `wanted`.
Only public points go into it, and the weight of the dealer. -/
noncomputable def roguePoints (op : Op) (t : Nat) (dealers : List NodeIndex) (j : NodeIndex) (own now wanted : List Pt) : List Pt :=
  (List.range t).map fun c => own.getD c 0 + (op.weight dealers j)⁻¹ • (wanted.getD c 0 - now.getD c 0)

/-- The dealing with these points as commitment; ciphertext and proof stay. -/
noncomputable def rogue (op : Op) (t : Nat) (dealers : List NodeIndex) (j : NodeIndex) (d : Dealing) (own : Commitment) (now wanted : List Pt) :
    Dealing := ⟨d.ciphertext, some ⟨own.kind, roguePoints op t dealers j own.points now wanted⟩, d.proof⟩

end Verif.Dealings
