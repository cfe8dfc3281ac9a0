import Verif.Spec.Dealings
import Verif.Model.Transcript

/-! What a transcript is supposed to be, in terms of the commitments of its dealings. -/

set_option autoImplicit false

namespace Verif.Dealings

open Mega
open Point (H)

/-- Every dealing of the map has a commitment, that of dealer `i` being `cm i`. -/
def Commits (ds : DealingMap) (cm : NodeIndex → Commitment) : Prop := ∀ x ∈ ds, x.2.commitment = some (cm x.1)

/-- The opening is one of the commitment at the node. -/
def Opens (c : Commitment) (i : NodeIndex) : Opening → Prop
  | .simple v => c.kind = .simple ∧ valueAtNode c.points i = v • G
  | .pedersen v m => c.kind = .pedersen ∧ valueAtNode c.points i = v • G + m • H
  | _ => False

/-- The kind of commitment that dealings for the operation carry. -/
def Op.dealingKind : Op → Kind
  | .reshareMasked _ => .simple
  | .reshareUnmasked _ => .simple
  | _ => .pedersen

/-- The map of the given dealings. -/
def mapOf (dealers : List NodeIndex) (d : NodeIndex → Dealing) : DealingMap := dealers.map fun i => (i, d i)

end Verif.Dealings
