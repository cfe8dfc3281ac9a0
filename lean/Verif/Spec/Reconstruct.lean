import Verif.Spec.Transcript

/-! What is needed to say when a share is reconstructed from openings some of which are wrong. -/

set_option autoImplicit false

namespace Verif.Dealings

open Point (H)

/-- By how much an opening misses the commitment. -/
noncomputable def missBy (c : Commitment) (j : NodeIndex) : Opening → Pt
  | .simple v => v • G - valueAtNode c.points j
  | .pedersen v m => v • G + m • H - valueAtNode c.points j
  | _ => 0

/-- The opening is of the commitment's kind. -/
def OfKind (c : Commitment) : Opening → Prop
  | .simple _ => c.kind = .simple
  | .pedersen _ _ => c.kind = .pedersen
  | _ => False

/-- The weight at `x` of the value at node `j` among values at the given nodes. -/
noncomputable def weightAt (openers : List NodeIndex) (x : Fn) (j : NodeIndex) : Fn :=
  ((openers.filter (· ≠ j)).map fun l => (place l - x) / (place l - place j)).prod

/-- What a caller can do before it reconstructs: look whether `CheckOpening` holds (poly/commitment.go:244-251, 366-374, which panics for an
opening of the other kind or behind a pointer: such ones do not pass). -/
def passes (c : Commitment) (y : NodeIndex × Opening) : Bool :=
  match c.checkOpening y.1 y.2 with
  | .ok b => b
  | _ => false

end Verif.Dealings
