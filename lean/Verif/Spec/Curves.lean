import Verif.Base.Res

/-!
What a call parameterised by a curve type may do on a curve that is not implemented.
-/

set_option autoImplicit false

namespace Verif.Curves

/-- The call reports that it cannot do what is asked. -/
def Refuses {α : Type} (r : Res α) : Prop := r.isErr = true

/-- The call does not return an object (it may return nil without an error, panic or run forever). -/
def NoObject {α : Type} (r : Res (Option α)) : Prop := ∀ a, r ≠ .ok (some a)

end Verif.Curves
