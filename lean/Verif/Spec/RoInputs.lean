import Verif.Model.Ro

/-!
Specification vocabulary for the random oracle: which of a sequence of `AddInput` calls take effect.
-/

namespace Verif

/-- One call of `AddInput`. -/
structure RoCall where
  name : Bytes
  ty : UInt8
  data : Bytes
  deriving DecidableEq

namespace RoCall

/-- A call that may succeed: a name of 1 to 255 bytes and at most 255 bytes of data. -/
def WellFormed (c : RoCall) : Prop := 1 ≤ c.name.length ∧ c.name.length ≤ 255 ∧ c.data.length ≤ 255

instance (c : RoCall) : Decidable c.WellFormed := inferInstanceAs (Decidable (_ ∧ _ ∧ _))

/-- The accepted calls, in order: a call is accepted if it is well-formed and its name is new. -/
def accepted (calls : List RoCall) : List RoCall :=
  calls.foldl (fun acc c => if c.WellFormed ∧ c.name ∉ acc.map RoCall.name then acc ++ [c] else acc) []

end RoCall

namespace Ro

/-- The oracle after a sequence of `AddInput` calls whose errors are ignored. -/
def run (ds : Bytes) (calls : List RoCall) : Ro :=
  calls.foldl (fun r c => (r.addInput c.name c.data c.ty).2) (new ds)

end Ro

end Verif
