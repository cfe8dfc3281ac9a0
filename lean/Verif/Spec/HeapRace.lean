import Verif.Spec.Heap

/-!
What a call writes to while it runs, also if the old value is put back before it returns.
-/

set_option autoImplicit false

namespace Verif.Heap

variable {α : Type}

/-- The memory with nothing on record. -/
def Mem.unwritten (m : Mem) : Mem := { m with touched := ∅ }

/-- The objects written to by a call, however it ends. -/
def writtenBy (g : Go α) (m : Mem) : Set Obj := (g m.unwritten).2.touched

/-- Every object the call writes to, at any time, is one that it has made. -/
def WritesOnlyNew (g : Go α) (m : Mem) : Prop := ∀ o ∈ writtenBy g m, m.next ≤ o.addr

/-- Every object the call writes to, at any time, is one that it has made, or is `x`. -/
def WritesOnlyNewAnd (x : Obj) (g : Go α) (m : Mem) : Prop := ∀ o ∈ writtenBy g m, o = x ∨ m.next ≤ o.addr

end Verif.Heap
