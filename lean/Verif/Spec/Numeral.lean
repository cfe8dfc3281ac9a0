import Verif.Base.Bytes

/-!
What a number in decimal digits looks like.
-/

set_option autoImplicit false

namespace Verif

/-- The bytes are the decimal numeral of `n` in ASCII: digits, with that value, and without a leading zero unless it is the only digit. -/
def Numeral (b : Bytes) (n : Nat) : Prop :=
  b ≠ [] ∧ (∀ c ∈ b, 48 ≤ c.toNat ∧ c.toNat ≤ 57) ∧ b.foldl (fun a c => 10 * a + (c.toNat - 48)) 0 = n ∧ (b.head? = some 48 → b = [48])

end Verif
