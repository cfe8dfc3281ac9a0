import Verif.Spec.OraclePads
import Mathlib.Algebra.BigOperators.Fin

/-!
Masked dealings in the random oracle model: what is published, as a function of the dealer's polynomials and of the oracle.
-/

set_option autoImplicit false

namespace Verif.Oracle

variable {k m : Nat}

/-- The value of the polynomial with coefficients `f` at the place of the recipient at position `i`. -/
def valueFor (f : Fin k → Fn) (i : Nat) : Fn := ∑ j : Fin k, f j * ((i : Fn) + 1) ^ (j : Nat)

/-- The Pedersen commitments to the coefficients of two polynomials. -/
def commitments (f g : Fin k → Fn) (j : Fin k) : Pt := f j • G + g j • Point.H

/-- The plaintexts: values of both polynomials. -/
def dealt (f g : Fin k → Fn) (i : Fin m) : Fn × Fn := (valueFor f i, valueFor g i)

/-- The dealer's coins for a dealing of a given secret with threshold `k + 1`: the other coefficients of the polynomial, and all
coefficients of the mask. -/
abbrev DealerCoins (k : Nat) := (Fin k → Fn) × (Fin (k + 1) → Fn)

/-- The polynomial with the given constant term. -/
def withSecret (s : Fn) (c : DealerCoins k) : Fin (k + 1) → Fn := Fin.cons s c.1

end Verif.Oracle
