import Verif.Spec.OracleProduct

/-!
Dealings without mask in the random oracle model, and the same made up from the public key of what is dealt.
-/

set_option autoImplicit false

namespace Verif.Oracle

variable {k m : Nat}

/-- The polynomial with the given constant term and other coefficients. -/
def polyOf (s : Fn) (c : Fin k → Fn) : Fin (k + 1) → Fn := Fin.cons s c

/-- The commitments to its coefficients. -/
def simpleCommitments (f : Fin (k + 1) → Fn) (j : Fin (k + 1)) : Pt := f j • G

/-- The plaintexts. -/
def values (f : Fin (k + 1) → Fn) (i : Fin m) : Fn := valueFor f i

/-- The polynomial is 1 at 0 and vanishes at the places of the group `B`. -/
def Vanishes (B : Finset (Fin m)) (Z : Fin (k + 1) → Fn) : Prop := Z 0 = 1 ∧ ∀ i ∈ B, valueFor Z i = 0

/-- Commitments made up from `S` and random coefficients: those of a polynomial with constant term 0, and the multiples of `S` that
leave the values for the group as they are. -/
def shown (Z : Fin (k + 1) → Fn) (S : Pt) (c : Fin k → Fn) (j : Fin (k + 1)) : Pt := polyOf 0 c j • G + Z j • S

end Verif.Oracle
