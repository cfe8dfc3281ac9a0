import Verif.Spec.OracleDealing
import Verif.Spec.Simulation

/-!
Dealings of a product in the random oracle model: besides commitments and entries the dealer publishes a proof.  There are two hash
functions, for pads and for challenges, since the code separates their domains.
-/

set_option autoImplicit false

namespace Verif.Oracle

/-- Programs that ask for pads in `A`, with questions in `D`, and for challenges, with questions in `E`. -/
inductive Alg2 (D E : Finset Question) (A R : Type) where
  | done (r : R)
  | pad (q : D) (next : A → Alg2 D E A R)
  | challenge (q : E) (next : Fn → Alg2 D E A R)

namespace Alg2

variable {D E : Finset Question} {A R : Type}

/-- The result of the program. -/
def run : Alg2 D E A R → (D → A) → (E → Fn) → R
  | done r, _, _ => r
  | pad q next, O, C => (next (O q)).run O C
  | challenge q next, O, C => (next (C q)).run O C

/-- The pads that the program asks for. -/
def pads : Alg2 D E A R → (D → A) → (E → Fn) → List D
  | done _, _, _ => []
  | pad q next, O, C => q :: (next (O q)).pads O C
  | challenge q next, O, C => (next (C q)).pads O C

end Alg2

variable {k : Nat}

/-- The dealer's shares: of the first factor, of the second and of its mask. -/
structure Factors where
  l : Fn
  r : Fn
  m : Fn

/-- What the dealer proves. -/
def Factors.task (x : Factors) (ad : Bytes) (c : DealerCoins k) : ProductTask := ⟨x.l, x.r, x.m, c.2 0, ad⟩

/-- The polynomial that is dealt. -/
def Factors.poly (x : Factors) (c : DealerCoins k) : Fin (k + 1) → Fn := withSecret (x.l * x.r) c

/-- The shares are the same as far as the commitments to the factors tell. -/
def Factors.Same (x y : Factors) : Prop := x.l = y.l ∧ x.r • G + x.m • Point.H = y.r • G + y.m • Point.H

end Verif.Oracle
