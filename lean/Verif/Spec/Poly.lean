import Verif.Model.Scalar
import Mathlib.Algebra.Polynomial.Eval.Defs
import Mathlib.Algebra.Polynomial.BigOperators

/-! The polynomial (in Mathlib's sense) with given coefficients. -/

namespace Verif

open Polynomial

/-- `c₀ + c₁X + c₂X² + …`. -/
noncomputable def toPoly (l : List Fn) : Fn[X] := ∑ i : Fin l.length, C l[i] * X ^ (i : ℕ)

end Verif
