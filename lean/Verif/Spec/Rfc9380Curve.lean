import Verif.Spec.Rfc9380
import Verif.Curve.Secp
import Verif.Base.Bytes

/-!
RFC 9380, the suite secp256k1_XMD:SHA-256_SSWU_RO_ (section 8.7): section 5.2 `hash_to_field`, section 6.6.2 the simplified
Shallue–van de Woestijne–Ulas map on the curve `E'`, section 6.6.3 and appendix E.1 the 3-isogeny from `E'` to secp256k1,
section 3 `hash_to_curve`.  Transcribed from the RFC; where the RFC computes (`sqrt`, `sgn0`) the relation is used that
determines the result.
-/

set_option autoImplicit false

namespace Verif.Rfc9380

/-- Section 8.7: `E'`: `y'^2 = x'^3 + A' * x' + B'`. -/
def A' : Fp := ((0x3f8731abdd661adca08a5558f0f5d272e953d363cb6f0e5d405447c01a444533 : Nat) : Fp)
def B' : Fp := 1771
/-- Section 8.7: `Z = -11`. -/
def Z : Fp := -11

def g (x : Fp) : Fp := x ^ 3 + A' * x + B'

/-- Section 4: `inv0(0) = 0`. -/
def inv0 (a : Fp) : Fp := if a = 0 then 0 else 1 / a

/-- Section 4.1: `sgn0` for `m = 1`. -/
def sgn0 (a : Fp) : Nat := a.val % 2

/-- Section 6.6.2, steps 1 to 3. -/
noncomputable def x1 (u : Fp) : Fp :=
  let tv1 := inv0 (Z ^ 2 * u ^ 4 + Z * u ^ 2)
  if tv1 = 0 then B' / (Z * A') else (-B' / A') * (1 + tv1)

/-- Section 6.6.2, step 5. -/
noncomputable def x2 (u : Fp) : Fp := Z * u ^ 2 * x1 u

/-- Section 6.6.2: `(x, y) = map_to_curve_simple_swu(u)`.  Steps 7 and 8 choose the first candidate for `x` if that gives a
square, `y` is one of the square roots, and step 9 makes its sign that of `u` (there is nothing to choose for `y = 0`). -/
structure Sswu (u x y : Fp) : Prop where
  first : IsSquare (g (x1 u)) → x = x1 u
  second : ¬ IsSquare (g (x1 u)) → x = x2 u
  root : y ^ 2 = g x
  sign : y = 0 ∨ sgn0 u = sgn0 y

/-- Appendix E.1. -/
def k10 : Fp := ((0x8e38e38e38e38e38e38e38e38e38e38e38e38e38e38e38e38e38e38daaaaa8c7 : Nat) : Fp)
def k11 : Fp := ((0x7d3d4c80bc321d5b9f315cea7fd44c5d595d2fc0bf63b92dfff1044f17c6581 : Nat) : Fp)
def k12 : Fp := ((0x534c328d23f234e6e2a413deca25caece4506144037c40314ecbd0b53d9dd262 : Nat) : Fp)
def k13 : Fp := ((0x8e38e38e38e38e38e38e38e38e38e38e38e38e38e38e38e38e38e38daaaaa88c : Nat) : Fp)
def k20 : Fp := ((0xd35771193d94918a9ca34ccbb7b640dd86cd409542f8487d9fe6b745781eb49b : Nat) : Fp)
def k21 : Fp := ((0xedadc6f64383dc1df7c4b2d51b54225406d36b641f5e41bbc52a56612a8c6d14 : Nat) : Fp)
def k30 : Fp := ((0x4bda12f684bda12f684bda12f684bda12f684bda12f684bda12f684b8e38e23c : Nat) : Fp)
def k31 : Fp := ((0xc75e0c32d5cb7c0fa9d0a54b12a0a6d5647ab046d686da6fdffc90fc201d71a3 : Nat) : Fp)
def k32 : Fp := ((0x29a6194691f91a73715209ef6512e576722830a201be2018a765e85a9ecee931 : Nat) : Fp)
def k33 : Fp := ((0x2f684bda12f684bda12f684bda12f684bda12f684bda12f684bda12f38e38d84 : Nat) : Fp)
def k40 : Fp := ((0xfffffffffffffffffffffffffffffffffffffffffffffffffffffffefffff93b : Nat) : Fp)
def k41 : Fp := ((0x7a06534bb8bdb49fd5e9e6632722c2989467c1bfc8e8d978dfb425d2685c2573 : Nat) : Fp)
def k42 : Fp := ((0x6484aa716545ca2cf3a70c3fa8fe337e0a3d21162f0d6299a7bf8192bfd2a76f : Nat) : Fp)

def xNum (x : Fp) : Fp := k13 * x ^ 3 + k12 * x ^ 2 + k11 * x + k10
def xDen (x : Fp) : Fp := x ^ 2 + k21 * x + k20
def yNum (x : Fp) : Fp := k33 * x ^ 3 + k32 * x ^ 2 + k31 * x + k30
def yDen (x : Fp) : Fp := x ^ 3 + k42 * x ^ 2 + k41 * x + k40

/-- Section 6.6.3: `Q = map_to_curve(u)`, the image under the isogeny; the identity where a denominator is zero. -/
def MapToCurve (u : Fp) (Q : Pt) : Prop :=
  ∃ x y, Sswu u x y ∧ ((xDen x = 0 ∨ yDen x = 0) ∧ Q = 0 ∨
    xDen x ≠ 0 ∧ yDen x ≠ 0 ∧ ∃ h, Q = Pt.mk (xNum x / xDen x) (y * (yNum x / yDen x)) h)

/-- Section 5.2 with `m = 1`, `L = 48`: element `i` of `hash_to_field`. -/
def fieldElement (uniformBytes : Bytes) (i : Nat) : Fp := (beVal ((uniformBytes.drop (48 * i)).take 48) : Fp)

/-- Section 3 (the cofactor is 1, section 8.7): `R = hash_to_curve(msg)`. -/
def HashToCurve (H : Bytes → Bytes) (msg dst : Bytes) (R : Pt) : Prop :=
  ∃ uniformBytes Q0 Q1, expandMessageXmd H msg dst 96 = some uniformBytes ∧ MapToCurve (fieldElement uniformBytes 0) Q0 ∧
    MapToCurve (fieldElement uniformBytes 1) Q1 ∧ R = Q0 + Q1

end Verif.Rfc9380
