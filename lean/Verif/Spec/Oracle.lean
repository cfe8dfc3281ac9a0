import Verif.Model.Zk
import Mathlib.SetTheory.Cardinal.Finite
import Mathlib.Data.Rat.Defs
import Mathlib.Algebra.Field.Rat

/-!
Programs that ask an oracle, for statements in the random oracle model.

A program is a tree: it stops with a result or asks a question and goes on as the answer tells it.  Every deterministic program
with finitely many steps is such a tree, and a program that tosses coins is one for each outcome of the coins.  The oracle is a
function from a finite set of questions; "random" means that all functions are counted.
-/

set_option autoImplicit false

namespace Verif.Oracle

/-- Programs that ask questions in `Q`, get answers in `A` and end with a result in `R`. -/
inductive Alg (Q A R : Type) where
  | done (r : R)
  | ask (q : Q) (next : A → Alg Q A R)

namespace Alg

variable {Q A R : Type}

/-- The result of the program for the oracle `O`. -/
def run : Alg Q A R → (Q → A) → R
  | done r, _ => r
  | ask q next, O => (next (O q)).run O

/-- The questions the program asks the oracle `O`, in order. -/
def asked : Alg Q A R → (Q → A) → List Q
  | done _, _ => []
  | ask q next, O => q :: (next (O q)).asked O

/-- The program asks at most `n` questions, whatever the answers. -/
def AtMost : Alg Q A R → Nat → Prop
  | done _, _ => True
  | ask _ _, 0 => False
  | ask _ next, n + 1 => ∀ a, (next a).AtMost n

end Alg

/-- The share of the elements of a finite type that have a property. -/
noncomputable def share {α : Type} (p : α → Prop) : ℚ := (Nat.card {a // p a} : ℚ) / Nat.card α

/-- What the code hashes: domain separator and message. -/
abbrev Question := Bytes × Bytes

/-- The question of a random oracle with named inputs (ro/ro.go:103-109): what `OutputScalars` hashes. -/
def question (r : Ro) : Option Question :=
  match r.formRoInput with
  | .ok m => some (r.curveDst, m)
  | _ => none

/-- The answers of the code's hash function, as an oracle. -/
def codeOracle (P : Prim) (q : Question) : Fn :=
  match H2C.hashToScalar P 1 q.2 q.1 with
  | .ok (c :: _) => c
  | _ => 0

/-- The question, if it belongs to the finite set `D`. -/
def within (D : Finset Question) (r : Ro) : Option D :=
  match question r with
  | some q => if h : q ∈ D then some ⟨q, h⟩ else none
  | none => none

/-- A proof is accepted with the oracle `O` as hash function: its challenge is the answer to the question in which its
verification hashes the statement and the recovered commitments (zk/dlog.go:104-121, zk/equal_opening.go:113-124,
zk/product.go:104-115). -/
def Accepted {D : Finset Question} (O : D → Fn) (asks : Ro) (challenge : Fn) : Prop :=
  ∃ q, within D asks = some q ∧ O q = challenge

/-- Statement, associated data and proof, for `zk/dlog.go:104` `Verify`. -/
structure DlogClaim where
  g : Pt
  h : Pt
  gx : Pt
  hx : Pt
  ad : Bytes
  pf : Zk.Proof

/-- What the verification hashes. -/
def DlogClaim.asks (c : DlogClaim) : Ro :=
  Zk.Dlog.transcript ⟨c.g, c.h, c.gx, c.hx⟩ (c.pf.response • c.g - c.pf.challenge • c.gx)
    (c.pf.response • c.h - c.pf.challenge • c.hx) c.ad

/-- The statement is true. -/
def DlogClaim.True (c : DlogClaim) : Prop := ∃ x : Fn, c.gx = x • c.g ∧ c.hx = x • c.h

/-- Statement, associated data and proof, for `zk/equal_opening.go:113` `Verify`. -/
structure EqClaim where
  pedersen : Pt
  simple : Pt
  ad : Bytes
  pf : Zk.Proof

/-- What the verification hashes. -/
def EqClaim.asks (c : EqClaim) : Ro :=
  Zk.EqOpen.transcript ⟨G, Point.H, c.pedersen, c.simple⟩
    (c.pf.response • Point.H - c.pf.challenge • (c.pedersen - c.simple)) c.ad

/-- Statement, associated data and proof, for `zk/product.go:104` `Verify`. -/
structure ProductClaim where
  lhs : Pt
  rhs : Pt
  product : Pt
  ad : Bytes
  pf : Zk.Product.Proof

/-- What the verification hashes. -/
def ProductClaim.asks (c : ProductClaim) : Ro :=
  Zk.Product.transcript ⟨G, Point.H, c.lhs, c.rhs, c.product⟩ (c.pf.response1 • G - c.pf.challenge • c.lhs)
    (c.pf.response1 • c.rhs + c.pf.response2 • Point.H - c.pf.challenge • c.product) c.ad

/-- Rewinding: the program is run once more, with the answer `a` instead to the question that the verification of its first
result asks.  Gives both results. -/
def rewind {D : Finset Question} {R : Type} (g : Alg D Fn R) (asks : R → Ro) (O : D → Fn) (a : Fn) : R × R :=
  (g.run O, match within D (asks (g.run O)) with
    | some q => g.run (Function.update O q a)
    | none => g.run O)

/-- The quotient of the differences of responses and challenges. -/
noncomputable def slope (z z' c c' : Fn) : Fn := (z - z') / (c - c')

end Verif.Oracle
