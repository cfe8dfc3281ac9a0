import Verif.Spec.Oracle
import Verif.Spec.ZeroKnowledge
import Mathlib.Logic.Function.Basic

/-!
Zero knowledge in the random oracle model: a program first asks questions and chooses statement and witness, is given a proof, and
goes on.  The proof is made by the code's prover from a nonce, or it is made up without the witness.
-/

set_option autoImplicit false

namespace Verif.Oracle

variable {D : Finset Question}

/-- The oracle's answer to what an oracle object of the code hashes. -/
def answer (O : D → Fn) (r : Ro) : Fn :=
  match within D r with
  | some q => O q
  | none => 0

/-- The oracle with the answer `c` there, otherwise unchanged. -/
def program (O : D → Fn) (r : Ro) (c : Fn) : D → Fn :=
  match within D r with
  | some q => Function.update O q c
  | none => O

/-- What a program chooses before it is given a proof for `zk/dlog.go`. -/
structure DlogTask where
  g : Pt
  h : Pt
  x : Fn
  ad : Bytes

namespace DlogTask

/-- What the prover hashes for the nonce `r` (zk/dlog.go:79-94). -/
def asks (t : DlogTask) (r : Fn) : Ro := Zk.Dlog.transcript ⟨t.g, t.h, t.x • t.g, t.x • t.h⟩ (r • t.g) (r • t.h) t.ad

/-- The proof for the nonce `r`. -/
def proof (O : D → Fn) (t : DlogTask) (r : Fn) : Zk.Proof := ⟨answer O (t.asks r), t.x * answer O (t.asks r) + r⟩

/-- Statement and proof, without the witness. -/
def claim (t : DlogTask) (pf : Zk.Proof) : DlogClaim := ⟨t.g, t.h, t.x • t.g, t.x • t.h, t.ad, pf⟩

end DlogTask

/-- The same for `zk/equal_opening.go`. -/
structure EqTask where
  secret : Fn
  masking : Fn
  ad : Bytes

namespace EqTask

/-- What the prover hashes for the nonce `r` (zk/equal_opening.go:63-83). -/
def asks (t : EqTask) (r : Fn) : Ro :=
  Zk.EqOpen.transcript ⟨G, Point.H, t.secret • G + t.masking • Point.H, t.secret • G⟩ (r • Point.H) t.ad

/-- The proof for the nonce `r`. -/
def proof (O : D → Fn) (t : EqTask) (r : Fn) : Zk.Proof := ⟨answer O (t.asks r), t.masking * answer O (t.asks r) + r⟩

/-- Statement and proof, without the witness. -/
def claim (t : EqTask) (pf : Zk.Proof) : EqClaim := ⟨t.secret • G + t.masking • Point.H, t.secret • G, t.ad, pf⟩

end EqTask

/-- The same for `zk/product.go`; the product is that of the factors. -/
structure ProductTask where
  lhs : Fn
  rhs : Fn
  rhsMasking : Fn
  productMasking : Fn
  ad : Bytes

namespace ProductTask

/-- What the prover hashes for the nonces `r` (zk/product.go:68-89). -/
def asks (t : ProductTask) (r : Fn × Fn) : Ro :=
  Zk.Product.transcript ⟨G, Point.H, t.lhs • G, t.rhs • G + t.rhsMasking • Point.H,
    (t.lhs * t.rhs) • G + t.productMasking • Point.H⟩ (r.1 • G)
    (r.1 • (t.rhs • G + t.rhsMasking • Point.H) + r.2 • Point.H) t.ad

/-- The proof for the nonces `r`. -/
def proof (O : D → Fn) (t : ProductTask) (r : Fn × Fn) : Zk.Product.Proof :=
  ⟨answer O (t.asks r), t.lhs * answer O (t.asks r) + r.1,
    (t.productMasking - t.lhs * t.rhsMasking) * answer O (t.asks r) + r.2⟩

/-- Statement and proof, without the witness. -/
def claim (t : ProductTask) (pf : Zk.Product.Proof) : ProductClaim :=
  ⟨t.lhs • G, t.rhs • G + t.rhsMasking • Point.H, (t.lhs * t.rhs) • G + t.productMasking • Point.H, t.ad, pf⟩

end ProductTask

/-- Programs that ask questions in `D` and are given up to `k` proofs of what they choose, and end with a result. -/
inductive Session (D : Finset Question) (R : Type) : Nat → Type
  | done {k : Nat} (r : R) : Session D R k
  | ask {k : Nat} (y : D) (next : Fn → Session D R k) : Session D R k
  | dlog {k : Nat} (t : DlogTask) (next : Zk.Proof → Session D R k) : Session D R (k + 1)
  | equalOpenings {k : Nat} (t : EqTask) (next : Zk.Proof → Session D R k) : Session D R (k + 1)
  | product {k : Nat} (t : ProductTask) (next : Zk.Product.Proof → Session D R k) : Session D R (k + 1)

/-- `k` independent choices. -/
def Coins (N : Type) : Nat → Type
  | 0 => Unit
  | k + 1 => N × Coins N k

namespace Session

variable {R : Type}

/-- The result if the proofs are made by the prover, with two nonces for each proof, of which only products need the second. -/
def real : {k : Nat} → Session D R k → Coins (Fn × Fn) k → (D → Fn) → R
  | _, done r, _, _ => r
  | _, ask y next, ρ, O => (next (O y)).real ρ O
  | _, dlog t next, ρ, O => (next (t.proof O ρ.1.1)).real ρ.2 O
  | _, equalOpenings t next, ρ, O => (next (t.proof O ρ.1.1)).real ρ.2 O
  | _, product t next, ρ, O => (next (t.proof O ρ.1)).real ρ.2 O

/-- The result if challenges and responses are chosen without the witnesses and the oracle is set to answer so from then on. -/
def simulated : {k : Nat} → Session D R k → Coins (Fn × Fn × Fn) k → (D → Fn) → R
  | _, done r, _, _ => r
  | _, ask y next, ρ, O => (next (O y)).simulated ρ O
  | _, dlog t next, ρ, O => (next ⟨ρ.1.1, ρ.1.2.1⟩).simulated ρ.2 (program O (t.claim ⟨ρ.1.1, ρ.1.2.1⟩).asks ρ.1.1)
  | _, equalOpenings t next, ρ, O => (next ⟨ρ.1.1, ρ.1.2.1⟩).simulated ρ.2 (program O (t.claim ⟨ρ.1.1, ρ.1.2.1⟩).asks ρ.1.1)
  | _, product t next, ρ, O =>
    (next ⟨ρ.1.1, ρ.1.2.1, ρ.1.2.2⟩).simulated ρ.2 (program O (t.claim ⟨ρ.1.1, ρ.1.2.1, ρ.1.2.2⟩).asks ρ.1.1)

/-- The program itself asks at most `q` questions. -/
def AtMost : {k : Nat} → Session D R k → Nat → Prop
  | _, done _, _ => True
  | _, ask _ _, 0 => False
  | _, ask _ next, q + 1 => ∀ a, (next a).AtMost q
  | _, dlog _ next, q => ∀ pf, (next pf).AtMost q
  | _, equalOpenings _ next, q => ∀ pf, (next pf).AtMost q
  | _, product _ next, q => ∀ pf, (next pf).AtMost q

/-- The set of questions has room for the proofs, and no statement about discrete logarithms has twice the identity as base. -/
def Proper : {k : Nat} → Session D R k → Prop
  | _, done _ => True
  | _, ask _ next => ∀ a, (next a).Proper
  | _, dlog t next => (t.g ≠ 0 ∨ t.h ≠ 0) ∧ (∀ r, ∃ y, within D (t.asks r) = some y) ∧ ∀ pf, (next pf).Proper
  | _, equalOpenings t next => (∀ r, ∃ y, within D (t.asks r) = some y) ∧ ∀ pf, (next pf).Proper
  | _, product t next => (∀ r, ∃ y, within D (t.asks r) = some y) ∧ ∀ pf, (next pf).Proper

end Session

end Verif.Oracle
