import Verif.Spec.Oracle
import Verif.Model.Mega

/-!
Ciphertexts in the random oracle model: what an adversary is given, with the true entries and with entries made up at random.
-/

set_option autoImplicit false

namespace Verif.Oracle

/-- The answers of the code's hash function when two scalars are asked for (pads of pairs). -/
def codeOracle2 (P : Prim) (q : Question) : Fn × Fn :=
  match H2C.hashToScalar P 2 q.2 q.1 with
  | .ok (a :: b :: _) => (a, b)
  | _ => (0, 0)

/-- What is hashed for the pad of the recipient at position `i` (mega/ciphertext.go:75-84, 245-255), `beta` being the secret of
the ephemeral key. -/
def padOf (t : Mega.CType) (dealer : NodeIndex) (ad : Bytes) (beta : Fn) (i : Nat) (pk : Pt) : Ro :=
  Mega.padTranscript t dealer (BitVec.ofNat 64 i) ad pk (beta • G) (beta • pk)

variable {D : Finset Question} {A R : Type} {m : Nat}

/-- The entries of the ciphertext: answers to the questions `qs` plus plaintexts. -/
def entries [Add A] (qs : Fin m → D) (plain : Fin m → A) (O : D → A) (i : Fin m) : A := O (qs i) + plain i

/-- The same with the values `e` for the positions in `hidden`. -/
def madeUp [Add A] (qs : Fin m → D) (plain : Fin m → A) (hidden : Finset (Fin m)) (O : D → A) (e : hidden → A) (i : Fin m) : A :=
  if h : i ∈ hidden then e ⟨i, h⟩ else O (qs i) + plain i

/-- The program asks for the pad of a position in `hidden`. -/
def AsksFor (qs : Fin m → D) (hidden : Finset (Fin m)) (g : Alg D A R) (O : D → A) : Prop :=
  ∃ i ∈ hidden, qs i ∈ g.asked O

/-- What the program is given besides the entries does not depend on the pads of the positions in `hidden`. -/
def Fair (qs : Fin m → D) (hidden : Finset (Fin m)) (g : (D → A) → (Fin m → A) → Alg D A R) : Prop :=
  ∀ O O', (∀ x, (∀ i ∈ hidden, qs i ≠ x) → O x = O' x) → g O = g O'

/-- The last 33 bytes of a question. -/
def tail33 (q : Question) : Bytes := q.2.drop (q.2.length - 33)

end Verif.Oracle
