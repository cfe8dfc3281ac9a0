import Verif.Spec.OracleReshare

/-!
A program that computes Diffie-Hellman values with the help of one that learns something from dealings.

It is given two points `V` and `W`, uses `V` as ephemeral key and makes the keys of the recipients outside a group from `W`.  It knows the
discrete logarithm of neither: all it computes is in the arguments of the definitions below.
-/

set_option autoImplicit false

namespace Verif.Oracle

variable {D : Finset Question} {A C R : Type} {m : Nat}

/-- The public keys of the recipients: those of the group `B` belong to the private keys `sk`, the others are `W` plus known multiples of
G. -/
def keysFrom (B : Finset (Fin m)) (sk : Fin m → Fn) (W : Pt) (r : Fin m → Fn) (i : Fin m) : Pt :=
  if i ∈ B then sk i • G else W + r i • G

/-- The pad of a recipient in the group, from the ephemeral key and its private key. -/
def padFrom [Zero A] (t : Mega.CType) (d : NodeIndex) (ad : Bytes) (V : Pt) (sk : Fin m → Fn) (O : D → A) (i : Fin m) : A :=
  match within D (Mega.padTranscript t d (BitVec.ofNat 64 i) ad (sk i • G) V (sk i • V)) with
  | some q => O q
  | none => 0

/-- Entries of a ciphertext: as they should be for the group, `e` for the others. -/
def entriesFrom [AddCommGroup A] (t : Mega.CType) (d : NodeIndex) (ad : Bytes) (V : Pt) (B : Finset (Fin m)) (sk : Fin m → Fn)
    (plain : Fin m → A) (O : D → A) (e : (Bᶜ : Finset (Fin m)) → A) (i : Fin m) : A :=
  if h : i ∈ Bᶜ then e ⟨i, h⟩ else padFrom t d ad V sk O i + plain i

/-- The point with this encoding, read by the code's `Deserialize`. -/
def readPoint (b : Bytes) : Pt :=
  match Point.deserialize K256 b with
  | .ok (some r) => (Point.ofRaw? r).getD 0
  | _ => 0

/-- Run a program that is given the public keys and the entries and asks for the pads `asks`, look at the end of its `j`-th question, and
undo what was added to `W` in the key of recipient `i`. -/
def solve [AddCommGroup A] (t : Mega.CType) (d : NodeIndex) (ad : Bytes) (B : Finset (Fin m)) (sk : Fin m → Fn) (plain : C → Fin m → A)
    (asks : C → (Fin m → Pt) → (Fin m → A) → (D → A) → List D) (V W : Pt) (r : Fin m → Fn)
    (x : C × (D → A) × ((Bᶜ : Finset (Fin m)) → A)) (j : Nat) (i : Fin m) : Pt :=
  match (asks x.1 (keysFrom B sk W r) (entriesFrom t d ad V B sk (plain x.1) x.2.1 x.2.2) x.2.1)[j]? with
  | some q => readPoint (tail33 q.1) - r i • V
  | none => 0

namespace Alg2

variable {E : Finset Question}

/-- The program asks for at most `n` pads, whatever the answers. -/
def AtMostPads : Alg2 D E A R → Nat → Prop
  | done _, _ => True
  | pad _ _, 0 => False
  | pad _ next, n + 1 => ∀ a, (next a).AtMostPads n
  | challenge _ next, n => ∀ c, (next c).AtMostPads n

end Alg2

end Verif.Oracle
