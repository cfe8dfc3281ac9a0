import Verif.Spec.OracleDh

/-!
The proof of possession of an ephemeral key in the random oracle model.

The base of the proof is the hash of the ephemeral key to the curve (mega/mega.go:37-43).  As a random oracle it is `r • G` for a random
`r`; whoever chooses the answers of the oracle knows `r`, and then needs the discrete logarithm of the ephemeral key no more.
-/

set_option autoImplicit false

namespace Verif.Oracle

variable {E : Finset Question}

/-- What is published about an ephemeral key: the key, the base, the key for that base, and the proof (mega/mega.go:66-79). -/
structure Pop where
  eph : Pt
  base : Pt
  pub : Pt
  pf : Zk.Proof

/-- What the dealer proves. -/
def popTask (b r : Fn) (ad : Bytes) : DlogTask := ⟨G, r • G, b, ad⟩

/-- As the code makes it, for the discrete logarithm `b` of the ephemeral key and a nonce. -/
def popReal (b r : Fn) (ad : Bytes) (O : E → Fn) (nonce : Fn) : Pop := ⟨b • G, r • G, b • r • G, (popTask b r ad).proof O nonce⟩

/-- Made up from the ephemeral key. -/
def popMade (V : Pt) (r : Fn) (x : Fn × Fn) : Pop := ⟨V, r • G, r • V, ⟨x.1, x.2⟩⟩

/-- The challenges that go with it. -/
def popChallenges (V : Pt) (r : Fn) (ad : Bytes) (O : E → Fn) (x : Fn × Fn) : E → Fn :=
  program O (DlogClaim.asks ⟨G, r • G, V, r • V, ad, ⟨x.1, x.2⟩⟩) x.1

end Verif.Oracle
