import Verif.Model.Protocol

/-!
What everybody can compute who sees two proofs made with the same nonce, or knows the nonce of one.
-/

set_option autoImplicit false

namespace Verif

namespace Zk

/-- The factor of the challenge that two linear responses have in common. -/
def common (c c' z z' : Fn) : Fn := (z - z') / (c - c')

/-- For proofs with one response. -/
def Proof.common (p q : Proof) : Fn := Zk.common p.challenge q.challenge p.response q.response

/-- The witness of a proof whose nonce is known. -/
def Proof.witness (p : Proof) (nonce : Fn) : Fn := (p.response - nonce) / p.challenge

end Zk

namespace Dealings

/-- mega/ciphertext.go:171-173, 280-282 `Proof`. -/
def Cipher.popProof : Cipher → Zk.Proof
  | .single m => m.popProof
  | .pair m => m.popProof

/-- The opening that a shared secret gives (`DecryptFromSharedSecret`). -/
def Cipher.openWith (P : Prim) (c : Cipher) (ad : Bytes) (dealer receiver : NodeIndex) (pk shared : Pt) : Res Opening :=
  match c with
  | .single m => do
    let s ← Mega.Single.decryptFromSharedSecret P m ad dealer receiver pk shared
    .ok (.simple s)
  | .pair m => do
    let s ← Mega.Pair.decryptFromSharedSecret P m ad dealer receiver pk shared
    .ok (.pedersen s.1 s.2)

/-- The opening that anybody gets from two ciphertexts made with the same seed. -/
def Cipher.leak (P : Prim) (c c' : Cipher) (ad : Bytes) (dealer receiver : NodeIndex) (pk : Pt) : Res Opening :=
  c.openWith P ad dealer receiver pk (c.popProof.common c'.popProof • pk)

end Dealings

end Verif
