import Verif.Spec.SignGame

/-!
When there is no signature for a nonce.
-/

set_option autoImplicit false

namespace Verif.Sign

/-- SEC 1, 4.1.3: the numbers for the key `x`, the nonce `k` and the number `e` are no signature, and the signer has to take another
nonce: there is no `r`, or `r` or `s` is zero. -/
def NoSignature (x k e : Fn) : Prop := ∀ r s, ecdsaSign x k e = some (r, s) → r = 0 ∨ s = 0

/-- With the oracle `O` as hash function for the randomiser (sign/sign.go:32-37), the request has no signature, for the key `x` and the nonce `k`,
where the tweak of the path is `tweak`. -/
def Request.Fails {D : Finset Oracle.Question} (x k : Fn) (tweak : List Key.Index → Fn) (O : D → Fn) (q : Request) : Prop :=
  ∃ a, Oracle.within D (rhoTranscript q.randomness q.hashedMsg (k • G) (tweak q.path)) = some a ∧
    NoSignature (x + tweak q.path) (k + O a) (beVal q.hashedMsg : Fn)

/-- The request is one that can be met: the message hash is not too long, and not both it and the derived key are zero. -/
def Request.Proper (x : Fn) (tweak : List Key.Index → Fn) (q : Request) : Prop :=
  q.hashedMsg.length ≤ 64 ∧ ¬ ((beVal q.hashedMsg : Fn) = 0 ∧ x + tweak q.path = 0)

end Verif.Sign
