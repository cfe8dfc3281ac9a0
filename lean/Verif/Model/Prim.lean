import Verif.Base.Bytes

/-!
The cryptographic primitives the code calls, as parameters.  Every theorem is stated for all of them; nothing but
the output sizes is assumed.
-/

namespace Verif

/-- SHA-256 (`crypto/sha256`), HMAC-SHA-512 (`crypto/hmac` with `crypto/sha512`) and the ChaCha20 key stream
(`golang.org/x/crypto/chacha20` with the all-zero nonce) as arbitrary functions of the right sizes. -/
structure Prim where
  /-- SHA-256 of a message. -/
  sha256 : Bytes → Bytes
  sha256_length : ∀ m, (sha256 m).length = 32
  /-- HMAC-SHA-512 of a key and a message. -/
  hmacSha512 : Bytes → Bytes → Bytes
  hmacSha512_length : ∀ k m, (hmacSha512 k m).length = 64
  /-- Byte number `i` of the ChaCha20 key stream for a key. -/
  chacha20 : Bytes → Nat → UInt8

/-- Bytes of an ASCII string. -/
def ascii (s : String) : Bytes := s.toUTF8.toList

end Verif
