import Verif.Model.Prim

/-!
The primitives the code uses, concretely: SHA-256 and SHA-512 (FIPS 180-4), HMAC-SHA-512 (RFC 2104), the ChaCha20 key
stream with the all-zero nonce (RFC 8439).  No theorem about the model depends on this file; it serves to run the
model on the known-answer tests of the repository (Kat/Vectors.lean).
-/

namespace Verif

namespace Kat

/-- Evaluate `x` before going on (for the kernel, which evaluates lazily). -/
def force {α : Type} (x : Nat) (f : Nat → α) : α :=
  match x with
  | 0 => f 0
  | m + 1 => f (m + 1)

/-- Right rotation of a `w`-bit word. -/
def rotr (w x r : Nat) : Nat := ((x >>> r) ||| (x <<< (w - r))) % 2 ^ w

/-- The parameters of a SHA-2 function: word size, rotations, constants, initial value. -/
structure Sha2 where
  w : Nat
  (S0a S0b S0c S1a S1b S1c : Nat)
  (s0a s0b s0c s1a s1b s1c : Nat)
  k : List Nat
  iv : List Nat

/-- FIPS 180-4, 5.3.3. -/
def iv256 : List Nat := [
  0x6a09e667, 0xbb67ae85, 0x3c6ef372, 0xa54ff53a, 0x510e527f, 0x9b05688c,
  0x1f83d9ab, 0x5be0cd19]

/-- FIPS 180-4, 4.2.2. -/
def k256 : List Nat := [
  0x428a2f98, 0x71374491, 0xb5c0fbcf, 0xe9b5dba5, 0x3956c25b, 0x59f111f1,
  0x923f82a4, 0xab1c5ed5, 0xd807aa98, 0x12835b01, 0x243185be, 0x550c7dc3,
  0x72be5d74, 0x80deb1fe, 0x9bdc06a7, 0xc19bf174, 0xe49b69c1, 0xefbe4786,
  0x0fc19dc6, 0x240ca1cc, 0x2de92c6f, 0x4a7484aa, 0x5cb0a9dc, 0x76f988da,
  0x983e5152, 0xa831c66d, 0xb00327c8, 0xbf597fc7, 0xc6e00bf3, 0xd5a79147,
  0x06ca6351, 0x14292967, 0x27b70a85, 0x2e1b2138, 0x4d2c6dfc, 0x53380d13,
  0x650a7354, 0x766a0abb, 0x81c2c92e, 0x92722c85, 0xa2bfe8a1, 0xa81a664b,
  0xc24b8b70, 0xc76c51a3, 0xd192e819, 0xd6990624, 0xf40e3585, 0x106aa070,
  0x19a4c116, 0x1e376c08, 0x2748774c, 0x34b0bcb5, 0x391c0cb3, 0x4ed8aa4a,
  0x5b9cca4f, 0x682e6ff3, 0x748f82ee, 0x78a5636f, 0x84c87814, 0x8cc70208,
  0x90befffa, 0xa4506ceb, 0xbef9a3f7, 0xc67178f2]

/-- FIPS 180-4, 5.3.5. -/
def iv512 : List Nat := [
  0x6a09e667f3bcc908, 0xbb67ae8584caa73b, 0x3c6ef372fe94f82b, 0xa54ff53a5f1d36f1,
  0x510e527fade682d1, 0x9b05688c2b3e6c1f, 0x1f83d9abfb41bd6b, 0x5be0cd19137e2179]

/-- FIPS 180-4, 4.2.3. -/
def k512 : List Nat := [
  0x428a2f98d728ae22, 0x7137449123ef65cd, 0xb5c0fbcfec4d3b2f, 0xe9b5dba58189dbbc,
  0x3956c25bf348b538, 0x59f111f1b605d019, 0x923f82a4af194f9b, 0xab1c5ed5da6d8118,
  0xd807aa98a3030242, 0x12835b0145706fbe, 0x243185be4ee4b28c, 0x550c7dc3d5ffb4e2,
  0x72be5d74f27b896f, 0x80deb1fe3b1696b1, 0x9bdc06a725c71235, 0xc19bf174cf692694,
  0xe49b69c19ef14ad2, 0xefbe4786384f25e3, 0x0fc19dc68b8cd5b5, 0x240ca1cc77ac9c65,
  0x2de92c6f592b0275, 0x4a7484aa6ea6e483, 0x5cb0a9dcbd41fbd4, 0x76f988da831153b5,
  0x983e5152ee66dfab, 0xa831c66d2db43210, 0xb00327c898fb213f, 0xbf597fc7beef0ee4,
  0xc6e00bf33da88fc2, 0xd5a79147930aa725, 0x06ca6351e003826f, 0x142929670a0e6e70,
  0x27b70a8546d22ffc, 0x2e1b21385c26c926, 0x4d2c6dfc5ac42aed, 0x53380d139d95b3df,
  0x650a73548baf63de, 0x766a0abb3c77b2a8, 0x81c2c92e47edaee6, 0x92722c851482353b,
  0xa2bfe8a14cf10364, 0xa81a664bbc423001, 0xc24b8b70d0f89791, 0xc76c51a30654be30,
  0xd192e819d6ef5218, 0xd69906245565a910, 0xf40e35855771202a, 0x106aa07032bbd1b8,
  0x19a4c116b8d2d0c8, 0x1e376c085141ab53, 0x2748774cdf8eeb99, 0x34b0bcb5e19b48a8,
  0x391c0cb3c5c95a63, 0x4ed8aa4ae3418acb, 0x5b9cca4f7763e373, 0x682e6ff3d6b2b8a3,
  0x748f82ee5defb2fc, 0x78a5636f43172f60, 0x84c87814a1f0ab72, 0x8cc702081a6439ec,
  0x90befffa23631e28, 0xa4506cebde82bde9, 0xbef9a3f7b2c67915, 0xc67178f2e372532b,
  0xca273eceea26619c, 0xd186b8c721c0c207, 0xeada7dd6cde0eb1e, 0xf57d4f7fee6ed178,
  0x06f067aa72176fba, 0x0a637dc5a2c898a6, 0x113f9804bef90dae, 0x1b710b35131c471b,
  0x28db77f523047d84, 0x32caab7b40c72493, 0x3c9ebe0a15c9bebc, 0x431d67c49c100d4c,
  0x4cc5d4becb3e42b6, 0x597f299cfc657e2a, 0x5fcb6fab3ad6faec, 0x6c44198c4a475817]

def sha256Params : Sha2 :=
  ⟨32, 2, 13, 22, 6, 11, 25, 7, 18, 3, 17, 19, 10, k256, iv256⟩

def sha512Params : Sha2 :=
  ⟨64, 28, 34, 39, 14, 18, 41, 1, 8, 7, 19, 61, 6, k512, iv512⟩

namespace Sha2

variable (S : Sha2)

/-- FIPS 180-4, 6.2.2 step 1 / 6.4.2 step 1: the schedule, newest word first, from the last sixteen words (newest
first). -/
def schedule : Nat → List Nat → List Nat
  | 0, acc => acc
  | t + 1, acc =>
    let w2 := acc.getD 1 0
    let w7 := acc.getD 6 0
    let w15 := acc.getD 14 0
    let w16 := acc.getD 15 0
    let s1 := (rotr S.w w2 S.s1a ^^^ rotr S.w w2 S.s1b) ^^^ (w2 >>> S.s1c)
    let s0 := (rotr S.w w15 S.s0a ^^^ rotr S.w w15 S.s0b) ^^^ (w15 >>> S.s0c)
    force ((s1 + w7 + s0 + w16) % 2 ^ S.w) fun x => schedule t (x :: acc)

/-- FIPS 180-4, 6.2.2 step 3 / 6.4.2 step 3, on the words `K_t + W_t`. -/
def rounds : List Nat → Nat → Nat → Nat → Nat → Nat → Nat → Nat → Nat → List Nat
  | [], a, b, c, d, e, f, g, h => [a, b, c, d, e, f, g, h]
  | kw :: rest, a, b, c, d, e, f, g, h =>
    let S1 := (rotr S.w e S.S1a ^^^ rotr S.w e S.S1b) ^^^ rotr S.w e S.S1c
    let ch := (e &&& f) ^^^ ((2 ^ S.w - 1 - e) &&& g)
    let S0 := (rotr S.w a S.S0a ^^^ rotr S.w a S.S0b) ^^^ rotr S.w a S.S0c
    let maj := ((a &&& b) ^^^ (a &&& c)) ^^^ (b &&& c)
    force ((h + S1 + ch + kw) % 2 ^ S.w) fun t1 =>
    force ((d + t1) % 2 ^ S.w) fun e' =>
    force ((t1 + S0 + maj) % 2 ^ S.w) fun a' => rounds rest a' a b c e' e f g

/-- Words of a byte string, big-endian, `w/8` bytes each. -/
def words : Nat → Bytes → List Nat
  | 0, _ => []
  | k + 1, b => force (beVal (b.take (S.w / 8))) fun x => x :: words k (b.drop (S.w / 8))

/-- One block. -/
def block (H : List Nat) (b : Bytes) : List Nat :=
  let W := (S.schedule (S.k.length - 16) (S.words 16 b).reverse).reverse
  let kw := List.zipWith (· + ·) S.k W
  let out := S.rounds kw (H.getD 0 0) (H.getD 1 0) (H.getD 2 0) (H.getD 3 0) (H.getD 4 0) (H.getD 5 0) (H.getD 6 0)
    (H.getD 7 0)
  List.zipWith (fun x y => (x + y) % 2 ^ S.w) H out

/-- The blocks in order. -/
def blocks : Nat → List Nat → Bytes → List Nat
  | 0, H, _ => H
  | k + 1, H, b => blocks k (S.block H (b.take (2 * S.w))) (b.drop (2 * S.w))

/-- FIPS 180-4, 5.1: a bit 1, zeros, and the length in bits on `2w` bits; blocks have `16w` bits, that is `2w`
bytes. -/
def pad (m : Bytes) : Bytes :=
  let blk := 2 * S.w
  let z := (blk - (m.length + 1 + S.w / 4) % blk) % blk
  m ++ [0x80] ++ List.replicate z 0 ++ toBE (S.w / 4) (8 * m.length)

/-- The hash: eight words, big-endian. -/
def hash (m : Bytes) : Bytes :=
  let b := S.pad m
  let H := S.blocks (b.length / (2 * S.w)) S.iv b
  (List.range 8).flatMap fun i => toBE (S.w / 8) (H.getD i 0)

theorem length_hash (m : Bytes) : (S.hash m).length = 8 * (S.w / 8) := by
  simp [hash, List.length_flatMap]
  ring

end Sha2

def sha256 (m : Bytes) : Bytes := sha256Params.hash m
def sha512 (m : Bytes) : Bytes := sha512Params.hash m

/-- RFC 2104 with SHA-512 (block size 128). -/
def hmacSha512 (key msg : Bytes) : Bytes :=
  let k := copyInto 128 (if 128 < key.length then sha512 key else key)
  sha512 (k.map (· ^^^ 0x5c) ++ sha512 (k.map (· ^^^ 0x36) ++ msg))

/-! ### ChaCha20 -/

/-- Left rotation of a 32-bit word. -/
def rotl32 (x r : Nat) : Nat := ((x <<< r) ||| (x >>> (32 - r))) % 2 ^ 32

/-- RFC 8439, 2.1: the quarter round on positions `a b c d`. -/
def quarter (s : List Nat) (ia ib ic id : Nat) : List Nat :=
  let a := s.getD ia 0
  let b := s.getD ib 0
  let c := s.getD ic 0
  let d := s.getD id 0
  force ((a + b) % 2 ^ 32) fun a =>
  force (rotl32 (d ^^^ a) 16) fun d =>
  force ((c + d) % 2 ^ 32) fun c =>
  force (rotl32 (b ^^^ c) 12) fun b =>
  force ((a + b) % 2 ^ 32) fun a =>
  force (rotl32 (d ^^^ a) 8) fun d =>
  force ((c + d) % 2 ^ 32) fun c =>
  force (rotl32 (b ^^^ c) 7) fun b =>
  (((s.set ia a).set ib b).set ic c).set id d

/-- RFC 8439, 2.3: a column round and a diagonal round. -/
def doubleRound (s : List Nat) : List Nat :=
  let s := quarter s 0 4 8 12
  let s := quarter s 1 5 9 13
  let s := quarter s 2 6 10 14
  let s := quarter s 3 7 11 15
  let s := quarter s 0 5 10 15
  let s := quarter s 1 6 11 12
  let s := quarter s 2 7 8 13
  quarter s 3 4 9 14

/-- RFC 8439, 2.3: the 64 bytes of block `counter` for a key and the all-zero nonce. -/
@[irreducible] def chachaBlock (key : Bytes) (counter : Nat) : Bytes :=
  let init := [0x61707865, 0x3320646e, 0x79622d32, 0x6b206574] ++
    ((List.range 8).map fun i => leVal ((key.drop (4 * i)).take 4)) ++ [counter % 2 ^ 32, 0, 0, 0]
  let out := doubleRound^[10] init
  (List.zipWith (fun x y => (x + y) % 2 ^ 32) init out).flatMap fun x => toLE 4 x

/-- Byte `i` of the key stream. -/
@[irreducible] def chacha20 (key : Bytes) (i : Nat) : UInt8 := (chachaBlock key (i / 64)).getD (i % 64) 0

/-- The primitives of the deployed code. -/
def prim : Prim where
  sha256 := sha256
  sha256_length _ := Sha2.length_hash _ _
  hmacSha512 := hmacSha512
  hmacSha512_length _ _ := Sha2.length_hash _ _
  chacha20 := chacha20

end Kat

end Verif
