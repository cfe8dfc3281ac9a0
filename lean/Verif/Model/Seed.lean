import Verif.Base.Res
import Verif.Model.Prim
import Verif.Model.Scalar

/-!
Model of rand/chacha20.go, seed/xmd.go, seed/seed.go and `Scalar.Random`/`FromSeed` (curve/scalar.go:101-114).
-/

namespace Verif

/-! ### rand/chacha20.go -/

/-- A generator: its key stream and the number of bytes already consumed.  (The 256 GiB limit of a ChaCha20 stream is
not modelled.) -/
structure Rng where
  stream : Nat → UInt8
  pos : Nat

namespace Rng

/-- The next `k` key-stream bytes. -/
def peek (r : Rng) (k : Nat) : Bytes := (List.range k).map fun i => r.stream (r.pos + i)

/-- rand/chacha20.go:35-41 `FillUint8`/`XORKeyStream(dst, src)`: the source is XORed with the key stream. -/
def xorKeyStream (r : Rng) (src : Bytes) : Bytes × Rng :=
  (List.zipWith (· ^^^ ·) src (r.peek src.length), { r with pos := r.pos + src.length })

/-- rand/chacha20.go:23-27 `Uint32`. -/
def uint32 (r : Rng) : Nat × Rng :=
  let (b, r) := r.xorKeyStream (List.replicate 4 0)
  (beVal b, r)

/-- rand/chacha20.go:29-33 `Uint64`. -/
def uint64 (r : Rng) : Nat × Rng :=
  let (b, r) := r.xorKeyStream (List.replicate 8 0)
  (beVal b, r)

end Rng

/-! ### seed/xmd.go -/

namespace Xmd

/-- Go `byte(i)` of an `int`. -/
def byteOfInt (i : Int) : UInt8 := UInt8.ofNat (i % 256).toNat

/-- seed/xmd.go:35-46 (the loop from `i` for `k` rounds): `tmp[j] = b0[j] ^ out[len(out)-32+j]`. -/
def loop (P : Prim) (b0 dst : Bytes) : Nat → Nat → Bytes → Bytes
  | 0, _, out => out
  | k + 1, i, out =>
    let tmp := List.zipWith (· ^^^ ·) b0 (out.drop (out.length - 32))
    loop P b0 dst k (i + 1) (out ++ P.sha256 (tmp ++ [UInt8.ofNat i] ++ dst ++ [UInt8.ofNat dst.length]))

/-- seed/xmd.go:18-49, the closure `xmd`, for `ell` rounds in total. -/
def xmd (P : Prim) (msg : Bytes) (length : Int) (ell : Int) (dst : Bytes) : Bytes :=
  let b0 := P.sha256 (List.replicate 64 0 ++ msg ++
    [byteOfInt (length.tdiv 256), byteOfInt (length.tmod 256), 0] ++ dst ++ [UInt8.ofNat dst.length])
  let out := P.sha256 (b0 ++ [1] ++ dst ++ [UInt8.ofNat dst.length])
  loop P b0 dst (ell - 1).toNat 2 out

/-- seed/xmd.go:12-63 `ExpandMessageXmd`.  `make` panics on a negative capacity (line 19), `out[:length]` on a
negative length (line 60). -/
def expandMessageXmd (P : Prim) (msg dst : Bytes) (length : Int) : Res Bytes :=
  if length > 255 * 32 then .err "Requested XMD output length too large"
  else
    let ell := (length - 1).tdiv 32 + 1
    if ell * 32 < 0 then .panic "makeslice: cap out of range"
    else
      let out :=
        if 256 ≤ dst.length then xmd P msg length ell (P.sha256 (ascii "H2C-OVERSIZE-DST-" ++ dst))
        else xmd P msg length ell dst
      if (out.length : Int) > length then
        if length < 0 then .panic "slice bounds out of range" else .ok (out.take length.toNat)
      else .ok out

end Xmd

/-! ### seed/seed.go -/

/-- seed/seed.go:11-13: a 32-byte array. -/
structure Seed where
  value : Bytes
  deriving DecidableEq

namespace Seed

/-- seed/seed.go:15-23 `NewSeed`: the error of the expansion is turned into a panic. -/
def new (P : Prim) (input dst : Bytes) : Res Seed :=
  match Xmd.expandMessageXmd P input dst 32 with
  | .ok derived => .ok ⟨copyInto 32 derived⟩
  | .err e => .panic e
  | .panic e => .panic e
  | .diverge => .diverge

/-- seed/seed.go:25-27. -/
def fromBytes (P : Prim) (value : Bytes) : Res Seed := new P value (ascii "ic-crypto-seed-from-bytes")

/-- seed/seed.go:29-33 (`random.Bytes` XORs the stream into a zero buffer). -/
def fromRandomness (P : Prim) (r : Rng) : Res (Seed × Rng) := do
  let (o, r) := r.xorKeyStream (List.replicate 32 0)
  let s ← new P o (ascii "ic-crypto-seed-from-randomness")
  .ok (s, r)

/-- seed/seed.go:35-39. -/
def fromRng (P : Prim) (r : Rng) : Res (Seed × Rng) := do
  let (o, r) := r.xorKeyStream (List.replicate 32 0)
  let s ← new P o (ascii "ic-crypto-seed-from-rng")
  .ok (s, r)

/-- seed/seed.go:41-43 `Derive`. -/
def derive (P : Prim) (s : Seed) (dst : Bytes) : Res Seed := new P s.value dst

/-- seed/seed.go:45-47 `Rng` with rand/chacha20.go:12-21. -/
def rng (P : Prim) (s : Seed) : Rng := ⟨P.chacha20 s.value, 0⟩

end Seed

/-! ### curve/scalar.go:101-114 -/

namespace Scalar

/-- curve/scalar.go:103-108, the rejection loop (`none`: it never returns).  Note that `FillUint8` XORs into the
buffer, which is not cleared between attempts. -/
def randomLoop (r : Rng) (buf : Bytes) : Option (Fn × Rng) :=
  let (buf', r') := r.xorKeyStream buf
  match deserialize K256 buf' with
  | .ok (some s) => some (s, r')
  | _ => randomLoop r' buf'
partial_fixpoint

/-- curve/scalar.go:101-109 `Random` for K256. -/
def random (r : Rng) : Res (Fn × Rng) :=
  match randomLoop r (List.replicate 32 0) with
  | some x => .ok x
  | none => .diverge

/-- curve/scalar.go:111-114 `FromSeed`. -/
def fromSeed (P : Prim) (s : Seed) : Res Fn := do
  let (x, _) ← random (s.rng P)
  .ok x

end Scalar

end Verif
