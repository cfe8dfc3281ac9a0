import Verif.Model.Prim

/-!
RFC 9380, section 5.3.1 `expand_message_xmd` and section 5.3.3 (oversize DSTs) with SHA-256
(`b_in_bytes = 32`, `s_in_bytes = 64`), transcribed from the RFC.
-/

namespace Verif.Rfc9380

/-- I2OSP. -/
def i2osp (value length : Nat) : Bytes := toBE length value

/-- `DST_prime = DST || I2OSP(len(DST), 1)`. -/
def dstPrime (dst : Bytes) : Bytes := dst ++ i2osp dst.length 1

/-- Section 5.3.3: DSTs longer than 255 bytes are hashed. -/
def effectiveDst (H : Bytes → Bytes) (dst : Bytes) : Bytes :=
  if dst.length > 255 then H (ascii "H2C-OVERSIZE-DST-" ++ dst) else dst

/-- `msg_prime = Z_pad || msg || l_i_b_str || I2OSP(0, 1) || DST_prime`. -/
def msgPrime (msg dst : Bytes) (len : Nat) : Bytes :=
  i2osp 0 64 ++ msg ++ i2osp len 2 ++ i2osp 0 1 ++ dstPrime dst

def strxor (a b : Bytes) : Bytes := List.zipWith (· ^^^ ·) a b

/-- The blocks `b_1, b_2, …` (`block 0` is `b_1`). -/
def block (H : Bytes → Bytes) (b0 dst : Bytes) : Nat → Bytes
  | 0 => H (b0 ++ i2osp 1 1 ++ dstPrime dst)
  | i + 1 => H (strxor b0 (block H b0 dst i) ++ i2osp (i + 2) 1 ++ dstPrime dst)

/-- `ell = ceil(len_in_bytes / b_in_bytes)`. -/
def ell (len : Nat) : Nat := (len + 31) / 32

/-- `uniform_bytes = b_1 || ... || b_ell`, truncated; `none` is ABORT (`ell > 255 or len_in_bytes > 65535`). -/
def expandMessageXmd (H : Bytes → Bytes) (msg dst : Bytes) (len : Nat) : Option Bytes :=
  if ell len > 255 ∨ len > 65535 then none
  else
    let d := effectiveDst H dst
    let b0 := H (msgPrime msg d len)
    some (((List.range (ell len)).flatMap (block H b0 d)).take len)

end Verif.Rfc9380
