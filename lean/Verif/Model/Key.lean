import Verif.Model.Point
import Verif.Model.Prim

/-!
Model of key/key_derivation.go.
-/

namespace Verif.Key

/-- key/key_derivation.go:25-31 `add`: on overflow the sum is reported as 0. -/
def add (a b : UInt8) : UInt8 × Bool :=
  let c := a.toNat + b.toNat
  if c > 255 then (0, true) else (UInt8.ofNat c, false)

/-- key/key_derivation.go:33 `DerivationIndex`. -/
abbrev Index := Bytes

/-- key/key_derivation.go:38-45, the carry loop over the little-endian bytes: the new bytes and the last carry. -/
def nextLoop : Bytes → UInt8 → Bytes × UInt8
  | [], carry => ([], carry)
  | w :: ws, carry =>
    let (v, c) := add w carry
    let (vs, last) := nextLoop ws (if c then 1 else 0)
    (v :: vs, last)

/-- key/key_derivation.go:35-50 `Next`. -/
def Index.next (d : Index) : Index :=
  let n := reverseBytes d
  let (n, carry) := nextLoop n 1
  let n := if carry ≠ 0 then n ++ [carry] else n
  reverseBytes n

/-- key/key_derivation.go:56-64 `NewBip32`: each number becomes four big-endian bytes.  (A `DerivationPath` is its list
of indices, lines 52-54 and 65-67.) -/
def newBip32 (l : List UInt32) : List Index := l.map fun k => toBE 4 k.toNat

/-- key/key_derivation.go:112-128 `ComputeHMAC` with SHA-512: the messages are concatenated; `Write` of a hash never
fails. -/
def computeHMAC (P : Prim) (k : Bytes) (msg : List Bytes) : Bytes := P.hmacSha512 k msg.flatten

/-- key/key_derivation.go:75-90 `ckdpub`.  `none`: the recursion of line 87 never ends.  The recursive call's results
are discarded. -/
def ckdpubLoop (P : Prim) (pk : Pt) (chainKey : Bytes) (index : Index) : Option (Res (Pt × Bytes × Fn)) :=
  let output := computeHMAC P chainKey [Point.serialize pk, index]
  match Scalar.fromBytesWide (output.take 32) with
  | .ok keyOffset =>
    let newChainKey := output.drop 32
    let newKey := pk + Point.mulByG keyOffset
    if Scalar.serialize keyOffset ≠ output.take 32 ∨ newKey = 0 then
      ckdpubLoop P pk chainKey index.next >>= fun _ => some (.ok (newKey, newChainKey, keyOffset))
    else some (.ok (newKey, newChainKey, keyOffset))
  | .err e => some (.err e)
  | .panic e => some (.panic e)
  | .diverge => none
partial_fixpoint

/-- key/key_derivation.go:75-90 `ckdpub`. -/
def ckdpub (P : Prim) (pk : Pt) (chainKey : Bytes) (index : Index) : Res (Pt × Bytes × Fn) :=
  match ckdpubLoop P pk chainKey index with
  | some r => r
  | none => .diverge

/-- key/key_derivation.go:102-108, the loop of `DeriveTweak` from a given key, chain key and offset. -/
def deriveLoop (P : Prim) (derivedKey : Pt) (derivedChainKey : Bytes) (derivedOffset : Fn) :
    List Index → Res (Fn × Bytes)
  | [] => .ok (derivedOffset, derivedChainKey)
  | idx :: path => do
    let (nextDerivedKey, nextChainKey, nextOffset) ← ckdpub P derivedKey derivedChainKey idx
    deriveLoop P nextDerivedKey nextChainKey (derivedOffset + nextOffset) path

/-- key/key_derivation.go:92-110 `DeriveTweak` (every point is a K256 point). -/
def deriveTweak (P : Prim) (path : List Index) (pk : Pt) : Res (Fn × Bytes) :=
  deriveLoop P pk (List.replicate 32 0) 0 path

end Verif.Key
