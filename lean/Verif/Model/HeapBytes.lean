import Verif.Model.Encode
import Verif.Model.EncodeHex
import Verif.Model.Key
import Verif.Model.Ro

/-!
Byte slices on memory: common/utils.go, seed/xmd.go, ro/ro.go, key/key_derivation.go and curve/encode.go.

A slice is a window into an array that other slices may show as well: its place, its length and its capacity.  Writing through one
slice is seen through the others; `append` writes in place as long as the capacity suffices, and otherwise into a new array, whose
capacity is up to the Go runtime (`grow`, a parameter).  Points and scalars are values here (for them see `Heap.lean`); strings cannot
be changed in Go and are values as well.  The hash functions read their arguments and return new bytes.
-/

set_option autoImplicit false

namespace Verif.HeapBytes

/-- The arrays, and the first one never used. -/
structure Mem where
  arr : Nat → Bytes
  next : Nat

/-- A Go `[]byte`. -/
structure Slice where
  arr : Nat
  off : Nat
  len : Nat
  cap : Nat
  deriving DecidableEq

/-- Code that reads and writes byte slices. -/
def Go (α : Type) : Type := Mem → Res α × Mem

namespace Go

variable {α β : Type}

instance : Monad Go where
  pure a := fun m => (.ok a, m)
  bind g f := fun m =>
    match g m with
    | (.ok a, m) => f a m
    | (.err e, m) => (.err e, m)
    | (.panic e, m) => (.panic e, m)
    | (.diverge, m) => (.diverge, m)

def err (e : String) : Go α := fun m => (.err e, m)
def panic (e : String) : Go α := fun m => (.panic e, m)
/-- Code that computes on values only. -/
def lift (r : Res α) : Go α := fun m => (r, m)

end Go

/-- The bytes a slice shows. -/
def Slice.val (m : Mem) (s : Slice) : Bytes := ((m.arr s.arr).drop s.off).take s.len

/-- `bs` in place of what is at position `i`. -/
def splice (a : Bytes) (i : Nat) (bs : Bytes) : Bytes := a.take i ++ bs ++ a.drop (i + bs.length)

/-- Write into an array. -/
def Mem.write (m : Mem) (a i : Nat) (bs : Bytes) : Mem := { m with arr := Function.update m.arr a (splice (m.arr a) i bs) }

/-- `nil`, as a slice. -/
def nilSlice : Slice := ⟨0, 0, 0, 0⟩

/-- A new array with given bytes, and the slice of all of it: `[]byte{…}`, `var a [k]byte` with `a[:]`, results of hash functions. -/
def alloc (bs : Bytes) : Go Slice := fun m =>
  (.ok ⟨m.next, 0, bs.length, bs.length⟩, { arr := Function.update m.arr m.next bs, next := m.next + 1 })

/-- `make([]byte, len, cap)`. -/
def makeSlice (len cap : Nat) : Go Slice := fun m =>
  (.ok ⟨m.next, 0, len, cap⟩, { arr := Function.update m.arr m.next (List.replicate cap 0), next := m.next + 1 })

/-- All bytes of a slice. -/
def load (s : Slice) : Go Bytes := fun m => (.ok (s.val m), m)

/-- `s[i]`. -/
def index (s : Slice) (i : Nat) : Go UInt8 := fun m =>
  match (s.val m)[i]? with
  | some x => (.ok x, m)
  | none => (.panic "index out of range", m)

/-- `s[i] = v`. -/
def set (s : Slice) (i : Nat) (v : UInt8) : Go Unit := fun m =>
  if i < s.len then (.ok (), m.write s.arr (s.off + i) [v]) else (.panic "index out of range", m)

/-- `s[lo:hi]`: up to the capacity. -/
def reslice (s : Slice) (lo hi : Nat) : Go Slice := fun m =>
  if lo ≤ hi ∧ hi ≤ s.cap then (.ok ⟨s.arr, s.off + lo, hi - lo, s.cap - lo⟩, m) else (.panic "slice bounds out of range", m)

/-- `copy(dst, src)`. -/
def copy (dst src : Slice) : Go Unit := fun m => (.ok (), m.write dst.arr dst.off ((src.val m).take dst.len))

/-- `append(s, bs...)`: in place if the capacity suffices, and otherwise in a new array. -/
def append (grow : Nat → Nat → Nat) (s : Slice) (bs : Bytes) : Go Slice := fun m =>
  if s.len + bs.length ≤ s.cap then (.ok ⟨s.arr, s.off, s.len + bs.length, s.cap⟩, m.write s.arr (s.off + s.len) bs)
  else
    let cap := max (s.len + bs.length) (grow s.cap (s.len + bs.length))
    (.ok ⟨m.next, 0, s.len + bs.length, cap⟩,
      { arr := Function.update m.arr m.next (s.val m ++ bs ++ List.replicate (cap - (s.len + bs.length)) 0), next := m.next + 1 })

/-! ### common/utils.go -/

/-- common/utils.go:6-8, the loop of `ReverseBytes` with `j = k - 1`. -/
def reverseLoop (inBytes out : Slice) : Nat → Nat → Go Unit
  | 0, _ => pure ()
  | k + 1, i => do
    let x ← index inBytes k
    set out i x
    reverseLoop inBytes out k (i + 1)

/-- common/utils.go:3-11 `ReverseBytes`. -/
def reverseBytes (inBytes : Slice) : Go Slice := do
  let out ← makeSlice inBytes.len inBytes.len
  reverseLoop inBytes out inBytes.len 0
  pure out

/-! ### seed/xmd.go -/

section
variable (grow : Nat → Nat → Nat)

/-- seed/xmd.go:35-46 (the loop from `i` for `k` rounds). -/
def xmdLoop (P : Prim) (b0 : Bytes) (dst : Slice) : Nat → Nat → Slice → Go Slice
  | 0, _, out => pure out
  | k + 1, i, out => do
    let o ← load out
    let d ← load dst
    let tmp := List.zipWith (· ^^^ ·) b0 (o.drop (o.length - 32))
    let out ← append grow out (P.sha256 (tmp ++ [UInt8.ofNat i] ++ d ++ [UInt8.ofNat dst.len]))
    xmdLoop P b0 dst k (i + 1) out

/-- seed/xmd.go:18-49, the closure `xmd`. -/
def xmd (P : Prim) (msg : Slice) (length : Int) (ell : Int) (dst : Slice) : Go Slice := do
  let out ← makeSlice 0 (ell * 32).toNat
  let mv ← load msg
  let d ← load dst
  let b0 := P.sha256 (List.replicate 64 0 ++ mv ++ [Xmd.byteOfInt (length.tdiv 256), Xmd.byteOfInt (length.tmod 256), 0] ++ d ++
    [UInt8.ofNat dst.len])
  let out ← append grow out (P.sha256 (b0 ++ [1] ++ d ++ [UInt8.ofNat dst.len]))
  xmdLoop grow P b0 dst (ell - 1).toNat 2 out

/-- seed/xmd.go:50-58: domain separators that are too long are hashed. -/
def xmdAny (P : Prim) (msg : Slice) (length : Int) (ell : Int) (dst : Slice) : Go Slice :=
  if 256 ≤ dst.len then do
    let d ← load dst
    let dst ← alloc (P.sha256 (ascii "H2C-OVERSIZE-DST-" ++ d))
    xmd grow P msg length ell dst
  else xmd grow P msg length ell dst

/-- seed/xmd.go:12-63 `ExpandMessageXmd`. -/
def expandMessageXmd (P : Prim) (msg dst : Slice) (length : Int) : Go Slice :=
  if length > 255 * 32 then Go.err "Requested XMD output length too large"
  else
    let ell := (length - 1).tdiv 32 + 1
    if ell * 32 < 0 then Go.panic "makeslice: cap out of range"
    else do
      let out ← xmdAny grow P msg length ell dst
      if (out.len : Int) > length then
        if length < 0 then Go.panic "slice bounds out of range" else reslice out 0 length.toNat
      else pure out

/-! ### ro/ro.go -/

/-- ro/ro.go:20-24.  The map is changed in place; here its new state is returned. -/
structure RoObj where
  domainSeparator : Bytes
  inputSize : Nat
  inputs : List (Bytes × Slice)

/-- What the transcript is on values. -/
def RoObj.val (m : Mem) (r : RoObj) : Ro := ⟨r.domainSeparator, r.inputSize, r.inputs.map fun e => (e.1, e.2.val m)⟩

/-- ro/ro.go:28-34 `NewRandomOracle`. -/
def newRo (domainSeparator : Bytes) : RoObj := ⟨domainSeparator, 0, []⟩

/-- ro/ro.go:36-57 `AddInput`. -/
def addInput (r : RoObj) (name : Bytes) (input : Slice) (ty : UInt8) : Go (Option String × RoObj) :=
  if (OMap.get nameKey name r.inputs).isSome then pure (some "random oracle input had same name", r)
  else if name.length = 0 ∨ name.length > 255 then pure (some "invalid name length", r)
  else if input.len > 255 then pure (some "invalid input length", r)
  else do
    let encodedInput ← append grow nilSlice [ty]
    let encodedInput ← append grow encodedInput (toBE 4 input.len)
    let i ← load input
    let encodedInput ← append grow encodedInput i
    pure (none, { r with
      inputSize := r.inputSize + (1 + name.length + encodedInput.len)
      inputs := OMap.set nameKey name encodedInput r.inputs })

/-- ro/ro.go:79-81 `AddBytesString`. -/
def addBytesString (r : RoObj) (name : Bytes) (v : Slice) : Go (Option String × RoObj) := addInput grow r name v Ro.tyByteString

/-- ro/ro.go:115-120, the function passed to `Scan`, for the entries in order. -/
def formLoop : List (Bytes × Slice) → Slice → Go Slice
  | [], input => pure input
  | (name, data) :: l, input => do
    let input ← append grow input [UInt8.ofNat name.length]
    let input ← append grow input name
    let d ← load data
    let input ← append grow input d
    formLoop l input

/-- ro/ro.go:110-122 `formRoInput`. -/
def formRoInput (r : RoObj) : Go Slice :=
  if r.inputs.length = 0 then Go.err "invalid input length" else formLoop grow r.inputs nilSlice

/-- ro/ro.go:124-129 `OutputByteString`. -/
def outputByteString (P : Prim) (r : RoObj) (length : Int) : Go Slice := do
  let input ← formRoInput grow r
  let dst ← alloc r.domainSeparator
  expandMessageXmd grow P input dst length

/-! ### key/key_derivation.go -/

/-- key/key_derivation.go:38-45, the carry loop from position `i` for `k` bytes: the last carry. -/
def nextLoop (n : Slice) : Nat → Nat → UInt8 → Go UInt8
  | 0, _, carry => pure carry
  | k + 1, i, carry => do
    let w ← index n i
    let (v, c) := Key.add w carry
    set n i v
    nextLoop n k (i + 1) (if c then 1 else 0)

/-- key/key_derivation.go:35-50 `Next`. -/
def next (d : Slice) : Go Slice := do
  let n ← reverseBytes d
  let carry ← nextLoop n n.len 0 1
  let n ← if carry ≠ 0 then append grow n [carry] else pure n
  reverseBytes n

end

/-- key/key_derivation.go:65-67 `New`: the slices are kept.  (That the slice of the slices is shared as well is left out.) -/
def newPath (path : List Slice) : Go (List Slice) := pure path

/-- key/key_derivation.go:56-64 `NewBip32`. -/
def newBip32 : List UInt32 → Go (List Slice)
  | [] => pure []
  | k :: l => do
    let index ← alloc (toBE 4 k.toNat)
    let rest ← newBip32 l
    pure (index :: rest)

/-- key/key_derivation.go:75-90 `ckdpub`.  Whether its recursion (line 87, with the results discarded) ends, and what it returns, is
taken from `Key.ckdpub`; the arrays made for the discarded calls are left out. -/
def ckdpub (P : Prim) (pk : Pt) (chainKey index : Slice) : Go (Pt × Slice × Fn) := do
  let k ← load chainKey
  let i ← load index
  let (newKey, _, keyOffset) ← Go.lift (Key.ckdpub P pk k i)
  let output ← alloc (Key.computeHMAC P k [Point.serialize pk, i])
  let newChainKey ← reslice output 32 output.len
  pure (newKey, newChainKey, keyOffset)

/-- key/key_derivation.go:102-108, the loop of `DeriveTweak`. -/
def deriveLoop (P : Prim) (derivedKey : Pt) (derivedChainKey : Slice) (derivedOffset : Fn) : List Slice → Go (Fn × Slice)
  | [] => pure (derivedOffset, derivedChainKey)
  | idx :: path => do
    let (nextDerivedKey, nextChainKey, nextOffset) ← ckdpub P derivedKey derivedChainKey idx
    deriveLoop P nextDerivedKey nextChainKey (derivedOffset + nextOffset) path

/-- key/key_derivation.go:92-110 `DeriveTweak`. -/
def deriveTweak (P : Prim) (path : List Slice) (pk : Pt) : Go (Fn × Slice) := do
  let empty ← alloc (List.replicate 32 0)
  deriveLoop P pk empty 0 path

/-! ### curve/encode.go -/

namespace Enc

/-- curve/encode.go:113-116, 160-164 `Default`, `Identity`. -/
def identity : Go Slice := makeSlice 32 32

/-- curve/encode.go:259-261 `Tag`. -/
def tag (e : Slice) : Go UInt8 := index e 0

/-- curve/encode.go:122-131 `FromBytes`. -/
def fromBytes (input : Slice) : Go Slice := do
  let t ← index input 0
  if input.len ≠ Encode.messageLen t then Go.err "point decode failed"
  else do
    let bytes ← makeSlice (Encode.messageLen t) (Encode.messageLen t)
    copy bytes input
    pure bytes

/-- curve/encode.go:133-139 `FromStr`. -/
def fromStr (str : Bytes) : Go Slice := do
  let b ← Go.lift (Hex.decodeString str)
  let bytes ← alloc b
  fromBytes bytes

/-- curve/encode.go:146-158 `FromAffineCoordinates` (with lines 42-47 for the tag). -/
def fromAffineCoordinates (x y : Slice) (compress : Bool) : Go Slice := do
  let yv ← load y
  let t ← Go.lift (if compress then Encode.compressY yv else .ok 4)
  let bytes ← makeSlice 65 65
  set bytes 0 t
  let dx ← reslice bytes 1 33
  copy dx x
  let dy ← reslice bytes 33 bytes.len
  copy dy y
  pure bytes

/-- curve/encode.go:141-144 `FromUnTaggedBytes`. -/
def fromUnTaggedBytes (input : Slice) : Go Slice := do
  let x ← reslice input 0 32
  let y ← reslice input 32 input.len
  fromAffineCoordinates x y false

/-- curve/encode.go:166-176 `ConditionalSelect`. -/
def conditionalSelect (a b : Slice) (choice : Nat) : Go Slice := do
  let src := if choice = 0 then a else b
  let bytes ← makeSlice src.len src.len
  copy bytes src
  pure bytes

/-- curve/encode.go:178-184 `AsBytes`. -/
def asBytes (e : Slice) : Go Slice := do
  let t ← tag e
  reslice e 0 (Encode.messageLen t)

/-- curve/encode.go:202-209 `Compress`. -/
def compress (e : Slice) : Go Slice := do
  let t ← tag e
  if t = 5 ∨ Encode.isCompressed t = true ∨ t = 0 then pure e
  else do
    let x ← reslice e 1 33
    let y ← reslice e 33 e.len
    fromAffineCoordinates x y true

/-- curve/encode.go:211-246 `X` (with `Coordinates`; lines 216 and 239 for the slices). -/
def x (e : Slice) : Go Slice := do
  let t ← tag e
  if t = 0 then pure nilSlice
  else do
    let x ← reslice e 1 33
    let _ ← reslice e 33 e.len
    pure x

/-- curve/encode.go:211-231, 248-257 `Y`. -/
def y (e : Slice) : Go Slice := do
  let t ← tag e
  if t = 0 then pure nilSlice
  else do
    let _ ← reslice e 1 33
    let y ← reslice e 33 e.len
    if Encode.isCompressed t = true ∨ t = 5 then pure nilSlice else pure y

end Enc

end Verif.HeapBytes
