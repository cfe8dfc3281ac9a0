import Verif.Model.Zk
import Verif.Model.Commitment

/-!
Model of mega/mega.go, mega/ciphertext.go and mega/key.go.

A `*MEGaPublicKey` is its point, a `*MEGaPrivateKey` its scalar.  Points and proofs inside ciphertexts are non-nil and on
the curve; all of them are K256, so the curve comparisons of the code always succeed and are omitted except in `VerifyIs`.
The errors of `ro.Add…` are ignored by the code (`.2`).
-/

set_option autoImplicit false

namespace Verif.Mega

/-- mega/mega.go:11-14 with mega/ciphertext.go:12 (the two values the code passes; any other value has empty
separators). -/
inductive CType where
  | single
  | pairs
  deriving DecidableEq, Repr

/-- mega/ciphertext.go:14-22. -/
def CType.encryptionDst : CType → Bytes
  | .single => ascii "ic-crypto-tecdsa-mega-encryption-single-encrypt"
  | .pairs => ascii "ic-crypto-tecdsa-mega-encryption-pair-encrypt"

/-- mega/ciphertext.go:24-32. -/
def CType.popBaseDst : CType → Bytes
  | .single => ascii "ic-crypto-tecdsa-mega-encryption-single-pop-base"
  | .pairs => ascii "ic-crypto-tecdsa-mega-encryption-pair-pop-base"

/-- mega/ciphertext.go:34-42. -/
def CType.popProofDst : CType → Bytes
  | .single => ascii "ic-crypto-tecdsa-mega-encryption-single-pop-proof"
  | .pairs => ascii "ic-crypto-tecdsa-mega-encryption-pair-pop-proof"

/-- mega/ciphertext.go:44-52. -/
def CType.ephemeralKeyDst : CType → Bytes
  | .single => ascii "ic-crypto-tecdsa-mega-encryption-single-ephemeral-key"
  | .pairs => ascii "ic-crypto-tecdsa-mega-encryption-pair-ephemeral-key"

/-- Go `uint32(i)` of a node index. -/
def uint32Of (i : NodeIndex) : Nat := (i.setWidth 32).toNat

/-- The oracle filled by mega/mega.go:22-28. -/
def padTranscript (t : CType) (dealer recipient : NodeIndex) (ad : Bytes) (pk eph shared : Pt) : Ro :=
  let ro := Ro.new t.encryptionDst
  let ro := (ro.addUint32 (ascii "dealer_index") (uint32Of dealer)).2
  let ro := (ro.addUint32 (ascii "recipient_index") (uint32Of recipient)).2
  let ro := (ro.addBytesString (ascii "associated_data") ad).2
  let ro := (ro.addPoint (ascii "public_key") pk).2
  let ro := (ro.addPoint (ascii "ephemeral_key") eph).2
  let ro := (ro.addPoint (ascii "shared_secret") shared).2
  ro

/-- mega/mega.go:16-30 `megaHashToScalars`. -/
def hashToScalars (P : Prim) (t : CType) (dealer recipient : NodeIndex) (ad : Bytes) (pk eph shared : Pt) :
    Res (List Fn) :=
  (padTranscript t dealer recipient ad pk eph shared).outputScalars P (match t with | .single => 1 | .pairs => 2)

/-- The oracle filled by mega/mega.go:38-41. -/
def popTranscript (t : CType) (ad : Bytes) (dealer : NodeIndex) (eph : Pt) : Ro :=
  let ro := Ro.new t.popBaseDst
  let ro := (ro.addBytesString (ascii "associated_data") ad).2
  let ro := (ro.addUint32 (ascii "dealer_index") (uint32Of dealer)).2
  let ro := (ro.addPoint (ascii "ephemeral_key") eph).2
  ro

/-- mega/mega.go:37-43 `ComputePopBase`.  The last match turns the decoder's raw point into a curve point; that it
always is one is C17. -/
def computePopBase (P : Prim) (t : CType) (ad : Bytes) (dealer : NodeIndex) (eph : Pt) : Res Pt := do
  let raw ← (popTranscript t ad dealer eph).outputPoint P
  match Point.ofRaw? raw with
  | some B => .ok B
  | none => .panic "not modelled: point off the curve"

/-- mega/mega.go:46-53 `VerifyPop`. -/
def verifyPop (P : Prim) (t : CType) (ad : Bytes) (dealer : NodeIndex) (eph popPublic : Pt) (pf : Zk.Proof) :
    Res Unit := do
  let popBase ← computePopBase P t ad dealer eph
  Zk.Dlog.verify P pf G popBase eph popPublic ad

/-- mega/mega.go:66-79 `ComputeEphKeyAndPop`: `(beta, v, popPublicKey, popProof)`. -/
def computeEphKeyAndPop (P : Prim) (t : CType) (seed : Seed) (ad : Bytes) (dealer : NodeIndex) :
    Res (Fn × Pt × Pt × Zk.Proof) := do
  let s ← seed.derive P t.ephemeralKeyDst
  let beta ← Scalar.fromSeed P s
  let v := Point.mulByG beta
  let popBase ← computePopBase P t ad dealer v
  let popPublic := Point.scalarMul popBase beta
  let s' ← seed.derive P t.popProofDst
  let pf ← Zk.Dlog.create P s' beta G popBase ad
  .ok (beta, v, popPublic, pf)

/-- mega/ciphertext.go:135-140 (`τ` a scalar) and 229-234 (`τ` a pair of scalars). -/
structure Ciphertext (τ : Type) where
  ephemeralKey : Pt
  popPublicKey : Pt
  popProof : Zk.Proof
  ctexts : List τ

/-- mega/ciphertext.go:93-112 `checkPlaintexts`, 114-133 `checkPlaintextsPair`. -/
def checkPlaintexts {τ : Type} (plaintexts : List τ) (recipients : List Pt) : Res Unit :=
  if plaintexts.length ≠ recipients.length then .err "Must be as many plaintexts as recipients"
  else if plaintexts.length = 0 then .err "Must encrypt at least one plaintext"
  else .ok ()

/-- Go `s[i]` for an `int` index. -/
def index {τ : Type} (l : List τ) (i : Int) : Res τ :=
  if i < 0 then .panic "index out of range"
  else match l[i.toNat]? with
    | some a => .ok a
    | none => .panic "index out of range"

namespace Single

/-- mega/ciphertext.go:75-84, the loop of `EncryptCiphertextSingle` from position `i` on. -/
def encryptLoop (P : Prim) (dealer : NodeIndex) (ad : Bytes) (beta : Fn) (v : Pt) :
    Nat → List Pt → List Fn → Res (List Fn)
  | i, pubkey :: pks, ptext :: pts => do
    let ubeta := Point.scalarMul pubkey beta
    let hm ← hashToScalars P .single dealer (BitVec.ofNat 64 i) ad pubkey v ubeta
    let h0 ← index hm 0
    let rest ← encryptLoop P dealer ad beta v (i + 1) pks pts
    .ok ((h0 + ptext) :: rest)
  | _, [], _ => .ok []
  | _, _ :: _, [] => .panic "index out of range"

/-- mega/ciphertext.go:65-91 `EncryptCiphertextSingle`. -/
def encrypt (P : Prim) (seed : Seed) (plaintexts : List Fn) (recipients : List Pt) (dealer : NodeIndex) (ad : Bytes) :
    Res (Ciphertext Fn) := do
  checkPlaintexts plaintexts recipients
  let (beta, v, popPublic, pf) ← computeEphKeyAndPop P .single seed ad dealer
  let ctexts ← encryptLoop P dealer ad beta v 0 recipients plaintexts
  .ok ⟨v, popPublic, pf, ctexts⟩

/-- mega/ciphertext.go:175-180 `CheckValidity`, with `VerifyPop` of lines 196-198. -/
def checkValidity (P : Prim) (m : Ciphertext Fn) (expected : Int) (ad : Bytes) (dealer : NodeIndex) : Res Unit :=
  if (m.ctexts.length : Int) ≠ expected then .err "invalid recipients"
  else verifyPop P .single ad dealer m.ephemeralKey m.popPublicKey m.popProof

/-- mega/ciphertext.go:181-194 `VerifyIs` (everything in the ciphertext is K256). -/
def verifyIs (_ : Ciphertext Fn) (t : CType) (curve : CurveType) : Res Unit :=
  if K256 ≠ curve then .err "curve mismatch"
  else if CType.single ≠ t then .err "inconsistent ciphertext"
  else .ok ()

/-- mega/ciphertext.go:200-209 `DecryptFromSharedSecret`: a negative index passes the test and panics in the slice. -/
def decryptFromSharedSecret (P : Prim) (m : Ciphertext Fn) (ad : Bytes) (dealer recipient : NodeIndex) (pk shared : Pt) :
    Res Fn :=
  if (m.ctexts.length : Int) ≤ recipient.toInt then .err "invalid index"
  else do
    let hm ← hashToScalars P .single dealer recipient ad pk m.ephemeralKey shared
    let c ← index m.ctexts recipient.toInt
    let h0 ← index hm 0
    .ok (c - h0)

/-- mega/ciphertext.go:210-216 `Decrypt`. -/
def decrypt (P : Prim) (m : Ciphertext Fn) (ad : Bytes) (dealer recipient : NodeIndex) (secret : Fn) (pk : Pt) :
    Res Fn := do
  verifyPop P .single ad dealer m.ephemeralKey m.popPublicKey m.popProof
  decryptFromSharedSecret P m ad dealer recipient pk (Point.scalarMul m.ephemeralKey secret)

/-- mega/ciphertext.go:217-227 `DecryptAndCheck`. -/
def decryptAndCheck (P : Prim) (m : Ciphertext Fn) (commitment : Commitment) (ad : Bytes) (dealer receiver : NodeIndex)
    (secret : Fn) (pk : Pt) : Res Opening := do
  let s ← decrypt P m ad dealer receiver secret pk
  if ← commitment.checkOpening receiver (.simple s) then .ok (.simple s) else .err "invalid commitment"

end Single

namespace Pair

/-- mega/ciphertext.go:245-255, the loop of `EncryptCiphertextPair` from position `i` on. -/
def encryptLoop (P : Prim) (dealer : NodeIndex) (ad : Bytes) (beta : Fn) (v : Pt) :
    Nat → List Pt → List (Fn × Fn) → Res (List (Fn × Fn))
  | i, pubkey :: pks, ptext :: pts => do
    let ubeta := Point.scalarMul pubkey beta
    let hm ← hashToScalars P .pairs dealer (BitVec.ofNat 64 i) ad pubkey v ubeta
    let h0 ← index hm 0
    let h1 ← index hm 1
    let rest ← encryptLoop P dealer ad beta v (i + 1) pks pts
    .ok ((h0 + ptext.1, h1 + ptext.2) :: rest)
  | _, [], _ => .ok []
  | _, _ :: _, [] => .panic "index out of range"

/-- mega/ciphertext.go:236-262 `EncryptCiphertextPair`. -/
def encrypt (P : Prim) (seed : Seed) (plaintexts : List (Fn × Fn)) (recipients : List Pt) (dealer : NodeIndex)
    (ad : Bytes) : Res (Ciphertext (Fn × Fn)) := do
  checkPlaintexts plaintexts recipients
  let (beta, v, popPublic, pf) ← computeEphKeyAndPop P .pairs seed ad dealer
  let ctexts ← encryptLoop P dealer ad beta v 0 recipients plaintexts
  .ok ⟨v, popPublic, pf, ctexts⟩

/-- mega/ciphertext.go:309-314 `CheckValidity`, with `VerifyPop` of lines 284-286. -/
def checkValidity (P : Prim) (m : Ciphertext (Fn × Fn)) (expected : Int) (ad : Bytes) (dealer : NodeIndex) : Res Unit :=
  if (m.ctexts.length : Int) ≠ expected then .err "invalid recipients"
  else verifyPop P .pairs ad dealer m.ephemeralKey m.popPublicKey m.popProof

/-- mega/ciphertext.go:316-329 `VerifyIs`. -/
def verifyIs (_ : Ciphertext (Fn × Fn)) (t : CType) (curve : CurveType) : Res Unit :=
  if K256 ≠ curve then .err "curve mismatch"
  else if CType.pairs ≠ t then .err "inconsistent ciphertext"
  else .ok ()

/-- mega/ciphertext.go:288-300 `DecryptFromSharedSecret`. -/
def decryptFromSharedSecret (P : Prim) (m : Ciphertext (Fn × Fn)) (ad : Bytes) (dealer recipient : NodeIndex)
    (pk shared : Pt) : Res (Fn × Fn) :=
  if (m.ctexts.length : Int) ≤ recipient.toInt then .err "invalid index"
  else do
    let hm ← hashToScalars P .pairs dealer recipient ad pk m.ephemeralKey shared
    let c ← index m.ctexts recipient.toInt
    let h0 ← index hm 0
    let h1 ← index hm 1
    .ok (c.1 - h0, c.2 - h1)

/-- mega/ciphertext.go:301-307 `Decrypt`. -/
def decrypt (P : Prim) (m : Ciphertext (Fn × Fn)) (ad : Bytes) (dealer recipient : NodeIndex) (secret : Fn) (pk : Pt) :
    Res (Fn × Fn) := do
  verifyPop P .pairs ad dealer m.ephemeralKey m.popPublicKey m.popProof
  decryptFromSharedSecret P m ad dealer recipient pk (Point.scalarMul m.ephemeralKey secret)

/-- mega/ciphertext.go:330-342 `DecryptAndCheck`. -/
def decryptAndCheck (P : Prim) (m : Ciphertext (Fn × Fn)) (commitment : Commitment) (ad : Bytes)
    (dealer receiver : NodeIndex) (secret : Fn) (pk : Pt) : Res Opening := do
  let s ← decrypt P m ad dealer receiver secret pk
  if ← commitment.checkOpening receiver (.pedersen s.1 s.2) then .ok (.pedersen s.1 s.2) else .err "invalid commitment"

end Pair

/-- mega/key.go:14-19 `GenKeypair` (with lines 71-73, 78-83): public and private key. -/
def genKeypair (P : Prim) (seed : Seed) : Res (Pt × Fn) := do
  let (secret, _) ← Scalar.random (seed.rng P)
  .ok (Point.mulByG secret, secret)

/-- mega/key.go:33-39 `PublicKey.Deserialize`; a nil point is wrapped without a check. -/
def publicKeyDeserialize (curve : CurveType) (value : Bytes) : Res (Option RawPt) := Point.deserialize curve value

/-- mega/key.go:21-24 `VerifyMegaPublicKey`. -/
def verifyPublicKey (curve : CurveType) (raw : Bytes) : Res Unit := do
  let _ ← publicKeyDeserialize curve raw
  .ok ()

/-- mega/key.go:85-93 `PrivateKey.Deserialize`. -/
def privateKeyDeserialize (curve : CurveType) (value : Bytes) : Res (Option Fn) := Scalar.deserialize curve value

end Verif.Mega
