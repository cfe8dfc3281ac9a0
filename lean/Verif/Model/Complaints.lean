import Verif.Model.Transcript

/-!
Model of complaints/complaints.go.

A complaint's proof and shared secret are non-nil.  The errors of `ro.Add…` are ignored by the code (`.2`).
-/

set_option autoImplicit false

namespace Verif.Complaints

open Mega Dealings

/-- complaints/complaints.go:17-20. -/
structure Complaint where
  proof : Zk.Proof
  sharedSecret : Pt

/-- `fmt.Sprintf("%d", i)` of a Go `int`. -/
def decimalInt (i : Int) : Bytes := if i < 0 then ascii "-" ++ decimal i.natAbs else decimal i.natAbs

/-- The label of complaints/complaints.go:29. -/
def label (dealer : NodeIndex) : Bytes := ascii "ic-crypto-tecdsa-complaint-against-" ++ decimalInt dealer.toInt

/-- The oracle filled by complaints/complaints.go:63-67. -/
def assocTranscript (ad : Bytes) (receiver dealer : NodeIndex) (pk : Pt) : Ro :=
  let ro := Ro.new (ascii "ic-crypto-tecdsa-complaint-proof-assoc-data")
  let ro := (ro.addBytesString (ascii "associated_data") ad).2
  let ro := (ro.addUint32 (ascii "receiver_index") (uint32Of receiver)).2
  let ro := (ro.addUint32 (ascii "dealer_index") (uint32Of dealer)).2
  let ro := (ro.addPoint (ascii "receiver_public_key") pk).2
  ro

/-- complaints/complaints.go:62-69 `createProofAssocData`. -/
def createProofAssocData (P : Prim) (ad : Bytes) (receiver dealer : NodeIndex) (pk : Pt) : Res Bytes :=
  (assocTranscript ad receiver dealer pk).outputByteString P 32

/-- complaints/complaints.go:46-60 `NewComplaintInternal`. -/
def newComplaint (P : Prim) (seed : Seed) (d : Dealing) (dealer receiver : NodeIndex) (secret : Fn) (pk : Pt) (ad : Bytes) :
    Res Complaint := do
  let c ← nonNil d.ciphertext
  let sharedSecret := Point.scalarMul c.ephemeral secret
  let proofAssocData ← createProofAssocData P ad receiver dealer pk
  let proof ← Zk.Dlog.create P seed secret G c.ephemeral proofAssocData
  .ok ⟨proof, sharedSecret⟩

/-- complaints/complaints.go:25-36, the scan over the dealings. -/
def scan (P : Prim) (ad : Bytes) (receiver : NodeIndex) (secret : Fn) (pk : Pt) (seed : Seed) :
    List (NodeIndex × Complaint) → DealingMap → Res (List (NodeIndex × Complaint))
  | complaints, [] => .ok complaints
  | complaints, x :: rest =>
    match openDealing P x.2 ad x.1 receiver secret pk with
    | .ok _ => scan P ad receiver secret pk seed complaints rest
    | .err _ => do
      let complaintSeed ← seed.derive P (label x.1)
      let complaint ← newComplaint P complaintSeed x.2 x.1 receiver secret pk ad
      scan P ad receiver secret pk seed (OMap.set BitVec.toInt x.1 complaint complaints) rest
    | .panic e => .panic e
    | .diverge => .diverge

/-- complaints/complaints.go:22-44 `GenerateComplaints`. -/
def generateComplaints (P : Prim) (dealings : DealingMap) (ad : Bytes) (receiver : NodeIndex) (secret : Fn) (pk : Pt)
    (seed : Seed) : Res (List (NodeIndex × Complaint)) := do
  let complaints ← scan P ad receiver secret pk seed [] dealings
  if complaints.length = 0 then .err "generate_complaints should return at least one complaint" else .ok complaints

/-- complaints/complaints.go:80-94, the opening that is to be checked. -/
def claimedOpening (P : Prim) (c : Cipher) (kind : Kind) (ad : Bytes) (dealer complainer : NodeIndex) (pk shared : Pt) :
    Res Opening :=
  match c, kind with
  | .single m, .simple => do
    let s ← Single.decryptFromSharedSecret P m ad dealer complainer pk shared
    .ok (.simple s)
  | .pair m, .pedersen => do
    let s ← Pair.decryptFromSharedSecret P m ad dealer complainer pk shared
    .ok (.pedersen s.1 s.2)
  | _, _ => .err "unexpected commitment type"

/-- complaints/complaints.go:71-100 `Verify`. -/
def verify (P : Prim) (c : Complaint) (d : Dealing) (dealer complainer : NodeIndex) (pk : Pt) (ad : Bytes) : Res Unit := do
  let proofAssocData ← createProofAssocData P ad complainer dealer pk
  let ct ← nonNil d.ciphertext
  Zk.Dlog.verify P c.proof G ct.ephemeral pk c.sharedSecret proofAssocData
  let cm ← nonNil d.commitment
  let o ← claimedOpening P ct cm.kind ad dealer complainer pk c.sharedSecret
  if ← cm.checkOpening complainer o then .err "invalid complaint" else .ok ()

end Verif.Complaints
