import Verif.Model.HeapDealings
import Verif.Model.Sign
import Verif.Model.Complaints

/-!
key/key_derivation.go, sign/sign.go, sign/share.go, sign/combined_sig.go and complaints/complaints.go on memory.

Signature shares, signatures and complaints are not assigned to after their construction, so they are records of the
addresses they hold.  Chain keys, messages and paths are byte strings; the code that computes on them alone is that of
`Verif.Model.Key` and `Verif.Model.Sign`.  `AffineX` reads a point; the field element it returns is only turned into bytes
or compared, so it is its value here.
-/

set_option autoImplicit false

namespace Verif.Heap

/-! ### key/key_derivation.go -/

/-- key/key_derivation.go:75-90 `ckdpub`.  `none`: the recursion of line 87 never ends.  The recursive call's results are
discarded, but what it allocates stays allocated. -/
def ckdpubLoop (P : Prim) (pk : Addr) (chainKey : Bytes) (index : Key.Index) (m : Mem) :
    Option (Res (Addr × Bytes × Addr) × Mem) :=
  let output := Key.computeHMAC P chainKey [Point.serialize (m.pt pk), index]
  match (Go.lift (Scalar.fromBytesWide (output.take 32)) >>= newSc) m with
  | (.ok keyOffset, m) =>
    let newChainKey := output.drop 32
    match (do
      let c ← clonePt pk
      let t ← mulByG keyOffset
      addPt c pk t : Go Addr) m with
    | (.ok newKey, m) =>
      if Scalar.serialize (m.sc keyOffset) ≠ output.take 32 ∨ m.pt newKey = 0 then
        ckdpubLoop P pk chainKey index.next m >>= fun r =>
          match r with
          | (.panic e, m) => some (.panic e, m)
          | (.diverge, _) => none
          | (_, m) => some (.ok (newKey, newChainKey, keyOffset), m)
      else some (.ok (newKey, newChainKey, keyOffset), m)
    | (.err e, m) => some (.err e, m)
    | (.panic e, m) => some (.panic e, m)
    | (.diverge, _) => none
  | (.err e, m) => some (.err e, m)
  | (.panic e, m) => some (.panic e, m)
  | (.diverge, _) => none
partial_fixpoint

/-- key/key_derivation.go:75-90 `ckdpub`.  (There is no memory after a call that does not end.) -/
def ckdpub (P : Prim) (pk : Addr) (chainKey : Bytes) (index : Key.Index) : Go (Addr × Bytes × Addr) := fun m =>
  match ckdpubLoop P pk chainKey index m with
  | some r => r
  | none => (.diverge, m)

/-- key/key_derivation.go:102-108, the loop of `DeriveTweak`; the offset is summed up in place. -/
def deriveLoop (P : Prim) (derivedKey : Addr) (derivedChainKey : Bytes) (derivedOffset : Addr) :
    List Key.Index → Go (Addr × Bytes)
  | [] => pure (derivedOffset, derivedChainKey)
  | idx :: path => do
    let next ← ckdpub P derivedKey derivedChainKey idx
    let off ← addSc derivedOffset derivedOffset next.2.2
    deriveLoop P next.1 next.2.1 off path

/-- key/key_derivation.go:92-110 `DeriveTweak`. -/
def deriveTweak (P : Prim) (path : List Key.Index) (pk : Addr) : Go (Addr × Bytes) := do
  let derivedKey ← clonePt pk
  let derivedOffset ← newSc 0
  deriveLoop P derivedKey (List.replicate 32 0) derivedOffset path

/-! ### sign/sign.go -/

/-- sign/sign.go:12-15 `EcdsaConversion`. -/
def ecdsaConversion (pt : Addr) : Go Addr := do
  let v ← readPt pt
  let s ← Go.lift (Sign.ecdsaConversion v)
  newSc s

/-- sign/sign.go:17-19 `ConvertHashToInteger`. -/
def convertHashToInteger (hashedMsg : Bytes) : Go Addr := do
  let s ← Go.lift (Sign.convertHashToInteger hashedMsg)
  newSc s

/-- sign/sign.go:22-27. -/
def preSigOf : Option ComObj → Go Addr
  | some ⟨.interpolation, c⟩ =>
    match c.kind with
    | .simple => constantTerm c.points
    | .pedersen => Go.err "unexpected commitment type"
  | _ => Go.err "unexpected commitment type"

/-- The results of `DeriveRho`. -/
structure DerivedObj where
  rho : Addr
  keyTweak : Addr
  randomizer : Addr
  randomizedPresig : Addr

/-- sign/sign.go:21-47 `DeriveRho`. -/
def deriveRho (P : Prim) (hashedMsg randomness : Bytes) (path : List Key.Index) (keyT presigT : Option ComObj) :
    Go DerivedObj := do
  let preSig ← preSigOf presigT
  let key ← transcriptConstantTerm keyT
  let tweak ← deriveTweak P path key
  let vp ← readPt preSig
  let vt ← readSc tweak.1
  let r ← Go.lift ((Sign.rhoTranscript randomness hashedMsg vp vt).outputScalar P)
  let randomizer ← newSc r
  let c ← clonePt preSig
  let g ← newPt G
  let g' ← newPt G
  let rg ← smulPt g g' randomizer
  let randomizedPresig ← addPt c preSig rg
  let rho ← ecdsaConversion randomizedPresig
  pure ⟨rho, tweak.1, randomizer, randomizedPresig⟩

/-- sign/sign.go:52-67 `DerivePublicKey`: the serialised key and the chain key. -/
def derivePublicKey (P : Prim) (masterPublicKey : Bytes) (path : List Key.Index) : Go (Bytes × Bytes) := do
  let d ← Go.lift (Point.deserialize K256 masterPublicKey)
  match d with
  | none => Go.panic "nil pointer dereference"
  | some r =>
    match Point.ofRaw? r with
    | none => Go.panic "not a point of the curve"
    | some v => do
      let pk ← newPt v
      let tweak ← deriveTweak P path pk
      let tweakg ← mulByG tweak.1
      let publicKey ← addPt tweakg tweakg pk
      let w ← readPt publicKey
      let b ← Go.lift (Point.serializeRes w)
      pure (b, tweak.2)

/-! ### sign/share.go -/

/-- sign/share.go:12-15. -/
structure SigShareObj where
  sigmaNumerator : Option OpeningObj
  sigmaDenominator : Option OpeningObj

/-- sign/share.go:29-32: the two pointers of a `PedersenCommitmentOpening`, nil for every other dynamic type. -/
def pedersenValue : Option OpeningObj → Option (Addr × Addr)
  | some (.pedersen v m) => some (v, m)
  | _ => none

/-- sign/share.go:75, 80: those of a `*PedersenCommitmentOpening`. -/
def pedersenPointer : Option OpeningObj → Option (Addr × Addr)
  | some (.pedersenPtr v m) => some (v, m)
  | _ => none

/-- sign/share.go:33-40. -/
def nuOf (theta rho : Addr) (lambda keyTimesLambda : Option OpeningObj) : Go (Option OpeningObj) :=
  match pedersenValue keyTimesLambda with
  | none => pure none
  | some k =>
    match pedersenValue lambda with
    | none => do
      let _ ← cloneSc theta
      Go.panic "interface conversion"
    | some l => do
      let nuValue ← mulNew theta l.1
      let t ← mulNew rho k.1
      let nuValue ← addSc nuValue nuValue t
      let nuMask ← mulNew theta l.2
      let t ← mulNew rho k.2
      let nuMask ← addSc nuMask nuMask t
      pure (some (.pedersen nuValue nuMask))

/-- sign/share.go:42-49. -/
def muOf (randomizer : Addr) (lambda kappaTimesLambda : Option OpeningObj) : Go (Option OpeningObj) :=
  match pedersenValue kappaTimesLambda with
  | none => pure none
  | some k =>
    match pedersenValue lambda with
    | none => do
      let _ ← cloneSc randomizer
      Go.panic "interface conversion"
    | some l => do
      let muValue ← mulNew randomizer l.1
      let muValue ← addSc muValue muValue k.1
      let muMask ← mulNew randomizer l.2
      let muMask ← addSc muMask muMask k.2
      pure (some (.pedersen muValue muMask))

/-- sign/share.go:17-54 `NewThresholdEcdsaSigShareInternal`. -/
def newSigShare (P : Prim) (path : List Key.Index) (hashedMsg randomness : Bytes) (keyT presigT : Option ComObj)
    (lambda kappaTimesLambda keyTimesLambda : Option OpeningObj) : Go SigShareObj := do
  let d ← deriveRho P hashedMsg randomness path keyT presigT
  let e ← convertHashToInteger hashedMsg
  let t ← mulNew d.rho d.keyTweak
  let theta ← addSc e e t
  let nu ← nuOf theta d.rho lambda keyTimesLambda
  let mu ← muOf d.randomizer lambda kappaTimesLambda
  pure ⟨nu, mu⟩

/-- sign/share.go:75-79 and 80-84. -/
def checkPointer (o : Option OpeningObj) (sigmaNum : Addr) : Go Unit :=
  match pedersenPointer o with
  | none => pure ()
  | some k => do
    let p ← pedersen k.1 k.2
    let a ← readPt sigmaNum
    let b ← readPt p
    if a = b then pure () else Go.err "invalid commitment"

/-- sign/share.go:56-86 `Verify`. -/
def verifySigShare (P : Prim) (t : SigShareObj) (path : List Key.Index) (hashedMsg randomness : Bytes) (signer : NodeIndex)
    (keyT presigT lambda kappaTimesLambda keyTimesLambda : Option ComObj) : Go Unit := do
  let d ← deriveRho P hashedMsg randomness path keyT presigT
  let e ← convertHashToInteger hashedMsg
  let s ← mulNew d.rho d.keyTweak
  let theta ← addSc e e s
  let lambdaJ ← transcriptEvaluateAt lambda signer
  let kappaTimesLambdaJ ← transcriptEvaluateAt kappaTimesLambda signer
  let keyTimesLambdaJ ← transcriptEvaluateAt keyTimesLambda signer
  let sigmaNum ← smulNew lambdaJ theta
  let c ← clonePt keyTimesLambdaJ
  let c ← smulPt c kappaTimesLambdaJ d.rho
  let sigmaNum ← addPt sigmaNum sigmaNum c
  let sigmaDen ← smulNew lambdaJ d.randomizer
  let _ ← addPt sigmaDen sigmaDen kappaTimesLambdaJ
  checkPointer t.sigmaNumerator sigmaNum
  checkPointer t.sigmaDenominator sigmaNum

/-! ### sign/combined_sig.go -/

/-- sign/combined_sig.go:13-16. -/
structure SignatureObj where
  r : Addr
  s : Addr

/-- `append` of the first pointer, if there is one (sign/combined_sig.go:35-40). -/
def appendValue (samples : List Addr) (o : Option OpeningObj) : List Addr :=
  match pedersenValue o with
  | some k => samples ++ [k.1]
  | none => samples

/-- sign/combined_sig.go:30-43, the scan; the samples are the pointers of the shares. -/
def scanShares (count threshold : Int) (xs : List NodeIndex) (nums dens : List Addr) :
    List (NodeIndex × SigShareObj) → List NodeIndex × List Addr × List Addr
  | [] => (xs, nums, dens)
  | (i, sh) :: rest =>
    if count ≥ threshold then scanShares count threshold xs nums dens rest
    else scanShares count threshold (xs ++ [i]) (appendValue nums sh.sigmaNumerator)
      (appendValue dens sh.sigmaDenominator) rest

/-- sign/combined_sig.go:18-66 `NewThresholdEcdsaCombinedSigInternal`. -/
def combineShares (P : Prim) (path : List Key.Index) (hashedMsg randomness : Bytes) (keyT presigT : Option ComObj)
    (threshold : Int) (shares : List (NodeIndex × SigShareObj)) : Go SignatureObj :=
  if (shares.length : Int) < threshold then Go.err "insufficient dealings"
  else do
    let d ← deriveRho P hashedMsg randomness path keyT presigT
    if threshold < 0 then Go.panic "makeslice: cap out of range"
    else do
      let s := scanShares 0 threshold [] [] [] shares
      let coefficients ← atZero s.1
      let numerator ← interpolateScalar coefficients s.2.1
      let denominator ← interpolateScalar coefficients s.2.2
      let inv ← invSc denominator denominator
      let sigma ← mulSc numerator numerator inv
      let v ← readSc sigma
      let normSigma ← if Scalar.isHigh v then negSc sigma sigma else pure sigma
      pure ⟨d.rho, normSigma⟩

/-- sign/combined_sig.go:68-98 `Verify`. -/
def verifySignature (P : Prim) (t : SignatureObj) (path : List Key.Index) (hashedMsg randomness : Bytes)
    (keyT presigT : Option ComObj) : Go Unit := do
  let r ← readSc t.r
  let s ← readSc t.s
  if r = 0 ∨ s = 0 then Go.err "invalid signature"
  else do
    let msg ← convertHashToInteger hashedMsg
    let d ← deriveRho P hashedMsg randomness path keyT presigT
    let r ← readSc t.r
    let rho ← readSc d.rho
    let s ← readSc t.s
    if r ≠ rho ∨ Scalar.isHigh s = true then Go.err "invalid signature"
    else do
      let masterPublicKey ← transcriptConstantTerm keyT
      let tweakg ← mulByG d.keyTweak
      let publicKey ← addPt tweakg tweakg masterPublicKey
      let sInv ← cloneSc t.s
      let sInv ← invSc sInv t.s
      let u1 ← mulNew msg sInv
      let u2 ← mulNew t.r sInv
      let g ← newPt G
      let rp ← mulPoints g u1 publicKey u2
      let p ← readPt rp
      let q ← readPt d.randomizedPresig
      if p = 0 then Go.err "invalid signature"
      else if Point.affineX p ≠ Point.affineX q then Go.err "invalid signature"
      else pure ()

/-! ### complaints/complaints.go -/

/-- complaints/complaints.go:17-20. -/
structure ComplaintObj where
  proof : ProofObj
  sharedSecret : Addr

/-- complaints/complaints.go:62-69 `createProofAssocData`. -/
def createProofAssocData (P : Prim) (ad : Bytes) (receiver dealer : NodeIndex) (pk : Addr) : Go Bytes := do
  let v ← readPt pk
  Go.lift (Complaints.createProofAssocData P ad receiver dealer v)

/-- mega/ciphertext.go:163-165, 272-274 `Ephemeral`: the ciphertext's own object. -/
def CipherObj.ephemeral : CipherObj → Addr
  | .single m => m.ephemeralKey
  | .pair m => m.ephemeralKey

/-- complaints/complaints.go:46-60 `NewComplaintInternal`. -/
def newComplaint (P : Prim) (seed : Seed) (d : DealingObj) (dealer receiver : NodeIndex) (secret pk : Addr) (ad : Bytes) :
    Go ComplaintObj := do
  let c ← Go.nonNil d.ciphertext
  let sharedSecret ← smulNew c.ephemeral secret
  let proofAssocData ← createProofAssocData P ad receiver dealer pk
  let g ← newPt G
  let proof ← dlogCreate P seed secret g c.ephemeral proofAssocData
  pure ⟨proof, sharedSecret⟩

/-- complaints/complaints.go:25-36, the scan over the dealings. -/
def scanComplaints (P : Prim) (ad : Bytes) (receiver : NodeIndex) (secret pk : Addr) (seed : Seed) :
    List (NodeIndex × ComplaintObj) → List (NodeIndex × DealingObj) → Go (List (NodeIndex × ComplaintObj))
  | complaints, [] => pure complaints
  | complaints, x :: rest => do
    let o ← Go.ignoreErr (openDealing P x.2 ad x.1 receiver secret pk)
    match o with
    | some _ => scanComplaints P ad receiver secret pk seed complaints rest
    | none => do
      let complaintSeed ← Go.lift (seed.derive P (Complaints.label x.1))
      let complaint ← newComplaint P complaintSeed x.2 x.1 receiver secret pk ad
      scanComplaints P ad receiver secret pk seed (OMap.set BitVec.toInt x.1 complaint complaints) rest

/-- complaints/complaints.go:22-44 `GenerateComplaints`. -/
def generateComplaints (P : Prim) (dealings : List (NodeIndex × DealingObj)) (ad : Bytes) (receiver : NodeIndex)
    (secret pk : Addr) (seed : Seed) : Go (List (NodeIndex × ComplaintObj)) := do
  let complaints ← scanComplaints P ad receiver secret pk seed [] dealings
  if complaints.length = 0 then Go.err "generate_complaints should return at least one complaint" else pure complaints

/-- complaints/complaints.go:80-94, the opening that is to be checked. -/
def claimedOpening (P : Prim) (c : CipherObj) (kind : Kind) (ad : Bytes) (dealer complainer : NodeIndex)
    (pk shared : Addr) : Go OpeningObj :=
  match c, kind with
  | .single m, .simple => do
    let s ← decryptSharedSingle P m ad dealer complainer pk shared
    pure (.simple s)
  | .pair m, .pedersen => do
    let s ← decryptSharedPair P m ad dealer complainer pk shared
    pure (.pedersen s.1 s.2)
  | _, _ => Go.err "unexpected commitment type"

/-- complaints/complaints.go:71-100 `Verify`. -/
def verifyComplaint (P : Prim) (c : ComplaintObj) (d : DealingObj) (dealer complainer : NodeIndex) (pk : Addr)
    (ad : Bytes) : Go Unit := do
  let proofAssocData ← createProofAssocData P ad complainer dealer pk
  let g ← newPt G
  let ct ← Go.nonNil d.ciphertext
  dlogVerify P c.proof g ct.ephemeral pk c.sharedSecret proofAssocData
  let cm ← Go.nonNil d.commitment
  let o ← claimedOpening P ct cm.kind ad dealer complainer pk c.sharedSecret
  let b ← checkOpening cm complainer o
  if b then Go.err "invalid complaint" else pure ()

end Verif.Heap
