import Verif.Model.HeapZk
import Verif.Model.Transcript

/-!
dealings/dealings.go, dealings/zk_proof.go, dealings/transcript.go, dealings/transcript_operation.go and
dealings/commitment.go on memory.

Dealings, transcripts, shares and operations are not assigned to after their construction, so they are records of the
addresses they hold; what is nil and what is a dynamic type is as in `Verif.Model.Dealings` and `Verif.Model.Transcript`.
Slices are only written to by the function that made them.
-/

set_option autoImplicit false

namespace Verif.Heap

open Dealings (Wrap)

/-! ### Objects -/

/-- dealings/combined_commitment.go:7-26. -/
structure ComObj where
  wrap : Wrap
  c : CommitmentObj

/-- dealings/secret_shares.go:22-37. -/
inductive SharesObj where
  | random
  | reshareUnmasked (s1 : Addr)
  | reshareMasked (s1 s2 : Addr)
  | unmaskedTimesMasked (left right mask : Addr)
  | other

/-- dealings/transcript.go:11-23. -/
inductive OpObj where
  | random
  | reshareMasked (p1 : ComObj)
  | reshareUnmasked (p1 : ComObj)
  | unmaskedTimesMasked (left right : ComObj)
  | other

/-- dealings/zk_proof.go:12-41. -/
inductive ProofValObj where
  | masked (pf : Option ProofObj)
  | product (pf : Option ProductProofObj)
  | maskedVal (pf : Option ProofObj)
  | productVal (pf : Option ProductProofObj)

/-- mega/ciphertext.go:54-63. -/
inductive CipherObj where
  | single (m : CiphertextObj Addr)
  | pair (m : CiphertextObj (Addr × Addr))

/-- dealings/dealings.go:54-58. -/
structure DealingObj where
  ciphertext : Option CipherObj
  commitment : Option CommitmentObj
  proof : Option ProofValObj

/-! ### poly/poly.go -/

/-- The loops of poly/poly.go:37-39 and 53-57: random coefficients. -/
def randomScs (r : Rng) : Nat → Go (List Addr × Rng)
  | 0 => pure ([], r)
  | k + 1 => do
    let c ← Go.lift (Scalar.random r)
    let a ← newSc c.1
    let rest ← randomScs c.2 k
    pure (a :: rest.1, rest.2)

/-- poly/poly.go:35-44 `Random`. -/
def randomPo (num : Int) (r : Rng) : Go (Addr × Rng) :=
  if num < 0 then Go.panic "makeslice: len out of range"
  else do
    let cs ← randomScs r num.toNat
    let p ← newPo cs.1
    pure (p, cs.2)

/-- poly/poly.go:46-62 `RandomWithConstant`: the constant coefficient is the caller's object. -/
def randomPoWithConstant (constant : Addr) (num : Int) (r : Rng) : Go (Addr × Rng) :=
  if num = 0 then Go.err "Cannot have degree=0 polynomial with given constant"
  else if num < 0 then Go.panic "makeslice: len out of range"
  else do
    let cs ← randomScs r (num.toNat - 1)
    let p ← newPo (constant :: cs.1)
    pure (p, cs.2)

/-! ### dealings/dealings.go -/

/-- dealings/dealings.go:13-32 `EncryptAndCommitSinglePolynomial`. -/
def encryptAndCommitSingle (P : Prim) (poly : Addr) (num : Int) (recipients : List Addr) (dealer : NodeIndex) (ad : Bytes)
    (seed : Seed) : Go (CiphertextObj Addr × CommitmentObj) := do
  let plaintexts ← Go.mapM' (fun idx : Nat => do
    let x ← newSc (Scalar.fromNodeIndex (BitVec.ofNat 64 idx))
    evaluateAt poly x) (List.range recipients.length)
  let ciphertext ← encryptSingle P seed plaintexts recipients dealer ad
  let points ← createSimple poly num
  pure (ciphertext, ⟨.simple, points⟩)

/-- dealings/dealings.go:34-52 `EncryptAndCommitPairPolynomial`. -/
def encryptAndCommitPair (P : Prim) (values mask : Addr) (num : Int) (recipients : List Addr) (dealer : NodeIndex)
    (ad : Bytes) (seed : Seed) : Go (CiphertextObj (Addr × Addr) × CommitmentObj) := do
  let plaintexts ← Go.mapM' (fun idx : Nat => do
    let x ← newSc (Scalar.fromNodeIndex (BitVec.ofNat 64 idx))
    let vs ← evaluateAt values x
    let ms ← evaluateAt mask x
    pure (vs, ms)) (List.range recipients.length)
  let ciphertext ← encryptPair P seed plaintexts recipients dealer ad
  let points ← createPedersen values mask num
  pure (ciphertext, ⟨.pedersen, points⟩)

/-- dealings/dealings.go:60-120 `NewIDkgDealingInternal`. -/
def newDealing (P : Prim) (shares : SharesObj) (seed : Seed) (threshold : Int) (recipients : List Addr)
    (dealer : NodeIndex) (ad : Bytes) : Go DealingObj :=
  if threshold = 0 ∨ threshold > recipients.length then Go.err "invalid threshold"
  else do
    let polySeed ← Go.lift (seed.derive P Dealings.polyDst)
    let polyRng := polySeed.rng P
    let megaSeed ← Go.lift (seed.derive P Dealings.megaDst)
    match shares with
    | .random => do
      let values ← randomPo threshold polyRng
      let mask ← randomPo threshold values.2
      let r ← encryptAndCommitPair P values.1 mask.1 threshold recipients dealer ad megaSeed
      pure ⟨some (.pair r.1), some r.2, none⟩
    | .reshareUnmasked s1 => do
      let values ← randomPoWithConstant s1 threshold polyRng
      let r ← encryptAndCommitSingle P values.1 threshold recipients dealer ad megaSeed
      pure ⟨some (.single r.1), some r.2, none⟩
    | .reshareMasked s1 s2 => do
      let values ← randomPoWithConstant s1 threshold polyRng
      let r ← encryptAndCommitSingle P values.1 threshold recipients dealer ad megaSeed
      let proofSeed ← Go.lift (seed.derive P Zk.equalOpeningsDst)
      let pf ← eqCreate P proofSeed s1 s2 ad
      pure ⟨some (.single r.1), some r.2, some (.masked (some pf))⟩
    | .unmaskedTimesMasked left right rightMask => do
      let product ← mulNew left right
      let masking ← Go.lift (Scalar.random polyRng)
      let productMasking ← newSc masking.1
      let values ← randomPoWithConstant product threshold masking.2
      let mask ← Go.ignoreErr (randomPoWithConstant productMasking threshold values.2)
      let mask ← Go.nonNil mask
      let r ← encryptAndCommitPair P values.1 mask.1 threshold recipients dealer ad megaSeed
      let proofSeed ← Go.lift (seed.derive P Zk.productDst)
      let pf ← Go.ignoreErr (productCreate P proofSeed left right rightMask product productMasking ad)
      pure ⟨some (.pair r.1), some r.2, some (.product pf)⟩
    | .other => pure ⟨none, none, none⟩

namespace CommitmentObj

/-- poly/commitment.go:218-220, 341-343 `CurveType`. -/
def curveType (c : CommitmentObj) : Go CurveType :=
  match c.points with
  | [] => Go.panic "index out of range"
  | _ :: _ => pure K256

/-- poly/commitment.go:227-235, 350-358 `VerifyIs`. -/
def verifyIs (c : CommitmentObj) (kind : Kind) (curve : CurveType) : Go Unit := do
  let ct ← c.curveType
  if ct ≠ curve then Go.err "curve type mismatch"
  else if c.kind ≠ kind then Go.err "unexpected commitment type"
  else pure ()

end CommitmentObj

namespace CipherObj

/-- mega/ciphertext.go:175-180, 309-314 `CheckValidity`. -/
def checkValidity (P : Prim) (c : CipherObj) (expected : Int) (ad : Bytes) (dealer : NodeIndex) : Go Unit :=
  match c with
  | .single m => checkValiditySingle P m expected ad dealer
  | .pair m => checkValidityPair P m expected ad dealer

/-- mega/ciphertext.go:181-194, 316-329 `VerifyIs`. -/
def verifyIs (c : CipherObj) (t : Mega.CType) (curve : CurveType) : Go Unit :=
  match c with
  | .single _ =>
    if K256 ≠ curve then Go.err "curve mismatch"
    else if Mega.CType.single ≠ t then Go.err "inconsistent ciphertext"
    else pure ()
  | .pair _ =>
    if K256 ≠ curve then Go.err "curve mismatch"
    else if Mega.CType.pairs ≠ t then Go.err "inconsistent ciphertext"
    else pure ()

/-- mega/ciphertext.go:217-227, 330-342 `DecryptAndCheck`. -/
def decryptAndCheck (P : Prim) (c : CipherObj) (commitment : CommitmentObj) (ad : Bytes) (dealer receiver : NodeIndex)
    (secret pk : Addr) : Go OpeningObj :=
  match c with
  | .single m => decryptAndCheckSingle P m commitment ad dealer receiver secret pk
  | .pair m => decryptAndCheckPair P m commitment ad dealer receiver secret pk

end CipherObj

namespace ProofValObj

/-- dealings/zk_proof.go:21-23, 34-36 `Type`. -/
def type : ProofValObj → Dealings.ProofType
  | .masked _ | .maskedVal _ => .maskedResharing
  | .product _ | .productVal _ => .product

/-- `proof.(*MaskedResharingProof)`, then the embedded pointer is dereferenced. -/
def asMasked : ProofValObj → Go ProofObj
  | .masked pf => Go.nonNil pf
  | _ => Go.panic "interface conversion"

/-- `proof.(*ProductProof)`, then the embedded pointer is dereferenced. -/
def asProduct : ProofValObj → Go ProductProofObj
  | .product pf => Go.nonNil pf
  | _ => Go.panic "interface conversion"

end ProofValObj

/-- dealings/dealings.go:121-187 `PubliclyVerify`. -/
def publiclyVerify (P : Prim) (d : DealingObj) (curve : CurveType) (op : OpObj) (threshold : Int) (dealer : NodeIndex)
    (receivers : Int) (ad : Bytes) : Go Unit := do
  let cm ← Go.nonNil d.commitment
  if (cm.points.length : Int) ≠ threshold then Go.err "invalid commitment"
  else do
    let ct ← cm.curveType
    if ct ≠ curve then Go.err "curve mismatch"
    else do
      let c ← Go.nonNil d.ciphertext
      c.checkValidity P receivers ad dealer
      match op with
      | .random =>
        match d.proof with
        | none => do
          cm.verifyIs .pedersen curve
          c.verifyIs .pairs curve
        | some _ => Go.err "invalid proof"
      | .reshareMasked p1 =>
        match d.proof with
        | none => Go.err "invalid proof"
        | some pf =>
          if pf.type = .maskedResharing then do
            cm.verifyIs .simple curve
            c.verifyIs .single curve
            let pf ← pf.asMasked
            let a ← evaluatePointsAt p1.c.points dealer
            let b ← constantTerm cm.points
            eqVerify P pf a b ad
          else Go.err "invalid proof"
      | .reshareUnmasked p1 =>
        match d.proof with
        | none => do
          cm.verifyIs .simple curve
          p1.c.verifyIs .simple curve
          c.verifyIs .single curve
          match p1.wrap, p1.c.kind with
          | .plain, .pedersen => Go.err "unexpected commitment type"
          | .plain, .simple => do
            let a ← evaluatePointsAt p1.c.points dealer
            let b ← constantTerm cm.points
            let a ← readPt a
            let b ← readPt b
            if a ≠ b then Go.err "invalid commitment" else pure ()
          | _, _ => pure ()
        | some _ => Go.err "invalid proof"
      | .unmaskedTimesMasked left right => do
        let pf ← Go.nonNil d.proof
        if pf.type = .product then do
          cm.verifyIs .pedersen curve
          c.verifyIs .pairs curve
          left.c.verifyIs .simple curve
          right.c.verifyIs .pedersen curve
          let pf ← pf.asProduct
          let l ← evaluatePointsAt left.c.points dealer
          let r ← evaluatePointsAt right.c.points dealer
          let b ← constantTerm cm.points
          productVerify P pf l r b ad
        else Go.err "invalid proof"
      | .other => Go.err "invalid proof"

/-- dealings/dealings.go:189-195 `PrivateVerify`. -/
def privateVerify (P : Prim) (d : DealingObj) (curve : CurveType) (secret pk : Addr) (ad : Bytes)
    (dealer recipient : NodeIndex) : Go Unit :=
  if K256 ≠ curve then Go.err "curve mismatch"
  else do
    let cm ← Go.nonNil d.commitment
    let _ ← constantTerm cm.points
    let c ← Go.nonNil d.ciphertext
    let _ ← c.decryptAndCheck P cm ad dealer recipient secret pk
    pure ()

/-! ### dealings/transcript.go -/

/-- dealings/transcript.go:38-48, the loop over the coefficients. -/
def interpolateAll (coefficients : List Addr) (commitments : List CommitmentObj) (threshold : Nat) : Go (List Addr) :=
  Go.mapM' (fun i : Nat => do
    let values ← Go.mapM' (fun c : CommitmentObj => Go.index c.points i) commitments
    interpolatePoint coefficients values) (List.range threshold)

/-- dealings/transcript.go:25-57 `CombineCommitmentsViaInterpolation`. -/
def combineViaInterpolation (kind : Kind) (threshold : Int) (dealings : List (NodeIndex × DealingObj)) : Go ComObj := do
  let commitments ← Go.mapM' (fun x : NodeIndex × DealingObj => do
    let c ← Go.nonNil x.2.commitment
    let points ← cloneCommitment c.points
    pure (⟨c.kind, points⟩ : CommitmentObj)) dealings
  let coefficients ← atZero (dealings.map Prod.fst)
  if threshold < 0 then Go.panic "makeslice: cap out of range"
  else do
    let combined ← interpolateAll coefficients commitments threshold.toNat
    pure ⟨.interpolation, ⟨kind, combined⟩⟩

/-- dealings/transcript.go:60-64. -/
def checkLengths (threshold : Int) : List (NodeIndex × DealingObj) → Go Unit
  | [] => pure ()
  | x :: rest => do
    let cm ← Go.nonNil x.2.commitment
    if (cm.points.length : Int) ≠ threshold then Go.err "unexpected commitment type" else checkLengths threshold rest

/-- dealings/transcript.go:80-82: `combined[i].AddPoints(combined[i], c[i])` for all `i` below the threshold. -/
def addInto : List Addr → List Addr → Go Unit
  | [], _ => pure ()
  | _ :: _, [] => Go.panic "index out of range"
  | a :: as, b :: bs => do
    let _ ← addPt a a b
    addInto as bs

/-- dealings/transcript.go:75-83. -/
def sumLoop (combined : List Addr) : List (NodeIndex × DealingObj) → Go Unit
  | [] => pure ()
  | x :: rest => do
    let cm ← Go.nonNil x.2.commitment
    if cm.kind ≠ .pedersen then Go.err "unexpected commitment type"
    else do
      addInto combined cm.points
      sumLoop combined rest

/-- dealings/transcript.go:59-123 `NewTranscriptInternal`. -/
def newTranscript (threshold : Int) (dealings : List (NodeIndex × DealingObj)) (op : OpObj) : Go (Option ComObj) := do
  checkLengths threshold dealings
  match op with
  | .random =>
    if threshold < 0 then Go.panic "makeslice: len out of range"
    else do
      let combined ← Go.mapM' (fun _ => newPt 0) (List.range threshold.toNat)
      sumLoop combined dealings
      pure (some ⟨.summation, ⟨.pedersen, combined⟩⟩)
  | .reshareMasked p1 =>
    if p1.c.kind ≠ .pedersen then Go.err "unexpected commitment type"
    else if dealings.length < p1.c.points.length then Go.err "insufficient dealings"
    else do
      let combined ← combineViaInterpolation .simple threshold dealings
      pure (some combined)
  | .reshareUnmasked p1 =>
    if p1.c.kind ≠ .simple then Go.err "unexpected commitment type"
    else if dealings.length < p1.c.points.length then Go.err "insufficient dealings"
    else do
      let combined ← combineViaInterpolation .simple threshold dealings
      let a ← Go.index p1.c.points 0
      let b ← Go.index combined.c.points 0
      let a ← readPt a
      let b ← readPt b
      if a ≠ b then Go.err "invalid commitment" else pure (some combined)
  | .unmaskedTimesMasked left right =>
    if left.c.kind ≠ .simple ∨ right.c.kind ≠ .pedersen then Go.err "unexpected commitment type"
    else if (dealings.length : Int) < left.c.points.length + right.c.points.length - 1 then Go.err "insufficient dealings"
    else do
      let combined ← combineViaInterpolation .pedersen threshold dealings
      pure (some combined)
  | .other => pure none

/-- dealings/transcript.go:151-161: the pointers, which are the caller's. -/
def collectSimple : List (NodeIndex × OpeningObj) → Go (List NodeIndex × List Addr)
  | [] => pure ([], [])
  | (i, .simple v) :: rest => do
    let r ← collectSimple rest
    pure (i :: r.1, v :: r.2)
  | (_, .pedersen _ _) :: _ => Go.err "unexpected commitment type"
  | _ :: rest => collectSimple rest

/-- dealings/transcript.go:178-189. -/
def collectPedersen : List (NodeIndex × OpeningObj) → Go (List NodeIndex × List Addr × List Addr)
  | [] => pure ([], [], [])
  | (i, .pedersen v m) :: rest => do
    let r ← collectPedersen rest
    pure (i :: r.1, v :: r.2.1, m :: r.2.2)
  | (_, .simple _) :: _ => Go.err "unexpected commitment type"
  | _ :: rest => collectPedersen rest

/-- dealings/transcript.go:138-208 `ReconstructShareFromOpenings`. -/
def reconstructShare (dealing : DealingObj) (openings : List (NodeIndex × OpeningObj)) (shareIndex : NodeIndex) :
    Go OpeningObj := do
  let cm ← Go.nonNil dealing.commitment
  if openings.length < cm.points.length then Go.err "insufficient openings"
  else do
    let _ ← cm.curveType
    let x ← newSc (Scalar.fromNodeIndex shareIndex)
    match cm.kind with
    | .simple => do
      let r ← collectSimple openings
      let coefficients ← atValue x r.1
      let v ← interpolateScalar coefficients r.2
      returnOpeningIfConsistent cm shareIndex (.simple v)
    | .pedersen => do
      let r ← collectPedersen openings
      let coefficients ← atValue x r.1
      let v ← interpolateScalar coefficients r.2.1
      let m ← interpolateScalar coefficients r.2.2
      returnOpeningIfConsistent cm shareIndex (.pedersen v m)

/-- dealings/transcript_operation.go:13-15 `ConstantTerm`. -/
def transcriptConstantTerm (t : Option ComObj) : Go Addr := do
  let c ← Go.nonNil t
  constantTerm c.c.points

/-- dealings/transcript_operation.go:16-18 `EvaluateAt`. -/
def transcriptEvaluateAt (t : Option ComObj) (i : NodeIndex) : Go Addr := do
  let c ← Go.nonNil t
  evaluatePointsAt c.c.points i

/-! ### dealings/commitment.go -/

/-- dealings/commitment.go:19-22 `OpenDealing`. -/
def openDealing (P : Prim) (d : DealingObj) (ad : Bytes) (dealer opener : NodeIndex) (secret pk : Addr) :
    Go OpeningObj := do
  let c ← Go.nonNil d.ciphertext
  match d.commitment, c with
  | some cm, c => c.decryptAndCheck P cm ad dealer opener secret pk
  | none, .single m => do
    let _ ← decryptSingle P m ad dealer opener secret pk
    Go.panic "nil pointer dereference"
  | none, .pair m => do
    let _ ← decryptPair P m ad dealer opener secret pk
    Go.panic "nil pointer dereference"

/-- dealings/commitment.go:76-84: both sums are made in place. -/
def sumOpenings (v m : Addr) : List OpeningObj → Go Unit
  | [] => pure ()
  | .pedersen v' m' :: rest => do
    let _ ← addSc v v v'
    let _ ← addSc m m m'
    sumOpenings v m rest
  | _ :: _ => Go.err "unexpected commitment type"

/-- dealings/commitment.go:91-100: the pointers, which are the caller's. -/
def gatherSimple : List NodeIndex → List OpeningObj → Go (List NodeIndex × List Addr)
  | _, [] => pure ([], [])
  | [], _ :: _ => Go.panic "index out of range"
  | i :: is, .simple v :: os => do
    let r ← gatherSimple is os
    pure (i :: r.1, v :: r.2)
  | _ :: _, _ :: _ => Go.err "unexpected commitment type"

/-- dealings/commitment.go:116-126. -/
def gatherPedersen : List NodeIndex → List OpeningObj → Go (List NodeIndex × List Addr × List Addr)
  | _, [] => pure ([], [], [])
  | [], _ :: _ => Go.panic "index out of range"
  | i :: is, .pedersen v m :: os => do
    let r ← gatherPedersen is os
    pure (i :: r.1, v :: r.2.1, m :: r.2.2)
  | _ :: _, _ :: _ => Go.err "unexpected commitment type"

/-- dealings/commitment.go:69-143 `CombineOpenings`. -/
def combineOpenings (dealers : List NodeIndex) (openings : List OpeningObj) (t : Option ComObj) (receiver : NodeIndex) :
    Go OpeningObj := do
  match t with
  | none => Go.panic "nil pointer dereference"
  | some ⟨.summation, c⟩ => do
    let v ← newSc 0
    let m ← newSc 0
    sumOpenings v m openings
    returnOpeningIfConsistent c receiver (.pedersen v m)
  | some ⟨.interpolation, c⟩ =>
    match c.kind with
    | .simple => do
      let r ← gatherSimple dealers openings
      let coefficients ← atZero r.1
      let v ← interpolateScalar coefficients r.2
      returnOpeningIfConsistent c receiver (.simple v)
    | .pedersen => do
      let r ← gatherPedersen dealers openings
      let coefficients ← atZero r.1
      let v ← interpolateScalar coefficients r.2.1
      let m ← interpolateScalar coefficients r.2.2
      returnOpeningIfConsistent c receiver (.pedersen v m)
  | some ⟨.plain, _⟩ => Go.panic "interface conversion"

/-- dealings/commitment.go:48-67 `FromDealings`. -/
def fromDealings (P : Prim) (dealings : List (NodeIndex × DealingObj)) (t : Option ComObj) (ad : Bytes)
    (receiver : NodeIndex) (secret pk : Addr) : Go OpeningObj := do
  let openings ← Go.mapM' (fun x : NodeIndex × DealingObj => openDealing P x.2 ad x.1 receiver secret pk) dealings
  combineOpenings (dealings.map Prod.fst) openings t receiver

/-- dealings/commitment.go:23-47 `FromDealingsAndOpenings`. -/
def fromDealingsAndOpenings (P : Prim) (dealings : List (NodeIndex × DealingObj))
    (provided : List (NodeIndex × List (NodeIndex × OpeningObj))) (t : Option ComObj) (ad : Bytes)
    (receiver : NodeIndex) (secret pk : Addr) : Go OpeningObj := do
  let openings ← Go.mapM' (fun x : NodeIndex × DealingObj =>
    match OMap.get BitVec.toInt x.1 provided with
    | some shares => reconstructShare x.2 shares receiver
    | none => openDealing P x.2 ad x.1 receiver secret pk) dealings
  combineOpenings (dealings.map Prod.fst) openings t receiver

end Verif.Heap
