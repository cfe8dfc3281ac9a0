import Verif.Model.Mega

/-!
Model of dealings/dealings.go, dealings/secret_shares.go, dealings/zk_proof.go, dealings/combined_commitment.go.

Interface values are inductive types with one constructor per dynamic type; fields that can be nil are `Option`s.
Simplified: scalars, points and ciphertext pointers inside the values are non-nil; a dealing's commitment is a plain
`*SimpleCommitment`/`*PedersenCommitment` (what the code itself creates), while the commitments of a transcript operation
may also be the wrappers of dealings/combined_commitment.go.
-/

set_option autoImplicit false

namespace Verif.Dealings

open Mega

/-- A method call on a nil interface or pointer panics. -/
def nonNil {α : Type} : Option α → Res α
  | some a => .ok a
  | none => .panic "nil pointer dereference"

/-- A call `x, err := f()` whose error is not looked at: `x` is nil after an error. -/
def ignoreErr {α : Type} : Res α → Res (Option α)
  | .ok a => .ok (some a)
  | .err _ => .ok none
  | .panic e => .panic e
  | .diverge => .diverge

/-- dealings/combined_commitment.go:7-26: a `PolynomialCommitment` of an operation is a plain commitment or one of the two
wrappers, whose methods are those of the embedded commitment. -/
inductive Wrap where
  | plain
  | summation
  | interpolation
  deriving DecidableEq, Repr

structure Com where
  wrap : Wrap
  c : Commitment

/-- `Clone` (poly/commitment.go:152-160, 274-282; promoted through the wrappers): the copy is always plain. -/
def Com.clone (p : Com) : Com := ⟨.plain, p.c⟩

/-- dealings/secret_shares.go:22-37 `SecretShares`, by dynamic type.  `other` is everything else, for instance one of the
structs not behind a pointer, or nil. -/
inductive Shares where
  | random
  | reshareUnmasked (s1 : Fn)
  | reshareMasked (s1 s2 : Fn)
  | unmaskedTimesMasked (left right mask : Fn)
  | other
  deriving DecidableEq

/-- dealings/transcript.go:11-23 `IDkgTranscriptOperationInternal`, by dynamic type (pointers; `other` is everything
else). -/
inductive Op where
  | random
  | reshareMasked (p1 : Com)
  | reshareUnmasked (p1 : Com)
  | unmaskedTimesMasked (left right : Com)
  | other

/-- dealings/zk_proof.go:12-41 `ZkProof`, by dynamic type.  The methods have value receivers, so the structs themselves
(`…Val`) implement the interface too.  The embedded proof pointer can be nil. -/
inductive ProofVal where
  | masked (pf : Option Zk.Proof)
  | product (pf : Option Zk.Product.Proof)
  | maskedVal (pf : Option Zk.Proof)
  | productVal (pf : Option Zk.Product.Proof)

/-- dealings/zk_proof.go:5-10. -/
inductive ProofType where
  | maskedResharing
  | product
  deriving DecidableEq

/-- dealings/zk_proof.go:21-23, 34-36 `Type`. -/
def ProofVal.type : ProofVal → ProofType
  | .masked _ | .maskedVal _ => .maskedResharing
  | .product _ | .productVal _ => .product

/-- `proof.(*MaskedResharingProof)`, then the embedded pointer is dereferenced. -/
def ProofVal.asMasked : ProofVal → Res Zk.Proof
  | .masked pf => nonNil pf
  | _ => .panic "interface conversion"

/-- `proof.(*ProductProof)`, then the embedded pointer is dereferenced. -/
def ProofVal.asProduct : ProofVal → Res Zk.Product.Proof
  | .product pf => nonNil pf
  | _ => .panic "interface conversion"

/-- A non-nil `MEGaCiphertext` (mega/ciphertext.go:54-63). -/
inductive Cipher where
  | single (m : Ciphertext Fn)
  | pair (m : Ciphertext (Fn × Fn))

namespace Cipher

/-- mega/ciphertext.go:175-180, 309-314. -/
def checkValidity (P : Prim) (c : Cipher) (expected : Int) (ad : Bytes) (dealer : NodeIndex) : Res Unit :=
  match c with
  | .single m => Single.checkValidity P m expected ad dealer
  | .pair m => Pair.checkValidity P m expected ad dealer

/-- mega/ciphertext.go:181-194, 316-329. -/
def verifyIs (c : Cipher) (t : CType) (curve : CurveType) : Res Unit :=
  match c with
  | .single m => Single.verifyIs m t curve
  | .pair m => Pair.verifyIs m t curve

/-- mega/ciphertext.go:217-227, 330-342. -/
def decryptAndCheck (P : Prim) (c : Cipher) (commitment : Commitment) (ad : Bytes) (dealer receiver : NodeIndex)
    (secret : Fn) (pk : Pt) : Res Opening :=
  match c with
  | .single m => Single.decryptAndCheck P m commitment ad dealer receiver secret pk
  | .pair m => Pair.decryptAndCheck P m commitment ad dealer receiver secret pk

/-- mega/ciphertext.go:163-165, 272-274 `Ephemeral`. -/
def ephemeral : Cipher → Pt
  | .single m => m.ephemeralKey
  | .pair m => m.ephemeralKey

end Cipher

/-- dealings/dealings.go:54-58. -/
structure Dealing where
  ciphertext : Option Cipher
  commitment : Option Commitment
  proof : Option ProofVal

/-- dealings/dealings.go:13-32 `EncryptAndCommitSinglePolynomial`. -/
def encryptAndCommitSingle (P : Prim) (poly : List Fn) (num : Int) (recipients : List Pt) (dealer : NodeIndex)
    (ad : Bytes) (seed : Seed) : Res (Ciphertext Fn × Commitment) := do
  let plaintexts := (List.range recipients.length).map fun idx =>
    Poly.evaluateAt poly (Scalar.fromNodeIndex (BitVec.ofNat 64 idx))
  let ciphertext ← Single.encrypt P seed plaintexts recipients dealer ad
  let commitment ← Commitment.createSimple poly num
  .ok (ciphertext, commitment)

/-- dealings/dealings.go:34-52 `EncryptAndCommitPairPolynomial`. -/
def encryptAndCommitPair (P : Prim) (values mask : List Fn) (num : Int) (recipients : List Pt) (dealer : NodeIndex)
    (ad : Bytes) (seed : Seed) : Res (Ciphertext (Fn × Fn) × Commitment) := do
  let plaintexts := (List.range recipients.length).map fun idx =>
    (Poly.evaluateAt values (Scalar.fromNodeIndex (BitVec.ofNat 64 idx)),
      Poly.evaluateAt mask (Scalar.fromNodeIndex (BitVec.ofNat 64 idx)))
  let ciphertext ← Pair.encrypt P seed plaintexts recipients dealer ad
  let commitment ← Commitment.createPedersen values mask num
  .ok (ciphertext, commitment)

/-- dealings/dealings.go:66-67, the separators. -/
def polyDst : Bytes := ascii "ic-crypto-tecdsa-create-dealing-polynomials"
def megaDst : Bytes := ascii "ic-crypto-tecdsa-create-dealing-mega-encrypt"

/-- dealings/dealings.go:60-120 `NewIDkgDealingInternal`.  A share of another dynamic type gives a dealing all of whose
fields are nil, without an error.  In the product case the error of the mask polynomial is overwritten (line 110; the nil
polynomial would panic) and that of the proof ignored (line 114; the embedded pointer is then nil). -/
def new (P : Prim) (shares : Shares) (seed : Seed) (threshold : Int) (recipients : List Pt) (dealer : NodeIndex)
    (ad : Bytes) : Res Dealing :=
  if threshold = 0 ∨ threshold > recipients.length then .err "invalid threshold"
  else do
    let polySeed ← seed.derive P polyDst
    let polyRng := polySeed.rng P
    let megaSeed ← seed.derive P megaDst
    match shares with
    | .random => do
      let (values, polyRng) ← Poly.random threshold polyRng
      let (mask, _) ← Poly.random threshold polyRng
      let (ct, cm) ← encryptAndCommitPair P values mask threshold recipients dealer ad megaSeed
      .ok ⟨some (.pair ct), some cm, none⟩
    | .reshareUnmasked s1 => do
      let (values, _) ← Poly.randomWithConstant s1 threshold polyRng
      let (ct, cm) ← encryptAndCommitSingle P values threshold recipients dealer ad megaSeed
      .ok ⟨some (.single ct), some cm, none⟩
    | .reshareMasked s1 s2 => do
      let (values, _) ← Poly.randomWithConstant s1 threshold polyRng
      let (ct, cm) ← encryptAndCommitSingle P values threshold recipients dealer ad megaSeed
      let proofSeed ← seed.derive P Zk.equalOpeningsDst
      let pf ← Zk.EqOpen.create P proofSeed s1 s2 ad
      .ok ⟨some (.single ct), some cm, some (.masked (some pf))⟩
    | .unmaskedTimesMasked left right rightMask => do
      let product := left * right
      let (productMasking, polyRng) ← Scalar.random polyRng
      let (values, polyRng) ← Poly.randomWithConstant product threshold polyRng
      let mask ← ignoreErr (Poly.randomWithConstant productMasking threshold polyRng)
      let (mask, _) ← nonNil mask
      let (ct, cm) ← encryptAndCommitPair P values mask threshold recipients dealer ad megaSeed
      let proofSeed ← seed.derive P Zk.productDst
      let pf ← ignoreErr (Zk.Product.create P proofSeed left right rightMask product productMasking ad)
      .ok ⟨some (.pair ct), some cm, some (.product pf)⟩
    | .other => .ok ⟨none, none, none⟩

/-- dealings/dealings.go:121-187 `PubliclyVerify`.  (The chain of type assertions is a match on the dynamic type of the
operation, since at most one of them succeeds.) -/
def publiclyVerify (P : Prim) (d : Dealing) (curve : CurveType) (op : Op) (threshold : Int) (dealer : NodeIndex)
    (receivers : Int) (ad : Bytes) : Res Unit := do
  let cm ← nonNil d.commitment
  if (cm.points.length : Int) ≠ threshold then .err "invalid commitment"
  else do
    let ct ← cm.curveType
    if ct ≠ curve then .err "curve mismatch"
    else do
      let c ← nonNil d.ciphertext
      c.checkValidity P receivers ad dealer
      match op with
      | .random =>
        match d.proof with
        | none => do
          cm.verifyIs .pedersen curve
          c.verifyIs .pairs curve
        | some _ => .err "invalid proof"
      | .reshareMasked p1 =>
        match d.proof with
        | none => .err "invalid proof"
        | some pf =>
          if pf.type = .maskedResharing then do
            cm.verifyIs .simple curve
            c.verifyIs .single curve
            let pf ← pf.asMasked
            let a ← p1.c.evaluateAt dealer
            let b ← cm.constantTerm
            Zk.EqOpen.verify P pf a b ad
          else .err "invalid proof"
      | .reshareUnmasked p1 =>
        match d.proof with
        | none => do
          cm.verifyIs .simple curve
          p1.c.verifyIs .simple curve
          c.verifyIs .single curve
          match p1.wrap, p1.c.kind with
          | .plain, .pedersen => .err "unexpected commitment type"
          | .plain, .simple => do
            let a ← p1.c.evaluateAt dealer
            let b ← cm.constantTerm
            if a ≠ b then .err "invalid commitment" else .ok ()
          | _, _ => .ok ()
        | some _ => .err "invalid proof"
      | .unmaskedTimesMasked left right => do
        let pf ← nonNil d.proof
        if pf.type = .product then do
          cm.verifyIs .pedersen curve
          c.verifyIs .pairs curve
          left.c.verifyIs .simple curve
          right.c.verifyIs .pedersen curve
          let pf ← pf.asProduct
          let l ← left.c.evaluateAt dealer
          let r ← right.c.evaluateAt dealer
          let b ← cm.constantTerm
          Zk.Product.verify P pf l r b ad
        else .err "invalid proof"
      | .other => .err "invalid proof"

/-- dealings/dealings.go:189-195 `PrivateVerify` (both keys are K256). -/
def privateVerify (P : Prim) (d : Dealing) (curve : CurveType) (secret : Fn) (pk : Pt) (ad : Bytes)
    (dealer recipient : NodeIndex) : Res Unit :=
  if K256 ≠ curve then .err "curve mismatch"
  else do
    let cm ← nonNil d.commitment
    let _ ← cm.constantTerm
    let c ← nonNil d.ciphertext
    let _ ← c.decryptAndCheck P cm ad dealer recipient secret pk
    .ok ()

/-! ### dealings/secret_shares.go -/

/-- `poly.CommitmentOpeningBytes` (poly/commitment.go:16-30) by dynamic type, nil or not; scalars already read.
(`ToScalar` of a scalar's bytes is the identity when the bytes are canonical; see C03 for the decoder.) -/
inductive OpeningBytes where
  | simplePtr (v : Fn)
  | pedersenPtr (v m : Fn)
  | simple (v : Fn)
  | pedersen (v m : Fn)

/-- What `Secret.From` returns without an error: shares by dynamic type, with the one struct it returns by value. -/
inductive FromResult where
  | reshareUnmaskedVal (s1 : Fn)
  | ptr (s : Shares)
  | nil

/-- dealings/secret_shares.go:39-65 `Secret.From` (`none`: a nil interface). -/
def secretFrom (cob1 cob2 : Option OpeningBytes) : Res FromResult :=
  match cob1 with
  | some (.simplePtr v) =>
    match cob2 with
    | none => .ok (.reshareUnmaskedVal v)
    | some (.pedersenPtr r m) => .ok (.ptr (.unmaskedTimesMasked v r m))
    | some _ => .err "inconsistent combination of commitment types"
  | some (.pedersenPtr v m) =>
    match cob2 with
    | some _ => .err "inconsistent combination of commitment types"
    | none => .ok (.ptr (.reshareMasked v m))
  | _ => .ok .nil

/-- What `NewIDkgDealingInternal` sees: a struct that is not behind a pointer, or nil, matches no case. -/
def FromResult.shares : FromResult → Shares
  | .reshareUnmaskedVal _ => .other
  | .ptr s => s
  | .nil => .other

end Verif.Dealings
