import Verif.Model.Heap
import Verif.Model.Mega

/-!
zk/dlog.go, zk/equal_opening.go, zk/product.go, mega/mega.go, mega/ciphertext.go and the opening checks of
poly/commitment.go on memory.

A structure whose fields are not assigned to after its construction (proofs, instances, ciphertexts, commitments,
openings, keys) is the record of the addresses it holds.  The random oracle and the random generators compute on bytes;
they read the points and scalars given to them and return new objects.
-/

set_option autoImplicit false

namespace Verif.Heap

/-! ### Go -/

namespace Go

variable {α : Type}

/-- `x, err := g()` where `err` is not looked at: `x` is nil after an error. -/
def ignoreErr (g : Go α) : Go (Option α) := fun m =>
  match g m with
  | (.ok a, m) => (.ok (some a), m)
  | (.err _, m) => (.ok none, m)
  | (.panic e, m) => (.panic e, m)
  | (.diverge, m) => (.diverge, m)

/-- A method call on a nil pointer panics. -/
def nonNil : Option α → Go α
  | some a => pure a
  | none => panic "nil pointer dereference"

/-- Go `s[i]`. -/
def index (l : List α) (i : Int) : Go α := lift (Mega.index l i)

end Go

/-- `p.Clone().ScalarMul(p, k)`. -/
def smulNew (p k : Addr) : Go Addr := do
  let c ← clonePt p
  smulPt c p k

/-- `a.Clone().Mul(a, b)`. -/
def mulNew (a b : Addr) : Go Addr := do
  let c ← cloneSc a
  mulSc c a b

/-! ### zk/dlog.go -/

/-- zk/dlog.go:16-19, zk/equal_opening.go:20-23. -/
structure ProofObj where
  challenge : Addr
  response : Addr

/-- zk/dlog.go:21-27. -/
structure DlogInstanceObj where
  g : Addr
  h : Addr
  gx : Addr
  hx : Addr

/-- zk/dlog.go:29-39 `FromWitness`: the bases are the caller's objects. -/
def dlogFromWitness (g h x : Addr) : Go DlogInstanceObj := do
  let gx ← smulNew g x
  let hx ← smulNew h x
  pure ⟨g, h, gx, hx⟩

/-- zk/dlog.go:51-57 `RecoverCommitments`. -/
def dlogRecover (i : DlogInstanceObj) (pf : ProofObj) : Go (Addr × Addr) := do
  let gz ← smulNew i.g pf.response
  let hz ← smulNew i.h pf.response
  let t ← smulNew i.gx pf.challenge
  let gr ← subPt gz gz t
  let t ← smulNew i.hx pf.challenge
  let hr ← subPt hz hz t
  pure (gr, hr)

/-- zk/dlog.go:59-69 `HashToChallenge`. -/
def dlogHash (P : Prim) (i : DlogInstanceObj) (c1 c2 : Addr) (ad : Bytes) : Go Addr := do
  let g ← readPt i.g
  let h ← readPt i.h
  let gx ← readPt i.gx
  let hx ← readPt i.hx
  let v1 ← readPt c1
  let v2 ← readPt c2
  let e ← Go.lift (Zk.Dlog.hashToChallenge P ⟨g, h, gx, hx⟩ v1 v2 ad)
  newSc e

/-- zk/dlog.go:79-94 `Create`. -/
def dlogCreate (P : Prim) (seed : Seed) (x g h : Addr) (ad : Bytes) : Go ProofObj := do
  let inst ← dlogFromWitness g h x
  let r ← Go.lift (Scalar.random (seed.rng P))
  let r ← newSc r.1
  let rG ← smulNew g r
  let rH ← smulNew h r
  let challenge ← Go.ignoreErr (dlogHash P inst rG rH ad)
  let response ← cloneSc x
  let challenge ← Go.nonNil challenge
  let response ← mulSc response x challenge
  let response ← addSc response response r
  pure ⟨challenge, response⟩

/-- zk/dlog.go:104-121 `Verify`; the instance of `FromCommitments` (lines 41-49) holds the caller's objects. -/
def dlogVerify (P : Prim) (pf : ProofObj) (g h gx hx : Addr) (ad : Bytes) : Go Unit := do
  let inst : DlogInstanceObj := ⟨g, h, gx, hx⟩
  let r ← dlogRecover inst pf
  let challenge ← dlogHash P inst r.1 r.2 ad
  let a ← readSc challenge
  let b ← readSc pf.challenge
  if a = b then pure () else Go.err "invalid proof"

/-- zk/dlog.go:127-132 and zk/equal_opening.go:126-131 `Clone`. -/
def cloneProof (pf : ProofObj) : Go ProofObj := do
  let challenge ← cloneSc pf.challenge
  let response ← cloneSc pf.response
  pure ⟨challenge, response⟩

/-! ### zk/equal_opening.go -/

/-- zk/equal_opening.go:25-31. -/
structure EqInstanceObj where
  g : Addr
  h : Addr
  a : Addr
  b : Addr

/-- zk/equal_opening.go:35-48 `FromWitness`. -/
def eqFromWitness (secret masking : Addr) : Go EqInstanceObj := do
  let g ← newPt G
  let h ← newPt Point.H
  let a ← pedersen secret masking
  let b ← mulByG secret
  pure ⟨g, h, a, b⟩

/-- zk/equal_opening.go:50-61 `FromCommitments`. -/
def eqFromCommitments (ped simple : Addr) : Go EqInstanceObj := do
  let g ← newPt G
  let h ← newPt Point.H
  let a ← clonePt ped
  let b ← clonePt simple
  pure ⟨g, h, a, b⟩

/-- zk/equal_opening.go:102-111 `HashToChallenge`. -/
def eqHash (P : Prim) (i : EqInstanceObj) (c : Addr) (ad : Bytes) : Go Addr := do
  let g ← readPt i.g
  let h ← readPt i.h
  let a ← readPt i.a
  let b ← readPt i.b
  let v ← readPt c
  let e ← Go.lift (Zk.EqOpen.hashToChallenge P ⟨g, h, a, b⟩ v ad)
  newSc e

/-- zk/equal_opening.go:63-83 `Create`. -/
def eqCreate (P : Prim) (seed : Seed) (secret masking : Addr) (ad : Bytes) : Go ProofObj := do
  let inst ← eqFromWitness secret masking
  let r ← Go.lift (Scalar.random (seed.rng P))
  let r ← newSc r.1
  let rcom ← smulNew inst.h r
  let challenge ← eqHash P inst rcom ad
  let response ← mulNew masking challenge
  let response ← addSc response response r
  pure ⟨challenge, response⟩

/-- zk/equal_opening.go:85-100 `RecoverCommitments`. -/
def eqRecover (i : EqInstanceObj) (pf : ProofObj) : Go Addr := do
  let amb ← clonePt i.a
  let amb ← subPt amb i.a i.b
  let camb ← smulNew amb pf.challenge
  let hc ← smulNew i.h pf.response
  subPt hc hc camb

/-- zk/equal_opening.go:113-124 `Verify`. -/
def eqVerify (P : Prim) (pf : ProofObj) (ped simple : Addr) (ad : Bytes) : Go Unit := do
  let inst ← eqFromCommitments ped simple
  let rcom ← eqRecover inst pf
  let challenge ← eqHash P inst rcom ad
  let a ← readSc pf.challenge
  let b ← readSc challenge
  if a = b then pure () else Go.err "invalid proof"

/-! ### zk/product.go -/

/-- zk/product.go:15-19. -/
structure ProductProofObj where
  challenge : Addr
  response1 : Addr
  response2 : Addr

/-- zk/product.go:21-28. -/
structure ProductInstanceObj where
  g : Addr
  h : Addr
  lhsCom : Addr
  rhsCom : Addr
  productCom : Addr

/-- zk/product.go:30-45 `FromWitness`. -/
def productFromWitness (lhs rhs rhsMasking product productMasking : Addr) : Go ProductInstanceObj := do
  let g ← newPt G
  let h ← newPt Point.H
  let lhsCom ← smulNew g lhs
  let rhsCom ← mulPoints g rhs h rhsMasking
  let productCom ← mulPoints g product h productMasking
  pure ⟨g, h, lhsCom, rhsCom, productCom⟩

/-- zk/product.go:47-59 `FromCommitments`: the commitments are the caller's objects. -/
def productFromCommitments (lhsCom rhsCom productCom : Addr) : Go ProductInstanceObj := do
  let g ← newPt G
  let h ← newPt Point.H
  pure ⟨g, h, lhsCom, rhsCom, productCom⟩

/-- zk/product.go:60-66 `RecoverCommitment`. -/
def productRecover (i : ProductInstanceObj) (pf : ProductProofObj) : Go (Addr × Addr) := do
  let r1Com ← mulByG pf.response1
  let t ← smulNew i.lhsCom pf.challenge
  let r1Com ← subPt r1Com r1Com t
  let r2Com ← mulPoints i.rhsCom pf.response1 i.h pf.response2
  let t ← smulNew i.productCom pf.challenge
  let r2Com ← subPt r2Com r2Com t
  pure (r1Com, r2Com)

/-- zk/product.go:91-102 `HashToChallenge`. -/
def productHash (P : Prim) (i : ProductInstanceObj) (c1 c2 : Addr) (ad : Bytes) : Go Addr := do
  let g ← readPt i.g
  let h ← readPt i.h
  let l ← readPt i.lhsCom
  let r ← readPt i.rhsCom
  let p ← readPt i.productCom
  let v1 ← readPt c1
  let v2 ← readPt c2
  let e ← Go.lift (Zk.Product.hashToChallenge P ⟨g, h, l, r, p⟩ v1 v2 ad)
  newSc e

/-- zk/product.go:68-89 `Create`. -/
def productCreate (P : Prim) (seed : Seed) (lhs rhs rhsMasking product productMasking : Addr) (ad : Bytes) :
    Go ProductProofObj := do
  let inst ← productFromWitness lhs rhs rhsMasking product productMasking
  let r1 ← Go.lift (Scalar.random (seed.rng P))
  let rng := r1.2
  let r1 ← newSc r1.1
  let r1Com ← smulNew inst.g r1
  let r2 ← Go.lift (Scalar.random rng)
  let r2 ← newSc r2.1
  let r2Com ← mulPoints inst.rhsCom r1 inst.h r2
  let challenge ← productHash P inst r1Com r2Com ad
  let response1 ← mulNew lhs challenge
  let response1 ← addSc response1 response1 r1
  let response2 ← cloneSc productMasking
  let t ← mulNew lhs rhsMasking
  let response2 ← subSc response2 productMasking t
  let response2 ← mulSc response2 response2 challenge
  let response2 ← addSc response2 response2 r2
  pure ⟨challenge, response1, response2⟩

/-- zk/product.go:104-115 `Verify`. -/
def productVerify (P : Prim) (pf : ProductProofObj) (lhsCom rhsCom productCom : Addr) (ad : Bytes) : Go Unit := do
  let inst ← productFromCommitments lhsCom rhsCom productCom
  let r ← productRecover inst pf
  let challenge ← productHash P inst r.1 r.2 ad
  let a ← readSc pf.challenge
  let b ← readSc challenge
  if a = b then pure () else Go.err "invalid proof"

/-- zk/product.go:116-122 `Clone`: the new structure holds the *same* scalars. -/
def cloneProductProof (pf : ProductProofObj) : Go ProductProofObj :=
  pure ⟨pf.challenge, pf.response1, pf.response2⟩

/-! ### poly/commitment.go, openings -/

/-- poly/commitment.go:117-119, 253-255. -/
structure CommitmentObj where
  kind : Kind
  points : List Addr

/-- poly/commitment.go:32-40, by dynamic type. -/
inductive OpeningObj where
  | simple (v : Addr)
  | simplePtr (v : Addr)
  | pedersen (v m : Addr)
  | pedersenPtr (v m : Addr)

/-- poly/commitment.go:244-251, 366-374 `CheckOpening`. -/
def checkOpening (c : CommitmentObj) (i : NodeIndex) (o : OpeningObj) : Go Bool :=
  match c.kind, o with
  | .simple, .simple v => do
    let eval ← evaluatePointsAt c.points i
    let rhs ← mulByG v
    let a ← readPt eval
    let b ← readPt rhs
    pure (decide (a = b))
  | .pedersen, .pedersen v m => do
    let eval ← evaluatePointsAt c.points i
    let rhs ← pedersen v m
    let a ← readPt eval
    let b ← readPt rhs
    pure (decide (a = b))
  | _, _ => Go.panic "interface conversion"

/-- poly/commitment.go:221-226, 344-349 `ReturnOpeningIfConsistent`: what is returned is the argument. -/
def returnOpeningIfConsistent (c : CommitmentObj) (i : NodeIndex) (o : OpeningObj) : Go OpeningObj := do
  let b ← checkOpening c i o
  if b then pure o else Go.err "invalid commitment"

/-! ### mega -/

/-- mega/mega.go:16-30 `megaHashToScalars`. -/
def hashToScalars (P : Prim) (t : Mega.CType) (dealer recipient : NodeIndex) (ad : Bytes) (pk eph shared : Addr) :
    Go (List Addr) := do
  let a ← readPt pk
  let b ← readPt eph
  let c ← readPt shared
  let vs ← Go.lift (Mega.hashToScalars P t dealer recipient ad a b c)
  Go.mapM' newSc vs

/-- mega/mega.go:37-43 `ComputePopBase`. -/
def computePopBase (P : Prim) (t : Mega.CType) (ad : Bytes) (dealer : NodeIndex) (eph : Addr) : Go Addr := do
  let v ← readPt eph
  let b ← Go.lift (Mega.computePopBase P t ad dealer v)
  newPt b

/-- mega/mega.go:46-53 `VerifyPop`. -/
def verifyPop (P : Prim) (t : Mega.CType) (ad : Bytes) (dealer : NodeIndex) (eph popPublic : Addr) (pf : ProofObj) :
    Go Unit := do
  let popBase ← computePopBase P t ad dealer eph
  let g ← newPt G
  dlogVerify P pf g popBase eph popPublic ad

/-- What mega/mega.go:66-79 `ComputeEphKeyAndPop` returns. -/
structure EphObj where
  beta : Addr
  v : Addr
  popPublic : Addr
  proof : ProofObj

/-- mega/mega.go:66-79 `ComputeEphKeyAndPop`. -/
def computeEphKeyAndPop (P : Prim) (t : Mega.CType) (seed : Seed) (ad : Bytes) (dealer : NodeIndex) : Go EphObj := do
  let s ← Go.lift (seed.derive P t.ephemeralKeyDst)
  let beta ← Go.lift (Scalar.fromSeed P s)
  let beta ← newSc beta
  let v ← mulByG beta
  let popBase ← computePopBase P t ad dealer v
  let popPublic ← smulNew popBase beta
  let s' ← Go.lift (seed.derive P t.popProofDst)
  let g ← newPt G
  let pf ← dlogCreate P s' beta g popBase ad
  pure ⟨beta, v, popPublic, pf⟩

/-- mega/ciphertext.go:135-140 (`τ` an address) and 229-234 (`τ` a pair of addresses). -/
structure CiphertextObj (τ : Type) where
  ephemeralKey : Addr
  popPublicKey : Addr
  popProof : ProofObj
  ctexts : List τ

/-- mega/ciphertext.go:75-84, the loop of `EncryptCiphertextSingle`: the pad becomes the ciphertext. -/
def encryptSingleLoop (P : Prim) (dealer : NodeIndex) (ad : Bytes) (beta v : Addr) :
    Nat → List Addr → List Addr → Go (List Addr)
  | i, pubkey :: pks, ptext :: pts => do
    let ubeta ← smulNew pubkey beta
    let hm ← hashToScalars P .single dealer (BitVec.ofNat 64 i) ad pubkey v ubeta
    let h0 ← Go.index hm 0
    let ctext ← addSc h0 h0 ptext
    let rest ← encryptSingleLoop P dealer ad beta v (i + 1) pks pts
    pure (ctext :: rest)
  | _, [], _ => pure []
  | _, _ :: _, [] => Go.panic "index out of range"

/-- mega/ciphertext.go:65-91 `EncryptCiphertextSingle`. -/
def encryptSingle (P : Prim) (seed : Seed) (plaintexts recipients : List Addr) (dealer : NodeIndex) (ad : Bytes) :
    Go (CiphertextObj Addr) :=
  if plaintexts.length ≠ recipients.length then Go.err "Must be as many plaintexts as recipients"
  else if plaintexts.length = 0 then Go.err "Must encrypt at least one plaintext"
  else do
    let e ← computeEphKeyAndPop P .single seed ad dealer
    let ctexts ← encryptSingleLoop P dealer ad e.beta e.v 0 recipients plaintexts
    pure ⟨e.v, e.popPublic, e.proof, ctexts⟩

/-- mega/ciphertext.go:245-255, the loop of `EncryptCiphertextPair`. -/
def encryptPairLoop (P : Prim) (dealer : NodeIndex) (ad : Bytes) (beta v : Addr) :
    Nat → List Addr → List (Addr × Addr) → Go (List (Addr × Addr))
  | i, pubkey :: pks, ptext :: pts => do
    let ubeta ← smulNew pubkey beta
    let hm ← hashToScalars P .pairs dealer (BitVec.ofNat 64 i) ad pubkey v ubeta
    let h0 ← Go.index hm 0
    let ctext0 ← addSc h0 h0 ptext.1
    let h1 ← Go.index hm 1
    let ctext1 ← addSc h1 h1 ptext.2
    let rest ← encryptPairLoop P dealer ad beta v (i + 1) pks pts
    pure ((ctext0, ctext1) :: rest)
  | _, [], _ => pure []
  | _, _ :: _, [] => Go.panic "index out of range"

/-- mega/ciphertext.go:236-262 `EncryptCiphertextPair`. -/
def encryptPair (P : Prim) (seed : Seed) (plaintexts : List (Addr × Addr)) (recipients : List Addr) (dealer : NodeIndex)
    (ad : Bytes) : Go (CiphertextObj (Addr × Addr)) :=
  if plaintexts.length ≠ recipients.length then Go.err "Must be as many plaintexts as recipients"
  else if plaintexts.length = 0 then Go.err "Must encrypt at least one plaintext"
  else do
    let e ← computeEphKeyAndPop P .pairs seed ad dealer
    let ctexts ← encryptPairLoop P dealer ad e.beta e.v 0 recipients plaintexts
    pure ⟨e.v, e.popPublic, e.proof, ctexts⟩

/-- mega/ciphertext.go:200-209 `DecryptFromSharedSecret`. -/
def decryptSharedSingle (P : Prim) (c : CiphertextObj Addr) (ad : Bytes) (dealer recipient : NodeIndex)
    (pk shared : Addr) : Go Addr :=
  if (c.ctexts.length : Int) ≤ recipient.toInt then Go.err "invalid index"
  else do
    let hm ← hashToScalars P .single dealer recipient ad pk c.ephemeralKey shared
    let x ← Go.index c.ctexts recipient.toInt
    let r ← cloneSc x
    let h0 ← Go.index hm 0
    subSc r x h0

/-- mega/ciphertext.go:288-300 `DecryptFromSharedSecret`. -/
def decryptSharedPair (P : Prim) (c : CiphertextObj (Addr × Addr)) (ad : Bytes) (dealer recipient : NodeIndex)
    (pk shared : Addr) : Go (Addr × Addr) :=
  if (c.ctexts.length : Int) ≤ recipient.toInt then Go.err "invalid index"
  else do
    let hm ← hashToScalars P .pairs dealer recipient ad pk c.ephemeralKey shared
    let x ← Go.index c.ctexts recipient.toInt
    let r ← cloneSc x.1
    let h0 ← Go.index hm 0
    let r ← subSc r x.1 h0
    let s ← cloneSc x.2
    let h1 ← Go.index hm 1
    let s ← subSc s x.2 h1
    pure (r, s)

/-- mega/ciphertext.go:210-216 `Decrypt`. -/
def decryptSingle (P : Prim) (c : CiphertextObj Addr) (ad : Bytes) (dealer recipient : NodeIndex) (secret pk : Addr) :
    Go Addr := do
  verifyPop P .single ad dealer c.ephemeralKey c.popPublicKey c.popProof
  let ubeta ← smulNew c.ephemeralKey secret
  decryptSharedSingle P c ad dealer recipient pk ubeta

/-- mega/ciphertext.go:301-307 `Decrypt`. -/
def decryptPair (P : Prim) (c : CiphertextObj (Addr × Addr)) (ad : Bytes) (dealer recipient : NodeIndex)
    (secret pk : Addr) : Go (Addr × Addr) := do
  verifyPop P .pairs ad dealer c.ephemeralKey c.popPublicKey c.popProof
  let ubeta ← smulNew c.ephemeralKey secret
  decryptSharedPair P c ad dealer recipient pk ubeta

/-- mega/ciphertext.go:217-227 `DecryptAndCheck`. -/
def decryptAndCheckSingle (P : Prim) (c : CiphertextObj Addr) (commitment : CommitmentObj) (ad : Bytes)
    (dealer receiver : NodeIndex) (secret pk : Addr) : Go OpeningObj := do
  let s ← decryptSingle P c ad dealer receiver secret pk
  let b ← checkOpening commitment receiver (.simple s)
  if b then pure (.simple s) else Go.err "invalid commitment"

/-- mega/ciphertext.go:330-342 `DecryptAndCheck`. -/
def decryptAndCheckPair (P : Prim) (c : CiphertextObj (Addr × Addr)) (commitment : CommitmentObj) (ad : Bytes)
    (dealer receiver : NodeIndex) (secret pk : Addr) : Go OpeningObj := do
  let s ← decryptPair P c ad dealer receiver secret pk
  let b ← checkOpening commitment receiver (.pedersen s.1 s.2)
  if b then pure (.pedersen s.1 s.2) else Go.err "invalid commitment"

/-- mega/ciphertext.go:142-153 `Clone`. -/
def cloneCiphertextSingle (c : CiphertextObj Addr) : Go (CiphertextObj Addr) := do
  let ctexts ← Go.mapM' cloneSc c.ctexts
  let eph ← clonePt c.ephemeralKey
  let pop ← clonePt c.popPublicKey
  let pf ← cloneProof c.popProof
  pure ⟨eph, pop, pf, ctexts⟩

/-- mega/ciphertext.go:175-180 `CheckValidity`. -/
def checkValiditySingle (P : Prim) (c : CiphertextObj Addr) (expected : Int) (ad : Bytes) (dealer : NodeIndex) :
    Go Unit :=
  if (c.ctexts.length : Int) ≠ expected then Go.err "invalid recipients"
  else verifyPop P .single ad dealer c.ephemeralKey c.popPublicKey c.popProof

/-- mega/ciphertext.go:309-314 `CheckValidity`. -/
def checkValidityPair (P : Prim) (c : CiphertextObj (Addr × Addr)) (expected : Int) (ad : Bytes) (dealer : NodeIndex) :
    Go Unit :=
  if (c.ctexts.length : Int) ≠ expected then Go.err "invalid recipients"
  else verifyPop P .pairs ad dealer c.ephemeralKey c.popPublicKey c.popProof

/-- mega/key.go:14-19 `GenKeypair`: public and private key. -/
def genKeypair (P : Prim) (seed : Seed) : Go (Addr × Addr) := do
  let r ← Go.lift (Scalar.random (seed.rng P))
  let secret ← newSc r.1
  let pk ← mulByG secret
  pure (pk, secret)

end Verif.Heap
