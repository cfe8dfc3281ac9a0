import Verif.Model.HeapCorrupt
import Verif.Model.HeapKeys
import Verif.Model.HeapSign

/-!
The protocol driver on memory: testutils/protocol_setup.go, testutils/dealings.go, testutils/protocol_round.go and
testutils/signature_protocol_setup.go, for `curveType = K256`, with the simplifications of `Verif.Model.Protocol`.

Dealings, openings and rounds are passed on by reference: the damaged dealing shares objects with the dealing it was made
from, and the shares of a round are the opening objects of an earlier one.  The maps are filled by the function that makes
them and only read afterwards, so they are lists.  What is only computed on numbers and byte strings (the generator, the
choice of indices) is that of `Verif.Model.Protocol`.
-/

set_option autoImplicit false

namespace Verif.Heap

open Protocol (node)

namespace Go

variable {α : Type}

/-- A failing call after which the code panics. -/
def orPanic (msg : String) (g : Go α) : Go α := fun m =>
  match g m with
  | (.err _, m) => (.panic msg, m)
  | r => r

end Go

/-- testutils/protocol_setup.go:11-19 (`Receivers` is the number of keys). -/
structure SetupObj where
  threshold : Int
  ad : Bytes
  pk : List Addr
  sk : List Addr
  seed : Seed
  round : Nat

/-- testutils/protocol_setup.go:57-68 `ReceiverInfo`: number, secret key and public key of each receiver. -/
def SetupObj.receivers (s : SetupObj) : List (NodeIndex × Addr × Addr) :=
  (s.sk.zip s.pk).zipIdx.map fun x => (node x.2, x.1)

/-- testutils/protocol_setup.go:27-31 (mega/key.go:78-83 `GeneratePrivateKey`, 71-73 `PublicKey`). -/
def genKeys : Nat → Rng → Go (List (Addr × Addr) × Rng)
  | 0, rng => pure ([], rng)
  | k + 1, rng => do
    let x ← Go.lift (Scalar.random rng)
    let s ← newSc x.1
    let p ← publicKeyOf ⟨s⟩
    let rest ← genKeys k x.2
    pure ((s, p.point) :: rest.1, rest.2)

/-- testutils/protocol_setup.go:21-42 `NewProtocolSetup`. -/
def newSetup (P : Prim) (receivers : Nat) (threshold : Int) (seed : Seed) : Go SetupObj := do
  let ad := (seed.rng P).xorKeyStream (List.replicate 32 0)
  let keys ← genKeys receivers ad.2
  pure ⟨threshold, ad.1, keys.1.map Prod.snd, keys.1.map Prod.fst, seed, 0⟩

/-- testutils/protocol_setup.go:44-48 `NextDealingSeed`. -/
def nextDealingSeed (P : Prim) (s : SetupObj) : Go (Seed × SetupObj) := do
  let seed ← Go.lift (s.seed.derive P (ascii "ic-crypto-tecdsa-round-" ++ decimal s.round))
  pure (seed, { s with round := s.round + 1 })

/-- testutils/protocol_setup.go:49-53 `RemoveNodes`, as in `Verif.Model.Protocol`: the slices of pointers are cut. -/
def removeNodes (s : SetupObj) (removing : Nat) : Go SetupObj :=
  if s.sk.length < removing then Go.panic "slice bounds out of range"
  else pure { s with pk := s.pk.take (s.sk.length - removing), sk := s.sk.take (s.sk.length - removing) }

/-- testutils/protocol_setup.go:54-56 `ModifyThreshold`. -/
def modifyThreshold (s : SetupObj) (threshold : Int) : SetupObj := { s with threshold := threshold }

/-! ### testutils/dealings.go, `CreateDealings` -/

/-- testutils/dealings.go:89-104, the loop over the shares from index `i` on. -/
def dealLoop (P : Prim) (s : SetupObj) (op : OpObj) : Nat → List SharesObj → Rng → Go (List (NodeIndex × DealingObj) × Rng)
  | _, [], rng => pure ([], rng)
  | i, share :: rest, rng => do
    let sd ← Go.lift (Seed.fromRng P rng)
    let d ← newDealing P share sd.1 s.threshold s.pk (node i) s.ad
    Go.orPanic "created a publicly invalid dealing"
      (publiclyVerify P d K256 op s.threshold (node i) s.sk.length s.ad)
    let _ ← Go.mapM' (fun x : NodeIndex × Addr × Addr =>
      privateVerify P d K256 x.2.1 x.2.2 s.ad (node i) x.1) s.receivers
    let r ← dealLoop P s op (i + 1) rest sd.2
    pure (if s.sk = [] then r.1 else (node i, d) :: r.1, r.2)

/-- testutils/dealings.go:130-143: private verification must fail for the chosen recipients and for no other. -/
def checkCorrupted (P : Prim) (s : SetupObj) (bad : DealingObj) (dealer : NodeIndex) (targets : List NodeIndex) : Go Unit := do
  let _ ← Go.mapM' (fun x : NodeIndex × Addr × Addr => do
    let r ← Go.ignoreErr (privateVerify P bad K256 x.2.1 x.2.2 s.ad dealer x.1)
    match r with
    | some _ => if x.1 ∈ targets then Go.panic "private verify failed" else pure ()
    | none => if x.1 ∈ targets then pure () else Go.panic "private verify failed") s.receivers
  pure ()

/-- testutils/dealings.go:117-145, the loop over the dealings to damage, which were looked up before. -/
def damageLoop (P : Prim) (s : SetupObj) : List (NodeIndex × DealingObj) → Rng → List (NodeIndex × DealingObj) →
    Go (List (NodeIndex × DealingObj))
  | [], _, ds => pure ds
  | (i, d) :: rest, rng, ds =>
    let x := rng.uint32
    if s.threshold = 0 then Go.panic "integer divide by zero"
    else do
      let t ← Go.lift (Protocol.choose ((List.range s.sk.length).map node) ((x.1 : Int).tmod s.threshold + 1).toNat x.2)
      let sd ← Go.lift (Seed.fromRng P t.2)
      let bad ← corruptDealing P d t.1 sd.1
      checkCorrupted P s bad i t.1
      damageLoop P s rest sd.2 (OMap.set BitVec.toInt i bad ds)

/-- testutils/dealings.go:112-114: the chosen keys with their dealings. -/
def lookUp (ds : List (NodeIndex × DealingObj)) (keys : List NodeIndex) : List (NodeIndex × DealingObj) :=
  keys.filterMap fun i => (OMap.get BitVec.toInt i ds).map fun d => (i, d)

/-- testutils/dealings.go:86-147 `CreateDealings`. -/
def createDealings (P : Prim) (s : SetupObj) (shares : List SharesObj) (numberOfDealers corrupted : Nat) (op : OpObj)
    (seed : Seed) : Go (List (NodeIndex × DealingObj)) := do
  let r ← dealLoop P s op 0 shares (seed.rng P)
  let t ← Go.lift (Protocol.thin numberOfDealers r.1.length r.2 r.1)
  let c ← Go.lift (Protocol.choose (t.1.map Prod.fst) corrupted t.2)
  damageLoop P s (lookUp t.1 c.1) c.2 t.1

/-! ### testutils/dealings.go, `OpenDealings` -/

/-- testutils/dealings.go:45-65: the openings of the other nodes that can verify the dealing. -/
def openersLoop (P : Prim) (s : SetupObj) (d : DealingObj) (dealer receiver : NodeIndex) : List (NodeIndex × Addr × Addr) →
    Go (List (NodeIndex × OpeningObj))
  | [] => pure []
  | (opener, sk, pk) :: rest =>
    if opener = receiver then openersLoop P s d dealer receiver rest
    else do
      let r ← Go.ignoreErr (privateVerify P d K256 sk pk s.ad dealer opener)
      match r with
      | none => openersLoop P s d dealer receiver rest
      | some _ => do
        let o ← Go.orPanic "unable to open dealing" (openDealing P d s.ad dealer opener sk pk)
        let cm ← Go.nonNil d.commitment
        let b ← checkOpening cm opener o
        if b then do
          let os ← openersLoop P s d dealer receiver rest
          pure ((opener, o) :: os)
        else Go.err "verify dealing opening failed"

/-- testutils/dealings.go:36-72, the scan over the complaints. -/
def complaintLoop (P : Prim) (s : SetupObj) (ds : List (NodeIndex × DealingObj)) (receiver : NodeIndex) (pk : Addr) :
    List (NodeIndex × ComplaintObj) → Rng → Go (List (NodeIndex × List (NodeIndex × OpeningObj)) × Rng)
  | [], rng => pure ([], rng)
  | (dealer, c) :: rest, rng =>
    match OMap.get BitVec.toInt dealer ds with
    | none => Go.err "dealings non-exists"
    | some d => do
      verifyComplaint P c d dealer receiver pk s.ad
      let os ← openersLoop P s d dealer receiver s.receivers
      let t ← Go.lift (Protocol.thin s.threshold os.length rng os)
      let provided ← complaintLoop P s ds receiver pk rest t.2
      pure ((dealer, t.1) :: provided.1, provided.2)

/-- testutils/dealings.go:29-80: what is done if the opening of a receiver cannot be made from the dealings. -/
def openByComplaints (P : Prim) (s : SetupObj) (ds : List (NodeIndex × DealingObj)) (T : Option ComObj) (seed : Seed)
    (receiver : NodeIndex) (sk pk : Addr) (rng : Rng) : Go (OpeningObj × Rng) := do
  let cs ← Go.lift (seed.derive P (ascii "complaint-" ++ decimal receiver.toNat))
  let complaints ← generateComplaints P ds s.ad receiver sk pk cs
  let provided ← complaintLoop P s ds receiver pk complaints rng
  let o ← Go.orPanic "unable to open dealing using provided openings"
    (fromDealingsAndOpenings P ds provided.1 T s.ad receiver sk pk)
  pure (o, provided.2)

/-- testutils/dealings.go:25-82, the loop over the receivers. -/
def openLoop (P : Prim) (s : SetupObj) (ds : List (NodeIndex × DealingObj)) (T : Option ComObj) (seed : Seed) :
    List (NodeIndex × Addr × Addr) → Rng → Go (List OpeningObj)
  | [], _ => pure []
  | (receiver, sk, pk) :: rest, rng => do
    let r ← Go.ignoreErr (fromDealings P ds T s.ad receiver sk pk)
    match r with
    | some o => do
      let os ← openLoop P s ds T seed rest rng
      pure (o :: os)
    | none => do
      let o ← openByComplaints P s ds T seed receiver sk pk rng
      let os ← openLoop P s ds T seed rest o.2
      pure (o.1 :: os)

/-- The values that `Serialize` of a commitment reads. -/
def readCommitment (c : CommitmentObj) : Go Commitment := do
  let vs ← Go.mapM' readPt c.points
  pure ⟨c.kind, vs⟩

/-- testutils/dealings.go:15-84 `OpenDealings`; `cbor` is the encoding of line 18. -/
def openDealings (P : Prim) (cbor : Commitment → Res Bytes) (s : SetupObj) (ds : List (NodeIndex × DealingObj))
    (T : Option ComObj) : Go (List OpeningObj) := do
  let c ← Go.nonNil T
  let v ← readCommitment c.c
  let bytes ← Go.lift (cbor v)
  let seed ← Go.lift (Seed.fromBytes P bytes)
  let rs ← Go.lift (seed.derive P (ascii "rng"))
  openLoop P s ds T seed s.receivers (rs.rng P)

/-! ### testutils/protocol_round.go -/

/-- testutils/protocol_round.go:16-21. -/
structure RoundObj where
  commitment : ComObj
  transcript : ComObj
  openings : List OpeningObj
  dealings : List (NodeIndex × DealingObj)

/-- poly/commitment.go:152-160, 274-282 `Clone`, promoted by the wrappers of dealings/combined_commitment.go:12-26, so that the
copy is a plain commitment. -/
def cloneCom (c : ComObj) : Go ComObj := do
  let points ← cloneCommitment c.c.points
  pure ⟨.plain, ⟨c.c.kind, points⟩⟩

/-- testutils/protocol_round.go:30-42 `New`. -/
def newRound (P : Prim) (cbor : Commitment → Res Bytes) (s : SetupObj) (ds : List (NodeIndex × DealingObj))
    (T : Option ComObj) : Go RoundObj := do
  let os ← openDealings P cbor s ds T
  let c ← Go.nonNil T
  let commitment ← cloneCom c
  pure ⟨commitment, c, os, ds⟩

/-- What the four operations have in common: testutils/protocol_round.go:50-58, 70-80, 93-101, 118-126. -/
def makeRound (P : Prim) (cbor : Commitment → Res Bytes) (s : SetupObj) (shares : List SharesObj) (op : OpObj)
    (numberOfDealers corrupted : Nat) : Go (RoundObj × SetupObj) := do
  let n ← nextDealingSeed P s
  let ds ← createDealings P n.2 shares numberOfDealers corrupted op n.1
  let T ← newTranscript n.2.threshold ds op
  let r ← newRound P cbor n.2 ds T
  pure (r, n.2)

/-- testutils/protocol_round.go:44-59 `Random`. -/
def roundRandom (P : Prim) (cbor : Commitment → Res Bytes) (s : SetupObj) (numberOfDealers corrupted : Nat) :
    Go (RoundObj × SetupObj) :=
  makeRound P cbor s (List.replicate numberOfDealers .random) .random numberOfDealers corrupted

/-- testutils/protocol_round.go:62-68: the share refers to the objects of the opening. -/
def maskedShare : OpeningObj → Go SharesObj
  | .pedersen v m => pure (.reshareMasked v m)
  | _ => Go.panic "unexpected opening type"

/-- testutils/protocol_round.go:60-81 `ReshareOfMasked`. -/
def roundReshareOfMasked (P : Prim) (cbor : Commitment → Res Bytes) (s : SetupObj) (masked : RoundObj)
    (numberOfDealers corrupted : Nat) : Go (RoundObj × SetupObj) := do
  let shares ← Go.mapM' maskedShare masked.openings
  let p1 ← cloneCom masked.commitment
  makeRound P cbor s shares (.reshareMasked p1) numberOfDealers corrupted

/-- testutils/protocol_round.go:85-91. -/
def unmaskedShare : OpeningObj → Go SharesObj
  | .simple v => pure (.reshareUnmasked v)
  | _ => Go.panic "unexpected opening type"

/-- testutils/protocol_round.go:83-102 `ReshareOfUnmasked`. -/
def roundReshareOfUnmasked (P : Prim) (cbor : Commitment → Res Bytes) (s : SetupObj) (unmasked : RoundObj)
    (numberOfDealers corrupted : Nat) : Go (RoundObj × SetupObj) := do
  let shares ← Go.mapM' unmaskedShare unmasked.openings
  let p1 ← cloneCom unmasked.commitment
  makeRound P cbor s shares (.reshareUnmasked p1) numberOfDealers corrupted

/-- testutils/protocol_round.go:106-116. -/
def productShares : List OpeningObj → List OpeningObj → Go (List SharesObj)
  | [], _ => pure []
  | .simple l :: ls, .pedersen v m :: ms => do
    let rest ← productShares ls ms
    pure (.unmaskedTimesMasked l v m :: rest)
  | .simple _ :: _, [] => Go.panic "index out of range"
  | _ :: _, _ => Go.panic "unexpected opening type"

/-- testutils/protocol_round.go:104-127 `Multiply`. -/
def roundMultiply (P : Prim) (cbor : Commitment → Res Bytes) (s : SetupObj) (masked unmasked : RoundObj)
    (numberOfDealers corrupted : Nat) : Go (RoundObj × SetupObj) := do
  let shares ← productShares unmasked.openings masked.openings
  let left ← cloneCom unmasked.commitment
  let right ← cloneCom masked.commitment
  makeRound P cbor s shares (.unmaskedTimesMasked left right) numberOfDealers corrupted

/-- testutils/protocol_round.go:135-140: the openings of one kind with their positions. -/
def simpleAt (x : OpeningObj × Nat) : Option (NodeIndex × Addr) :=
  match x.1 with
  | .simple v => some (node x.2, v)
  | _ => none

/-- testutils/protocol_round.go:157-163. -/
def pedersenAt (x : OpeningObj × Nat) : Option (NodeIndex × Addr × Addr) :=
  match x.1 with
  | .pedersen v m => some (node x.2, v, m)
  | _ => none

/-- testutils/protocol_round.go:128-182 `VerifyCommitmentOpenings`. -/
def verifyCommitmentOpenings (c : ComObj) (openings : List OpeningObj) : Go Unit := do
  let ct ← constantTerm c.c.points
  if c.wrap = .plain ∧ c.c.kind = .simple then do
    let l := openings.zipIdx.filterMap simpleAt
    let coefficients ← atZero (l.map Prod.fst)
    let dlog ← interpolateScalar coefficients (l.map Prod.snd)
    let pt ← mulByG dlog
    let a ← readPt pt
    let b ← readPt ct
    if a = b then pure () else Go.err "verify failed"
  else do
    let l := openings.zipIdx.filterMap pedersenAt
    let coefficients ← atZero (l.map Prod.fst)
    let dlogg ← interpolateScalar coefficients (l.map fun x => x.2.1)
    let dlogh ← interpolateScalar coefficients (l.map fun x => x.2.2)
    let pt ← pedersen dlogg dlogh
    let a ← readPt pt
    let b ← readPt ct
    if a = b then pure () else Go.err "verify failed"

/-! ### testutils/signature_protocol_setup.go -/

/-- testutils/signature_protocol_setup.go:22-29. -/
structure SigSetupObj where
  setup : SetupObj
  key : RoundObj
  kappa : RoundObj
  lambda : RoundObj
  keyTimesLambda : RoundObj
  kappaTimesLambda : RoundObj

/-- testutils/signature_protocol_setup.go:31-69 `NewSignatureProtocolSetup`. -/
def newSigSetup (P : Prim) (cbor : Commitment → Res Bytes) (numberOfDealers : Nat) (threshold : Int) (corrupted : Nat)
    (seed : Seed) : Go SigSetupObj := do
  let s ← newSetup P numberOfDealers threshold seed
  let key ← roundRandom P cbor s numberOfDealers corrupted
  let kappa ← roundRandom P cbor key.2 numberOfDealers corrupted
  let lambda ← roundRandom P cbor kappa.2 numberOfDealers corrupted
  let key ← roundReshareOfMasked P cbor lambda.2 key.1 numberOfDealers corrupted
  let kappa ← roundReshareOfMasked P cbor key.2 kappa.1 numberOfDealers corrupted
  let keyTimesLambda ← roundMultiply P cbor kappa.2 lambda.1 key.1 numberOfDealers corrupted
  let kappaTimesLambda ← roundMultiply P cbor keyTimesLambda.2 lambda.1 kappa.1 numberOfDealers corrupted
  pure ⟨kappaTimesLambda.2, key.1, kappa.1, lambda.1, keyTimesLambda.1, kappaTimesLambda.1⟩

namespace SigSetupObj

/-- testutils/signature_protocol_setup.go:71-73 `PublicKey`. -/
def publicKey (P : Prim) (S : SigSetupObj) (path : List Key.Index) : Go (Bytes × Bytes) := do
  let pk ← constantTerm S.key.transcript.c.points
  let v ← readPt pk
  derivePublicKey P (Point.serialize v) path

/-- testutils/signature_protocol_setup.go:95-104, the body of the loop. -/
def share (P : Prim) (S : SigSetupObj) (path : List Key.Index) (hashedMsg randomness : Bytes) (i : Nat) :
    Go (NodeIndex × SigShareObj) := do
  let l ← Go.index S.lambda.openings i
  let kl ← Go.index S.kappaTimesLambda.openings i
  let xl ← Go.index S.keyTimesLambda.openings i
  let sh ← newSigShare P path hashedMsg randomness (some S.key.transcript) (some S.kappa.transcript) (some l) (some kl)
    (some xl)
  verifySigShare P sh path hashedMsg randomness (node i) (some S.key.transcript) (some S.kappa.transcript)
    (some S.lambda.transcript) (some S.kappaTimesLambda.transcript) (some S.keyTimesLambda.transcript)
  pure (node i, sh)

/-- testutils/signature_protocol_setup.go:93-106 `GenerateShares`. -/
def generateShares (P : Prim) (S : SigSetupObj) (path : List Key.Index) (hashedMsg randomness : Bytes) :
    Go (List (NodeIndex × SigShareObj)) :=
  Go.mapM' (S.share P path hashedMsg randomness) (List.range S.setup.sk.length)

/-- testutils/signature_protocol_setup.go:107-109 `GenerateSignature`. -/
def generateSignature (P : Prim) (S : SigSetupObj) (path : List Key.Index) (hashedMsg randomness : Bytes)
    (shares : List (NodeIndex × SigShareObj)) : Go SignatureObj :=
  combineShares P path hashedMsg randomness (some S.key.transcript) (some S.kappa.transcript) S.setup.threshold shares

/-- testutils/signature_protocol_setup.go:111-128 `VerifySignature`. -/
def verifySignature (P : Prim) (S : SigSetupObj) (path : List Key.Index) (hashedMsg randomness : Bytes)
    (sig : SignatureObj) : Go Unit := do
  Heap.verifySignature P sig path hashedMsg randomness (some S.key.transcript) (some S.kappa.transcript)
  let pk ← S.publicKey P path
  match Point.deserialize K256 pk.1 with
  | .ok (some raw) =>
    match Point.ofRaw? raw with
    | some Q => do
      let q ← newPt Q
      let Q ← readPt q
      let r ← readSc sig.r
      let s ← readSc sig.s
      if Protocol.ecdsaVerify Q hashedMsg r s then pure () else Go.err "verify signature failed"
    | none => Go.panic "not a point of the curve"
  | _ => Go.panic "nil pointer dereference"

end SigSetupObj

end Verif.Heap
