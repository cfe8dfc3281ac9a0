import Verif.Model.Complaints
import Verif.Model.Sign

/-!
Model of the protocol driver: testutils/protocol_setup.go, testutils/dealings.go, testutils/test_utils.go (`CorruptDealing`),
testutils/protocol_round.go and testutils/signature_protocol_setup.go, for `curveType = K256`.

Simplified: counts are natural numbers (`make` panics on negative ones) and slices have fewer than 2^63 entries, as in Go, so
that consecutive indices are in ascending order.  `setup.Receivers = len(setup.Sk)` and `setup.Pk` are the public keys of
`setup.Sk`, which holds after `NewProtocolSetup` and `RemoveNodes`.  Of `TestPublicDealingVerification` only the first check
is modelled; the other three (that the dealing of another dealer, or for other data, is refused) can only make a run panic.
-/

set_option autoImplicit false

namespace Verif.Protocol

open Mega Dealings Complaints Sign

/-- Node number `i`. -/
def node (i : Nat) : NodeIndex := BitVec.ofNat 64 i

/-- testutils/protocol_setup.go:11-19 (`Receivers` and `Pk` are determined by `Sk`). -/
structure Setup where
  threshold : Int
  ad : Bytes
  sk : List Fn
  seed : Seed
  round : Nat

/-- `setup.Pk`. -/
def Setup.pk (s : Setup) : List Pt := s.sk.map Point.mulByG

/-- `setup.ReceiverInfo` (testutils/protocol_setup.go:57-68): the receivers with their numbers. -/
def Setup.receivers (s : Setup) : List (NodeIndex × Fn) := s.sk.zipIdx.map fun x => (node x.2, x.1)

/-- testutils/protocol_setup.go:27-31. -/
def genKeys : Nat → Rng → Res (List Fn × Rng)
  | 0, rng => .ok ([], rng)
  | k + 1, rng => do
    let (s, rng) ← Scalar.random rng
    let (rest, rng) ← genKeys k rng
    .ok (s :: rest, rng)

/-- testutils/protocol_setup.go:21-42 `NewProtocolSetup`. -/
def Setup.new (P : Prim) (receivers : Nat) (threshold : Int) (seed : Seed) : Res Setup := do
  let (ad, rng) := (seed.rng P).xorKeyStream (List.replicate 32 0)
  let (sk, _) ← genKeys receivers rng
  .ok ⟨threshold, ad, sk, seed, 0⟩

/-- testutils/protocol_setup.go:44-48 `NextDealingSeed`. -/
def Setup.nextDealingSeed (P : Prim) (s : Setup) : Res (Seed × Setup) := do
  let seed ← s.seed.derive P (ascii "ic-crypto-tecdsa-round-" ++ decimal s.round)
  .ok (seed, { s with round := s.round + 1 })

/-- testutils/protocol_setup.go:49-53 `RemoveNodes`: slicing with a negative bound panics.  (A negative number to remove is not
modelled; it would depend on the capacities of the slices.) -/
def Setup.removeNodes (s : Setup) (removing : Nat) : Res Setup :=
  if s.sk.length < removing then .panic "slice bounds out of range"
  else .ok { s with sk := s.sk.take (s.sk.length - removing) }

/-- testutils/protocol_setup.go:54-56 `ModifyThreshold`. -/
def Setup.modifyThreshold (s : Setup) (threshold : Int) : Setup := { s with threshold := threshold }

/-! ### Dealings -/

/-- A failing call after which the code panics. -/
def orPanic {α : Type} (msg : String) : Res α → Res α
  | .err _ => .panic msg
  | r => r

/-- testutils/dealings.go:89-104, the loop over the shares from index `i` on.  (`Set` is inside the loop over the
recipients, so nothing is stored if there are none.) -/
def dealLoop (P : Prim) (s : Setup) (op : Op) : Nat → List Shares → Rng → Res (DealingMap × Rng)
  | _, [], rng => .ok ([], rng)
  | i, share :: rest, rng => do
    let (sd, rng) ← Seed.fromRng P rng
    let d ← Dealings.new P share sd s.threshold s.pk (node i) s.ad
    orPanic "created a publicly invalid dealing"
      (publiclyVerify P d K256 op s.threshold (node i) s.sk.length s.ad)
    let _ ← Res.mapM' (fun x : NodeIndex × Fn =>
      privateVerify P d K256 x.2 (Point.mulByG x.2) s.ad (node i) x.1) s.receivers
    let (ds, rng) ← dealLoop P s op (i + 1) rest rng
    .ok (if s.sk = [] then ds else (node i, d) :: ds, rng)

/-- testutils/dealings.go:105-108 and 66-69: entries are deleted at random until at most `bound` are left.  The first
argument is the number of entries. -/
def thin {V : Type} (bound : Int) : Nat → Rng → List (NodeIndex × V) → Res (List (NodeIndex × V) × Rng)
  | 0, rng, m => if 0 > bound then .panic "integer divide by zero" else .ok (m, rng)
  | k + 1, rng, m =>
    if ((k + 1 : Nat) : Int) > bound then
      let (x, rng) := rng.uint32
      thin bound k rng (m.eraseIdx (x % (k + 1)))
    else .ok (m, rng)

/-- testutils/dealings.go:110-115 and 122-124: entries are drawn at random until `count` different ones have been found
(`none`: there are not so many, or the generator does not give them). -/
def chooseLoop (all : List NodeIndex) (count : Nat) (rng : Rng) (chosen : List (NodeIndex × Unit)) :
    Option (List (NodeIndex × Unit) × Rng) :=
  if chosen.length < count then
    let (x, rng) := rng.uint32
    match all[x % all.length]? with
    | none => chooseLoop all count rng chosen
    | some i => chooseLoop all count rng (OMap.set BitVec.toInt i () chosen)
  else some (chosen, rng)
partial_fixpoint

/-- The same as a call; with nothing to draw from, the remainder panics. -/
def choose (all : List NodeIndex) (count : Nat) (rng : Rng) : Res (List NodeIndex × Rng) :=
  if count = 0 then .ok ([], rng)
  else if all = [] then .panic "integer divide by zero"
  else match chooseLoop all count rng [] with
    | none => .diverge
    | some (c, rng) => .ok (c.map Prod.fst, rng)

/-- testutils/test_utils.go:12-57 `CorruptDealing`.  (`targets` are different and in range for the caller; the clones are
the same values.) -/
def corrupt (P : Prim) (d : Dealing) (targets : List NodeIndex) (seed : Seed) : Res Dealing := do
  let _ ← nonNil d.commitment
  let (randomizer, _) ← Scalar.random (seed.rng P)
  let ct : Option Cipher := match d.ciphertext with
    | some (.single m) => some (.single { m with
        ctexts := m.ctexts.mapIdx fun i c => if node i ∈ targets then c + randomizer else c })
    | some (.pair m) => some (.pair { m with
        ctexts := m.ctexts.mapIdx fun i c => if node i ∈ targets then (c.1 + randomizer, c.2) else c })
    | none => none
  .ok ⟨ct, d.commitment, d.proof⟩

/-- testutils/dealings.go:131-143: private verification must fail for the chosen recipients and for no other. -/
def checkCorrupted (P : Prim) (s : Setup) (bad : Dealing) (dealer : NodeIndex) (targets : List NodeIndex) : Res Unit := do
  let _ ← Res.mapM' (fun x : NodeIndex × Fn =>
    match privateVerify P bad K256 x.2 (Point.mulByG x.2) s.ad dealer x.1 with
    | .ok _ => if x.1 ∈ targets then .panic "private verify failed" else .ok ()
    | .err _ => if x.1 ∈ targets then .ok () else .panic "private verify failed"
    | .panic e => .panic e
    | .diverge => .diverge) s.receivers
  .ok ()

/-- testutils/dealings.go:117-145, the loop over the dealings to damage. -/
def damageLoop (P : Prim) (s : Setup) : List NodeIndex → Rng → DealingMap → Res DealingMap
  | [], _, ds => .ok ds
  | i :: rest, rng, ds => do
    let d ← nonNil (OMap.get BitVec.toInt i ds)
    let (x, rng) := rng.uint32
    if s.threshold = 0 then .panic "integer divide by zero"
    else do
      let (targets, rng) ← choose ((List.range s.sk.length).map node) ((x : Int).tmod s.threshold + 1).toNat rng
      let (sd, rng) ← Seed.fromRng P rng
      let bad ← corrupt P d targets sd
      checkCorrupted P s bad i targets
      damageLoop P s rest rng (OMap.set BitVec.toInt i bad ds)

/-- testutils/dealings.go:86-147 `CreateDealings`. -/
def createDealings (P : Prim) (s : Setup) (shares : List Shares) (numberOfDealers corrupted : Nat) (op : Op) (seed : Seed) :
    Res DealingMap := do
  let (ds, rng) ← dealLoop P s op 0 shares (seed.rng P)
  let (ds, rng) ← thin numberOfDealers ds.length rng ds
  let (damage, rng) ← choose (ds.map Prod.fst) corrupted rng
  damageLoop P s damage rng ds

/-! ### Openings -/

/-- testutils/dealings.go:45-65: the openings of the other nodes that can verify the dealing. -/
def openersLoop (P : Prim) (s : Setup) (d : Dealing) (dealer receiver : NodeIndex) : List (NodeIndex × Fn) →
    Res OpeningMap
  | [] => .ok []
  | (opener, k) :: rest =>
    if opener = receiver then openersLoop P s d dealer receiver rest
    else match privateVerify P d K256 k (Point.mulByG k) s.ad dealer opener with
      | .err _ => openersLoop P s d dealer receiver rest
      | .panic e => .panic e
      | .diverge => .diverge
      | .ok _ => do
        let o ← orPanic "unable to open dealing" (openDealing P d s.ad dealer opener k (Point.mulByG k))
        let cm ← nonNil d.commitment
        if ← cm.checkOpening opener o then do
          let os ← openersLoop P s d dealer receiver rest
          .ok ((opener, o) :: os)
        else .err "verify dealing opening failed"

/-- testutils/dealings.go:36-72, the scan over the complaints. -/
def complaintLoop (P : Prim) (s : Setup) (ds : DealingMap) (receiver : NodeIndex) (pk : Pt) :
    List (NodeIndex × Complaint) → Rng → Res (List (NodeIndex × OpeningMap) × Rng)
  | [], rng => .ok ([], rng)
  | (dealer, c) :: rest, rng =>
    match OMap.get BitVec.toInt dealer ds with
    | none => .err "dealings non-exists"
    | some d => do
      Complaints.verify P c d dealer receiver pk s.ad
      let os ← openersLoop P s d dealer receiver s.receivers
      let (os, rng) ← thin s.threshold os.length rng os
      let (provided, rng) ← complaintLoop P s ds receiver pk rest rng
      .ok ((dealer, os) :: provided, rng)

/-- testutils/dealings.go:25-82, the loop over the receivers; the label of line 30 is `complaint-<receiver>`. -/
def openLoop (P : Prim) (s : Setup) (ds : DealingMap) (T : Option Com) (seed : Seed) : List (NodeIndex × Fn) → Rng →
    Res (List Opening)
  | [], _ => .ok []
  | (receiver, k) :: rest, rng =>
    match fromDealings P ds T s.ad receiver k (Point.mulByG k) with
    | .ok o => do
      let os ← openLoop P s ds T seed rest rng
      .ok (o :: os)
    | .err _ => do
      let cs ← seed.derive P (ascii "complaint-" ++ decimal receiver.toNat)
      let complaints ← generateComplaints P ds s.ad receiver k (Point.mulByG k) cs
      let (provided, rng) ← complaintLoop P s ds receiver (Point.mulByG k) complaints rng
      let o ← orPanic "unable to open dealing using provided openings"
        (fromDealingsAndOpenings P ds provided T s.ad receiver k (Point.mulByG k))
      let os ← openLoop P s ds T seed rest rng
      .ok (o :: os)
    | .panic e => .panic e
    | .diverge => .diverge

/-- testutils/dealings.go:15-84 `OpenDealings`; `cbor` is the encoding of the commitment (line 18), which is only used to
derive a seed. -/
def openDealings (P : Prim) (cbor : Commitment → Res Bytes) (s : Setup) (ds : DealingMap) (T : Option Com) :
    Res (List Opening) := do
  let c ← nonNil T
  let bytes ← cbor c.c
  let seed ← Seed.fromBytes P bytes
  let rs ← seed.derive P (ascii "rng")
  openLoop P s ds T seed s.receivers (rs.rng P)

/-! ### Rounds -/

/-- testutils/protocol_round.go:16-21 (`Commitment` is the plain copy of that of the transcript). -/
structure Round where
  transcript : Com
  openings : List Opening
  dealings : DealingMap

/-- `p.Commitment`. -/
def Round.commitment (r : Round) : Com := r.transcript.clone

/-- testutils/protocol_round.go:23-25 `ConstantTerm`. -/
def Round.constantTerm (r : Round) : Res Pt := r.commitment.c.constantTerm

/-- testutils/protocol_round.go:30-42 `New`, with the making of dealings and transcript (testutils/transcript.go:10-12
`CreateTranscript`) that precedes it in all four operations. -/
def Round.make (P : Prim) (cbor : Commitment → Res Bytes) (s : Setup) (shares : List Shares) (op : Op)
    (numberOfDealers corrupted : Nat) : Res (Round × Setup) := do
  let (seed, s) ← s.nextDealingSeed P
  let ds ← createDealings P s shares numberOfDealers corrupted op seed
  let T ← newTranscript s.threshold ds op
  let os ← openDealings P cbor s ds T
  let c ← nonNil T
  .ok (⟨c, os, ds⟩, s)

/-- testutils/protocol_round.go:44-59 `Random`. -/
def Round.random (P : Prim) (cbor : Commitment → Res Bytes) (s : Setup) (numberOfDealers corrupted : Nat) :
    Res (Round × Setup) :=
  Round.make P cbor s (List.replicate numberOfDealers .random) .random numberOfDealers corrupted

/-- testutils/protocol_round.go:62-68. -/
def maskedShare : Opening → Res Shares
  | .pedersen v m => .ok (.reshareMasked v m)
  | _ => .panic "unexpected opening type"

/-- testutils/protocol_round.go:60-81 `ReshareOfMasked`. -/
def Round.reshareOfMasked (P : Prim) (cbor : Commitment → Res Bytes) (s : Setup) (masked : Round)
    (numberOfDealers corrupted : Nat) : Res (Round × Setup) := do
  let shares ← Res.mapM' maskedShare masked.openings
  Round.make P cbor s shares (.reshareMasked masked.commitment.clone) numberOfDealers corrupted

/-- testutils/protocol_round.go:85-91. -/
def unmaskedShare : Opening → Res Shares
  | .simple v => .ok (.reshareUnmasked v)
  | _ => .panic "unexpected opening type"

/-- testutils/protocol_round.go:83-102 `ReshareOfUnmasked`. -/
def Round.reshareOfUnmasked (P : Prim) (cbor : Commitment → Res Bytes) (s : Setup) (unmasked : Round)
    (numberOfDealers corrupted : Nat) : Res (Round × Setup) := do
  let shares ← Res.mapM' unmaskedShare unmasked.openings
  Round.make P cbor s shares (.reshareUnmasked unmasked.commitment.clone) numberOfDealers corrupted

/-- testutils/protocol_round.go:106-116: `masked.Openings[i]` may be out of range. -/
def productShares : List Opening → List Opening → Res (List Shares)
  | [], _ => .ok []
  | .simple l :: ls, .pedersen v m :: ms => do
    let rest ← productShares ls ms
    .ok (.unmaskedTimesMasked l v m :: rest)
  | .simple _ :: _, [] => .panic "index out of range"
  | _ :: _, _ => .panic "unexpected opening type"

/-- testutils/protocol_round.go:104-127 `Multiply`. -/
def Round.multiply (P : Prim) (cbor : Commitment → Res Bytes) (s : Setup) (masked unmasked : Round)
    (numberOfDealers corrupted : Nat) : Res (Round × Setup) := do
  let shares ← productShares unmasked.openings masked.openings
  Round.make P cbor s shares (.unmaskedTimesMasked unmasked.commitment.clone masked.commitment.clone) numberOfDealers corrupted

/-! ### Signatures -/

/-- testutils/signature_protocol_setup.go:22-29. -/
structure SigSetup where
  setup : Setup
  key : Round
  kappa : Round
  lambda : Round
  keyTimesLambda : Round
  kappaTimesLambda : Round

/-- testutils/signature_protocol_setup.go:31-69 `NewSignatureProtocolSetup`. -/
def SigSetup.new (P : Prim) (cbor : Commitment → Res Bytes) (numberOfDealers : Nat) (threshold : Int) (corrupted : Nat)
    (seed : Seed) : Res SigSetup := do
  let s ← Setup.new P numberOfDealers threshold seed
  let (key, s) ← Round.random P cbor s numberOfDealers corrupted
  let (kappa, s) ← Round.random P cbor s numberOfDealers corrupted
  let (lambda, s) ← Round.random P cbor s numberOfDealers corrupted
  let (key, s) ← Round.reshareOfMasked P cbor s key numberOfDealers corrupted
  let (kappa, s) ← Round.reshareOfMasked P cbor s kappa numberOfDealers corrupted
  let (keyTimesLambda, s) ← Round.multiply P cbor s lambda key numberOfDealers corrupted
  let (kappaTimesLambda, s) ← Round.multiply P cbor s lambda kappa numberOfDealers corrupted
  .ok ⟨s, key, kappa, lambda, keyTimesLambda, kappaTimesLambda⟩

/-- testutils/signature_protocol_setup.go:71-73 `PublicKey`. -/
def SigSetup.publicKey (P : Prim) (S : SigSetup) (path : List Key.Index) : Res (Bytes × Bytes) := do
  let pk ← S.key.transcript.c.constantTerm
  derivePublicKey P (Point.serialize pk) path

/-- testutils/signature_protocol_setup.go:95-104, the body of the loop: share and check of one node. -/
def SigSetup.share (P : Prim) (S : SigSetup) (path : List Key.Index) (hashedMsg randomness : Bytes) (i : Nat) :
    Res (NodeIndex × SigShare) := do
  let l ← index S.lambda.openings i
  let kl ← index S.kappaTimesLambda.openings i
  let xl ← index S.keyTimesLambda.openings i
  let sh ← SigShare.new P path hashedMsg randomness (some S.key.transcript) (some S.kappa.transcript) (some l) (some kl)
    (some xl)
  SigShare.verify P sh path hashedMsg randomness (node i) (some S.key.transcript) (some S.kappa.transcript)
    (some S.lambda.transcript) (some S.kappaTimesLambda.transcript) (some S.keyTimesLambda.transcript)
  .ok (node i, sh)

/-- testutils/signature_protocol_setup.go:93-106 `GenerateShares`. -/
def SigSetup.generateShares (P : Prim) (S : SigSetup) (path : List Key.Index) (hashedMsg randomness : Bytes) : Res ShareMap :=
  Res.mapM' (S.share P path hashedMsg randomness) (List.range S.setup.sk.length)

/-- testutils/signature_protocol_setup.go:107-109 `GenerateSignature`. -/
def SigSetup.generateSignature (P : Prim) (S : SigSetup) (path : List Key.Index) (hashedMsg randomness : Bytes)
    (shares : ShareMap) : Res Signature :=
  combine P path hashedMsg randomness (some S.key.transcript) (some S.kappa.transcript) S.setup.threshold shares

/-- `crypto/ecdsa.Verify` on secp256k1, as in the standard library (`verifyLegacy`; of the hash, the first 32 bytes). -/
def ecdsaVerify (Q : Pt) (hash : Bytes) (r s : Fn) : Bool :=
  let e : Fn := (beVal (hash.take 32) : Fn)
  let w := s⁻¹
  let X := Point.mulPoints G (e * w) Q (r * w)
  r ≠ 0 && s ≠ 0 && X ≠ 0 && decide (((Point.affineX X).val : Fn) = r)

/-- testutils/signature_protocol_setup.go:111-128 `VerifySignature`.  The error of `Deserialize` is ignored; what
`DerivePublicKey` returns is always the serialisation of a point. -/
def SigSetup.verifySignature (P : Prim) (S : SigSetup) (path : List Key.Index) (hashedMsg randomness : Bytes)
    (sig : Signature) : Res Unit := do
  sig.verify P path hashedMsg randomness (some S.key.transcript) (some S.kappa.transcript)
  let (pk, _) ← S.publicKey P path
  match Point.deserialize K256 pk with
  | .ok (some raw) =>
    match Point.ofRaw? raw with
    | some Q => if ecdsaVerify Q hashedMsg sig.r sig.s then .ok () else .err "verify signature failed"
    | none => .panic "not a point of the curve"
  | _ => .panic "nil pointer dereference"

/-- testutils/protocol_round.go:135-140: the openings of one kind with their positions. -/
def simpleAt (x : Opening × Nat) : Option (NodeIndex × Fn) :=
  match x.1 with
  | .simple v => some (node x.2, v)
  | _ => none

/-- testutils/protocol_round.go:157-163. -/
def pedersenAt (x : Opening × Nat) : Option (NodeIndex × Fn × Fn) :=
  match x.1 with
  | .pedersen v m => some (node x.2, v, m)
  | _ => none

/-- testutils/protocol_round.go:128-182 `VerifyCommitmentOpenings`; everything that is not a `*SimpleCommitment` is taken for a
Pedersen commitment. -/
def verifyCommitmentOpenings (c : Com) (openings : List Opening) : Res Unit := do
  let constantTerm ← c.c.constantTerm
  if c.wrap = .plain ∧ c.c.kind = .simple then do
    let l := openings.zipIdx.filterMap simpleAt
    let coefficients ← Lagr.atZero (l.map Prod.fst)
    let dlog ← Lagr.interpolateScalar coefficients (l.map Prod.snd)
    if Point.mulByG dlog = constantTerm then .ok () else .err "verify failed"
  else do
    let l := openings.zipIdx.filterMap pedersenAt
    let coefficients ← Lagr.atZero (l.map Prod.fst)
    let dlogg ← Lagr.interpolateScalar coefficients (l.map fun x => x.2.1)
    let dlogh ← Lagr.interpolateScalar coefficients (l.map fun x => x.2.2)
    if Point.pedersen dlogg dlogh = constantTerm then .ok () else .err "verify failed"

end Verif.Protocol
