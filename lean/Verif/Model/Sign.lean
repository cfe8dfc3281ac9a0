import Verif.Model.Transcript
import Verif.Model.Key

/-!
Model of sign/sign.go, sign/share.go and sign/combined_sig.go, for `curveType = K256`.

Simplified: pointers to transcripts, shares and derivation paths are non-nil, and the two scalars of a signature are
non-nil.  A transcript is its `CombinedCommitment` (`none`: nil), as in `Verif.Model.Transcript`.
-/

set_option autoImplicit false

namespace Verif.Sign

open Dealings

/-- sign/sign.go:12-15 `EcdsaConversion`. -/
def ecdsaConversion (pt : Pt) : Res Fn := Scalar.fromBytesWide (Fe.asBytes (Point.affineX pt))

/-- sign/sign.go:17-19 `ConvertHashToInteger`. -/
def convertHashToInteger (hashedMsg : Bytes) : Res Fn := Scalar.fromBytesWide hashedMsg

/-- sign/sign.go:22-27: only an `*InterpolationCommitment` around a simple commitment is accepted. -/
def preSigOf : Option Com → Res Pt
  | some ⟨.interpolation, c⟩ =>
    match c.kind with
    | .simple => c.constantTerm
    | .pedersen => .err "unexpected commitment type"
  | _ => .err "unexpected commitment type"

/-- sign/sign.go:32-36 (the errors of the four calls are ignored). -/
def rhoTranscript (randomness hashedMsg : Bytes) (preSig : Pt) (keyTweak : Fn) : Ro :=
  let ro := Ro.new (ascii "ic-crypto-tecdsa-rerandomize-presig")
  let ro := (ro.addBytesString (ascii "randomness") randomness).2
  let ro := (ro.addBytesString (ascii "hashed_message") hashedMsg).2
  let ro := (ro.addPoint (ascii "pre_sig") preSig).2
  (ro.addScalar (ascii "key_tweak") keyTweak).2

/-- The results of `DeriveRho`. -/
structure Derived where
  rho : Fn
  keyTweak : Fn
  randomizer : Fn
  randomizedPresig : Pt

/-- sign/sign.go:21-47 `DeriveRho`. -/
def deriveRho (P : Prim) (hashedMsg randomness : Bytes) (path : List Key.Index) (keyT presigT : Option Com) : Res Derived := do
  let preSig ← preSigOf presigT
  let key ← constantTerm keyT
  let (keyTweak, _) ← Key.deriveTweak P path key
  let randomizer ← (rhoTranscript randomness hashedMsg preSig keyTweak).outputScalar P
  let randomizedPresig := preSig + Point.scalarMul G randomizer
  let rho ← ecdsaConversion randomizedPresig
  .ok ⟨rho, keyTweak, randomizer, randomizedPresig⟩

/-- sign/sign.go:52-67 `DerivePublicKey`: the serialised key and the chain key.  (For K256, `Deserialize` of 33 bytes gives
a point of the curve; the other two cases cannot occur, see `Verif.Sign.derivePublicKey_eq`.) -/
def derivePublicKey (P : Prim) (masterPublicKey : Bytes) (path : List Key.Index) : Res (Bytes × Bytes) := do
  match ← Point.deserialize K256 masterPublicKey with
  | none => .panic "nil pointer dereference"
  | some r =>
    match Point.ofRaw? r with
    | none => .panic "not a point of the curve"
    | some pk => do
      let (keyTweak, chainKey) ← Key.deriveTweak P path pk
      let b ← Point.serializeRes (Point.mulByG keyTweak + pk)
      .ok (b, chainKey)

/-- sign/share.go:12-15 (`none`: nil interface). -/
structure SigShare where
  sigmaNumerator : Option Opening
  sigmaDenominator : Option Opening

/-- sign/share.go:29-32: the two scalars of a `PedersenCommitmentOpening`, nil for every other dynamic type. -/
def pedersenValue : Option Opening → Option (Fn × Fn)
  | some (.pedersen v m) => some (v, m)
  | _ => none

/-- sign/share.go:75, 80: those of a `*PedersenCommitmentOpening`. -/
def pedersenPointer : Option Opening → Option (Fn × Fn)
  | some (.pedersenPtr v m) => some (v, m)
  | _ => none

/-- sign/share.go:33-40: `nu` stays nil unless `keyTimesLambda` is a Pedersen opening; then a nil `lambda` panics in `Mul`. -/
def nuOf (theta rho : Fn) (lambda keyTimesLambda : Option Opening) : Res (Option Opening) :=
  match pedersenValue keyTimesLambda with
  | none => .ok none
  | some (kv, km) =>
    match pedersenValue lambda with
    | none => .panic "interface conversion"
    | some (lv, lm) => .ok (some (.pedersen (theta * lv + rho * kv) (theta * lm + rho * km)))

/-- sign/share.go:42-49, likewise for `mu`. -/
def muOf (randomizer : Fn) (lambda kappaTimesLambda : Option Opening) : Res (Option Opening) :=
  match pedersenValue kappaTimesLambda with
  | none => .ok none
  | some (kv, km) =>
    match pedersenValue lambda with
    | none => .panic "interface conversion"
    | some (lv, lm) => .ok (some (.pedersen (randomizer * lv + kv) (randomizer * lm + km)))

/-- sign/share.go:17-54 `NewThresholdEcdsaSigShareInternal`. -/
def SigShare.new (P : Prim) (path : List Key.Index) (hashedMsg randomness : Bytes) (keyT presigT : Option Com)
    (lambda kappaTimesLambda keyTimesLambda : Option Opening) : Res SigShare := do
  let d ← deriveRho P hashedMsg randomness path keyT presigT
  let e ← convertHashToInteger hashedMsg
  let theta := e + d.rho * d.keyTweak
  let nu ← nuOf theta d.rho lambda keyTimesLambda
  let mu ← muOf d.randomizer lambda kappaTimesLambda
  .ok ⟨nu, mu⟩

/-- sign/share.go:75-79 and 80-84. -/
def checkPointer (o : Option Opening) (sigmaNum : Pt) : Res Unit :=
  match pedersenPointer o with
  | none => .ok ()
  | some (v, m) => if sigmaNum = Point.pedersen v m then .ok () else .err "invalid commitment"

/-- sign/share.go:56-86 `Verify`.  Line 72 multiplies `kappaTimesLambdaJ` (the receiver's value is overwritten), and both
checks are against `sigmaNum`. -/
def SigShare.verify (P : Prim) (t : SigShare) (path : List Key.Index) (hashedMsg randomness : Bytes) (signer : NodeIndex)
    (keyT presigT lambda kappaTimesLambda keyTimesLambda : Option Com) : Res Unit := do
  let d ← deriveRho P hashedMsg randomness path keyT presigT
  let e ← convertHashToInteger hashedMsg
  let theta := e + d.rho * d.keyTweak
  let lambdaJ ← transcriptEvaluateAt lambda signer
  let kappaTimesLambdaJ ← transcriptEvaluateAt kappaTimesLambda signer
  let _keyTimesLambdaJ ← transcriptEvaluateAt keyTimesLambda signer
  let sigmaNum := Point.scalarMul lambdaJ theta
  let sigmaNum := sigmaNum + Point.scalarMul kappaTimesLambdaJ d.rho
  let sigmaDen := Point.scalarMul lambdaJ d.randomizer
  let _sigmaDen := sigmaDen + kappaTimesLambdaJ
  checkPointer t.sigmaNumerator sigmaNum
  checkPointer t.sigmaDenominator sigmaNum

/-- sign/combined_sig.go:13-16. -/
structure Signature where
  r : Fn
  s : Fn
  deriving DecidableEq

/-- `btree.Map[NodeIndex, *ThresholdEcdsaSigShareInternal]`: the entries in ascending order of keys. -/
abbrev ShareMap := List (NodeIndex × SigShare)

/-- `append` of the first scalar, if there is one (sign/combined_sig.go:35-40). -/
def appendValue (samples : List Fn) (o : Option Opening) : List Fn :=
  match pedersenValue o with
  | some (v, _) => samples ++ [v]
  | none => samples

/-- sign/combined_sig.go:30-43, the scan; `count` (line 29) is never changed. -/
def scan (count threshold : Int) (xs : List NodeIndex) (nums dens : List Fn) : ShareMap → List NodeIndex × List Fn × List Fn
  | [] => (xs, nums, dens)
  | (i, sh) :: rest =>
    if count ≥ threshold then scan count threshold xs nums dens rest
    else scan count threshold (xs ++ [i]) (appendValue nums sh.sigmaNumerator) (appendValue dens sh.sigmaDenominator) rest

/-- sign/combined_sig.go:18-66 `NewThresholdEcdsaCombinedSigInternal`; `make` panics on a negative capacity.  `Invert` of
zero gives zero (dependency contract; receiver and argument are the same scalar). -/
def combine (P : Prim) (path : List Key.Index) (hashedMsg randomness : Bytes) (keyT presigT : Option Com) (threshold : Int)
    (shares : ShareMap) : Res Signature :=
  if (shares.length : Int) < threshold then .err "insufficient dealings"
  else do
    let d ← deriveRho P hashedMsg randomness path keyT presigT
    if threshold < 0 then .panic "makeslice: cap out of range"
    else do
      let (xs, nums, dens) := scan 0 threshold [] [] [] shares
      let coefficients ← Lagr.atZero xs
      let numerator ← Lagr.interpolateScalar coefficients nums
      let denominator ← Lagr.interpolateScalar coefficients dens
      let sigma := numerator * denominator⁻¹
      let normSigma := if Scalar.isHigh sigma then -sigma else sigma
      .ok ⟨d.rho, normSigma⟩

/-- sign/combined_sig.go:68-98 `Verify`. -/
def Signature.verify (P : Prim) (t : Signature) (path : List Key.Index) (hashedMsg randomness : Bytes)
    (keyT presigT : Option Com) : Res Unit :=
  if t.r = 0 ∨ t.s = 0 then .err "invalid signature"
  else do
    let msg ← convertHashToInteger hashedMsg
    let d ← deriveRho P hashedMsg randomness path keyT presigT
    if t.r ≠ d.rho ∨ Scalar.isHigh t.s = true then .err "invalid signature"
    else do
      let masterPublicKey ← constantTerm keyT
      let publicKey := Point.mulByG d.keyTweak + masterPublicKey
      let sInv := t.s⁻¹
      let u1 := msg * sInv
      let u2 := t.r * sInv
      let rp := Point.mulPoints G u1 publicKey u2
      if rp = 0 then .err "invalid signature"
      else if Point.affineX rp ≠ Point.affineX d.randomizedPresig then .err "invalid signature"
      else .ok ()

end Verif.Sign
