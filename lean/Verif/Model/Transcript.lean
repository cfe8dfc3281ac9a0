import Verif.Model.Dealings

/-!
Model of dealings/transcript.go, dealings/transcript_operation.go and dealings/commitment.go.

A `btree.Map` is the list of its entries in ascending key order (keys are Go `int`s).  Simplified: the dealings of a map are
non-nil pointers (their fields may be nil), openings are non-nil interfaces, and a `CombinedCommitment` is nil or a `Com`.
-/

set_option autoImplicit false

namespace Verif.Dealings

open Mega

/-- `btree.Map[NodeIndex, *IDkgDealingInternal]`. -/
abbrev DealingMap := List (NodeIndex × Dealing)

/-- `btree.Map[NodeIndex, CommitmentOpening]`. -/
abbrev OpeningMap := List (NodeIndex × Opening)

/-- dealings/transcript.go:38-48, the loop over the coefficients. -/
def interpolateAll (coefficients : List Fn) (commitments : List Commitment) (threshold : Nat) : Res (List Pt) :=
  Res.mapM' (fun i : Nat => do
    let values ← Res.mapM' (fun c : Commitment => index c.points i) commitments
    Lagr.interpolatePoint coefficients values) (List.range threshold)

/-- dealings/transcript.go:25-57 `CombineCommitmentsViaInterpolation`. -/
def combineViaInterpolation (kind : Kind) (threshold : Int) (dealings : DealingMap) : Res Com := do
  let commitments ← Res.mapM' (fun x : NodeIndex × Dealing => nonNil x.2.commitment) dealings
  let coefficients ← Lagr.atZero (dealings.map Prod.fst)
  if threshold < 0 then .panic "makeslice: cap out of range"
  else do
    let combined ← interpolateAll coefficients commitments threshold.toNat
    .ok ⟨.interpolation, ⟨kind, combined⟩⟩

/-- dealings/transcript.go:60-64. -/
def checkLengths (threshold : Int) : DealingMap → Res Unit
  | [] => .ok ()
  | x :: rest => do
    let cm ← nonNil x.2.commitment
    if (cm.points.length : Int) ≠ threshold then .err "unexpected commitment type" else checkLengths threshold rest

/-- dealings/transcript.go:80-82: `combined[i] += c[i]` for all `i` below the threshold. -/
def addInto : List Pt → List Pt → Res (List Pt)
  | [], _ => .ok []
  | _ :: _, [] => .panic "index out of range"
  | a :: as, b :: bs => do
    let rest ← addInto as bs
    .ok ((a + b) :: rest)

/-- dealings/transcript.go:75-83. -/
def sumLoop (combined : List Pt) : DealingMap → Res (List Pt)
  | [] => .ok combined
  | x :: rest => do
    let cm ← nonNil x.2.commitment
    if cm.kind ≠ .pedersen then .err "unexpected commitment type"
    else do
      let combined ← addInto combined cm.points
      sumLoop combined rest

/-- dealings/transcript.go:59-123 `NewTranscriptInternal`; the result is the transcript's only field (`none`: nil). -/
def newTranscript (threshold : Int) (dealings : DealingMap) (op : Op) : Res (Option Com) := do
  checkLengths threshold dealings
  match op with
  | .random =>
    if threshold < 0 then .panic "makeslice: len out of range"
    else do
      let combined ← sumLoop (List.replicate threshold.toNat 0) dealings
      .ok (some ⟨.summation, ⟨.pedersen, combined⟩⟩)
  | .reshareMasked p1 =>
    if p1.c.kind ≠ .pedersen then .err "unexpected commitment type"
    else if dealings.length < p1.c.points.length then .err "insufficient dealings"
    else do
      let combined ← combineViaInterpolation .simple threshold dealings
      .ok (some combined)
  | .reshareUnmasked p1 =>
    if p1.c.kind ≠ .simple then .err "unexpected commitment type"
    else if dealings.length < p1.c.points.length then .err "insufficient dealings"
    else do
      let combined ← combineViaInterpolation .simple threshold dealings
      let a ← index p1.c.points 0
      let b ← index combined.c.points 0
      if a ≠ b then .err "invalid commitment" else .ok (some combined)
  | .unmaskedTimesMasked left right =>
    if left.c.kind ≠ .simple ∨ right.c.kind ≠ .pedersen then .err "unexpected commitment type"
    else if (dealings.length : Int) < left.c.points.length + right.c.points.length - 1 then .err "insufficient dealings"
    else do
      let combined ← combineViaInterpolation .pedersen threshold dealings
      .ok (some combined)
  | .other => .ok none

/-- dealings/transcript.go:151-161: openings of the other kind are an error, those behind a pointer are skipped. -/
def collectSimple : OpeningMap → Res (List NodeIndex × List Fn)
  | [] => .ok ([], [])
  | (i, .simple v) :: rest => do
    let (xs, vs) ← collectSimple rest
    .ok (i :: xs, v :: vs)
  | (_, .pedersen _ _) :: _ => .err "unexpected commitment type"
  | _ :: rest => collectSimple rest

/-- dealings/transcript.go:178-189. -/
def collectPedersen : OpeningMap → Res (List NodeIndex × List Fn × List Fn)
  | [] => .ok ([], [], [])
  | (i, .pedersen v m) :: rest => do
    let (xs, vs, ms) ← collectPedersen rest
    .ok (i :: xs, v :: vs, m :: ms)
  | (_, .simple _) :: _ => .err "unexpected commitment type"
  | _ :: rest => collectPedersen rest

/-- dealings/transcript.go:138-208 `ReconstructShareFromOpenings`. -/
def reconstructShare (dealing : Dealing) (openings : OpeningMap) (shareIndex : NodeIndex) : Res Opening := do
  let cm ← nonNil dealing.commitment
  if openings.length < cm.points.length then .err "insufficient openings"
  else do
    let _ ← cm.curveType
    let x := Scalar.fromNodeIndex shareIndex
    match cm.kind with
    | .simple => do
      let (xs, vs) ← collectSimple openings
      let coefficients ← Lagr.atValue x xs
      let v ← Lagr.interpolateScalar coefficients vs
      cm.returnOpeningIfConsistent shareIndex (.simple v)
    | .pedersen => do
      let (xs, vs, ms) ← collectPedersen openings
      let coefficients ← Lagr.atValue x xs
      let v ← Lagr.interpolateScalar coefficients vs
      let m ← Lagr.interpolateScalar coefficients ms
      cm.returnOpeningIfConsistent shareIndex (.pedersen v m)

/-- dealings/transcript_operation.go:13-15 `ConstantTerm`. -/
def constantTerm (t : Option Com) : Res Pt := do
  let c ← nonNil t
  c.c.constantTerm

/-- dealings/transcript_operation.go:16-18 `EvaluateAt`. -/
def transcriptEvaluateAt (t : Option Com) (i : NodeIndex) : Res Pt := do
  let c ← nonNil t
  c.c.evaluateAt i

/-- `bytes.Compare`. -/
def bytesCompare : Bytes → Bytes → Int
  | [], [] => 0
  | [], _ :: _ => -1
  | _ :: _, [] => 1
  | a :: as, b :: bs => if a < b then -1 else if b < a then 1 else bytesCompare as bs

/-- dealings/transcript_operation.go:19-23 `Compare`; both sides are the receiver's representation. -/
def compare (t _other : Option Com) : Res Int := do
  let c ← nonNil t
  let lhs ← c.c.stableRepresentation
  let rhs ← c.c.stableRepresentation
  .ok (bytesCompare lhs rhs)

/-! ### dealings/commitment.go -/

/-- dealings/commitment.go:19-22 `OpenDealing`.  A nil commitment panics after the decryption. -/
def openDealing (P : Prim) (d : Dealing) (ad : Bytes) (dealer opener : NodeIndex) (secret : Fn) (pk : Pt) : Res Opening := do
  let c ← nonNil d.ciphertext
  match d.commitment, c with
  | some cm, c => c.decryptAndCheck P cm ad dealer opener secret pk
  | none, .single m => do
    let _ ← Single.decrypt P m ad dealer opener secret pk
    .panic "nil pointer dereference"
  | none, .pair m => do
    let _ ← Pair.decrypt P m ad dealer opener secret pk
    .panic "nil pointer dereference"

/-- dealings/commitment.go:76-84. -/
def sumOpenings (v m : Fn) : List Opening → Res (Fn × Fn)
  | [] => .ok (v, m)
  | .pedersen v' m' :: rest => sumOpenings (v + v') (m + m') rest
  | _ :: _ => .err "unexpected commitment type"

/-- dealings/commitment.go:91-100. -/
def gatherSimple : List NodeIndex → List Opening → Res (List NodeIndex × List Fn)
  | _, [] => .ok ([], [])
  | [], _ :: _ => .panic "index out of range"
  | i :: is, .simple v :: os => do
    let (xs, vs) ← gatherSimple is os
    .ok (i :: xs, v :: vs)
  | _ :: _, _ :: _ => .err "unexpected commitment type"

/-- dealings/commitment.go:116-126. -/
def gatherPedersen : List NodeIndex → List Opening → Res (List NodeIndex × List Fn × List Fn)
  | _, [] => .ok ([], [], [])
  | [], _ :: _ => .panic "index out of range"
  | i :: is, .pedersen v m :: os => do
    let (xs, vs, ms) ← gatherPedersen is os
    .ok (i :: xs, v :: vs, m :: ms)
  | _ :: _, _ :: _ => .err "unexpected commitment type"

/-- dealings/commitment.go:69-143 `CombineOpenings`.  For a plain commitment the opening stays nil and the type assertion
in `CheckOpening` panics. -/
def combineOpenings (dealers : List NodeIndex) (openings : List Opening) (t : Option Com) (receiver : NodeIndex) :
    Res Opening := do
  match t with
  | none => .panic "nil pointer dereference"
  | some ⟨.summation, c⟩ => do
    let (v, m) ← sumOpenings 0 0 openings
    c.returnOpeningIfConsistent receiver (.pedersen v m)
  | some ⟨.interpolation, c⟩ =>
    match c.kind with
    | .simple => do
      let (xs, vs) ← gatherSimple dealers openings
      let coefficients ← Lagr.atZero xs
      let v ← Lagr.interpolateScalar coefficients vs
      c.returnOpeningIfConsistent receiver (.simple v)
    | .pedersen => do
      let (xs, vs, ms) ← gatherPedersen dealers openings
      let coefficients ← Lagr.atZero xs
      let v ← Lagr.interpolateScalar coefficients vs
      let m ← Lagr.interpolateScalar coefficients ms
      c.returnOpeningIfConsistent receiver (.pedersen v m)
  | some ⟨.plain, _⟩ => .panic "interface conversion"

/-- dealings/commitment.go:48-67 `FromDealings`. -/
def fromDealings (P : Prim) (dealings : DealingMap) (t : Option Com) (ad : Bytes) (receiver : NodeIndex) (secret : Fn)
    (pk : Pt) : Res Opening := do
  let openings ← Res.mapM' (fun x : NodeIndex × Dealing => openDealing P x.2 ad x.1 receiver secret pk) dealings
  combineOpenings (dealings.map Prod.fst) openings t receiver

/-- dealings/commitment.go:23-47 `FromDealingsAndOpenings`. -/
def fromDealingsAndOpenings (P : Prim) (dealings : DealingMap) (provided : List (NodeIndex × OpeningMap)) (t : Option Com)
    (ad : Bytes) (receiver : NodeIndex) (secret : Fn) (pk : Pt) : Res Opening := do
  let openings ← Res.mapM' (fun x : NodeIndex × Dealing =>
    match OMap.get BitVec.toInt x.1 provided with
    | some shares => reconstructShare x.2 shares receiver
    | none => openDealing P x.2 ad x.1 receiver secret pk) dealings
  combineOpenings (dealings.map Prod.fst) openings t receiver

end Verif.Dealings
