import Verif.Model.Ro
import Verif.Model.Seed

/-!
Model of zk/dlog.go, zk/equal_opening.go, zk/product.go.

Points are points of the curve (`Pt`), scalars values of `Fn`; the curve is K256.  The errors returned by the
`ro.Add…` calls are ignored by the code, so only the state after the call is kept (`.2`).
-/

namespace Verif

namespace Zk

/-- zk/equal_opening.go:10-14. -/
def dlogDst : Bytes := ascii "ic-crypto-tecdsa-zk-proof-of-dlog-eq"
def equalOpeningsDst : Bytes := ascii "ic-crypto-tecdsa-zk-proof-of-equal-openings"
def productDst : Bytes := ascii "ic-crypto-tecdsa-zk-proof-of-product"

/-- Challenge-response proofs with one response (zk/dlog.go:16-19, zk/equal_opening.go:20-23). -/
structure Proof where
  challenge : Fn
  response : Fn
  deriving DecidableEq

/-! ### zk/dlog.go -/

namespace Dlog

/-- zk/dlog.go:21-27 (`curveType` is always K256 here). -/
structure Instance where
  g : Pt
  h : Pt
  gx : Pt
  hx : Pt

/-- zk/dlog.go:29-39 `FromWitness`. -/
def fromWitness (g h : Pt) (x : Fn) : Instance := ⟨g, h, Point.scalarMul g x, Point.scalarMul h x⟩

/-- zk/dlog.go:41-49 `FromCommitments`. -/
def fromCommitments (g h gx hx : Pt) : Instance := ⟨g, h, gx, hx⟩

/-- zk/dlog.go:51-57 `RecoverCommitments`. -/
def recoverCommitments (i : Instance) (pf : Proof) : Pt × Pt :=
  let gz := Point.scalarMul i.g pf.response
  let hz := Point.scalarMul i.h pf.response
  let gr := gz - Point.scalarMul i.gx pf.challenge
  let hr := hz - Point.scalarMul i.hx pf.challenge
  (gr, hr)

/-- The oracle filled by zk/dlog.go:59-69. -/
def transcript (i : Instance) (c1 c2 : Pt) (ad : Bytes) : Ro :=
  let ro := Ro.new dlogDst
  let ro := (ro.addBytesString (ascii "associated_data") ad).2
  let ro := (ro.addPoint (ascii "instance_g") i.g).2
  let ro := (ro.addPoint (ascii "instance_h") i.h).2
  let ro := (ro.addPoint (ascii "instance_g_x") i.gx).2
  let ro := (ro.addPoint (ascii "instance_h_x") i.hx).2
  let ro := (ro.addPoint (ascii "commitment1") c1).2
  let ro := (ro.addPoint (ascii "commitment2") c2).2
  ro

/-- zk/dlog.go:59-69 `HashToChallenge`. -/
def hashToChallenge (P : Prim) (i : Instance) (c1 c2 : Pt) (ad : Bytes) : Res Fn :=
  (transcript i c1 c2 ad).outputScalar P

/-- zk/dlog.go:79-94 `Create`: an error of `HashToChallenge` is ignored and the nil challenge then panics in `Mul`. -/
def create (P : Prim) (seed : Seed) (x : Fn) (g h : Pt) (ad : Bytes) : Res Proof := do
  let inst := fromWitness g h x
  let (r, _) ← Scalar.random (seed.rng P)
  let rG := Point.scalarMul g r
  let rH := Point.scalarMul h r
  match hashToChallenge P inst rG rH ad with
  | .ok challenge => .ok ⟨challenge, x * challenge + r⟩
  | .err _ => .panic "nil pointer dereference"
  | .panic e => .panic e
  | .diverge => .diverge

/-- zk/dlog.go:104-121 `Verify`. -/
def verify (P : Prim) (pf : Proof) (g h gx hx : Pt) (ad : Bytes) : Res Unit := do
  let inst := fromCommitments g h gx hx
  let (rG, rH) := recoverCommitments inst pf
  let challenge ← hashToChallenge P inst rG rH ad
  if challenge = pf.challenge then .ok () else .err "invalid proof"

end Dlog

/-! ### zk/equal_opening.go -/

namespace EqOpen

/-- zk/equal_opening.go:25-31. -/
structure Instance where
  g : Pt
  h : Pt
  a : Pt
  b : Pt

/-- zk/equal_opening.go:35-48 `FromWitness`. -/
def fromWitness (secret masking : Fn) : Instance :=
  ⟨G, Point.H, Point.pedersen secret masking, Point.mulByG secret⟩

/-- zk/equal_opening.go:50-61 `FromCommitments`. -/
def fromCommitments (pedersen simple : Pt) : Instance := ⟨G, Point.H, pedersen, simple⟩

/-- The oracle filled by zk/equal_opening.go:102-111. -/
def transcript (i : Instance) (commitment : Pt) (ad : Bytes) : Ro :=
  let ro := Ro.new equalOpeningsDst
  let ro := (ro.addBytesString (ascii "associated_data") ad).2
  let ro := (ro.addPoint (ascii "instance_g") i.g).2
  let ro := (ro.addPoint (ascii "instance_h") i.h).2
  let ro := (ro.addPoint (ascii "instance_a") i.a).2
  let ro := (ro.addPoint (ascii "instance_b") i.b).2
  let ro := (ro.addPoint (ascii "commitment") commitment).2
  ro

/-- zk/equal_opening.go:102-111 `HashToChallenge`. -/
def hashToChallenge (P : Prim) (i : Instance) (commitment : Pt) (ad : Bytes) : Res Fn :=
  (transcript i commitment ad).outputScalar P

/-- zk/equal_opening.go:63-83 `Create`. -/
def create (P : Prim) (seed : Seed) (secret masking : Fn) (ad : Bytes) : Res Proof := do
  let inst := fromWitness secret masking
  let (r, _) ← Scalar.random (seed.rng P)
  let rcom := Point.scalarMul inst.h r
  let challenge ← hashToChallenge P inst rcom ad
  .ok ⟨challenge, masking * challenge + r⟩

/-- zk/equal_opening.go:85-100 `RecoverCommitments`. -/
def recoverCommitments (i : Instance) (pf : Proof) : Pt :=
  let amb := i.a - i.b
  let camb := Point.scalarMul amb pf.challenge
  let hc := Point.scalarMul i.h pf.response
  hc - camb

/-- zk/equal_opening.go:113-124 `Verify`. -/
def verify (P : Prim) (pf : Proof) (pedersen simple : Pt) (ad : Bytes) : Res Unit := do
  let inst := fromCommitments pedersen simple
  let rcom := recoverCommitments inst pf
  let challenge ← hashToChallenge P inst rcom ad
  if pf.challenge = challenge then .ok () else .err "invalid proof"

end EqOpen

/-! ### zk/product.go -/

namespace Product

/-- zk/product.go:15-19. -/
structure Proof where
  challenge : Fn
  response1 : Fn
  response2 : Fn
  deriving DecidableEq

/-- zk/product.go:21-28. -/
structure Instance where
  g : Pt
  h : Pt
  lhsCom : Pt
  rhsCom : Pt
  productCom : Pt

/-- zk/product.go:30-45 `FromWitness`. -/
def fromWitness (lhs rhs rhsMasking product productMasking : Fn) : Instance :=
  ⟨G, Point.H, Point.scalarMul G lhs, Point.mulPoints G rhs Point.H rhsMasking,
    Point.mulPoints G product Point.H productMasking⟩

/-- zk/product.go:47-59 `FromCommitments`. -/
def fromCommitments (lhsCom rhsCom productCom : Pt) : Instance := ⟨G, Point.H, lhsCom, rhsCom, productCom⟩

/-- zk/product.go:60-66 `RecoverCommitment`. -/
def recoverCommitment (i : Instance) (pf : Proof) : Pt × Pt :=
  let r1Com := Point.mulByG pf.response1 - Point.scalarMul i.lhsCom pf.challenge
  let r2Com := Point.mulPoints i.rhsCom pf.response1 i.h pf.response2 - Point.scalarMul i.productCom pf.challenge
  (r1Com, r2Com)

/-- The oracle filled by zk/product.go:91-102.  The separator is that of the equal-openings proof. -/
def transcript (i : Instance) (c1 c2 : Pt) (ad : Bytes) : Ro :=
  let ro := Ro.new equalOpeningsDst
  let ro := (ro.addBytesString (ascii "associated_data") ad).2
  let ro := (ro.addPoint (ascii "instance_g") i.g).2
  let ro := (ro.addPoint (ascii "instance_h") i.h).2
  let ro := (ro.addPoint (ascii "instance_lhs") i.lhsCom).2
  let ro := (ro.addPoint (ascii "instance_rhs") i.rhsCom).2
  let ro := (ro.addPoint (ascii "instance_product") i.productCom).2
  let ro := (ro.addPoint (ascii "commitment1") c1).2
  let ro := (ro.addPoint (ascii "commitment2") c2).2
  ro

/-- zk/product.go:91-102 `HashToChallenge`. -/
def hashToChallenge (P : Prim) (i : Instance) (c1 c2 : Pt) (ad : Bytes) : Res Fn :=
  (transcript i c1 c2 ad).outputScalar P

/-- zk/product.go:68-89 `Create`. -/
def create (P : Prim) (seed : Seed) (lhs rhs rhsMasking product productMasking : Fn) (ad : Bytes) : Res Proof := do
  let inst := fromWitness lhs rhs rhsMasking product productMasking
  let (r1, rng) ← Scalar.random (seed.rng P)
  let r1Com := Point.scalarMul inst.g r1
  let (r2, _) ← Scalar.random rng
  let r2Com := Point.mulPoints inst.rhsCom r1 inst.h r2
  let challenge ← hashToChallenge P inst r1Com r2Com ad
  .ok ⟨challenge, lhs * challenge + r1, (productMasking - lhs * rhsMasking) * challenge + r2⟩

/-- zk/product.go:104-115 `Verify`. -/
def verify (P : Prim) (pf : Proof) (lhsCom rhsCom productCom : Pt) (ad : Bytes) : Res Unit := do
  let inst := fromCommitments lhsCom rhsCom productCom
  let (r1Com, r2Com) := recoverCommitment inst pf
  let challenge ← hashToChallenge P inst r1Com r2Com ad
  if pf.challenge = challenge then .ok () else .err "invalid proof"

end Product

end Zk

end Verif
