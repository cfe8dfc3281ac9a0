import Verif.Model.Protocol

/-!
The checks of the protocol driver that `Model/Protocol.lean` leaves out, and `RandomSeed`.
-/

set_option autoImplicit false

namespace Verif.Protocol

open Mega Dealings Complaints Sign

/-- A call that has to return an error: `if call == nil { panic(msg) }`. -/
def mustRefuse (msg : String) : Res Unit → Res Unit
  | .ok _ => .panic msg
  | .err _ => .ok ()
  | .panic e => .panic e
  | .diverge => .diverge

/-- testutils/test_utils.go:68-81 `TestPublicDealingVerification`. -/
def testPublicDealingVerification (P : Prim) (s : Setup) (d : Dealing) (op : Op) (dealer : NodeIndex) : Res Unit := do
  orPanic "created a publicly invalid dealing" (publiclyVerify P d K256 op s.threshold dealer s.sk.length s.ad)
  mustRefuse "created a publicly invalid dealing" (publiclyVerify P d K256 op s.threshold (dealer + 1) s.sk.length s.ad)
  mustRefuse "created a publicly invalid dealing" (publiclyVerify P d K256 op s.threshold (dealer + 1) (s.sk.length + 1) s.ad)
  mustRefuse "created a publicly invalid dealing"
    (publiclyVerify P d K256 op s.threshold (dealer + 1) (s.sk.length + 1) (ascii "wrong ad"))

/-- testutils/dealings.go:89-104 with all four checks. -/
def dealLoopChecked (P : Prim) (s : Setup) (op : Op) : Nat → List Shares → Rng → Res (DealingMap × Rng)
  | _, [], rng => .ok ([], rng)
  | i, share :: rest, rng => do
    let (sd, rng) ← Seed.fromRng P rng
    let d ← Dealings.new P share sd s.threshold s.pk (node i) s.ad
    testPublicDealingVerification P s d op (node i)
    let _ ← Res.mapM' (fun x : NodeIndex × Fn =>
      privateVerify P d K256 x.2 (Point.mulByG x.2) s.ad (node i) x.1) s.receivers
    let (ds, rng) ← dealLoopChecked P s op (i + 1) rest rng
    .ok (if s.sk = [] then ds else (node i, d) :: ds, rng)

/-- testutils/dealings.go:86-147 `CreateDealings` with all four checks. -/
def createDealingsChecked (P : Prim) (s : Setup) (shares : List Shares) (numberOfDealers corrupted : Nat) (op : Op)
    (seed : Seed) : Res DealingMap := do
  let (ds, rng) ← dealLoopChecked P s op 0 shares (seed.rng P)
  let (ds, rng) ← thin numberOfDealers ds.length rng ds
  let (damage, rng) ← choose (ds.map Prod.fst) corrupted rng
  damageLoop P s damage rng ds

/-- testutils/test_utils.go:83-88 `RandomSeed`: the key of the generator is 32 zero bytes. -/
def randomSeed (P : Prim) : Res Seed := do
  let (s, _) ← Seed.fromRng P ⟨P.chacha20 (List.replicate 32 0), 0⟩
  .ok s

end Verif.Protocol
