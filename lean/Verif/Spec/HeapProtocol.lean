import Verif.Model.HeapProtocol
import Verif.Spec.HeapSign

/-!
Which objects the setup of the protocol driver and the rounds refer to, and which values they stand for.
-/

set_option autoImplicit false

namespace Verif.Heap

/-- The keys of a setup: private keys and public keys. -/
def View.keys : View (List Addr × List Addr) (List Fn × List Pt) := View.sc.list.prod View.pt.list

/-- The parts of a setup that are not behind pointers. -/
structure SetupObj.Same (s : SetupObj) (v : Protocol.Setup) : Prop where
  threshold : s.threshold = v.threshold
  ad : s.ad = v.ad
  seed : s.seed = v.seed
  round : s.round = v.round

/-- The setup `s` exists in `m` and stands for `v`; its public keys are those of its private keys. -/
def SetupAt (m : Mem) (s : SetupObj) (v : Protocol.Setup) : Prop :=
  s.Same v ∧ Has View.keys m (s.sk, s.pk) ∧ View.keys.val m (s.sk, s.pk) = (v.sk, v.pk)

/-- The same, and its keys are new objects, no two the same; nothing that existed has changed. -/
def RetSetup (m : Mem) (v : Protocol.Setup) (s : SetupObj) (m' : Mem) : Prop :=
  s.Same v ∧ Ret View.keys m (v.sk, v.pk) (s.sk, s.pk) m'

/-- What a round refers to. -/
def View.roundParts : View (ComObj × ComObj × List OpeningObj × List (NodeIndex × DealingObj))
    (Dealings.Com × Dealings.Com × List Opening × Dealings.DealingMap) :=
  View.com.prod (View.com.prod (View.opening.list.prod (View.omap View.dealing)))

/-- The parts of a round. -/
def RoundObj.parts (r : RoundObj) : ComObj × ComObj × List OpeningObj × List (NodeIndex × DealingObj) :=
  (r.commitment, r.transcript, r.openings, r.dealings)

/-- The parts of a round on values. -/
def roundVals (r : Protocol.Round) : Dealings.Com × Dealings.Com × List Opening × Dealings.DealingMap :=
  (r.commitment, r.transcript, r.openings, r.dealings)

/-- The round `r` exists in `m` and stands for `v`. -/
def RoundAt (m : Mem) (r : RoundObj) (v : Protocol.Round) : Prop :=
  Has View.roundParts m r.parts ∧ View.roundParts.val m r.parts = roundVals v

/-- The round `r` consists of new objects, no two the same, and stands for `v`; nothing that existed has changed. -/
def RetRound (m : Mem) (v : Protocol.Round) (r : RoundObj) (m' : Mem) : Prop := Ret View.roundParts m (roundVals v) r.parts m'

/-- What an operation of the driver returns: a new round, and the setup after it, which has the same keys. -/
def RetStep (m : Mem) (s : SetupObj) (v : Protocol.Round × Protocol.Setup) (o : RoundObj × SetupObj) (m' : Mem) : Prop :=
  RetRound m v.1 o.1 m' ∧ SetupAt m' o.2 v.2 ∧ o.2.sk = s.sk ∧ o.2.pk = s.pk

/-- What a signature setup refers to: the keys, then the rounds of lambda, of the key, of kappa and of the two products. -/
def View.sigParts := View.keys.prod (View.roundParts.prod (View.roundParts.prod (View.roundParts.prod
  (View.roundParts.prod View.roundParts))))

/-- The parts of a signature setup. -/
def SigSetupObj.parts (S : SigSetupObj) :=
  ((S.setup.sk, S.setup.pk), S.lambda.parts, S.key.parts, S.kappa.parts, S.keyTimesLambda.parts, S.kappaTimesLambda.parts)

/-- The parts of a signature setup on values. -/
def sigVals (S : Protocol.SigSetup) :=
  ((S.setup.sk, S.setup.pk), roundVals S.lambda, roundVals S.key, roundVals S.kappa, roundVals S.keyTimesLambda,
    roundVals S.kappaTimesLambda)

/-- The signature setup `S` exists in `m` and stands for `v`. -/
def SigAt (m : Mem) (S : SigSetupObj) (v : Protocol.SigSetup) : Prop :=
  S.setup.Same v.setup ∧ Has View.sigParts m S.parts ∧ View.sigParts.val m S.parts = sigVals v

/-- What is returned is a signature setup all of whose objects are new, no two the same; nothing that existed has changed. -/
def RetSig (m : Mem) (v : Protocol.SigSetup) (S : SigSetupObj) (m' : Mem) : Prop :=
  S.setup.Same v.setup ∧ Ret View.sigParts m (sigVals v) S.parts m'

end Verif.Heap
