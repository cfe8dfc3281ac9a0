import Verif.Spec.HeapRace
import Verif.Props.Heap
import Verif.Props.HeapField
import Verif.Props.HeapProtocol
import Verif.Props.HeapSign

/-!
Property C185: calls that share arguments do not get in each other's way, because none of them writes to an object that existed
before it, not even for a moment.
-/

set_option autoImplicit false
set_option linter.constructorNameAsVariable false

namespace Verif.Heap

open Protocol (Setup Round SigSetup)

variable {α β : Type} {g : Go α} {m : Mem} {r : Res β} {R : β → α → Mem → Prop}

theorem Outcome.writes (h : Outcome (Writes ∅ m) g m r R) (hR : ∀ v a m', R v a m' → Writes ∅ m m') : Writes ∅ m (g m).2 := by
  cases r with
  | ok v =>
    obtain ⟨a, m', e, h⟩ := h
    rw [e]
    exact hR _ _ _ h
  | err s =>
    obtain ⟨m', e, h⟩ := h
    rw [e]
    exact h
  | panic s =>
    obtain ⟨m', e, h⟩ := h
    rw [e]
    exact h
  | diverge =>
    obtain ⟨m', e, h⟩ := h
    rw [e]
    exact h

theorem onlyNew_of {W : Set Obj} {x : Obj} (h : Writes W m.unwritten (g m.unwritten).2) (hW : ∀ o ∈ W, o = x) :
    WritesOnlyNewAnd x g m := fun o ho => by
  rcases h.touched o ho with h | h | h
  · exact h.elim
  · exact .inl (hW o h)
  · exact .inr h

theorem onlyNew_of_empty (h : Writes ∅ m.unwritten (g m.unwritten).2) : WritesOnlyNew g m := fun o ho => by
  rcases h.touched o ho with h | h | h
  · exact h.elim
  · exact h.elim
  · exact h

theorem Outcome.onlyNew (h : Outcome (Writes ∅ m.unwritten) g m.unwritten r R)
    (hR : ∀ v a m', R v a m' → Writes ∅ m.unwritten m') : WritesOnlyNew g m := onlyNew_of_empty (h.writes hR)

theorem Outcome.ret {ο ν : Type} {V : View ο ν} {g : Go ο} {r : Res ν} (h : Outcome (Writes ∅ m.unwritten) g m.unwritten r (Ret V m.unwritten)) :
    WritesOnlyNew g m := h.onlyNew fun _ _ _ h => h.1

theorem Outcome.onlyNewAnd {x : Obj} (h : Outcome (Writes ∅ m.unwritten) g m.unwritten r R)
    (hR : ∀ v a m', R v a m' → Writes {x} m.unwritten m') : WritesOnlyNewAnd x g m := by
  have sub {m'} (h : Writes ∅ m.unwritten m') : Writes {x} m.unwritten m' := h.mono fun _ _ h => h.elim
  refine onlyNew_of (W := {x}) ?_ fun _ h => h
  cases r with
  | ok v =>
    obtain ⟨a, m', e, h⟩ := h
    rw [e]
    exact hR _ _ _ h
  | err s =>
    obtain ⟨m', e, h⟩ := h
    rw [e]
    exact sub h
  | panic s =>
    obtain ⟨m', e, h⟩ := h
    rw [e]
    exact sub h
  | diverge =>
    obtain ⟨m', e, h⟩ := h
    rw [e]
    exact sub h

theorem onlyNew_run {a : α} {m' : Mem} (e : g m.unwritten = (.ok a, m')) (h : Writes ∅ m.unwritten m') : WritesOnlyNew g m :=
  onlyNew_of_empty (by rw [e]; exact h)

theorem onlyNew_run_and {x : Obj} {a : α} {m' : Mem} (e : g m.unwritten = (.ok a, m')) (h : Writes {x} m.unwritten m') :
    WritesOnlyNewAnd x g m :=
  onlyNew_of (W := {x}) (by rw [e]; exact h) fun _ h => h

/-- C185: curve arithmetic that returns new objects. -/
theorem C185_curve (m : Mem) (a b c d : Addr) (ha : a < m.next) (hb : b < m.next) (i : NodeIndex) :
    WritesOnlyNew (cloneSc a) m ∧ WritesOnlyNew (clonePt a) m ∧ WritesOnlyNew (mulByNodeIndex a i) m ∧
    WritesOnlyNew (mulPoints a c b d) m ∧ WritesOnlyNew (pedersen c d) m ∧ WritesOnlyNew (mulByG c) m := by
  obtain ⟨⟨_, _, e1, h1⟩, ⟨_, _, e2, h2⟩, ⟨_, _, e3, h3⟩, ⟨_, _, e4, h4⟩, ⟨_, _, e5, h5⟩, ⟨_, _, e6, h6⟩⟩ :=
    C112_curve m.unwritten a b c d ha hb i
  exact ⟨onlyNew_run e1 h1.1, onlyNew_run e2 h2.1, onlyNew_run e3 h3.1, onlyNew_run e4 h4.1, onlyNew_run e5 h5.1,
    onlyNew_run e6 h6.1⟩

theorem writtenBy_of {o : Obj} (h : (g m.unwritten).2.touched = insert o ∅) : writtenBy g m = {o} := by
  rw [writtenBy, h]
  exact insert_empty_eq o

/-- C185: methods with a receiver write to it and to nothing else, whichever other arguments are given; constructors write to the object
that they make. -/
theorem C185_receivers (m : Mem) (s l r k t : Addr) (v : Fn) (w : Pt) (x : Fp) (cs : List Addr) :
    writtenBy (addSc s l r) m = {.sc s} ∧ writtenBy (subSc s l r) m = {.sc s} ∧ writtenBy (mulSc s l r) m = {.sc s} ∧
    writtenBy (invSc s l) m = {.sc s} ∧ writtenBy (negSc s l) m = {.sc s} ∧ writtenBy (assignSc s l) m = {.sc s} ∧
    writtenBy (addPt s l r) m = {.pt s} ∧ writtenBy (subPt s l r) m = {.pt s} ∧ writtenBy (dblPt s l) m = {.pt s} ∧
    writtenBy (smulPt s l r) m = {.pt s} ∧ writtenBy (linComb s l r k t) m = {.pt s} ∧ writtenBy (writePo s cs) m = {.po s} ∧
    writtenBy (newSc v) m = {.sc m.next} ∧ writtenBy (newPt w) m = {.pt m.next} ∧ writtenBy (newPo cs) m = {.po m.next} ∧
    writtenBy (newFe x) m = {.fe m.next} :=
  ⟨writtenBy_of rfl, writtenBy_of rfl, writtenBy_of rfl, writtenBy_of rfl, writtenBy_of rfl, writtenBy_of rfl, writtenBy_of rfl,
    writtenBy_of rfl, writtenBy_of rfl, writtenBy_of rfl, writtenBy_of rfl, writtenBy_of rfl, writtenBy_of rfl, writtenBy_of rfl,
    writtenBy_of rfl, writtenBy_of rfl⟩

/-- C185: the same for field elements. -/
theorem C185_field (m : Mem) (s l r : Addr) (hl : l < m.next) :
    writtenBy (assignFe s l) m = {.fe s} ∧ writtenBy (addFe s l r) m = {.fe s} ∧ writtenBy (subFe s l r) m = {.fe s} ∧
    writtenBy (mulFe s l r) m = {.fe s} ∧ writtenBy (squareFe s l) m = {.fe s} ∧ writtenBy (negFe s l) m = {.fe s} ∧
    writtenBy (invFe s l) m = {.fe s} ∧ writtenBy (progenitorFe s l) m = {.fe s} ∧ writtenBy (sqrtFe s l) m = {.fe s} ∧
    WritesOnlyNew (cloneFe l) m := by
  obtain ⟨_, _, e', -, -, h', -⟩ := C158_clone m.unwritten l hl 0
  exact ⟨writtenBy_of rfl, writtenBy_of rfl, writtenBy_of rfl, writtenBy_of rfl, writtenBy_of rfl, writtenBy_of rfl, writtenBy_of rfl,
    writtenBy_of rfl, writtenBy_of rfl, onlyNew_run e' h'⟩

/-- C185: polynomials, Lagrange coefficients and commitments. -/
theorem C185_poly (m : Mem) (p q lhs rhs x : Addr) (idx : Nat) (ss : List (Addr × Addr)) (samples : List NodeIndex)
    (l y points : List Addr) (num : Int) (i : NodeIndex) (hp : HasPo m p) (hq : HasPo m q) (hlh : HasPo m lhs) (hrh : HasPo m rhs)
    (hx : x < m.next) (hs : ∀ s ∈ ss, s.1 < m.next ∧ s.2 < m.next) (hl : ∀ a ∈ l, a < m.next) (hy : ∀ a ∈ y, a < m.next)
    (hpts : ∀ a ∈ points, a < m.next) :
    WritesOnlyNewAnd (.po p) (polyAdd p lhs rhs) m ∧ WritesOnlyNewAnd (.po p) (polyMul p lhs rhs) m ∧
    WritesOnlyNewAnd (.po p) (polyMulScalar p lhs x) m ∧
    WritesOnlyNew (coeff p idx) m ∧ WritesOnlyNew (evaluateAt p x) m ∧ WritesOnlyNew (interpolate ss) m ∧
    WritesOnlyNew (atValue x samples) m ∧ WritesOnlyNew (atZero samples) m ∧ WritesOnlyNew (interpolatePoint l y) m ∧
    WritesOnlyNew (interpolateScalar l y) m ∧ WritesOnlyNew (createSimple p num) m ∧ WritesOnlyNew (createPedersen p q num) m ∧
    WritesOnlyNew (cloneCommitment points) m ∧ WritesOnlyNew (constantTerm points) m ∧ WritesOnlyNew (evaluatePointsAt points i) m := by
  obtain ⟨⟨_, _, e1, h1⟩, ⟨_, _, e2, h2⟩, ms⟩ := C113_in_place m.unwritten p lhs rhs x hp hlh hrh hx
  obtain ⟨⟨_, _, e3, h3⟩, ⟨_, _, e4, h4⟩⟩ := C113_new m.unwritten p x hp hx idx
  obtain ⟨l1, l2, l3, l4⟩ := C114_lagrange m.unwritten x samples l y hx hl hy
  obtain ⟨c1, c2, c3, c4, c5⟩ := C114_commitments m.unwritten p q hp hq num points hpts i .simple
  refine ⟨onlyNew_run_and e1 h1.2.1, onlyNew_run_and e2 h2.2.1, ms.onlyNewAnd fun _ _ _ h => h.2.1, onlyNew_run e3 h3.1, onlyNew_run e4 h4.1,
    (C113_interpolate m.unwritten ss hs).onlyNew fun _ _ _ h => h.1, l1.onlyNew fun _ _ _ h => h.1, l2.onlyNew fun _ _ _ h => h.1,
    l3.onlyNew fun _ _ _ h => h.1, l4.onlyNew fun _ _ _ h => h.1, c1.onlyNew fun _ _ _ h => h.1, c2.onlyNew fun _ _ _ h => h.1,
    c3.onlyNew fun _ _ _ h => h.1, c4.onlyNew fun _ _ _ h => h.1, c5.onlyNew fun _ _ _ h => h.1⟩

section

variable (P : Prim) (m : Mem) (ad : Bytes)

/-- C185: proofs. -/
theorem C185_proofs (seed : Seed) (a b bm c cm g h gx hx : Addr) (pf : ProofObj) (pp : ProductProofObj) (ha : a < m.next)
    (hb : b < m.next) (hbm : bm < m.next) (hc : c < m.next) (hcm : cm < m.next) (hg : g < m.next) (hh : h < m.next)
    (hgx : gx < m.next) (hhx : hx < m.next) (hpf : Has View.proof m pf) (hpp : Has View.productProof m pp) :
    WritesOnlyNew (dlogCreate P seed a g h ad) m ∧ WritesOnlyNew (dlogVerify P pf g h gx hx ad) m ∧
    WritesOnlyNew (eqCreate P seed a b ad) m ∧ WritesOnlyNew (eqVerify P pf g h ad) m ∧
    WritesOnlyNew (productCreate P seed a b bm c cm ad) m ∧ WritesOnlyNew (productVerify P pp g h gx ad) m := by
  obtain ⟨d1, d2, -⟩ := C119_dlog P m.unwritten ad seed a g h gx hx pf ha hg hh hgx hhx hpf
  obtain ⟨e1, e2⟩ := C119_equal_openings P m.unwritten ad seed a b g h pf ha hb hg hh hpf
  obtain ⟨p1, p2⟩ := C119_product P m.unwritten ad seed a b bm c cm g h gx pp ha hb hbm hc hcm hg hh hgx hpp
  exact ⟨d1.ret, d2.ret, e1.ret, e2.ret, p1.ret, p2.ret⟩

/-- C185: encryption and decryption. -/
theorem C185_encryption (seed : Seed) (dealer i : NodeIndex) (n : Int) (pts pks : List Addr) (pairs : List (Addr × Addr))
    (c : CiphertextObj Addr) (c' : CiphertextObj (Addr × Addr)) (com : CommitmentObj) (o : OpeningObj) (sk pk : Addr)
    (hp : Has View.sc.list m pts) (hk : Has View.pt.list m pks) (hpp : Has (View.sc.prod View.sc).list m pairs)
    (hc : Has (View.ciphertext View.sc) m c) (hc' : Has (View.ciphertext (View.sc.prod View.sc)) m c')
    (hcom : Has View.commitment m com) (ho : Has View.opening m o) (hsk : sk < m.next) (hpk : pk < m.next) :
    WritesOnlyNew (encryptSingle P seed pts pks dealer ad) m ∧ WritesOnlyNew (encryptPair P seed pairs pks dealer ad) m ∧
    WritesOnlyNew (decryptSingle P c ad dealer i sk pk) m ∧ WritesOnlyNew (decryptPair P c' ad dealer i sk pk) m ∧
    WritesOnlyNew (decryptAndCheckSingle P c com ad dealer i sk pk) m ∧
    WritesOnlyNew (decryptAndCheckPair P c' com ad dealer i sk pk) m ∧
    WritesOnlyNew (checkValiditySingle P c n ad dealer) m ∧ WritesOnlyNew (checkValidityPair P c' n ad dealer) m ∧
    WritesOnlyNew (checkOpening com i o) m ∧ WritesOnlyNew (genKeypair P seed) m := by
  obtain ⟨e1, e2⟩ := C120_encrypt P m.unwritten ad seed dealer pts pks pairs hp hk hpp
  obtain ⟨-, -, d1, d2, d3, d4⟩ := C120_decrypt P m.unwritten ad dealer i c c' com sk pk pk hc hc' hcom hsk hpk hpk
  obtain ⟨k1, k2, k3, k4⟩ := C120_checks P m.unwritten ad seed dealer i n c c' com o hc hc' hcom ho
  exact ⟨e1.ret, e2.ret, d1.ret, d2.ret, d3.ret, d4.ret, k1.ret, k2.ret, k3.ret, k4.ret⟩

/-- C185: dealings, transcripts and openings. -/
theorem C185_dealings (shares : SharesObj) (seed : Seed) (threshold receivers : Int) (pks : List Addr) (dealer i : NodeIndex)
    (d : DealingObj) (curve : CurveType) (op : OpObj) (sk pk : Addr) (dealings : List (NodeIndex × DealingObj))
    (openings : List (NodeIndex × OpeningObj)) (provided : List (NodeIndex × List (NodeIndex × OpeningObj))) (t : Option ComObj)
    (hs : Has View.shares m shares) (hks : Has View.pt.list m pks) (hd : Has View.dealing m d) (hop : Has View.op m op)
    (hsk : sk < m.next) (hpk : pk < m.next) (hds : Has (View.omap View.dealing) m dealings)
    (ho : Has (View.omap View.opening) m openings) (hp : Has (View.omap (View.omap View.opening)) m provided)
    (ht : Has View.com.opt m t) :
    WritesOnlyNew (newDealing P shares seed threshold pks dealer ad) m ∧
    WritesOnlyNew (publiclyVerify P d curve op threshold dealer receivers ad) m ∧
    WritesOnlyNew (privateVerify P d curve sk pk ad dealer i) m ∧ WritesOnlyNew (newTranscript threshold dealings op) m ∧
    WritesOnlyNew (openDealing P d ad dealer i sk pk) m ∧ WritesOnlyNew (reconstructShare d openings i) m ∧
    WritesOnlyNew (fromDealings P dealings t ad i sk pk) m ∧
    WritesOnlyNew (fromDealingsAndOpenings P dealings provided t ad i sk pk) m := by
  obtain ⟨v1, v2⟩ := C122_verify P m.unwritten ad d curve op threshold receivers dealer i sk pk hd hop hsk hpk
  obtain ⟨t1, -, -⟩ := C123_transcript m.unwritten threshold dealings op t i hds hop ht
  obtain ⟨o1, o2, -, o4, o5⟩ := C123_openings P m.unwritten ad d dealings openings provided [] [] t dealer i sk pk hd hds ho hp
    (by simp [Has, View.list]) ht hsk hpk
  exact ⟨(C122_new_dealing P m.unwritten ad shares seed threshold pks dealer hs hks).ret, v1.ret, v2.ret, t1.ret, o1.ret, o2.ret,
    o4.ret, o5.ret⟩

/-- C185: complaints. -/
theorem C185_complaints (seed : Seed) (c : ComplaintObj) (d : DealingObj) (dealings : List (NodeIndex × DealingObj))
    (dealer receiver : NodeIndex) (sk pk : Addr) (hc : Has View.complaint m c) (hd : Has View.dealing m d)
    (hds : Has (View.omap View.dealing) m dealings) (hs : sk < m.next) (hk : pk < m.next) :
    WritesOnlyNew (newComplaint P seed d dealer receiver sk pk ad) m ∧
    WritesOnlyNew (generateComplaints P dealings ad receiver sk pk seed) m ∧
    WritesOnlyNew (verifyComplaint P c d dealer receiver pk ad) m := by
  obtain ⟨c1, c2⟩ := C125_complain P m.unwritten ad seed d dealings dealer receiver sk pk hd hds hs hk
  exact ⟨c1.ret, c2.ret, (C125_verify P m.unwritten ad c d dealer receiver pk hc hd hk).ret⟩

/-- C185: deriving keys, signature shares, signatures and their checks. -/
theorem C185_signing (path : List Key.Index) (hashedMsg randomness master : Bytes) (pk : Addr) (share : SigShareObj) (sig : SignatureObj)
    (signer : NodeIndex) (threshold : Int) (shares : List (NodeIndex × SigShareObj))
    (keyT presigT lambdaT kappaLambdaT keyLambdaT : Option ComObj) (lambda kappaLambda keyLambda : Option OpeningObj)
    (hpk : pk < m.next) (hsh : Has View.sigShare m share) (hsig : Has View.signature m sig)
    (hshs : Has (View.omap View.sigShare) m shares) (hk : Has View.com.opt m keyT) (hp : Has View.com.opt m presigT)
    (hl : Has View.com.opt m lambdaT) (hkl : Has View.com.opt m kappaLambdaT) (hxl : Has View.com.opt m keyLambdaT)
    (ol : Has View.opening.opt m lambda) (okl : Has View.opening.opt m kappaLambda) (oxl : Has View.opening.opt m keyLambda) :
    WritesOnlyNew (deriveTweak P path pk) m ∧ WritesOnlyNew (derivePublicKey P master path) m ∧
    WritesOnlyNew (deriveRho P hashedMsg randomness path keyT presigT) m ∧
    WritesOnlyNew (newSigShare P path hashedMsg randomness keyT presigT lambda kappaLambda keyLambda) m ∧
    WritesOnlyNew (combineShares P path hashedMsg randomness keyT presigT threshold shares) m ∧
    WritesOnlyNew (verifySigShare P share path hashedMsg randomness signer keyT presigT lambdaT kappaLambdaT keyLambdaT) m ∧
    WritesOnlyNew (verifySignature P sig path hashedMsg randomness keyT presigT) m := by
  obtain ⟨d1, d2, d3⟩ := C124_derivation P m.unwritten path hashedMsg randomness pk master keyT presigT hpk hk hp
  obtain ⟨s1, s2⟩ := C124_sign P m.unwritten path hashedMsg randomness keyT presigT lambda kappaLambda keyLambda threshold shares hk hp
    ol okl oxl hshs
  obtain ⟨v1, v2⟩ := C124_verify P m.unwritten path hashedMsg randomness share sig signer keyT presigT lambdaT kappaLambdaT keyLambdaT
    hsh hsig hk hp hl hkl hxl
  exact ⟨d1.ret, d2.ret, d3.ret, s1.ret, s2.ret, v1.ret, v2.ret⟩

/-- C185: hashing to the curve, which uses constants shared by all calls.  (`isogeny`, which is internal, also writes to the object
given as its second argument.) -/
theorem C185_hash {K : Fin 13 → Addr} (hK : Constants K m) (u : Addr) (hu : u < m.next) (count : Int) (input dst : Bytes) :
    WritesOnlyNew (mapToCurve K u) m ∧ WritesOnlyNew (hashToField P count input dst) m ∧
    WritesOnlyNew (hashToScalar P count input dst) m ∧ WritesOnlyNew (hashToCurve P K input dst) m := by
  obtain ⟨h1, h2, h3, h4⟩ := C126_hash P m.unwritten (K := K) (input := input) (dst := dst) hK u hu count
  exact ⟨h1.ret, h2.ret, h3.ret, h4.ret⟩

/-- C185: whole rounds and the signature protocol. -/
theorem C185_protocol (cbor : Commitment → Res Bytes) (s : SetupObj) (v : Setup) (dealers corrupted : Nat) (r r' : RoundObj)
    (x x' : Round) (hs : SetupAt m s v) (hn : v.sk.length ≤ 2 ^ 63) (hdl : dealers ≤ 2 ^ 63) (hr : RoundAt m r x)
    (hr' : RoundAt m r' x') (hx : x.openings.length ≤ 2 ^ 63) (hx' : x'.openings.length ≤ 2 ^ 63) (nodes : Nat) (t : Int)
    (seed : Seed) (hnodes : nodes ≤ 2 ^ 63) (S : SigSetupObj) (w : SigSetup) (hS : SigAt m S w) (path : List Key.Index)
    (msg rand : Bytes) :
    WritesOnlyNew (roundRandom P cbor s dealers corrupted) m ∧ WritesOnlyNew (roundReshareOfMasked P cbor s r dealers corrupted) m ∧
    WritesOnlyNew (roundReshareOfUnmasked P cbor s r dealers corrupted) m ∧
    WritesOnlyNew (roundMultiply P cbor s r r' dealers corrupted) m ∧ WritesOnlyNew (newSigSetup P cbor nodes t corrupted seed) m ∧
    WritesOnlyNew (S.generateShares P path msg rand) m := by
  obtain ⟨r1, r2, r3, r4⟩ := C169_rounds P cbor m.unwritten s v dealers corrupted hs hn
  obtain ⟨g1, g2⟩ := C169_signing P m.unwritten
  obtain ⟨-, g2, -⟩ := g2 S w path msg rand hS
  exact ⟨(r1 hdl).onlyNew fun _ _ _ h => h.1.1, (r2 r x hr hx).onlyNew fun _ _ _ h => h.1.1,
    (r3 r x hr hx).onlyNew fun _ _ _ h => h.1.1, (r4 r r' x x' hr hr' hx').onlyNew fun _ _ _ h => h.1.1,
    (g1 cbor nodes t corrupted seed hnodes).onlyNew fun _ _ _ h => h.2.1, g2.ret⟩

end

/-- Negating an argument and negating it back leaves every value as it was, but is not harmless in this sense. -/
example (m : Mem) (a : Addr) (ha : a < m.next) :
    ((do let b ← negSc a a; negSc b b) m).2.sc = m.sc ∧ ¬ WritesOnlyNew (do let b ← negSc a a; negSc b b) m := by
  refine ⟨?_, fun h => ?_⟩
  · change (m.setSc a (-m.sc a) |>.setSc a (-(m.setSc a (-m.sc a)).sc a)).sc = m.sc
    rw [Mem.setSc_self, neg_neg]
    funext b
    by_cases hb : b = a
    · rw [hb, Mem.setSc_self]
    · rw [Mem.setSc_ne hb, Mem.setSc_ne hb]
  · have := h (.sc a) (.inl rfl)
    exact absurd this (by simpa [Obj.addr] using ha)

/-- The hypotheses can be met: one point and one scalar, given several times. -/
example : WritesOnlyNew (mulPoints 0 1 0 1) ⟨fun _ => 3, fun _ => G, fun _ => [], fun _ => 0, 2, ∅⟩ :=
  (C185_curve _ 0 0 1 1 (by simp) (by simp) 0).2.2.2.1

end Verif.Heap
