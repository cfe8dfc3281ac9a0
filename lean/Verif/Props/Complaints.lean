import Verif.Spec.Numeral
import Verif.Lemmas.Complaints

/-! C65–C67, C92–C95: complaints. -/

set_option autoImplicit false

namespace Verif

open Mega Dealings Complaints RoCall Zk

/-! ### C65: complaints are raised exactly for bad dealings -/

/-- Dealings that passed public verification have the form that the theorems below ask for. -/
theorem C65_publicly_verified (P : Prim) (d : Dealing) (curve : CurveType) (op : Op) (t : Int) (dealer : NodeIndex)
    (receivers : Int) (ad : Bytes) (h : publiclyVerify P d curve op t dealer receivers ad = .ok ()) :
    ∃ ct cm, Matched d ct cm ∧ ct.popAccepted P ad dealer ∧ (ct.size : Int) = receivers := by
  obtain ⟨-, cm, ct, c0, hcm, hc, -, hc0, hsz, hpop, hp⟩ := (C57_accepted_iff P d curve op t dealer receivers ad).1 h
  refine ⟨ct, cm, ⟨hc, hcm, (fun e => by rw [e] at hc0; cases hc0), ?_⟩, hpop, hsz⟩
  cases op with
  | random => rw [hp.1, hp.2.1]; rfl
  | reshareMasked p1 => rw [hp.1, hp.2.1]; rfl
  | reshareUnmasked p1 => rw [hp.1, hp.2.1]; rfl
  | unmaskedTimesMasked l r => rw [hp.1, hp.2.1]; rfl
  | other => exact hp.elim

/-- C65, what holds: for dealings whose ciphertext and (non-empty) commitment are of one kind, and an index that is not
negative, `GenerateComplaints` never panics; it fails exactly if all shares are good; what it returns has, for exactly the
dealers of bad shares, one complaint each, made from the seed for that dealer and carrying the true shared secret; and it
does return if the generators of the derived seeds do.  Missing: other dealings (see `C65_false`). -/
theorem C65_exactly_bad_partial (P : Prim) (ds : DealingMap) (ad : Bytes) (i : NodeIndex) (k : Fn) (pk : Pt) (seed : Seed)
    (hs : OMap.Sorted BitVec.toInt ds) (ct : NodeIndex → Cipher) (cm : NodeIndex → Commitment)
    (hm : ∀ x ∈ ds, Matched x.2 (ct x.1) (cm x.1)) (h0 : 0 ≤ i.toInt) :
    (generateComplaints P ds ad i k pk seed).isPanic = false ∧
    ((∀ x ∈ ds, GoodShare P ad x.1 i k pk (ct x.1) (cm x.1)) ↔ (generateComplaints P ds ad i k pk seed).isErr = true) ∧
    (∀ cs, generateComplaints P ds ad i k pk seed = .ok cs → OMap.Sorted BitVec.toInt cs ∧
      (∀ j, (∃ c, (j, c) ∈ cs) ↔ ∃ d, (j, d) ∈ ds ∧ ¬ GoodShare P ad j i k pk (ct j) (cm j)) ∧
      ∀ j c, (j, c) ∈ cs → c.sharedSecret = k • (ct j).ephemeral ∧
        ∃ d s, (j, d) ∈ ds ∧ seed.derive P (label j) = .ok s ∧ newComplaint P s d j i k pk ad = .ok c) ∧
    ((∀ x ∈ ds, ∀ s, seed.derive P (label x.1) = .ok s → ∃ y r, Scalar.random (s.rng P) = .ok (y, r)) →
      (∃ x ∈ ds, ¬ GoodShare P ad x.1 i k pk (ct x.1) (cm x.1)) →
      ∃ cs, generateComplaints P ds ad i k pk seed = .ok cs) := by
  have hcases := fun x (hx : x ∈ ds) => openDealing_cases P ad x.1 k pk (hm x hx) h0
  have hbad : ∀ x ∈ ds, (openDealing P x.2 ad x.1 i k pk).isErr = true ↔
      ¬ GoodShare P ad x.1 i k pk (ct x.1) (cm x.1) := by
    intro x hx
    rcases hcases x hx with ⟨⟨o, ho⟩, hg⟩ | ⟨he, hg⟩
    · rw [ho]; simp [hg]
    · simp [he, hg]
  obtain ⟨hmain, hret⟩ := scan_cases P ad i k pk seed ds (fun x hx => ⟨_, (hm x hx).1⟩)
    (fun x hx => (hcases x hx).imp And.left And.left) [] OMap.sorted_nil (by simp) hs
  have hgood : ∀ cs, scan P ad i k pk seed [] ds = .ok cs →
      (∀ j c, (j, c) ∈ cs ↔ (j, c) ∈ ([] : List (NodeIndex × Complaint)) ∨ ∃ d s, (j, d) ∈ ds ∧
        (openDealing P d ad j i k pk).isErr = true ∧ seed.derive P (label j) = .ok s ∧
        newComplaint P s d j i k pk ad = .ok c) →
      ∀ x ∈ ds, ¬ GoodShare P ad x.1 i k pk (ct x.1) (cm x.1) → ∃ c, (x.1, c) ∈ cs := by
    intro cs hcs hiff x hx hb
    -- a scan that returned has made the complaint for `x`
    obtain ⟨s, hsd, -⟩ := C22_seed_derivation.2.2.1 P seed (label x.1)
    rcases (newComplaint_cases P s x.1 i k pk ad (hm x hx).1).1 with ⟨c, hc⟩ | hdiv
    · exact ⟨c, (hiff _ _).2 (Or.inr ⟨x.2, s, hx, (hbad x hx).2 hb, hsd, hc⟩)⟩
    · exfalso
      -- the scan would not return
      have : ∀ (l : DealingMap) acc, x ∈ l → (∀ y ∈ l, y ∈ ds) → scan P ad i k pk seed acc l ≠ .ok cs := by
        intro l
        induction l with
        | nil => simp
        | cons y l ih =>
          intro acc hxl hsub he
          rcases hcases y (hsub y (by simp)) with ⟨⟨o, ho⟩, hg⟩ | ⟨hr, hg⟩
          · have hne : x ≠ y := by rintro rfl; exact hb hg
            rw [scan] at he
            simp only [ho] at he
            exact ih acc ((List.mem_cons.1 hxl).resolve_left hne) (fun z hz => hsub z (by simp [hz])) he
          · obtain ⟨e0, he0⟩ := Res.isErr_iff.1 hr
            rw [scan] at he
            simp only [he0] at he
            obtain ⟨s', hs', he⟩ := Res.bind_eq_ok.1 he
            obtain ⟨c', hc', he⟩ := Res.bind_eq_ok.1 he
            rcases List.mem_cons.1 hxl with hxy | hxl
            · rw [← hxy] at hs' hc'
              rw [hsd] at hs'; cases hs'
              rw [hdiv] at hc'; cases hc'
            · exact ih _ hxl (fun z hz => hsub z (by simp [hz])) he
      exact this ds [] hx (fun y hy => hy) hcs
  rcases hmain with hd | ⟨cs, hcs, hsort, hiff⟩
  · have hg : generateComplaints P ds ad i k pk seed = .diverge := by rw [generateComplaints, hd]; rfl
    rw [hg]
    refine ⟨rfl, ⟨fun hall => ?_, (fun h => by cases h)⟩, (fun cs h => by cases h), fun h _ => absurd hd (hret h)⟩
    exfalso
    -- without bad shares the scan draws nothing
    have : ∀ (l : DealingMap) acc, (∀ y ∈ l, y ∈ ds) → scan P ad i k pk seed acc l = .ok acc := by
      intro l
      induction l with
      | nil => exact fun acc _ => rfl
      | cons y l ih =>
        intro acc hsub
        rcases hcases y (hsub y (by simp)) with ⟨⟨o, ho⟩, -⟩ | ⟨-, hg⟩
        · rw [scan]; simp only [ho]; exact ih acc fun z hz => hsub z (by simp [hz])
        · exact absurd (hall y (hsub y (by simp))) hg
    rw [this ds [] fun y hy => hy] at hd
    cases hd
  · have hall : (∀ x ∈ ds, GoodShare P ad x.1 i k pk (ct x.1) (cm x.1)) ↔ cs = [] := by
      constructor
      · intro hall
        rcases cs with _ | ⟨⟨j, c⟩, l⟩
        · rfl
        · rcases (hiff j c).1 (by simp) with h | ⟨d, s, h1, h2, -⟩
          · cases h
          · exact absurd (hall _ h1) ((hbad _ h1).1 h2)
      · rintro rfl x hx
        by_contra hb
        obtain ⟨c, hc⟩ := hgood [] hcs hiff x hx hb
        cases hc
    have hg : generateComplaints P ds ad i k pk seed =
        if cs.length = 0 then .err "generate_complaints should return at least one complaint" else .ok cs := by
      rw [generateComplaints, hcs, Res.ok_bind]
    have hlen : cs.length = 0 ↔ cs = [] := List.length_eq_zero_iff
    rw [hg]
    refine ⟨by split_ifs <;> rfl, ?_, fun cs' h => ?_, fun _ hex => ?_⟩
    · rw [hall, ← hlen]
      split_ifs with h <;> simp [h]
    · split_ifs at h with hl
      cases h
      refine ⟨hsort, fun j => ⟨?_, ?_⟩, fun j c hc => ?_⟩
      · rintro ⟨c, hc⟩
        rcases (hiff j c).1 hc with h | ⟨d, s, h1, h2, -⟩
        · cases h
        · exact ⟨d, h1, (hbad _ h1).1 h2⟩
      · rintro ⟨d, h1, h2⟩
        exact hgood cs hcs hiff (j, d) h1 h2
      · rcases (hiff j c).1 hc with h | ⟨d, s, h1, h2, h3, h4⟩
        · cases h
        · exact ⟨((newComplaint_cases P s j i k pk ad (hm _ h1).1).2.2 c h4).1, d, s, h1, h3, h4⟩
    · obtain ⟨x, hx, hb⟩ := hex
      rw [if_neg]
      · exact ⟨cs, rfl⟩
      · rw [hlen, ← hall]
        exact fun h => hb (h x hx)

/-- C65 is false for all dealings: one whose ciphertext is for single values and whose commitment is a Pedersen commitment
(or the other way round) makes `GenerateComplaints` panic. -/
theorem C65_mixed_kinds_panic (P : Prim) (ct : Cipher) (cm : Commitment) (pf : Option ProofVal) (ad : Bytes)
    (dealer i : NodeIndex) (k : Fn) (pk : Pt) (seed : Seed) (hpop : ct.popAccepted P ad dealer) (h0 : 0 ≤ i.toInt)
    (hi : i.toInt < ct.size) (hk : cm.kind ≠ (if ct.isPair then .pedersen else .simple)) (rest : DealingMap) :
    (generateComplaints P ((dealer, ⟨some ct, some cm, pf⟩) :: rest) ad i k pk seed).isPanic = true := by
  obtain ⟨o, ho⟩ := shareUnder_exists P ad dealer pk (k • ct.ephemeral) h0 hi
  have hop : openDealing P ⟨some ct, some cm, pf⟩ ad dealer i k pk = .panic "interface conversion" := by
    rw [openDealing.eq_def]
    simp only [nonNil, Res.ok_bind]
    cases ct with
    | single m =>
      have hk' : cm.kind = .pedersen := by cases h : cm.kind with | pedersen => rfl | simple => exact absurd h hk
      obtain ⟨s, rfl, hs⟩ := single_fromShared ho
      have hs' : Single.decryptFromSharedSecret P m ad dealer i pk (Point.scalarMul m.ephemeralKey k) = .ok s := hs
      have hpop' : verifyPop P .single ad dealer m.ephemeralKey m.popPublicKey m.popProof = .ok () := hpop
      simp only [Cipher.decryptAndCheck, Single.decryptAndCheck, Single.decrypt, hpop', hs', Res.ok_bind,
        Commitment.checkOpening, hk', Res.panic_bind]
    | pair m =>
      have hk' : cm.kind = .simple := by cases h : cm.kind with | simple => rfl | pedersen => exact absurd h hk
      obtain ⟨s, t, rfl, hs⟩ := pair_fromShared ho
      have hs' : Pair.decryptFromSharedSecret P m ad dealer i pk (Point.scalarMul m.ephemeralKey k) = .ok (s, t) := hs
      have hpop' : verifyPop P .pairs ad dealer m.ephemeralKey m.popPublicKey m.popProof = .ok () := hpop
      simp only [Cipher.decryptAndCheck, Pair.decryptAndCheck, Pair.decrypt, hpop', hs', Res.ok_bind,
        Commitment.checkOpening, hk', Res.panic_bind]
  rw [generateComplaints, scan]
  simp only [hop, Res.panic_bind, Res.isPanic_panic]

/-- A dealing (ephemeral key and proof of possession honest) to one recipient, private key 3, whose plaintext is 6. -/
theorem Complaints.cipher_exists : ∃ m : Ciphertext Fn, m.ctexts.length = 1 ∧
    (Cipher.single m).popAccepted zeroPrim [7] 1 ∧
    ShareUnder zeroPrim [7] 1 0 (Point.mulByG 3) ((3 : Fn) • m.ephemeralKey) (.simple 6) (.single m) := by
  obtain ⟨m, hm⟩ := (encrypt_nonvacuous ⟨[]⟩ [Point.mulByG 3] 1 [7] (by simp)).1 [6] rfl
  obtain ⟨hv, hdec⟩ := C49_single_roundtrip zeroPrim ⟨[]⟩ [6] [3] 1 [7] m hm
  have hlen : m.ctexts.length = 1 := by exact_mod_cast (C52_check_validity_count zeroPrim [7] 1 _).1 m hv
  have hpop : verifyPop zeroPrim .single [7] 1 m.ephemeralKey m.popPublicKey m.popProof = .ok () := by
    rwa [Single.checkValidity, if_neg (by simp [hlen])] at hv
  refine ⟨m, hlen, hpop, ?_⟩
  have hd := hdec 0 3 6 (by decide) rfl rfl
  rw [Single.decrypt, hpop, Res.ok_bind] at hd
  obtain ⟨o, ho⟩ := shareUnder_exists zeroPrim [7] 1 (i := 0) (Point.mulByG 3) ((3 : Fn) • m.ephemeralKey)
    (ct := .single m) (by decide) (by simp only [Cipher.size, hlen]; decide)
  obtain ⟨s, e, hs⟩ := single_fromShared ho
  have hs' : Single.decryptFromSharedSecret zeroPrim m [7] 1 0 (Point.mulByG 3) (Point.scalarMul m.ephemeralKey 3) = .ok s := hs
  rw [hs'] at hd
  cases hd
  rwa [e] at ho

theorem C65_false : ∃ (P : Prim) (ds : DealingMap) (ad : Bytes) (i : NodeIndex) (k : Fn) (seed : Seed),
    0 ≤ i.toInt ∧ OMap.Sorted BitVec.toInt ds ∧
    (generateComplaints P ds ad i k (Point.mulByG k) seed).isPanic = true := by
  obtain ⟨m, hlen, hpop, -⟩ := cipher_exists
  exact ⟨zeroPrim, [(1, ⟨some (.single m), some ⟨.pedersen, [0]⟩, none⟩)], [7], 0, 3, ⟨[]⟩, by decide, by simp [OMap.Sorted],
    C65_mixed_kinds_panic zeroPrim (.single m) ⟨.pedersen, [0]⟩ none [7] 1 0 3 _ ⟨[]⟩ hpop (by decide)
      (by simp only [Cipher.size, hlen]; decide) (by simp [Cipher.isPair]) []⟩

/-! ### C66: a justified complaint is accepted -/

/-- A complaint made with the receiver's keys verifies exactly if the share that its shared secret uncovers exists and does
not open the commitment. -/
theorem C66_made_complaint_iff (P : Prim) (seed : Seed) (d : Dealing) (ct : Cipher) (cm : Commitment) (hm : Matched d ct cm)
    (dealer i : NodeIndex) (h0 : 0 ≤ i.toInt) (k : Fn) (ad : Bytes) (c : Complaint)
    (hc : newComplaint P seed d dealer i k (k • G) ad = .ok c) :
    verify P c d dealer i (k • G) ad = .ok () ↔
      ∃ o, ShareUnder P ad dealer i (k • G) (k • ct.ephemeral) o ct ∧ ¬ Opens cm i o := by
  obtain ⟨hsh, a, ha, hv⟩ := (newComplaint_cases P seed dealer i k (k • G) ad hm.1).2.2 c hc
  rcases verify_cases P c dealer (k • G) ad hm h0 ha with ⟨h1, -, h3⟩ | ⟨h1, h2⟩
  · rw [hsh] at h3; exact ⟨fun _ => h3, fun _ => h1⟩
  · rw [hsh] at h2
    exact ⟨(fun h => by rw [h] at h1; cases h1), fun h => absurd ⟨hv, h⟩ h2⟩

/-- C66: let a dealing have an accepted proof of possession and an entry for the receiver that is not a good share.  Then
the receiver's complaint, whatever the seed, verifies. -/
theorem C66_justified_accepted (P : Prim) (seed : Seed) (d : Dealing) (ct : Cipher) (cm : Commitment) (hm : Matched d ct cm)
    (dealer i : NodeIndex) (h0 : 0 ≤ i.toInt) (hi : i.toInt < ct.size) (k : Fn) (ad : Bytes) (c : Complaint)
    (hpop : ct.popAccepted P ad dealer) (hbad : ¬ GoodShare P ad dealer i k (k • G) ct cm)
    (hc : newComplaint P seed d dealer i k (k • G) ad = .ok c) : verify P c d dealer i (k • G) ad = .ok () := by
  rw [C66_made_complaint_iff P seed d ct cm hm dealer i h0 k ad c hc]
  obtain ⟨o, ho⟩ := shareUnder_exists P ad dealer (k • G) (k • ct.ephemeral) h0 hi
  exact ⟨o, ho, fun hop => hbad ⟨hpop, o, ho, hop⟩⟩

/-- C95, what holds (and C66 for a whole set of dealings): if all dealings passed public verification, every complaint that `GenerateComplaints` returns verifies against
its dealing. -/
theorem C95_publicly_verified_partial (P : Prim) (ds : DealingMap) (ad : Bytes) (i : NodeIndex) (k : Fn) (seed : Seed)
    (hs : OMap.Sorted BitVec.toInt ds) (curve : CurveType) (op : Op) (t receivers : Int)
    (hv : ∀ x ∈ ds, publiclyVerify P x.2 curve op t x.1 receivers ad = .ok ()) (h0 : 0 ≤ i.toInt) (hi : i.toInt < receivers)
    (cs : List (NodeIndex × Complaint)) (h : generateComplaints P ds ad i k (k • G) seed = .ok cs) :
    ∀ j c, (j, c) ∈ cs → ∃ d, (j, d) ∈ ds ∧ verify P c d j i (k • G) ad = .ok () := by
  have hex : ∀ j, ∃ (ct : Cipher) (cm : Commitment), ∀ d, (j, d) ∈ ds →
      Matched d ct cm ∧ ct.popAccepted P ad j ∧ (ct.size : Int) = receivers := by
    intro j
    by_cases hj : ∃ d, (j, d) ∈ ds
    · obtain ⟨d, hd⟩ := hj
      obtain ⟨ct, cm, h1⟩ := C65_publicly_verified P d curve op t j receivers ad (hv _ hd)
      refine ⟨ct, cm, fun d' hd' => ?_⟩
      have : d = d' := by
        have e1 := OMap.get_of_mem hs hd
        rw [OMap.get_of_mem hs hd'] at e1
        simpa using e1.symm
      rw [← this]; exact h1
    · exact ⟨.single ⟨0, 0, ⟨0, 0⟩, []⟩, ⟨.simple, []⟩, fun d hd => absurd ⟨d, hd⟩ hj⟩
  choose ct cm hcm using hex
  obtain ⟨-, -, h3, -⟩ := C65_exactly_bad_partial P ds ad i k (k • G) seed hs ct cm (fun x hx => (hcm x.1 x.2 hx).1) h0
  obtain ⟨-, hkeys, hall⟩ := h3 cs h
  intro j c hc
  obtain ⟨-, d, s, hd, -, hnew⟩ := hall j c hc
  obtain ⟨d', hd', hbad⟩ := (hkeys j).1 ⟨c, hc⟩
  obtain ⟨h1, h2, h3⟩ := hcm j d hd
  exact ⟨d, hd, C66_justified_accepted P s d _ _ h1 j i h0 (by rw [h3]; exact hi) k ad c h2 hbad hnew⟩

/-- The opening 6 is not one of the commitment `[5•G]`. -/
theorem Complaints.six_not_five (i : NodeIndex) : ¬ Opens ⟨.simple, [(5 : Fn) • G]⟩ i (.simple 6) := by
  rintro ⟨-, h⟩
  have hv : valueAtNode [(5 : Fn) • G] i = (5 : Fn) • G := by simp [valueAtNode, valueAt]
  rw [hv] at h
  exact absurd (smul_left_injective Fn G_ne_zero h) (by decide +kernel)

/-- A case of C65 and C66: a commitment to 5, a ciphertext that holds 6, and the complaint about it. -/
example : ∃ (d : Dealing) (c : Complaint), generateComplaints zeroPrim [(1, d)] [7] 0 3 (Point.mulByG 3) ⟨[]⟩ = .ok [(1, c)] ∧
    verify zeroPrim c d 1 0 (Point.mulByG 3) [7] = .ok () := by
  obtain ⟨m, hlen, hpop, hsh⟩ := cipher_exists
  have hmt : Matched ⟨some (.single m), some ⟨.simple, [(5 : Fn) • G]⟩, none⟩ (.single m) ⟨.simple, [(5 : Fn) • G]⟩ :=
    ⟨rfl, rfl, by simp, rfl⟩
  have hbad : ¬ GoodShare zeroPrim [7] 1 0 3 (Point.mulByG 3) (.single m) ⟨.simple, [(5 : Fn) • G]⟩ := by
    rintro ⟨-, o, ho, hop⟩
    rw [← shareUnder_unique hsh ho] at hop
    exact six_not_five 0 hop
  refine ⟨⟨some (.single m), some ⟨.simple, [(5 : Fn) • G]⟩, none⟩, ?_⟩
  obtain ⟨-, -, h3, h4⟩ := C65_exactly_bad_partial zeroPrim
    [(1, ⟨some (.single m), some ⟨.simple, [(5 : Fn) • G]⟩, none⟩)] [7] 0 3 (Point.mulByG 3) ⟨[]⟩ (by simp [OMap.Sorted])
    (fun _ => .single m) (fun _ => ⟨.simple, [(5 : Fn) • G]⟩) (by simpa using hmt) (by decide)
  obtain ⟨cs, hcs⟩ := h4 (fun x _ s _ => ⟨_, _, zeroPrim_random s⟩) ⟨_, List.mem_singleton.2 rfl, hbad⟩
  obtain ⟨hsort, hk, hall⟩ := h3 cs hcs
  obtain ⟨c, hc⟩ := (hk 1).2 ⟨_, List.mem_singleton.2 rfl, hbad⟩
  obtain ⟨-, d, s, hd, -, hnew⟩ := hall 1 c hc
  have hcs1 : cs = [(1, c)] := by
    refine OMap.ext_mem hsort (by simp [OMap.Sorted]) fun x => ?_
    rw [List.mem_singleton]
    refine ⟨fun hx => ?_, fun e => by rw [e]; exact hc⟩
    obtain ⟨j, c'⟩ := x
    obtain ⟨d', hd', -⟩ := (hk j).1 ⟨c', hx⟩
    have hj : j = 1 := by simp at hd'; exact hd'.1
    subst hj
    have e1 := OMap.get_of_mem hsort hx
    rw [OMap.get_of_mem hsort hc] at e1
    simp at e1
    rw [e1]
  refine ⟨c, by rw [hcs, hcs1], ?_⟩
  have hd1 : d = ⟨some (.single m), some ⟨.simple, [(5 : Fn) • G]⟩, none⟩ := by simpa using hd
  rw [hd1] at hnew
  exact C66_justified_accepted zeroPrim s _ _ _ hmt 1 0 (by decide) (by simp only [Cipher.size, hlen]; decide) 3 [7] c
    hpop hbad hnew

/-! ### C67: an unjustified complaint is rejected -/

/-- C67: against a good share no complaint with the true shared secret verifies, whatever its proof. -/
theorem C67_true_secret_rejected (P : Prim) (d : Dealing) (ct : Cipher) (cm : Commitment) (hm : Matched d ct cm)
    (dealer i : NodeIndex) (k : Fn) (pk : Pt) (ad : Bytes) (hgood : GoodShare P ad dealer i k pk ct cm) (proof : Zk.Proof) :
    (verify P ⟨proof, k • ct.ephemeral⟩ d dealer i pk ad).isErr = true := by
  obtain ⟨-, o, ho, hop⟩ := hgood
  obtain ⟨a, ha⟩ := assocData_ok P ad i dealer pk
  rcases verify_cases P ⟨proof, k • ct.ephemeral⟩ dealer pk ad hm (shareUnder_lt ho).1 ha with ⟨-, -, o', ho', hn⟩ | ⟨h, -⟩
  · rw [← shareUnder_unique ho ho'] at hn
    exact absurd hop hn
  · exact h

/-- C67: for a false shared secret there is, independently of the hash function, the dealer, the indices, the associated data
and the proof, a function from commitments to challenges whose value the challenge hash must hit for the complaint to
verify. -/
theorem C67_false_secret (d : Dealing) (ct : Cipher) (hct : d.ciphertext = some ct) (k : Fn) (shared : Pt)
    (hne : shared ≠ k • ct.ephemeral) :
    ∃ bad : Pt → Pt → Fn, ∀ (P : Prim) (proof : Zk.Proof) (dealer i : NodeIndex) (ad : Bytes),
      verify P ⟨proof, shared⟩ d dealer i (k • G) ad = .ok () →
      ∃ a c1 c2, createProofAssocData P ad i dealer (k • G) = .ok a ∧ proof.challenge = bad c1 c2 ∧
        Dlog.hashToChallenge P (Dlog.fromCommitments G ct.ephemeral (k • G) shared) c1 c2 a = .ok (bad c1 c2) := by
  obtain ⟨bad, h⟩ := C48_dlog_soundness G ct.ephemeral (k • G) shared (by
    rintro ⟨x, h1, h2⟩
    have : k = x := smul_left_injective Fn G_ne_zero h1
    rw [this] at hne
    exact hne h2)
  refine ⟨bad, fun P proof dealer i ad hv => ?_⟩
  rw [verify] at hv
  obtain ⟨a, ha, hv⟩ := Res.bind_eq_ok.1 hv
  obtain ⟨ct', hct', hv⟩ := Res.bind_eq_ok.1 hv
  rw [hct] at hct'
  cases hct'
  obtain ⟨⟨⟩, hz, -⟩ := Res.bind_eq_ok.1 hv
  obtain ⟨c1, c2, h1, h2⟩ := h P proof a hz
  exact ⟨a, c1, c2, ha, h1, h2⟩

/-- C67 for honest dealers: nobody's true shared secret is a complaint against them. -/
theorem C67_honest_dealer (P : Prim) (shares : Shares) (seed : Seed) (t : Int) (keys : List Fn) (dealer : NodeIndex)
    (ad : Bytes) (d : Dealing) (hs : shares ≠ .other) (h : new P shares seed t (keys.map Point.mulByG) dealer ad = .ok d)
    (i : NodeIndex) (k : Fn) (h0 : 0 ≤ i.toInt) (hk : keys[i.toInt.toNat]? = some k) :
    ∃ ct, d.ciphertext = some ct ∧
      ∀ proof, (verify P ⟨proof, k • ct.ephemeral⟩ d dealer i (k • G) ad).isErr = true := by
  obtain ⟨values, mask, ct, cm, hcm, hct, hvl, hml, -, hsz, hpair, hkind, hdec⟩ :=
    C85_dealing_contents P shares seed t keys dealer ad d hs h
  have hd := hdec i k h0 hk
  have hopen : openDealing P d ad dealer i k (k • G) = ct.decryptAndCheck P cm ad dealer i k (k • G) := by
    rw [openDealing.eq_def, hct, hcm]
    rfl
  rw [hd] at hopen
  have hne := (openDealing_ok hcm hopen).1
  have hm : Matched d ct cm := by
    refine ⟨hct, hcm, hne, ?_⟩
    rw [hpair]
    split_ifs at hkind ⊢ <;> exact hkind.1
  refine ⟨ct, hct, fun proof => ?_⟩
  rcases openDealing_cases P ad dealer k (k • G) hm h0 with ⟨-, hg⟩ | ⟨he, -⟩
  · exact C67_true_secret_rejected P d ct cm hm dealer i k (k • G) ad hg proof
  · rw [hopen] at he; cases he

/-- A case of C67: a ciphertext and a commitment that both hold 6. -/
example : ∃ m : Ciphertext Fn, ∀ proof,
    (verify zeroPrim ⟨proof, (3 : Fn) • m.ephemeralKey⟩ ⟨some (.single m), some ⟨.simple, [(6 : Fn) • G]⟩, none⟩ 1 0
      (Point.mulByG 3) [7]).isErr = true := by
  obtain ⟨m, hlen, hpop, hsh⟩ := cipher_exists
  exact ⟨m, fun proof => C67_true_secret_rejected zeroPrim _ (.single m) ⟨.simple, [(6 : Fn) • G]⟩ ⟨rfl, rfl, by simp, rfl⟩
    1 0 3 _ [7] ⟨hpop, _, hsh, rfl, by simp [valueAtNode, valueAt]⟩ proof⟩

/-! ### C92: complaints are bound to their context -/

/-- C92, what holds: the associated data of the complaint's proof are hashed from different inputs if receiver or dealer
index (mod 2^32), the receiver's key or (up to 255 bytes) the associated data differ. -/
theorem C92_complaint_binding_partial (r d r' d' : NodeIndex) (ad ad' : Bytes) (pk pk' : Pt)
    (hne : ¬ (r.toNat % 2 ^ 32 = r'.toNat % 2 ^ 32 ∧ d.toNat % 2 ^ 32 = d'.toNat % 2 ^ 32 ∧ pk = pk' ∧
      (ad.length ≤ 255 → ad'.length ≤ 255 → ad = ad'))) :
    Ro.Disjoint (assocTranscript ad r d pk) (assocTranscript ad' r' d' pk') := by
  rw [assocTranscript_eq, assocTranscript_eq]
  apply Ro.disjoint_run
  rintro ⟨-, hp⟩
  have hn := (accepted_spec (assocCalls ad' r' d' pk')).2
  obtain ⟨m1, m2, m3, m4⟩ := mem_assoc (ad := ad) (r := r) (d := d) (pk := pk)
  obtain ⟨n1, n2, n3, n4⟩ := mem_assoc (ad := ad') (r := r') (d := d') (pk := pk')
  refine hne ⟨?_, ?_, ptCall_inj (call_eq_of_perm hp hn m3 n3 rfl), fun h h' => ?_⟩
  · rw [← uint32Of_eq, ← uint32Of_eq]; exact idxCall_inj (call_eq_of_perm hp hn m1 n1 rfl)
  · rw [← uint32Of_eq, ← uint32Of_eq]; exact idxCall_inj (call_eq_of_perm hp hn m2 n2 rfl)
  · have := call_eq_of_perm hp hn (m4 h) (n4 h') rfl
    simpa only [adCall, RoCall.mk.injEq, true_and] using this

/-- C92 is false as stated: dealer indices are cut to 32 bits, so that a complaint about one dealer's dealing is one about
another's. -/
theorem C92_false : ∃ d d' : NodeIndex, d ≠ d' ∧ ∀ P c dealing i pk ad,
    verify P c dealing d i pk ad = verify P c dealing d' i pk ad := by
  have hcut : uint32Of 1 = uint32Of 4294967297 := by decide
  refine ⟨1, 4294967297, by decide, fun P c dealing i pk ad => ?_⟩
  have h1 : createProofAssocData P ad i 1 pk = createProofAssocData P ad i 4294967297 pk := by
    simp only [createProofAssocData, assocTranscript, hcut]
  have h2 : ∀ ct k sh, claimedOpening P ct k ad 1 i pk sh = claimedOpening P ct k ad 4294967297 i pk sh := by
    intro ct k sh
    cases ct <;> cases k <;> simp only [claimedOpening, Single.decryptFromSharedSecret, Pair.decryptFromSharedSecret,
      hashToScalars, padTranscript, hcut]
  simp only [verify, h1, h2]

/-! ### C93: complaint seeds -/

/-- C93: complaints about different dealers use seeds derived under different labels (so that some hash function tells them
apart). -/
theorem C93_complaint_seeds (seed : Seed) (d d' : NodeIndex) (h : d ≠ d') :
    label d ≠ label d' ∧ ∃ P : Prim, seed.derive P (label d) ≠ seed.derive P (label d') := by
  have hl : label d ≠ label d' := fun e => h (label_injective e)
  exact ⟨hl, C22_seed_derivation.2.2.2.2.2 seed seed _ _ fun e => hl (Prod.mk.inj e).2⟩

theorem numeral_decimal (n : Nat) : Numeral (decimal n) n := by
  rw [decimal]
  split_ifs with h
  · subst h; refine ⟨by simp, by simp, by simp, by simp⟩
  · have hlt : ∀ d ∈ Nat.digits 10 n, d < 10 := fun d hd => Nat.digits_lt_base (b := 10) (by norm_num) hd
    have hne : Nat.digits 10 n ≠ [] := Nat.digits_ne_nil_iff_ne_zero.2 h
    have hval : ∀ d, d < 10 → (UInt8.ofNat (48 + d)).toNat = 48 + d := fun d hd => by rw [UInt8.toNat_ofNat']; omega
    refine ⟨by simp [hne], ?_, ?_, ?_⟩
    · intro c hc
      obtain ⟨d, hd, rfl⟩ := List.mem_map.1 hc
      have := hlt d (List.mem_reverse.1 hd)
      rw [hval d this]; omega
    · rw [List.foldl_map, List.foldl_reverse]
      have : ∀ l : List Nat, (∀ d ∈ l, d < 10) →
          l.foldr (fun d a => 10 * a + ((UInt8.ofNat (48 + d)).toNat - 48)) 0 = Nat.ofDigits 10 l := by
        intro l
        induction l with
        | nil => intro _; rfl
        | cons d l ih =>
          intro hl
          rw [List.foldr_cons, ih fun x hx => hl x (List.mem_cons_of_mem _ hx), hval d (hl d List.mem_cons_self), Nat.ofDigits_cons]
          omega
      rw [this _ hlt, Nat.ofDigits_digits]
    · intro hh
      exfalso
      rw [List.head?_map, List.head?_reverse, List.getLast?_eq_getLast_of_ne_nil hne] at hh
      have hl := Nat.getLast_digit_ne_zero 10 h
      have h1 := Option.some.inj hh
      have h2 := congrArg UInt8.toNat h1
      rw [hval _ (hlt _ (List.getLast_mem hne))] at h2
      have h48 : (48 : UInt8).toNat = 48 := rfl
      rw [h48] at h2
      omega

/-- C93, the label: the text of the code followed by the index in decimal, with a sign exactly if it is negative. -/
theorem C93_label (d : NodeIndex) : ∃ digits, Numeral digits d.toInt.natAbs ∧
    label d = ascii "ic-crypto-tecdsa-complaint-against-" ++ (if d.toInt < 0 then [45] else []) ++ digits := by
  refine ⟨_, numeral_decimal _, ?_⟩
  have h45 : ascii "-" = [45] := by decide +kernel
  rw [label, decimalInt, h45]
  split_ifs <;> simp

/-- Labels, also of a negative index. -/
example : label 12 = ascii "ic-crypto-tecdsa-complaint-against-12" ∧
    label (-7) = ascii "ic-crypto-tecdsa-complaint-against--7" ∧ label 0 = ascii "ic-crypto-tecdsa-complaint-against-0" := by
  have d12 : Nat.digits 10 12 = [2, 1] := by norm_num
  have d7 : Nat.digits 10 7 = [7] := by norm_num
  have i12 : (12 : NodeIndex).toInt = 12 := by decide
  have i7 : (-7 : NodeIndex).toInt = -7 := by decide
  have i0 : (0 : NodeIndex).toInt = 0 := by decide
  simp only [label, decimalInt, i12, i7, i0]
  refine ⟨?_, ?_, ?_⟩
  · rw [if_neg (by decide), decimal, if_neg (by decide), show Int.natAbs 12 = 12 from rfl, d12]; decide +kernel
  · rw [if_pos (by decide), decimal, if_neg (by decide), show Int.natAbs (-7) = 7 from rfl, d7]; decide +kernel
  · rw [if_neg (by decide), decimal, if_pos (by decide)]; decide +kernel

/-! ### C94: verification does not panic -/

/-- C94, what holds: for an index that is not negative, a ciphertext, and a non-empty commitment of whatever kind, the
verification of any complaint returns. -/
theorem C94_verify_total_partial (P : Prim) (c : Complaint) (ct : Cipher) (cm : Commitment) (pf : Option ProofVal)
    (dealer i : NodeIndex) (pk : Pt) (ad : Bytes) (hne : cm.points ≠ []) (h0 : 0 ≤ i.toInt) :
    verify P c ⟨some ct, some cm, pf⟩ dealer i pk ad = .ok () ∨
    (verify P c ⟨some ct, some cm, pf⟩ dealer i pk ad).isErr = true := by
  obtain ⟨a, ha⟩ := assocData_ok P ad i dealer pk
  by_cases hk : cm.kind = (if ct.isPair then .pedersen else .simple)
  · exact (verify_cases P c dealer pk ad (d := ⟨some ct, some cm, pf⟩) ⟨rfl, rfl, hne, hk⟩ h0 ha).imp And.left And.left
  · right
    have hcl : claimedOpening P ct cm.kind ad dealer i pk c.sharedSecret = .err "unexpected commitment type" := by
      cases ct <;> cases hkk : cm.kind <;> first | exact absurd hkk hk | rfl
    rw [verify, ha, Res.ok_bind]
    simp only [nonNil]
    rw [Res.ok_bind]
    rcases dlog_verify_cases P c.proof G ct.ephemeral pk c.sharedSecret a with hv | hv
    · rw [hv, Res.ok_bind, Res.ok_bind, hcl]; rfl
    · obtain ⟨e, he⟩ := Res.isErr_iff.1 hv
      rw [he]; rfl

/-- C94 is false for negative indices and for empty commitments: complaints with an accepted proof make the verification
panic. -/
theorem C94_false (P : Prim) (k : Fn) (m : Ciphertext Fn) (cm : Commitment) (pf : Option ProofVal) (seed : Seed)
    (dealer i : NodeIndex) (ad : Bytes) (c : Complaint) (hk : cm.kind = .simple)
    (hc : newComplaint P seed ⟨some (.single m), some cm, pf⟩ dealer i k (k • G) ad = .ok c)
    (h : i.toInt < 0 ∨ (cm.points = [] ∧ i.toInt < m.ctexts.length)) :
    (verify P c ⟨some (.single m), some cm, pf⟩ dealer i (k • G) ad).isPanic = true := by
  obtain ⟨hsh, a, ha, hv⟩ := (newComplaint_cases P seed dealer i k (k • G) ad
    (d := ⟨some (.single m), some cm, pf⟩) rfl).2.2 c hc
  rw [← hsh] at hv
  rw [verify, ha, Res.ok_bind]
  simp only [nonNil]
  rw [Res.ok_bind, hv, Res.ok_bind, Res.ok_bind, hk, claimedOpening]
  obtain ⟨x, hx⟩ := single_pad P dealer i ad (k • G) m.ephemeralKey c.sharedSecret
  by_cases h0 : i.toInt < 0
  · simp only [Single.decryptFromSharedSecret, hx, Res.ok_bind, index, if_pos h0]
    rw [if_neg (by omega)]
    rfl
  · obtain ⟨hnil, hlt⟩ := h.resolve_left h0
    obtain ⟨o, ho⟩ := shareUnder_exists P ad dealer (k • G) c.sharedSecret (ct := .single m) (not_lt.1 h0) hlt
    obtain ⟨s, -, hs⟩ := single_fromShared ho
    obtain ⟨e, he⟩ := Res.isPanic_iff.1 (Commitment.evaluateAt_nil hnil i)
    simp only [hs, Res.ok_bind, Commitment.checkOpening, hk, he, Res.panic_bind, Res.isPanic_panic]

/-- Such complaints exist. -/
example (m : Ciphertext Fn) : ∃ c, newComplaint zeroPrim ⟨[]⟩ ⟨some (.single m), some ⟨.simple, [0]⟩, none⟩ 1 (-1) 3
    ((3 : Fn) • G) [7] = .ok c :=
  (newComplaint_cases zeroPrim ⟨[]⟩ 1 (-1) 3 _ [7] (d := ⟨some (.single m), some ⟨.simple, [0]⟩, none⟩) rfl).2.1 _ _
    (zeroPrim_random _)

/-! ### C95: complaints about dealings that were not publicly verified -/

/-- C95 is false: a dealing whose proof of possession is not accepted, but whose share is consistent, gets a complaint that
does not verify. -/
theorem C95_false (P : Prim) (ds : DealingMap) (ad : Bytes) (i : NodeIndex) (k : Fn) (seed : Seed) (d : Dealing) (ct : Cipher)
    (cm : Commitment) (hm : Matched d ct cm) (j : NodeIndex) (o : Opening) (hds : ds = [(j, d)])
    (hpop : ¬ ct.popAccepted P ad j) (ho : ShareUnder P ad j i (k • G) (k • ct.ephemeral) o ct) (hop : Opens cm i o)
    (cs : List (NodeIndex × Complaint)) (h : generateComplaints P ds ad i k (k • G) seed = .ok cs) :
    ∃ c, (j, c) ∈ cs ∧ (verify P c d j i (k • G) ad).isErr = true := by
  have h0 := (shareUnder_lt ho).1
  subst hds
  obtain ⟨-, -, h3, -⟩ := C65_exactly_bad_partial P [(j, d)] ad i k (k • G) seed (by simp [OMap.Sorted]) (fun _ => ct)
    (fun _ => cm) (by simpa using hm) h0
  obtain ⟨-, hkeys, hall⟩ := h3 cs h
  obtain ⟨c, hc⟩ := (hkeys j).2 ⟨d, by simp, fun hg => hpop hg.1⟩
  obtain ⟨hsh, d', s, hd', -, hnew⟩ := hall j c hc
  refine ⟨c, hc, ?_⟩
  obtain ⟨a, ha⟩ := assocData_ok P ad i j (k • G)
  rcases verify_cases P c j (k • G) ad hm h0 ha with ⟨-, -, o', ho', hn⟩ | ⟨h, -⟩
  · rw [hsh] at ho'
    rw [← shareUnder_unique ho ho'] at hn
    exact absurd hop hn
  · exact h

/-- A case of C95: the hypotheses are met, and the complaint exists. -/
example : ∃ (m : Ciphertext Fn) (cs : List (NodeIndex × Complaint)) (c : Complaint),
    ShareUnder zeroPrim [7] 1 0 ((3 : Fn) • G) ((3 : Fn) • m.ephemeralKey) (.simple 6) (.single m) ∧
    generateComplaints zeroPrim [(1, ⟨some (.single m), some ⟨.simple, [(6 : Fn) • G]⟩, none⟩)] [7] 0 3 ((3 : Fn) • G) ⟨[]⟩ =
      .ok cs ∧ (1, c) ∈ cs ∧
    (verify zeroPrim c ⟨some (.single m), some ⟨.simple, [(6 : Fn) • G]⟩, none⟩ 1 0 ((3 : Fn) • G) [7]).isErr = true := by
  have hm : Matched ⟨some (.single ⟨G, G, ⟨1, 0⟩, [6]⟩), some ⟨.simple, [(6 : Fn) • G]⟩, none⟩ (.single ⟨G, G, ⟨1, 0⟩, [6]⟩)
      ⟨.simple, [(6 : Fn) • G]⟩ := ⟨rfl, rfl, by simp, rfl⟩
  have ho : ShareUnder zeroPrim [7] 1 0 ((3 : Fn) • G) ((3 : Fn) • G) (.simple 6) (.single ⟨G, G, ⟨1, 0⟩, [6]⟩) := by
    refine ⟨6, 0, by decide, rfl, zeroPrim_pads .single 1 0 [7] _ _ _, by simp⟩
  have hpop : ¬ (Cipher.single ⟨G, G, ⟨1, 0⟩, [6]⟩).popAccepted zeroPrim [7] 1 := by
    intro h
    obtain ⟨B, hB⟩ := computePopBase_ok zeroPrim .single [7] 1 G
    simp only [Cipher.popAccepted, verifyPop, hB, Res.ok_bind] at h
    exact absurd ((zeroPrim_dlog_verify _ _ _ _ _ _).1 h) (by decide +kernel)
  obtain ⟨-, -, -, h4⟩ := C65_exactly_bad_partial zeroPrim
    [(1, ⟨some (.single ⟨G, G, ⟨1, 0⟩, [6]⟩), some ⟨.simple, [(6 : Fn) • G]⟩, none⟩)] [7] 0 3 ((3 : Fn) • G) ⟨[]⟩
    (by simp [OMap.Sorted]) (fun _ => .single ⟨G, G, ⟨1, 0⟩, [6]⟩) (fun _ => ⟨.simple, [(6 : Fn) • G]⟩) (by simpa using hm)
    (by decide)
  obtain ⟨cs, hcs⟩ := h4 (fun x _ s _ => ⟨_, _, zeroPrim_random s⟩) ⟨_, List.mem_singleton.2 rfl, fun hg => hpop hg.1⟩
  obtain ⟨c, hc, hv⟩ := C95_false zeroPrim _ [7] 0 3 ⟨[]⟩ _ _ _ hm 1 _ rfl hpop ho
    ⟨rfl, by simp [valueAtNode, valueAt]⟩ cs hcs
  exact ⟨_, cs, c, ho, hcs, hc, hv⟩

end Verif
