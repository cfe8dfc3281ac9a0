import Verif.Model.Complaints
import Verif.Spec.Complaints
import Verif.Props.Transcript

/-! Helper lemmas about complaints. -/

set_option autoImplicit false

namespace Verif

open Mega Dealings RoCall Zk

/-! ### The constant hash -/

theorem zeroPrim_loop (b0 dst : Bytes) (k i : Nat) (out : Bytes) :
    Xmd.loop zeroPrim b0 dst k i out = out ++ List.replicate (32 * k) 0 := by
  induction k generalizing i out with
  | zero => simp [Xmd.loop]
  | succ k ih =>
    rw [Xmd.loop, ih]
    have : ∀ x, zeroPrim.sha256 x = List.replicate 32 0 := fun x => rfl
    rw [this, List.append_assoc, List.replicate_append_replicate]
    congr 2
    ring

theorem zeroPrim_expand (msg dst : Bytes) (n : Nat) (h : n ≤ 8160) :
    Xmd.expandMessageXmd zeroPrim msg dst n = .ok (List.replicate n 0) := by
  obtain ⟨out, h1, h2, -⟩ := (C19_expand_message_xmd_rfc zeroPrim msg dst).1 n h
  have h1' : Xmd.expandMessageXmd zeroPrim msg dst n = .ok out := h1
  have key : ∀ x ∈ out, x = 0 := by
    have hs : ∀ x, zeroPrim.sha256 x = List.replicate 32 0 := fun x => rfl
    have hx : ∀ (m : Bytes) (l e : Int) (d : Bytes), ∀ x ∈ Xmd.xmd zeroPrim m l e d, x = 0 := by
      intro m l e d x hx
      rw [Xmd.xmd] at hx
      simp only [zeroPrim_loop, hs, List.mem_append, List.mem_replicate] at hx
      rcases hx with hx | hx <;> exact hx.2
    rw [Xmd.expandMessageXmd] at h1'
    simp only at h1'
    split_ifs at h1' <;> cases h1' <;> intro x hxm <;>
      first | exact hx _ _ _ _ x (List.mem_of_mem_take hxm) | exact hx _ _ _ _ x hxm
  rw [h1', List.eq_replicate_of_mem key, h2]

theorem zeroPrim_hashToScalar (n : Nat) (h : n * 48 ≤ 8160) (m dst : Bytes) :
    H2C.hashToScalar zeroPrim n m dst = .ok (List.replicate n 0) := by
  have e := zeroPrim_expand m dst (n * 48) h
  rw [Nat.cast_mul] at e
  have e' : Xmd.expandMessageXmd zeroPrim m dst (H2C.goInt ((n : Int) * 48)) = .ok (List.replicate (n * 48) 0) := by
    rw [H2C.goInt_eq (by omega) (by omega)]
    exact e
  rw [H2C.hashToScalar, e', Res.ok_bind, H2C.makeSlice_ok h, Res.ok_bind]
  rw [Res.mapM'_ok (g := fun _ => (0 : Fn))]
  · simp [List.map_const']
  · intro i hi
    have hi' : i < n := by simpa using hi
    rw [if_neg (by simp; omega), List.drop_replicate, List.take_replicate, min_eq_left (by omega)]
    decide +kernel

theorem zeroPrim_challenge (i : Dlog.Instance) (c1 c2 : Pt) (ad : Bytes) :
    Dlog.hashToChallenge zeroPrim i c1 c2 ad = .ok 0 := by
  obtain ⟨m, hm⟩ := Ro.form_ok_of_accepted (ds := _) (dlog_accepted_ne i c1 c2 ad)
  rw [Dlog.hashToChallenge, dlog_transcript_eq, Ro.outputScalar, Ro.outputScalars, hm, Res.ok_bind,
    show (1 : Int) = ((1 : Nat) : Int) from rfl, zeroPrim_hashToScalar 1 (by norm_num)]
  rfl

theorem zeroPrim_dlog_verify (pf : Zk.Proof) (g h gx hx : Pt) (ad : Bytes) :
    Dlog.verify zeroPrim pf g h gx hx ad = .ok () ↔ pf.challenge = 0 := by
  rw [(C48_verification_exact zeroPrim ad).1, zeroPrim_challenge]
  simp [eq_comm]

theorem zeroPrim_pads (t : CType) (d r : NodeIndex) (ad : Bytes) (pk eph shared : Pt) :
    hashToScalars zeroPrim t d r ad pk eph shared = .ok (List.replicate t.count 0) := by
  have h : accepted (padCalls d r ad pk eph shared) ≠ [] := List.ne_nil_of_mem mem_pad.1
  obtain ⟨m, hm⟩ := Ro.form_ok_of_accepted (ds := t.encryptionDst) h
  rw [hashToScalars.eq_def, padTranscript_eq, Ro.outputScalars, hm, Res.ok_bind]
  cases t
  · exact zeroPrim_hashToScalar 1 (by norm_num) _ _
  · exact zeroPrim_hashToScalar 2 (by norm_num) _ _

namespace Dealings

theorem matched_unique {d : Dealing} {ct ct' : Cipher} {cm cm' : Commitment} (h : Matched d ct cm) (h' : Matched d ct' cm') :
    ct = ct' ∧ cm = cm' := by
  refine ⟨?_, ?_⟩
  · have := h.1.symm.trans h'.1; simpa using this
  · have := h.2.1.symm.trans h'.2.1; simpa using this

theorem shareUnder_unique {P : Prim} {ad : Bytes} {dealer i : NodeIndex} {pk shared : Pt} {o o' : Opening} {ct : Cipher}
    (h : ShareUnder P ad dealer i pk shared o ct) (h' : ShareUnder P ad dealer i pk shared o' ct) : o = o' := by
  cases ct with
  | single m =>
    obtain ⟨e, x, -, h1, h2, rfl⟩ := h
    obtain ⟨e', x', -, h1', h2', rfl⟩ := h'
    rw [h1] at h1'; rw [h2] at h2'
    cases h1'; cases h2'; rfl
  | pair m =>
    obtain ⟨e, f, x, y, -, h1, h2, rfl⟩ := h
    obtain ⟨e', f', x', y', -, h1', h2', rfl⟩ := h'
    rw [h1] at h1'; rw [h2] at h2'
    cases h1'; cases h2'; rfl

theorem shareUnder_exists (P : Prim) (ad : Bytes) (dealer : NodeIndex) {i : NodeIndex} (pk shared : Pt) {ct : Cipher}
    (h0 : 0 ≤ i.toInt) (h : i.toInt < ct.size) : ∃ o, ShareUnder P ad dealer i pk shared o ct := by
  cases ct with
  | single m =>
    obtain ⟨x, hx⟩ := single_pad P dealer i ad pk m.ephemeralKey shared
    have hlt : i.toInt.toNat < m.ctexts.length := by simp only [Cipher.size] at h; omega
    exact ⟨_, _, x, h0, List.getElem?_eq_getElem hlt, hx, rfl⟩
  | pair m =>
    obtain ⟨x, y, hx⟩ := pair_pad P dealer i ad pk m.ephemeralKey shared
    have hlt : i.toInt.toNat < m.ctexts.length := by simp only [Cipher.size] at h; omega
    exact ⟨_, _, _, x, y, h0, List.getElem?_eq_getElem hlt, hx, rfl⟩

theorem shareUnder_lt {P : Prim} {ad : Bytes} {dealer i : NodeIndex} {pk shared : Pt} {o : Opening} {ct : Cipher}
    (h : ShareUnder P ad dealer i pk shared o ct) : 0 ≤ i.toInt ∧ i.toInt < ct.size := by
  cases ct with
  | single m =>
    obtain ⟨e, x, h0, h1, -, -⟩ := h
    have := (List.getElem?_eq_some_iff.1 h1).1
    exact ⟨h0, by simp only [Cipher.size]; omega⟩
  | pair m =>
    obtain ⟨e, f, x, y, h0, h1, -, -⟩ := h
    have := (List.getElem?_eq_some_iff.1 h1).1
    exact ⟨h0, by simp only [Cipher.size]; omega⟩

theorem single_fromShared {P : Prim} {ad : Bytes} {dealer i : NodeIndex} {pk shared : Pt} {m : Ciphertext Fn} {o : Opening}
    (h : ShareUnder P ad dealer i pk shared o (.single m)) :
    ∃ s, o = .simple s ∧ Single.decryptFromSharedSecret P m ad dealer i pk shared = .ok s := by
  have hlt := (shareUnder_lt h).2
  obtain ⟨e, x, h0, h1, h2, rfl⟩ := h
  refine ⟨_, rfl, ?_⟩
  have hidx : index m.ctexts i.toInt = .ok e := by
    have := index_ok h1
    rwa [Int.toNat_of_nonneg h0] at this
  simp only [Cipher.size] at hlt
  simp only [Single.decryptFromSharedSecret, h2, hidx, Res.ok_bind, index_zero]
  rw [if_neg (by omega)]

theorem pair_fromShared {P : Prim} {ad : Bytes} {dealer i : NodeIndex} {pk shared : Pt} {m : Ciphertext (Fn × Fn)}
    {o : Opening} (h : ShareUnder P ad dealer i pk shared o (.pair m)) :
    ∃ s t, o = .pedersen s t ∧ Pair.decryptFromSharedSecret P m ad dealer i pk shared = .ok (s, t) := by
  have hlt := (shareUnder_lt h).2
  obtain ⟨e, f, x, y, h0, h1, h2, rfl⟩ := h
  refine ⟨_, _, rfl, ?_⟩
  have hidx : index m.ctexts i.toInt = .ok (e, f) := by
    have := index_ok h1
    rwa [Int.toNat_of_nonneg h0] at this
  simp only [Cipher.size] at hlt
  simp only [Pair.decryptFromSharedSecret, h2, hidx, Res.ok_bind, index_zero, index_one]
  rw [if_neg (by omega)]

/-- Opening a dealing of the right form, with an index that is not negative. -/
theorem openDealing_cases (P : Prim) (ad : Bytes) (dealer : NodeIndex) {i : NodeIndex} (k : Fn) (pk : Pt) {d : Dealing}
    {ct : Cipher} {cm : Commitment} (h : Matched d ct cm) (h0 : 0 ≤ i.toInt) :
    ((∃ o, openDealing P d ad dealer i k pk = .ok o) ∧ GoodShare P ad dealer i k pk ct cm) ∨
    ((openDealing P d ad dealer i k pk).isErr = true ∧ ¬ GoodShare P ad dealer i k pk ct cm) := by
  obtain ⟨h1, h2, hne, hk⟩ := h
  have hval := Commitment.evaluateAt_value hne i
  rw [openDealing.eq_def, h1, h2]
  simp only [nonNil, Res.ok_bind]
  cases ct with
  | single m =>
    replace hk : cm.kind = .simple := hk
    simp only [Cipher.decryptAndCheck, Single.decryptAndCheck, Single.decrypt]
    rcases verifyPop_cases P .single ad dealer m.ephemeralKey m.popPublicKey m.popProof with hv | hv
    · rw [hv, Res.ok_bind]
      by_cases hlt : i.toInt < (Cipher.single m).size
      · obtain ⟨o, ho⟩ := shareUnder_exists P ad dealer pk (k • m.ephemeralKey) h0 hlt
        obtain ⟨s, rfl, hs⟩ := single_fromShared ho
        have hs' : Single.decryptFromSharedSecret P m ad dealer i pk (Point.scalarMul m.ephemeralKey k) = .ok s := hs
        simp only [hs', Res.ok_bind, Commitment.checkOpening, hk, hval]
        by_cases he : valueAtNode cm.points i = Point.mulByG s
        · left
          exact ⟨⟨.simple s, if_pos (decide_eq_true he)⟩, hv, _, ho, hk, he⟩
        · right
          rw [if_neg (by simpa using he)]
          refine ⟨rfl, ?_⟩
          rintro ⟨-, o', ho', hop⟩
          rw [← shareUnder_unique ho ho'] at hop
          exact he hop.2
      · right
        refine ⟨?_, ?_⟩
        · rw [Single.decryptFromSharedSecret, if_pos (show (m.ctexts.length : Int) ≤ i.toInt from not_lt.1 hlt)]; rfl
        · rintro ⟨-, o, ho, -⟩; exact hlt (shareUnder_lt ho).2
    · right
      obtain ⟨e, he⟩ := Res.isErr_iff.1 hv
      refine ⟨by rw [he]; rfl, ?_⟩
      rintro ⟨hp, -⟩
      simp only [Cipher.popAccepted, he] at hp
      cases hp
  | pair m =>
    replace hk : cm.kind = .pedersen := hk
    simp only [Cipher.decryptAndCheck, Pair.decryptAndCheck, Pair.decrypt]
    rcases verifyPop_cases P .pairs ad dealer m.ephemeralKey m.popPublicKey m.popProof with hv | hv
    · rw [hv, Res.ok_bind]
      by_cases hlt : i.toInt < (Cipher.pair m).size
      · obtain ⟨o, ho⟩ := shareUnder_exists P ad dealer pk (k • m.ephemeralKey) h0 hlt
        obtain ⟨s, t, rfl, hs⟩ := pair_fromShared ho
        have hs' : Pair.decryptFromSharedSecret P m ad dealer i pk (Point.scalarMul m.ephemeralKey k) = .ok (s, t) := hs
        simp only [hs', Res.ok_bind, Commitment.checkOpening, hk, hval]
        by_cases he : valueAtNode cm.points i = Point.pedersen s t
        · left
          exact ⟨⟨.pedersen s t, if_pos (decide_eq_true he)⟩, hv, _, ho, hk, he⟩
        · right
          rw [if_neg (by simpa using he)]
          refine ⟨rfl, ?_⟩
          rintro ⟨-, o', ho', hop⟩
          rw [← shareUnder_unique ho ho'] at hop
          exact he hop.2
      · right
        refine ⟨?_, ?_⟩
        · rw [Pair.decryptFromSharedSecret, if_pos (show (m.ctexts.length : Int) ≤ i.toInt from not_lt.1 hlt)]; rfl
        · rintro ⟨-, o, ho, -⟩; exact hlt (shareUnder_lt ho).2
    · right
      obtain ⟨e, he⟩ := Res.isErr_iff.1 hv
      refine ⟨by rw [he]; rfl, ?_⟩
      rintro ⟨hp, -⟩
      simp only [Cipher.popAccepted, he] at hp
      cases hp

end Dealings

namespace Complaints

def assocCalls (ad : Bytes) (receiver dealer : NodeIndex) (pk : Pt) : List RoCall :=
  [adCall ad, idxCall "receiver_index" receiver, idxCall "dealer_index" dealer, ptCall "receiver_public_key" pk]

theorem assocTranscript_eq (ad : Bytes) (r d : NodeIndex) (pk : Pt) :
    assocTranscript ad r d pk = Ro.run (ascii "ic-crypto-tecdsa-complaint-proof-assoc-data") (assocCalls ad r d pk) := rfl

theorem assocCalls_accepted (ad : Bytes) (r d : NodeIndex) (pk : Pt) :
    accepted (assocCalls ad r d pk) = (assocCalls ad r d pk).filter fun c => decide c.WellFormed := by
  refine accepted_of_nodup ?_
  show [ascii "associated_data", ascii "receiver_index", ascii "dealer_index", ascii "receiver_public_key"].Nodup
  decide +kernel

theorem mem_assoc {ad : Bytes} {r d : NodeIndex} {pk : Pt} :
    idxCall "receiver_index" r ∈ accepted (assocCalls ad r d pk) ∧
    idxCall "dealer_index" d ∈ accepted (assocCalls ad r d pk) ∧
    ptCall "receiver_public_key" pk ∈ accepted (assocCalls ad r d pk) ∧
    (ad.length ≤ 255 → adCall ad ∈ accepted (assocCalls ad r d pk)) := by
  rw [assocCalls_accepted]
  refine ⟨?_, ?_, ?_, fun h => ?_⟩ <;> rw [List.mem_filter] <;> refine ⟨by simp [assocCalls], ?_⟩ <;> rw [decide_eq_true_iff]
  · exact idxCall_wf _ _ (by decide +kernel)
  · exact idxCall_wf _ _ (by decide +kernel)
  · exact ptCall_wf _ _ (by decide +kernel)
  · exact (adCall_wf_iff ad).2 h

theorem assocData_ok (P : Prim) (ad : Bytes) (r d : NodeIndex) (pk : Pt) : ∃ a, createProofAssocData P ad r d pk = .ok a := by
  have h : accepted (assocCalls ad r d pk) ≠ [] := List.ne_nil_of_mem mem_assoc.1
  obtain ⟨m, hm⟩ := Ro.form_ok_of_accepted (ds := ascii "ic-crypto-tecdsa-complaint-proof-assoc-data") h
  obtain ⟨out, h1, -⟩ := (C19_expand_message_xmd_rfc P m
    (Ro.run (ascii "ic-crypto-tecdsa-complaint-proof-assoc-data") (assocCalls ad r d pk)).domainSeparator).1 32 (by norm_num)
  exact ⟨out, by rw [createProofAssocData, assocTranscript_eq, Ro.outputByteString, hm, Res.ok_bind]; exact h1⟩

theorem claimedOpening_ok {P : Prim} {ad : Bytes} {dealer i : NodeIndex} {pk shared : Pt} {o : Opening} {d : Dealing}
    {ct : Cipher} {cm : Commitment} (h : Matched d ct cm) (ho : ShareUnder P ad dealer i pk shared o ct) :
    claimedOpening P ct cm.kind ad dealer i pk shared = .ok o := by
  obtain ⟨-, -, -, hk⟩ := h
  cases ct with
  | single m =>
    replace hk : cm.kind = .simple := hk
    obtain ⟨s, rfl, hs⟩ := single_fromShared ho
    rw [hk]
    simp only [claimedOpening, hs, Res.ok_bind]
  | pair m =>
    replace hk : cm.kind = .pedersen := hk
    obtain ⟨s, t, rfl, hs⟩ := pair_fromShared ho
    rw [hk]
    simp only [claimedOpening, hs, Res.ok_bind]

theorem claimedOpening_err {P : Prim} {ad : Bytes} {dealer i : NodeIndex} {pk shared : Pt} {d : Dealing}
    {ct : Cipher} {cm : Commitment} (h : Matched d ct cm) (hi : (ct.size : Int) ≤ i.toInt) :
    (claimedOpening P ct cm.kind ad dealer i pk shared).isErr = true := by
  obtain ⟨-, -, -, hk⟩ := h
  cases ct with
  | single m =>
    replace hk : cm.kind = .simple := hk
    rw [hk]
    simp only [Cipher.size] at hi
    simp only [claimedOpening, Single.decryptFromSharedSecret, if_pos hi, Res.err_bind, Res.isErr_err]
  | pair m =>
    replace hk : cm.kind = .pedersen := hk
    rw [hk]
    simp only [Cipher.size] at hi
    simp only [claimedOpening, Pair.decryptFromSharedSecret, if_pos hi, Res.err_bind, Res.isErr_err]

theorem checkOpening_share {P : Prim} {ad : Bytes} {dealer i : NodeIndex} {pk shared : Pt} {o : Opening} {d : Dealing}
    {ct : Cipher} {cm : Commitment} (h : Matched d ct cm) (ho : ShareUnder P ad dealer i pk shared o ct) :
    ∃ b, cm.checkOpening i o = .ok b ∧ (b = true ↔ Opens cm i o) := by
  obtain ⟨-, -, hne, hk⟩ := h
  have hval := Commitment.evaluateAt_value hne i
  cases ct with
  | single m =>
    replace hk : cm.kind = .simple := hk
    obtain ⟨s, rfl, -⟩ := single_fromShared ho
    refine ⟨decide (valueAtNode cm.points i = Point.mulByG s), by simp only [Commitment.checkOpening, hk, hval, Res.ok_bind], ?_⟩
    rw [decide_eq_true_iff]
    exact ⟨fun e => ⟨hk, e⟩, fun e => e.2⟩
  | pair m =>
    replace hk : cm.kind = .pedersen := hk
    obtain ⟨s, t, rfl, -⟩ := pair_fromShared ho
    refine ⟨decide (valueAtNode cm.points i = Point.pedersen s t), by simp only [Commitment.checkOpening, hk, hval, Res.ok_bind], ?_⟩
    rw [decide_eq_true_iff]
    exact ⟨fun e => ⟨hk, e⟩, fun e => e.2⟩

/-- The verification of a complaint, exactly. -/
theorem verify_cases (P : Prim) (c : Complaint) {d : Dealing} (dealer : NodeIndex) {i : NodeIndex} (pk : Pt) (ad : Bytes)
    {ct : Cipher} {cm : Commitment} (h : Matched d ct cm) (h0 : 0 ≤ i.toInt) {a : Bytes}
    (ha : createProofAssocData P ad i dealer pk = .ok a) :
    (verify P c d dealer i pk ad = .ok () ∧ Dlog.verify P c.proof G ct.ephemeral pk c.sharedSecret a = .ok () ∧
      ∃ o, ShareUnder P ad dealer i pk c.sharedSecret o ct ∧ ¬ Opens cm i o) ∨
    ((verify P c d dealer i pk ad).isErr = true ∧ ¬ (Dlog.verify P c.proof G ct.ephemeral pk c.sharedSecret a = .ok () ∧
      ∃ o, ShareUnder P ad dealer i pk c.sharedSecret o ct ∧ ¬ Opens cm i o)) := by
  rw [verify, ha, Res.ok_bind, h.1, h.2.1]
  simp only [nonNil]
  rw [Res.ok_bind]
  rcases dlog_verify_cases P c.proof G ct.ephemeral pk c.sharedSecret a with hv | hv
  · rw [hv, Res.ok_bind, Res.ok_bind]
    by_cases hlt : i.toInt < ct.size
    · obtain ⟨o, ho⟩ := shareUnder_exists P ad dealer pk c.sharedSecret h0 hlt
      obtain ⟨b, hb, hbo⟩ := checkOpening_share h ho
      rw [claimedOpening_ok h ho, Res.ok_bind, hb, Res.ok_bind]
      cases b with
      | false => left; exact ⟨rfl, rfl, o, ho, fun e => by simpa using hbo.2 e⟩
      | true =>
        right
        refine ⟨rfl, ?_⟩
        rintro ⟨-, o', ho', hno⟩
        rw [← shareUnder_unique ho ho'] at hno
        exact hno (hbo.1 rfl)
    · right
      obtain ⟨e, he⟩ := Res.isErr_iff.1 (claimedOpening_err (P := P) (ad := ad) (dealer := dealer) (pk := pk)
        (shared := c.sharedSecret) h (not_lt.1 hlt))
      refine ⟨by rw [he]; rfl, ?_⟩
      rintro ⟨-, o, ho, -⟩
      exact hlt (shareUnder_lt ho).2
  · right
    obtain ⟨e, he⟩ := Res.isErr_iff.1 hv
    refine ⟨by rw [he]; rfl, ?_⟩
    rintro ⟨hp, -⟩
    rw [he] at hp
    cases hp

/-- Making a complaint: it only needs a ciphertext. -/
theorem newComplaint_cases (P : Prim) (seed : Seed) {d : Dealing} (dealer i : NodeIndex) (k : Fn) (pk : Pt) (ad : Bytes)
    {ct : Cipher} (h : d.ciphertext = some ct) :
    ((∃ c, newComplaint P seed d dealer i k pk ad = .ok c) ∨ newComplaint P seed d dealer i k pk ad = .diverge) ∧
    (∀ x r, Scalar.random (seed.rng P) = .ok (x, r) → ∃ c, newComplaint P seed d dealer i k pk ad = .ok c) ∧
    ∀ c, newComplaint P seed d dealer i k pk ad = .ok c → c.sharedSecret = k • ct.ephemeral ∧
      ∃ a, createProofAssocData P ad i dealer pk = .ok a ∧
        Dlog.verify P c.proof G ct.ephemeral (k • G) (k • ct.ephemeral) a = .ok () := by
  obtain ⟨a, ha⟩ := assocData_ok P ad i dealer pk
  obtain ⟨h1, h2, h3, h4⟩ := C45_dlog_completeness P seed k G ct.ephemeral a
  have hn : newComplaint P seed d dealer i k pk ad =
      (Dlog.create P seed k G ct.ephemeral a >>= fun proof => .ok ⟨proof, Point.scalarMul ct.ephemeral k⟩) := by
    rw [newComplaint, h, nonNil, Res.ok_bind]
    simp only
    rw [ha, Res.ok_bind]
  refine ⟨?_, fun x r hr => ?_, fun c hc => ?_⟩
  · rw [hn]
    rcases hc : Dlog.create P seed k G ct.ephemeral a with pf | e | e | _
    · exact Or.inl ⟨_, rfl⟩
    · rw [hc] at h3; cases h3
    · rw [hc] at h4; cases h4
    · exact Or.inr rfl
  · obtain ⟨pf, hpf⟩ := h2 x r hr
    exact ⟨_, by rw [hn, hpf, Res.ok_bind]⟩
  · rw [hn] at hc
    obtain ⟨pf, hpf, hc⟩ := Res.bind_eq_ok.1 hc
    cases hc
    exact ⟨rfl, a, ha, h1 pf hpf⟩

/-- The scan, if no opening panics. -/
theorem scan_cases (P : Prim) (ad : Bytes) (i : NodeIndex) (k : Fn) (pk : Pt) (seed : Seed) (ds : DealingMap)
    (hct : ∀ x ∈ ds, ∃ ct, x.2.ciphertext = some ct)
    (hop : ∀ x ∈ ds, (∃ o, openDealing P x.2 ad x.1 i k pk = .ok o) ∨ (openDealing P x.2 ad x.1 i k pk).isErr = true)
    (acc : List (NodeIndex × Complaint)) (hacc : OMap.Sorted BitVec.toInt acc)
    (hlt : ∀ y ∈ acc, ∀ x ∈ ds, y.1 ≠ x.1) (hs : OMap.Sorted BitVec.toInt ds) :
    (scan P ad i k pk seed acc ds = .diverge ∨
      ∃ cs, scan P ad i k pk seed acc ds = .ok cs ∧ OMap.Sorted BitVec.toInt cs ∧
        ∀ j c, (j, c) ∈ cs ↔ (j, c) ∈ acc ∨ ∃ d s, (j, d) ∈ ds ∧ (openDealing P d ad j i k pk).isErr = true ∧
          seed.derive P (label j) = .ok s ∧ newComplaint P s d j i k pk ad = .ok c) ∧
    ((∀ x ∈ ds, ∀ s, seed.derive P (label x.1) = .ok s → ∃ y r, Scalar.random (s.rng P) = .ok (y, r)) →
      scan P ad i k pk seed acc ds ≠ .diverge) := by
  induction ds generalizing acc with
  | nil => exact ⟨Or.inr ⟨acc, rfl, hacc, by simp⟩, fun _ h => by cases h⟩
  | cons x rest ih =>
    obtain ⟨j0, d0⟩ := x
    have hsr := (List.pairwise_cons.1 hs)
    rcases hop (j0, d0) (by simp) with ⟨o, ho⟩ | ho
    · simp only at ho
      have e : scan P ad i k pk seed acc ((j0, d0) :: rest) = scan P ad i k pk seed acc rest := by
        rw [scan]; simp only [ho]
      have ih' := ih (fun x hx => hct x (by simp [hx])) (fun x hx => hop x (by simp [hx])) acc hacc
        (fun y hy x hx => hlt y hy x (by simp [hx])) hsr.2
      rw [e]
      refine ⟨?_, fun h => ih'.2 fun x hx => h x (by simp [hx])⟩
      rcases ih'.1 with h | ⟨cs, h1, h2, h3⟩
      · exact Or.inl h
      · refine Or.inr ⟨cs, h1, h2, fun j c => ?_⟩
        rw [h3]
        constructor
        · rintro (h | ⟨d, s, h4, h5⟩)
          · exact Or.inl h
          · exact Or.inr ⟨d, s, by simp [h4], h5⟩
        · rintro (h | ⟨d, s, h4, h5, h6⟩)
          · exact Or.inl h
          · rcases List.mem_cons.1 h4 with h4 | h4
            · cases h4; rw [ho] at h5; cases h5
            · exact Or.inr ⟨d, s, h4, h5, h6⟩
    · simp only at ho
      obtain ⟨e0, he0⟩ := Res.isErr_iff.1 ho
      obtain ⟨s0, hs0, -⟩ := C22_seed_derivation.2.2.1 P seed (label j0)
      obtain ⟨ct, hct0⟩ := hct (j0, d0) (by simp)
      obtain ⟨hn1, hn2, -⟩ := newComplaint_cases P s0 j0 i k pk ad hct0
      have e : scan P ad i k pk seed acc ((j0, d0) :: rest) = (newComplaint P s0 d0 j0 i k pk ad >>= fun c =>
          scan P ad i k pk seed (OMap.set BitVec.toInt j0 c acc) rest) := by
        rw [scan]; simp only [he0, hs0, Res.ok_bind]
      rw [e]
      rcases hn1 with ⟨c0, hc0⟩ | hn1
      · have ih' := ih (fun x hx => hct x (by simp [hx])) (fun x hx => hop x (by simp [hx]))
          (OMap.set BitVec.toInt j0 c0 acc) (OMap.sorted_set _ _ hacc) (by
            intro y hy x hx
            rcases OMap.mem_set hy with rfl | hy
            · intro e
              have := hsr.1 x hx
              simp only at e this
              rw [e] at this
              exact lt_irrefl _ this
            · exact hlt y hy x (by simp [hx])) hsr.2
        rw [hc0, Res.ok_bind]
        refine ⟨?_, fun h => ih'.2 fun x hx => h x (by simp [hx])⟩
        rcases ih'.1 with h | ⟨cs, h1, h2, h3⟩
        · exact Or.inl h
        · refine Or.inr ⟨cs, h1, h2, fun j c => ?_⟩
          rw [h3, OMap.mem_set_iff (fun a b h => BitVec.eq_of_toInt_eq h) hacc]
          constructor
          · rintro ((h | h) | ⟨d, s, h4, h5⟩)
            · cases h
              exact Or.inr ⟨d0, s0, by simp, ho, hs0, hc0⟩
            · exact Or.inl h.1
            · exact Or.inr ⟨d, s, by simp [h4], h5⟩
          · rintro (h | ⟨d, s, h4, h5, h6, h7⟩)
            · exact Or.inl (Or.inr ⟨h, hlt _ h (j0, d0) (by simp)⟩)
            · rcases List.mem_cons.1 h4 with h4 | h4
              · cases h4
                rw [hs0] at h6; cases h6
                rw [hc0] at h7; cases h7
                exact Or.inl (Or.inl rfl)
              · exact Or.inr ⟨d, s, h4, h5, h6, h7⟩
      · rw [hn1]
        refine ⟨Or.inl rfl, fun h _ => ?_⟩
        obtain ⟨y, r, hr⟩ := h (j0, d0) (by simp) s0 hs0
        obtain ⟨c, hc⟩ := hn2 y r hr
        rw [hc] at hn1; cases hn1

theorem decimal_injective {a b : Nat} (h : decimal a = decimal b) : a = b := by
  have key : ∀ n, n ≠ 0 → decimal n = (Nat.digits 10 n).reverse.map fun d => UInt8.ofNat (48 + d) := fun n hn => by
    rw [decimal, if_neg hn]
  have hz : ∀ n, n ≠ 0 → decimal n ≠ [48] := by
    intro n hn he
    rw [key n hn] at he
    have hl := congrArg List.length he
    rw [List.length_map, List.length_reverse, List.length_singleton] at hl
    obtain ⟨x, hx⟩ := List.length_eq_one_iff.1 hl
    have hx10 : x < 10 := Nat.digits_lt_base (b := 10) (by norm_num) (by rw [hx]; simp)
    rw [hx] at he
    simp only [List.reverse_singleton, List.map_cons, List.map_nil, List.cons.injEq, and_true] at he
    have h0 : x = 0 := by
      have := congrArg UInt8.toNat he
      rw [UInt8.toNat_ofNat'] at this
      have h48 : (48 : UInt8).toNat = 48 := rfl
      rw [h48] at this
      omega
    have := Nat.ofDigits_digits 10 n
    rw [hx, h0] at this
    simp at this
    exact hn this.symm
  by_cases ha : a = 0
  · by_cases hb : b = 0
    · rw [ha, hb]
    · rw [ha] at h
      exact absurd h.symm (hz b hb)
  · by_cases hb : b = 0
    · rw [hb] at h
      exact absurd h (hz a ha)
    · rw [key a ha, key b hb] at h
      have hd : Nat.digits 10 a = Nat.digits 10 b := by
        have hl : ∀ n, ((Nat.digits 10 n).reverse.map fun d => UInt8.ofNat (48 + d)).map (fun c => c.toNat - 48) =
            (Nat.digits 10 n).reverse := by
          intro n
          rw [List.map_map]
          refine (List.map_congr_left fun d hd => ?_).trans (List.map_id _)
          have h10 : d < 10 := Nat.digits_lt_base (b := 10) (by norm_num) (List.mem_reverse.1 hd)
          simp only [Function.comp, UInt8.toNat_ofNat', id]
          omega
        have := congrArg (List.map fun c : UInt8 => c.toNat - 48) h
        rw [hl, hl] at this
        exact List.reverse_injective this
      rw [← Nat.ofDigits_digits 10 a, hd, Nat.ofDigits_digits]

theorem decimal_ne_minus (n : Nat) (l : Bytes) : decimal n ≠ ascii "-" ++ l := by
  have h45 : ascii "-" = [45] := by decide +kernel
  rw [h45]
  intro h
  have hmem : (45 : UInt8) ∈ decimal n := by rw [h]; simp
  rw [decimal] at hmem
  split_ifs at hmem with hn
  · revert hmem; decide
  · obtain ⟨d, hd, he⟩ := List.mem_map.1 hmem
    have h10 : d < 10 := Nat.digits_lt_base (b := 10) (by norm_num) (List.mem_reverse.1 hd)
    have := congrArg UInt8.toNat he
    rw [UInt8.toNat_ofNat'] at this
    have h48 : (45 : UInt8).toNat = 45 := rfl
    rw [h48] at this
    omega

theorem decimalInt_injective {a b : Int} (h : decimalInt a = decimalInt b) : a = b := by
  rw [decimalInt, decimalInt] at h
  split_ifs at h with ha hb hb
  · have := decimal_injective (List.append_cancel_left h); omega
  · exact absurd h.symm (decimal_ne_minus _ _)
  · exact absurd h (decimal_ne_minus _ _)
  · have := decimal_injective h; omega

theorem label_injective {a b : NodeIndex} (h : label a = label b) : a = b :=
  BitVec.eq_of_toInt_eq (decimalInt_injective (List.append_cancel_left h))

end Complaints

end Verif
