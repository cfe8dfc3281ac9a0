import Verif.Spec.Wire
import Verif.Lemmas.Sign
import Verif.Lemmas.Complaints

/-! C198: the bytes that are hashed. -/

set_option autoImplicit false

namespace Verif

open RoCall Mega Zk Complaints Sign

/-- What a call adds to the message. -/
def RoCall.wire (c : RoCall) : Bytes := if c.WellFormed then Ro.chunk (RoCall.enc c) else []

theorem Ro.form_run (ds : Bytes) {cs cs' : List RoCall} (hn : (cs.map RoCall.name).Nodup) (hp : cs'.Perm cs)
    (hs : cs'.Pairwise fun a b => nameKey a.name < nameKey b.name) (h0 : accepted cs ≠ []) :
    (run ds cs).formRoInput = .ok (cs'.flatMap wire) := by
  have hrep := rep_run ds cs
  have hi : (run ds cs).inputs = (cs'.filter fun c => decide c.WellFormed).map enc := by
    refine OMap.ext_mem hrep.sorted ?_ fun x => ?_
    · rw [OMap.Sorted, List.pairwise_map]
      exact hs.filter _
    · rw [hrep.mem, accepted_of_nodup hn, List.mem_map]
      constructor
      · rintro ⟨c, hc, rfl⟩; exact ⟨c, (hp.filter _).mem_iff.2 hc, rfl⟩
      · rintro ⟨c, hc, rfl⟩; exact ⟨c, (hp.filter _).mem_iff.1 hc, rfl⟩
  rw [formRoInput_eq (fun h => h0 ((inputs_nil_iff hrep).1 h)), hi]
  congr 1
  clear hn hp hs h0 hrep hi
  induction cs' with
  | nil => rfl
  | cons c l ih =>
    by_cases hw : c.WellFormed
    · rw [List.filter_cons_of_pos (by simpa using hw), List.map_cons, List.flatMap_cons, List.flatMap_cons, ih, wire, if_pos hw]
    · rw [List.filter_cons_of_neg (by simpa using hw), List.flatMap_cons, ih, wire, if_neg hw, List.nil_append]

theorem RoCall.wire_eq (name : String) (h : 1 ≤ (ascii name).length ∧ (ascii name).length ≤ 255) (ty : UInt8) (data : Bytes) :
    (⟨ascii name, ty, data⟩ : RoCall).wire = Wire.field name ty data := by
  rw [wire, Wire.field]
  by_cases hd : data.length ≤ 255
  · rw [if_pos hd, if_pos ⟨h.1, h.2, hd⟩]
    simp [Ro.chunk, RoCall.enc]
  · rw [if_neg hd, if_neg fun hw => hd hw.2.2]

theorem RoCall.wire_pt (name : String) (h : 1 ≤ (ascii name).length ∧ (ascii name).length ≤ 255) (A : Pt) :
    (ptCall name A).wire = Wire.point name A := wire_eq name h _ _

theorem RoCall.wire_scalar (name : String) (h : 1 ≤ (ascii name).length ∧ (ascii name).length ≤ 255) (s : Fn) :
    (scalarCall name s).wire = Wire.scalar name s := wire_eq name h _ _

theorem RoCall.wire_string (name : String) (h : 1 ≤ (ascii name).length ∧ (ascii name).length ≤ 255) (b : Bytes) :
    (byteCall name b).wire = Wire.string name b := wire_eq name h _ _

theorem RoCall.wire_ad (b : Bytes) : (adCall b).wire = Wire.string "associated_data" b := wire_eq _ (by decide +kernel) _ _

theorem RoCall.wire_idx (name : String) (h : 1 ≤ (ascii name).length ∧ (ascii name).length ≤ 255) (i : NodeIndex) :
    (idxCall name i).wire = Wire.index name i := by
  rw [Wire.index, ← uint32Of_eq]; exact wire_eq name h _ _

/-- Sorted names, from a computation on the names alone. -/
theorem RoCall.pairwise_names {cs : List RoCall} {names : List Bytes} (h : cs.map RoCall.name = names)
    (hs : names.Pairwise fun a b => nameKey a < nameKey b) : cs.Pairwise fun a b => nameKey a.name < nameKey b.name := by
  subst h; rwa [List.pairwise_map] at hs

theorem Ro.outputScalar_form (P : Prim) {ds : Bytes} {cs : List RoCall} (h0 : accepted cs ≠ []) {m : Bytes}
    (hm : (run ds cs).formRoInput = .ok m) (c : Fn) :
    (run ds cs).outputScalar P = .ok c ↔ H2C.hashToScalar P 1 m (ds ++ ascii "-secp256k1") = .ok [c] := by
  have hd : (run ds cs).curveDst = ds ++ ascii "-secp256k1" := by
    rw [curveDst, run_ds, List.append_assoc, show ascii "-" ++ ascii "secp256k1" = ascii "-secp256k1" by decide +kernel]
  obtain ⟨l, hl, hlen⟩ := Ro.run_outputScalars_ok P ds h0 1 (by norm_num)
  have hl' : H2C.hashToScalar P 1 m (ds ++ ascii "-secp256k1") = .ok l := by
    rw [← hd, ← hl, outputScalars, hm]; rfl
  rw [outputScalar, show (run ds cs).outputScalars P 1 = .ok l from hl, hl', Res.ok_bind]
  match l, hlen with
  | [s], _ => simp

/-- C198, encryption: the pads, and the base of the proof of possession. -/
theorem C198_encryption (P : Prim) (d r : NodeIndex) (ad : Bytes) (pk eph shared : Pt) :
    hashToScalars P .single d r ad pk eph shared =
      H2C.hashToScalar P 1 (Wire.pads d r ad pk eph shared) (ascii "ic-crypto-tecdsa-mega-encryption-single-encrypt-secp256k1") ∧
    hashToScalars P .pairs d r ad pk eph shared =
      H2C.hashToScalar P 2 (Wire.pads d r ad pk eph shared) (ascii "ic-crypto-tecdsa-mega-encryption-pair-encrypt-secp256k1") ∧
    (∀ B, computePopBase P .single ad d eph = .ok B ↔ ∃ Q,
      H2C.hashToCurve P (Wire.popBase ad d eph) (ascii "ic-crypto-tecdsa-mega-encryption-single-pop-base-secp256k1") = .ok Q ∧
        Point.ofRaw? Q = some B) ∧
    ∀ B, computePopBase P .pairs ad d eph = .ok B ↔ ∃ Q,
      H2C.hashToCurve P (Wire.popBase ad d eph) (ascii "ic-crypto-tecdsa-mega-encryption-pair-pop-base-secp256k1") = .ok Q ∧
        Point.ofRaw? Q = some B := by
  have hpad : ∀ ds, (Ro.run ds (padCalls d r ad pk eph shared)).formRoInput = .ok (Wire.pads d r ad pk eph shared) := by
    intro ds
    rw [Ro.form_run ds (cs' := [adCall ad, idxCall "dealer_index" d, ptCall "ephemeral_key" eph, ptCall "public_key" pk,
      idxCall "recipient_index" r, ptCall "shared_secret" shared]) (padCalls_nodup ..) ?_
      (pairwise_names (names := [ascii "associated_data", ascii "dealer_index", ascii "ephemeral_key", ascii "public_key", ascii "recipient_index", ascii "shared_secret"]) rfl
        (by decide +kernel)) (List.ne_nil_of_mem mem_pad.1)]
    · simp only [List.flatMap_cons, List.flatMap_nil, Wire.pads, List.flatten_cons, List.flatten_nil]
      rw [wire_ad, wire_idx _ (by decide +kernel), wire_pt _ (by decide +kernel), wire_pt _ (by decide +kernel), wire_idx _ (by decide +kernel),
        wire_pt _ (by decide +kernel)]
    · rw [List.perm_iff_count]
      intro x
      simp only [padCalls, List.count_cons, List.count_nil]
      omega
  have hpop : ∀ ds, (Ro.run ds (popCalls ad d eph)).formRoInput = .ok (Wire.popBase ad d eph) := by
    intro ds
    rw [Ro.form_run ds (popCalls_nodup ..) (List.Perm.refl _) (pairwise_names (names := [ascii "associated_data", ascii "dealer_index", ascii "ephemeral_key"]) rfl
        (by decide +kernel)) (List.ne_nil_of_mem mem_pop.1)]
    simp only [popCalls, List.flatMap_cons, List.flatMap_nil, Wire.popBase, List.flatten_cons, List.flatten_nil]
    rw [wire_ad, wire_idx _ (by decide +kernel), wire_pt _ (by decide +kernel)]
  have hcd : ∀ (ds cd : Bytes) (cs : List RoCall), ds ++ ascii "-" ++ ascii "secp256k1" = cd → (Ro.run ds cs).curveDst = cd := by
    intro ds cd cs h; rw [Ro.curveDst, Ro.run_ds, h]
  have hbase : ∀ (t : CType) (cd : Bytes), t.popBaseDst ++ ascii "-" ++ ascii "secp256k1" = cd →
      ∀ B, computePopBase P t ad d eph = .ok B ↔ ∃ Q, H2C.hashToCurve P (Wire.popBase ad d eph) cd = .ok Q ∧ Point.ofRaw? Q = some B := by
    intro t cd h B
    rw [computePopBase, popTranscript_eq, Ro.outputPoint, hpop, Res.ok_bind, hcd _ _ _ h]
    constructor
    · intro h
      obtain ⟨Q, hQ, h⟩ := Res.bind_eq_ok.1 h
      refine ⟨Q, hQ, ?_⟩
      cases hR : Point.ofRaw? Q with
      | none => rw [hR] at h; cases h
      | some B' => rw [hR] at h; cases h; rfl
    · rintro ⟨Q, hQ, hR⟩
      rw [hQ, Res.ok_bind, hR]
  refine ⟨?_, ?_, hbase _ _ (by decide +kernel), hbase _ _ (by decide +kernel)⟩
  · rw [hashToScalars, padTranscript_eq, Ro.outputScalars, hpad, Res.ok_bind,
      hcd _ (ascii "ic-crypto-tecdsa-mega-encryption-single-encrypt-secp256k1") _ (by decide +kernel)]
  · rw [hashToScalars, padTranscript_eq, Ro.outputScalars, hpad, Res.ok_bind,
      hcd _ (ascii "ic-crypto-tecdsa-mega-encryption-pair-encrypt-secp256k1") _ (by decide +kernel)]

/-- C198, proofs: the challenges.  Products have the separator of equal openings. -/
theorem C198_challenges (P : Prim) (ad : Bytes) (c : Fn) :
    (∀ g h gx hx c1 c2, Dlog.hashToChallenge P ⟨g, h, gx, hx⟩ c1 c2 ad = .ok c ↔
      H2C.hashToScalar P 1 (Wire.dlog g h gx hx c1 c2 ad) (ascii "ic-crypto-tecdsa-zk-proof-of-dlog-eq-secp256k1") = .ok [c]) ∧
    (∀ g h a b c1, EqOpen.hashToChallenge P ⟨g, h, a, b⟩ c1 ad = .ok c ↔
      H2C.hashToScalar P 1 (Wire.equalOpenings g h a b c1 ad) (ascii "ic-crypto-tecdsa-zk-proof-of-equal-openings-secp256k1") =
        .ok [c]) ∧
    ∀ g h lhs rhs prod c1 c2, Product.hashToChallenge P ⟨g, h, lhs, rhs, prod⟩ c1 c2 ad = .ok c ↔
      H2C.hashToScalar P 1 (Wire.product g h lhs rhs prod c1 c2 ad) (ascii "ic-crypto-tecdsa-zk-proof-of-equal-openings-secp256k1") =
        .ok [c] := by
  refine ⟨fun g h gx hx c1 c2 => ?_, fun g h a b c1 => ?_, fun g h lhs rhs prod c1 c2 => ?_⟩
  · rw [Dlog.hashToChallenge, dlog_transcript_eq, Ro.outputScalar_form P (dlog_accepted_ne _ _ _ _)
      (m := Wire.dlog g h gx hx c1 c2 ad), show dlogDst ++ ascii "-secp256k1" =
        ascii "ic-crypto-tecdsa-zk-proof-of-dlog-eq-secp256k1" by decide +kernel]
    rw [Ro.form_run _ (cs' := [adCall ad, ptCall "commitment1" c1, ptCall "commitment2" c2, ptCall "instance_g" g, ptCall "instance_g_x" gx,
      ptCall "instance_h" h, ptCall "instance_h_x" hx]) (by
        show [ascii "associated_data", ascii "instance_g", ascii "instance_h", ascii "instance_g_x", ascii "instance_h_x",
          ascii "commitment1", ascii "commitment2"].Nodup
        decide +kernel) ?_ (pairwise_names (names := [ascii "associated_data", ascii "commitment1", ascii "commitment2", ascii "instance_g", ascii "instance_g_x", ascii "instance_h", ascii "instance_h_x"]) rfl
        (by decide +kernel)) (dlog_accepted_ne _ _ _ _)]
    · simp only [List.flatMap_cons, List.flatMap_nil, Wire.dlog, List.flatten_cons, List.flatten_nil]
      rw [wire_ad, wire_pt _ (by decide +kernel), wire_pt _ (by decide +kernel), wire_pt _ (by decide +kernel),
        wire_pt _ (by decide +kernel), wire_pt _ (by decide +kernel), wire_pt _ (by decide +kernel)]
    · rw [List.perm_iff_count]
      intro x
      simp only [dlogCalls, List.count_cons, List.count_nil]
      omega
  · rw [EqOpen.hashToChallenge, eq_transcript_eq, Ro.outputScalar_form P (eq_accepted_ne _ _ _)
      (m := Wire.equalOpenings g h a b c1 ad), show equalOpeningsDst ++ ascii "-secp256k1" =
        ascii "ic-crypto-tecdsa-zk-proof-of-equal-openings-secp256k1" by decide +kernel]
    rw [Ro.form_run _ (cs' := [adCall ad, ptCall "commitment" c1, ptCall "instance_a" a, ptCall "instance_b" b, ptCall "instance_g" g,
      ptCall "instance_h" h]) (by
        show [ascii "associated_data", ascii "instance_g", ascii "instance_h", ascii "instance_a", ascii "instance_b",
          ascii "commitment"].Nodup
        decide +kernel) ?_ (pairwise_names (names := [ascii "associated_data", ascii "commitment", ascii "instance_a", ascii "instance_b", ascii "instance_g", ascii "instance_h"]) rfl
        (by decide +kernel)) (eq_accepted_ne _ _ _)]
    · simp only [List.flatMap_cons, List.flatMap_nil, Wire.equalOpenings, List.flatten_cons, List.flatten_nil]
      rw [wire_ad, wire_pt _ (by decide +kernel), wire_pt _ (by decide +kernel), wire_pt _ (by decide +kernel),
        wire_pt _ (by decide +kernel), wire_pt _ (by decide +kernel)]
    · rw [List.perm_iff_count]
      intro x
      simp only [eqCalls, List.count_cons, List.count_nil]
      omega
  · rw [Product.hashToChallenge, prod_transcript_eq, Ro.outputScalar_form P (prod_accepted_ne _ _ _ _)
      (m := Wire.product g h lhs rhs prod c1 c2 ad), show equalOpeningsDst ++ ascii "-secp256k1" =
        ascii "ic-crypto-tecdsa-zk-proof-of-equal-openings-secp256k1" by decide +kernel]
    rw [Ro.form_run _ (cs' := [adCall ad, ptCall "commitment1" c1, ptCall "commitment2" c2, ptCall "instance_g" g, ptCall "instance_h" h,
      ptCall "instance_lhs" lhs, ptCall "instance_product" prod, ptCall "instance_rhs" rhs]) (by
        show [ascii "associated_data", ascii "instance_g", ascii "instance_h", ascii "instance_lhs", ascii "instance_rhs",
          ascii "instance_product", ascii "commitment1", ascii "commitment2"].Nodup
        decide +kernel) ?_ (pairwise_names (names := [ascii "associated_data", ascii "commitment1", ascii "commitment2", ascii "instance_g", ascii "instance_h", ascii "instance_lhs", ascii "instance_product", ascii "instance_rhs"]) rfl
        (by decide +kernel)) (prod_accepted_ne _ _ _ _)]
    · simp only [List.flatMap_cons, List.flatMap_nil, Wire.product, List.flatten_cons, List.flatten_nil]
      rw [wire_ad, wire_pt _ (by decide +kernel), wire_pt _ (by decide +kernel), wire_pt _ (by decide +kernel),
        wire_pt _ (by decide +kernel), wire_pt _ (by decide +kernel), wire_pt _ (by decide +kernel), wire_pt _ (by decide +kernel)]
    · rw [List.perm_iff_count]
      intro x
      simp only [prodCalls, List.count_cons, List.count_nil]
      omega

/-- C198, complaints: the associated data of the proof. -/
theorem C198_complaints (P : Prim) (ad : Bytes) (r d : NodeIndex) (pk : Pt) :
    createProofAssocData P ad r d pk =
      Xmd.expandMessageXmd P (Wire.complaint ad r d pk) (ascii "ic-crypto-tecdsa-complaint-proof-assoc-data") 32 := by
  rw [createProofAssocData, assocTranscript_eq, Ro.outputByteString, Ro.form_run _ (cs' := [adCall ad, idxCall "dealer_index" d,
    idxCall "receiver_index" r, ptCall "receiver_public_key" pk]) (by
      show [ascii "associated_data", ascii "receiver_index", ascii "dealer_index", ascii "receiver_public_key"].Nodup
      decide +kernel) ?_ (pairwise_names (names := [ascii "associated_data", ascii "dealer_index", ascii "receiver_index", ascii "receiver_public_key"]) rfl
        (by decide +kernel)) (List.ne_nil_of_mem mem_assoc.1), Res.ok_bind, Ro.run_ds]
  · simp only [List.flatMap_cons, List.flatMap_nil, Wire.complaint, List.flatten_cons, List.flatten_nil]
    rw [wire_ad, wire_idx _ (by decide +kernel), wire_idx _ (by decide +kernel), wire_pt _ (by decide +kernel)]
  · rw [List.perm_iff_count]
    intro x
    simp only [assocCalls, List.count_cons, List.count_nil]
    omega

/-- C198, signing: the randomiser of the presignature. -/
theorem C198_randomizer (P : Prim) (hashedMsg randomness : Bytes) (path : List Key.Index) (keyT presigT : Option Dealings.Com) (d : Derived)
    (h : deriveRho P hashedMsg randomness path keyT presigT = .ok d) :
    ∃ pre, preSigOf presigT = .ok pre ∧ d.randomizedPresig = pre + d.randomizer • G ∧
      H2C.hashToScalar P 1 (Wire.randomizer randomness hashedMsg pre d.keyTweak) (ascii "ic-crypto-tecdsa-rerandomize-presig-secp256k1") =
        .ok [d.randomizer] := by
  obtain ⟨pre, pk, c, h1, -, -, h4, h5, -⟩ := deriveRho_ok h
  refine ⟨pre, h1, h5, ?_⟩
  rw [rhoTranscript_eq, Ro.outputScalar_form P (List.ne_nil_of_mem mem_rho.1) (m := Wire.randomizer randomness hashedMsg pre d.keyTweak),
    show ascii "ic-crypto-tecdsa-rerandomize-presig" ++ ascii "-secp256k1" = ascii "ic-crypto-tecdsa-rerandomize-presig-secp256k1" by
      decide +kernel] at h4
  · exact h4
  rw [Ro.form_run _ (cs' := [byteCall "hashed_message" hashedMsg, scalarCall "key_tweak" d.keyTweak, ptCall "pre_sig" pre,
    byteCall "randomness" randomness]) (by
      show [ascii "randomness", ascii "hashed_message", ascii "pre_sig", ascii "key_tweak"].Nodup
      decide +kernel) ?_ (pairwise_names (names := [ascii "hashed_message", ascii "key_tweak", ascii "pre_sig", ascii "randomness"]) rfl
        (by decide +kernel)) (List.ne_nil_of_mem mem_rho.1)]
  · simp only [List.flatMap_cons, List.flatMap_nil, Wire.randomizer, List.flatten_cons, List.flatten_nil]
    rw [wire_string _ (by decide +kernel), wire_scalar _ (by decide +kernel), wire_pt _ (by decide +kernel), wire_string _ (by decide +kernel)]
  · rw [List.perm_iff_count]
    intro x
    simp only [rhoCalls, List.count_cons, List.count_nil]
    omega

/-- The field of a dealer, in bytes; strings that are too long have no field. -/
example : Wire.index "dealer_index" 258 = [12, 100, 101, 97, 108, 101, 114, 95, 105, 110, 100, 101, 120, 2, 0, 0, 0, 8, 0, 0, 0, 0, 0, 0, 1, 2] ∧
    Wire.string "associated_data" (List.replicate 256 0) = [] ∧
    Wire.string "randomness" [7, 8] = [10, 114, 97, 110, 100, 111, 109, 110, 101, 115, 115, 1, 0, 0, 0, 2, 7, 8] := by decide +kernel

/-- `DeriveRho` succeeds for a key and a presignature transcript. -/
example (P : Prim) : ∃ d, deriveRho P [1] [2] [] (some ⟨.interpolation, ⟨.simple, [G, G]⟩⟩) (some ⟨.interpolation, ⟨.simple, [(2 : Fn) • G]⟩⟩) =
    .ok d := by
  obtain ⟨rnd, h⟩ := rhoScalar_ok P [2] [1] ((2 : Fn) • G) 0
  exact ⟨_, deriveRho_eq (tweak := 0) rfl rfl rfl h⟩

end Verif
