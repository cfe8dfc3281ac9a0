import Verif.Model.Mega
import Verif.Props.Zk
import Verif.Props.HashToCurve
import Verif.Props.Commitment

/-! Helper lemmas about MEGa encryption. -/

set_option autoImplicit false

namespace Verif.Mega

open RoCall Zk

/-- An `AddUint32` call with a node index. -/
def idxCall (name : String) (i : NodeIndex) : RoCall := ⟨ascii name, Ro.tyInteger, toBE 8 (uint32Of i)⟩

theorem idxCall_wf (name : String) (i : NodeIndex) (h : 1 ≤ (ascii name).length ∧ (ascii name).length ≤ 255) :
    (idxCall name i).WellFormed := ⟨h.1, h.2, by simp [idxCall]⟩

theorem uint32Of_lt (i : NodeIndex) : uint32Of i < 2 ^ 32 := (i.setWidth 32).isLt

theorem uint32Of_eq (i : NodeIndex) : uint32Of i = i.toNat % 2 ^ 32 := by simp [uint32Of, BitVec.toNat_setWidth]

theorem idxCall_inj {name : String} {i j : NodeIndex} (h : idxCall name i = idxCall name j) : uint32Of i = uint32Of j := by
  simp only [idxCall, RoCall.mk.injEq, true_and] at h
  have h1 := uint32Of_lt i
  have h2 := uint32Of_lt j
  exact toBE_inj (by norm_num; omega) (by norm_num; omega) h

def padCalls (dealer recipient : NodeIndex) (ad : Bytes) (pk eph shared : Pt) : List RoCall :=
  [idxCall "dealer_index" dealer, idxCall "recipient_index" recipient, adCall ad, ptCall "public_key" pk,
    ptCall "ephemeral_key" eph, ptCall "shared_secret" shared]

def popCalls (ad : Bytes) (dealer : NodeIndex) (eph : Pt) : List RoCall :=
  [adCall ad, idxCall "dealer_index" dealer, ptCall "ephemeral_key" eph]

theorem padTranscript_eq (t : CType) (d r : NodeIndex) (ad : Bytes) (pk eph shared : Pt) :
    padTranscript t d r ad pk eph shared = Ro.run t.encryptionDst (padCalls d r ad pk eph shared) := rfl

theorem popTranscript_eq (t : CType) (ad : Bytes) (d : NodeIndex) (eph : Pt) :
    popTranscript t ad d eph = Ro.run t.popBaseDst (popCalls ad d eph) := rfl

theorem padCalls_nodup (d r : NodeIndex) (ad : Bytes) (pk eph shared : Pt) :
    ((padCalls d r ad pk eph shared).map RoCall.name).Nodup := by
  show [ascii "dealer_index", ascii "recipient_index", ascii "associated_data", ascii "public_key",
    ascii "ephemeral_key", ascii "shared_secret"].Nodup
  decide +kernel

theorem popCalls_nodup (ad : Bytes) (d : NodeIndex) (eph : Pt) : ((popCalls ad d eph).map RoCall.name).Nodup := by
  show [ascii "associated_data", ascii "dealer_index", ascii "ephemeral_key"].Nodup
  decide +kernel

theorem padCalls_accepted (d r : NodeIndex) (ad : Bytes) (pk eph shared : Pt) :
    accepted (padCalls d r ad pk eph shared) = (padCalls d r ad pk eph shared).filter fun c => decide c.WellFormed :=
  accepted_of_nodup (padCalls_nodup d r ad pk eph shared)

theorem popCalls_accepted (ad : Bytes) (d : NodeIndex) (eph : Pt) :
    accepted (popCalls ad d eph) = (popCalls ad d eph).filter fun c => decide c.WellFormed :=
  accepted_of_nodup (popCalls_nodup ad d eph)

theorem mem_pad {d r : NodeIndex} {ad : Bytes} {pk eph shared : Pt} :
    idxCall "dealer_index" d ∈ accepted (padCalls d r ad pk eph shared) ∧
    idxCall "recipient_index" r ∈ accepted (padCalls d r ad pk eph shared) ∧
    ptCall "public_key" pk ∈ accepted (padCalls d r ad pk eph shared) ∧
    ptCall "ephemeral_key" eph ∈ accepted (padCalls d r ad pk eph shared) ∧
    ptCall "shared_secret" shared ∈ accepted (padCalls d r ad pk eph shared) ∧
    (ad.length ≤ 255 → adCall ad ∈ accepted (padCalls d r ad pk eph shared)) := by
  simp only [padCalls_accepted, List.mem_filter, decide_eq_true_eq]
  refine ⟨⟨by simp [padCalls], idxCall_wf _ _ (by decide +kernel)⟩, ⟨by simp [padCalls], idxCall_wf _ _ (by decide +kernel)⟩,
    ⟨by simp [padCalls], ptCall_wf _ _ (by decide +kernel)⟩, ⟨by simp [padCalls], ptCall_wf _ _ (by decide +kernel)⟩,
    ⟨by simp [padCalls], ptCall_wf _ _ (by decide +kernel)⟩, fun h => ⟨by simp [padCalls], (adCall_wf_iff ad).2 h⟩⟩

theorem mem_pop {d : NodeIndex} {ad : Bytes} {eph : Pt} :
    idxCall "dealer_index" d ∈ accepted (popCalls ad d eph) ∧ ptCall "ephemeral_key" eph ∈ accepted (popCalls ad d eph) ∧
    (ad.length ≤ 255 → adCall ad ∈ accepted (popCalls ad d eph)) := by
  simp only [popCalls_accepted, List.mem_filter, decide_eq_true_eq]
  exact ⟨⟨by simp [popCalls], idxCall_wf _ _ (by decide +kernel)⟩, ⟨by simp [popCalls], ptCall_wf _ _ (by decide +kernel)⟩,
    fun h => ⟨by simp [popCalls], (adCall_wf_iff ad).2 h⟩⟩

/-- The number of pads. -/
def CType.count : CType → Nat
  | .single => 1
  | .pairs => 2

theorem Ro.run_outputScalars_ok (P : Prim) (ds : Bytes) {cs : List RoCall} (h : accepted cs ≠ []) (k : Nat)
    (hk : k * 48 ≤ 8160) : ∃ l, (Ro.run ds cs).outputScalars P k = .ok l ∧ l.length = k := by
  obtain ⟨m, hm⟩ := Ro.form_ok_of_accepted (ds := ds) h
  obtain ⟨out, -, -, e⟩ := hashToScalar_ok P k m (Ro.run ds cs).curveDst hk
  exact ⟨_, by rw [Ro.outputScalars, hm, Res.ok_bind, e], by simp⟩

theorem hashToScalars_ok (P : Prim) (t : CType) (d r : NodeIndex) (ad : Bytes) (pk eph shared : Pt) :
    ∃ l, hashToScalars P t d r ad pk eph shared = .ok l ∧ l.length = t.count := by
  have h : accepted (padCalls d r ad pk eph shared) ≠ [] := List.ne_nil_of_mem mem_pad.1
  cases t
  · exact Ro.run_outputScalars_ok P _ h 1 (by norm_num)
  · exact Ro.run_outputScalars_ok P _ h 2 (by norm_num)

theorem single_pad (P : Prim) (d r : NodeIndex) (ad : Bytes) (pk eph shared : Pt) :
    ∃ h0, hashToScalars P .single d r ad pk eph shared = .ok [h0] := by
  obtain ⟨l, hl, h⟩ := hashToScalars_ok P .single d r ad pk eph shared
  obtain ⟨a, rfl⟩ := List.length_eq_one_iff.1 h
  exact ⟨a, hl⟩

theorem pair_pad (P : Prim) (d r : NodeIndex) (ad : Bytes) (pk eph shared : Pt) :
    ∃ h0 h1, hashToScalars P .pairs d r ad pk eph shared = .ok [h0, h1] := by
  obtain ⟨l, hl, h⟩ := hashToScalars_ok P .pairs d r ad pk eph shared
  obtain ⟨a, b, rfl⟩ := List.length_eq_two.1 h
  exact ⟨a, b, hl⟩

theorem computePopBase_ok (P : Prim) (t : CType) (ad : Bytes) (d : NodeIndex) (eph : Pt) :
    ∃ B, computePopBase P t ad d eph = .ok B := by
  have h : accepted (popCalls ad d eph) ≠ [] := List.ne_nil_of_mem mem_pop.1
  obtain ⟨m, hm⟩ := Ro.form_ok_of_accepted (ds := t.popBaseDst) h
  obtain ⟨Q, hQ⟩ := C17_hash_to_point_on_curve P m (popTranscript t ad d eph).curveDst
  refine ⟨Q, ?_⟩
  have hm' : (popTranscript t ad d eph).formRoInput = .ok m := hm
  rw [computePopBase, Ro.outputPoint, hm', Res.ok_bind, hQ, Res.ok_bind]
  simp only [Point.ofRaw?_raw]

theorem dlog_verify_cases (P : Prim) (pf : Zk.Proof) (g h gx hx : Pt) (ad : Bytes) :
    Dlog.verify P pf g h gx hx ad = .ok () ∨ (Dlog.verify P pf g h gx hx ad).isErr = true := by
  obtain ⟨c, hc⟩ := dlog_challenge_ok P ⟨g, h, gx, hx⟩ (pf.response • g - pf.challenge • gx)
    (pf.response • h - pf.challenge • hx) ad
  simp only [Dlog.verify, Dlog.recoverCommitments, Dlog.fromCommitments, Point.scalarMul, hc, Res.ok_bind]
  split_ifs <;> simp

theorem verifyPop_cases (P : Prim) (t : CType) (ad : Bytes) (d : NodeIndex) (eph pub : Pt) (pf : Zk.Proof) :
    verifyPop P t ad d eph pub pf = .ok () ∨ (verifyPop P t ad d eph pub pf).isErr = true := by
  obtain ⟨B, hB⟩ := computePopBase_ok P t ad d eph
  rw [verifyPop, hB, Res.ok_bind]
  exact dlog_verify_cases P pf G B eph pub ad

theorem computeEphKeyAndPop_spec {P : Prim} {t : CType} {seed : Seed} {ad : Bytes} {d : NodeIndex} {beta : Fn}
    {v pub : Pt} {pf : Zk.Proof} (h : computeEphKeyAndPop P t seed ad d = .ok (beta, v, pub, pf)) :
    v = beta • G ∧ verifyPop P t ad d v pub pf = .ok () := by
  rw [computeEphKeyAndPop] at h
  obtain ⟨s, -, h⟩ := Res.bind_eq_ok.1 h
  obtain ⟨b, -, h⟩ := Res.bind_eq_ok.1 h
  dsimp only at h
  obtain ⟨B, hB, h⟩ := Res.bind_eq_ok.1 h
  obtain ⟨s', -, h⟩ := Res.bind_eq_ok.1 h
  obtain ⟨pf', hpf, h⟩ := Res.bind_eq_ok.1 h
  simp only [Res.ok.injEq, Prod.mk.injEq] at h
  obtain ⟨rfl, rfl, rfl, rfl⟩ := h
  refine ⟨rfl, ?_⟩
  rw [verifyPop, hB, Res.ok_bind]
  exact (C45_dlog_completeness P s' b G B ad).1 _ hpf

theorem fromSeed_cases (P : Prim) (s : Seed) :
    (∃ x r, Scalar.random (s.rng P) = .ok (x, r) ∧ Scalar.fromSeed P s = .ok x) ∨ Scalar.fromSeed P s = .diverge := by
  have h := C21_random_scalar (s.rng P)
  rw [Scalar.fromSeed]
  rcases hr : Scalar.random (s.rng P) with ⟨x, r⟩ | e | e | _
  · exact Or.inl ⟨x, r, rfl, rfl⟩
  · rw [hr] at h; simp at h
  · rw [hr] at h; simp at h
  · exact Or.inr rfl

/-- The ephemeral key is computed unless one of the two samplings never accepts. -/
theorem computeEphKeyAndPop_total (P : Prim) (t : CType) (seed : Seed) (ad : Bytes) (d : NodeIndex) :
    (∃ x, computeEphKeyAndPop P t seed ad d = .ok x) ∨ computeEphKeyAndPop P t seed ad d = .diverge := by
  obtain ⟨s, hs, -⟩ := C22_seed_derivation.2.2.1 P seed t.ephemeralKeyDst
  obtain ⟨s', hs', -⟩ := C22_seed_derivation.2.2.1 P seed t.popProofDst
  rw [computeEphKeyAndPop, hs, Res.ok_bind]
  rcases fromSeed_cases P s with ⟨x, r, -, hx⟩ | hx
  · obtain ⟨B, hB⟩ := computePopBase_ok P t ad d (Point.mulByG x)
    simp only [hx, Res.ok_bind, hB, hs']
    have h := C45_dlog_completeness P s' x G B ad
    rcases hc : Dlog.create P s' x G B ad with pf | e | e | _
    · exact Or.inl ⟨_, rfl⟩
    · rw [hc] at h; simp at h
    · rw [hc] at h; simp at h
    · exact Or.inr rfl
  · rw [hx]; exact Or.inr rfl

theorem computeEphKeyAndPop_ok {P : Prim} {t : CType} {seed : Seed} {s s' : Seed} (ad : Bytes) (d : NodeIndex)
    (hs : seed.derive P t.ephemeralKeyDst = .ok s) (hs' : seed.derive P t.popProofDst = .ok s') {x y : Fn} {r r' : Rng}
    (hx : Scalar.random (s.rng P) = .ok (x, r)) (hy : Scalar.random (s'.rng P) = .ok (y, r')) :
    ∃ z, computeEphKeyAndPop P t seed ad d = .ok z := by
  obtain ⟨B, hB⟩ := computePopBase_ok P t ad d (Point.mulByG x)
  obtain ⟨pf, hpf⟩ := (C45_dlog_completeness P s' x G B ad).2.1 _ _ hy
  exact ⟨(x, Point.mulByG x, Point.scalarMul B x, pf), by
    simp only [computeEphKeyAndPop, hs, Res.ok_bind, Scalar.fromSeed, hx, hB, hs', hpf]⟩

theorem index_ok {τ : Type} {l : List τ} {i : Nat} {a : τ} (h : l[i]? = some a) : index l (i : Int) = .ok a := by
  rw [index, if_neg (by omega), Int.toNat_natCast, h]

theorem ofNat_toInt {i : NodeIndex} (h : 0 ≤ i.toInt) : BitVec.ofNat 64 i.toInt.toNat = i := by
  apply BitVec.eq_of_toNat_eq
  have h1 := i.isLt
  have h2 := BitVec.toInt_eq_toNat_cond i
  rw [BitVec.toNat_ofNat]
  split_ifs at h2 with hc
  · rw [h2, Int.toNat_natCast, Nat.mod_eq_of_lt h1]
  · omega

/-- A generator whose output is constantly zero: every sampling accepts at once. -/
def zeroPrim : Prim := { Prim.ofHash (fun _ => List.replicate 32 0) (by simp) with chacha20 := fun _ _ => 0 }

theorem zeroPrim_random (s : Seed) : Scalar.random (s.rng zeroPrim) = .ok (0, ⟨fun _ => 0, 32⟩) := by
  refine ((C21_random_scalar _).1 0 _).2 ⟨0, by simp, ?_, by simp [Seed.rng, zeroPrim]⟩
  show beVal ((List.range 32).map fun _ => 0) = (0 : Fn).val
  decide +kernel

theorem zeroPrim_eph (t : CType) (seed : Seed) (ad : Bytes) (d : NodeIndex) :
    ∃ z, computeEphKeyAndPop zeroPrim t seed ad d = .ok z := by
  obtain ⟨s, hs, -⟩ := C22_seed_derivation.2.2.1 zeroPrim seed t.ephemeralKeyDst
  obtain ⟨s', hs', -⟩ := C22_seed_derivation.2.2.1 zeroPrim seed t.popProofDst
  exact computeEphKeyAndPop_ok ad d hs hs' (zeroPrim_random s) (zeroPrim_random s')

theorem index_zero {τ : Type} (a : τ) (l : List τ) : index (a :: l) 0 = .ok a := rfl

theorem index_one {τ : Type} (a b : τ) (l : List τ) : index (a :: b :: l) 1 = .ok b := rfl

namespace Single

/-- The loop always returns; entry `j` is pad plus plaintext. -/
theorem encryptLoop_spec (P : Prim) (d : NodeIndex) (ad : Bytes) (beta : Fn) (v : Pt) (i : Nat) (pks : List Pt)
    (pts : List Fn) (hlen : pts.length = pks.length) :
    ∃ cs, encryptLoop P d ad beta v i pks pts = .ok cs ∧ cs.length = pks.length ∧
      ∀ j pk m, pks[j]? = some pk → pts[j]? = some m → ∃ h0,
        hashToScalars P .single d (BitVec.ofNat 64 (i + j)) ad pk v (beta • pk) = .ok [h0] ∧ cs[j]? = some (h0 + m) := by
  induction pks generalizing i pts with
  | nil => exact ⟨[], by simp [encryptLoop], rfl, by simp⟩
  | cons p pks ih =>
    cases pts with
    | nil => simp at hlen
    | cons m pts =>
      obtain ⟨cs, hcs, hl, hent⟩ := ih (i + 1) pts (by simpa using hlen)
      obtain ⟨h0, hh⟩ := single_pad P d (BitVec.ofNat 64 i) ad p v (beta • p)
      refine ⟨(h0 + m) :: cs, ?_, by simp [hl], ?_⟩
      · simp only [encryptLoop, Point.scalarMul, hh, Res.ok_bind, index_zero, hcs]
      · rintro (_ | j) pk x hpk hx
        · simp only [List.getElem?_cons_zero, Option.some.injEq] at hpk hx
          subst hpk hx
          exact ⟨h0, hh, rfl⟩
        · simp only [List.getElem?_cons_succ] at hpk hx
          obtain ⟨h1, e1, e2⟩ := hent j pk x hpk hx
          refine ⟨h1, ?_, by simpa using e2⟩
          rw [← e1]; congr 2; omega

end Single

namespace Pair

theorem encryptLoop_spec (P : Prim) (d : NodeIndex) (ad : Bytes) (beta : Fn) (v : Pt) (i : Nat) (pks : List Pt)
    (pts : List (Fn × Fn)) (hlen : pts.length = pks.length) :
    ∃ cs, encryptLoop P d ad beta v i pks pts = .ok cs ∧ cs.length = pks.length ∧
      ∀ j pk m, pks[j]? = some pk → pts[j]? = some m → ∃ h0 h1,
        hashToScalars P .pairs d (BitVec.ofNat 64 (i + j)) ad pk v (beta • pk) = .ok [h0, h1] ∧
        cs[j]? = some (h0 + m.1, h1 + m.2) := by
  induction pks generalizing i pts with
  | nil => exact ⟨[], by simp [encryptLoop], rfl, by simp⟩
  | cons p pks ih =>
    cases pts with
    | nil => simp at hlen
    | cons m pts =>
      obtain ⟨cs, hcs, hl, hent⟩ := ih (i + 1) pts (by simpa using hlen)
      obtain ⟨h0, h1, hh⟩ := pair_pad P d (BitVec.ofNat 64 i) ad p v (beta • p)
      refine ⟨(h0 + m.1, h1 + m.2) :: cs, ?_, by simp [hl], ?_⟩
      · simp only [encryptLoop, Point.scalarMul, hh, Res.ok_bind, index_zero, index_one, hcs]
      · rintro (_ | j) pk x hpk hx
        · simp only [List.getElem?_cons_zero, Option.some.injEq] at hpk hx
          subst hpk hx
          exact ⟨h0, h1, hh, rfl⟩
        · simp only [List.getElem?_cons_succ] at hpk hx
          obtain ⟨h2, h3, e1, e2⟩ := hent j pk x hpk hx
          refine ⟨h2, h3, ?_, by simpa using e2⟩
          rw [← e1]; congr 2; omega

end Pair

theorem checkPlaintexts_ok_iff {τ : Type} (l : List τ) (r : List Pt) :
    checkPlaintexts l r = .ok () ↔ l.length = r.length ∧ l ≠ [] := by
  rw [checkPlaintexts]
  split_ifs with h1 h2
  · simp [h1]
  · simp [List.length_eq_zero_iff.1 h2]
  · have : l ≠ [] := fun e => h2 (by simp [e])
    simp [this, not_not.1 h1]

theorem checkPlaintexts_isErr {τ : Type} (l : List τ) (r : List Pt) (h : ¬ (l.length = r.length ∧ l ≠ [])) :
    (checkPlaintexts l r).isErr = true := by
  rw [checkPlaintexts]
  split_ifs with h1 h2
  · rfl
  · rfl
  · exact absurd ⟨not_not.1 h1, fun e => h2 (by simp [e])⟩ h

end Verif.Mega
