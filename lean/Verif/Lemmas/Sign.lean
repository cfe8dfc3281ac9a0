import Verif.Spec.Sign
import Verif.Props.Complaints
import Verif.Props.Key

/-! Lemmas about signing. -/

set_option autoImplicit false

namespace Verif.Sign

open Dealings Mega Zk RoCall Polynomial

/-! ### x coordinates -/

theorem affineX_neg (Q : Pt) : Point.affineX (-Q) = Point.affineX Q := by
  cases Q with
  | zero => rfl
  | some x y h => rfl

theorem affineX_eq_iff {Q R : Pt} (hQ : Q ≠ 0) (hR : R ≠ 0) : Point.affineX Q = Point.affineX R ↔ Q = R ∨ Q = -R := by
  constructor
  · intro h
    induction Q using Point.pt_cases with
    | h0 => exact absurd rfl hQ
    | h1 x y hxy =>
      induction R using Point.pt_cases with
      | h0 => exact absurd rfl hR
      | h1 x' y' hxy' =>
        obtain rfl : x = x' := h
        rcases onCurve_same_x hxy hxy' with rfl | rfl
        · exact Or.inl rfl
        · right
          have e : -Pt.mk x y' hxy' = WeierstrassCurve.Affine.Point.some x (E.negY x y')
              ((WeierstrassCurve.Affine.nonsingular_neg ..).2 ((nonsingular_iff x y').2 hxy')) := rfl
          rw [e]
          simp [Pt.mk, WeierstrassCurve.Affine.negY]
  · rintro (rfl | rfl)
    · rfl
    · exact affineX_neg R

/-! ### The re-randomised nonce -/

theorem ecdsaConversion_eq (Q : Pt) : ecdsaConversion Q = .ok ((Point.affineX Q).val : Fn) := by
  rw [ecdsaConversion, (C11_scalar_wide_reduction _).1 (by rw [Point.length_feBytes]; norm_num), Point.beVal_feBytes]

theorem convertHash_eq {m : Bytes} (h : m.length ≤ 64) : convertHashToInteger m = .ok (beVal m : Fn) :=
  (C11_scalar_wide_reduction m).1 h

theorem convertHash_ok {m : Bytes} {e : Fn} (h : convertHashToInteger m = .ok e) : m.length ≤ 64 ∧ e = (beVal m : Fn) := by
  by_cases hm : m.length ≤ 64
  · rw [convertHash_eq hm] at h
    exact ⟨hm, (Res.ok.inj h).symm⟩
  · have := (C11_scalar_wide_reduction m).2 (by omega)
    rw [convertHashToInteger] at h
    simp [h] at this

def byteCall (name : String) (b : Bytes) : RoCall := ⟨ascii name, Ro.tyByteString, b⟩

def scalarCall (name : String) (s : Fn) : RoCall := ⟨ascii name, Ro.tyScalar, Scalar.serializeTagged s⟩

def rhoCalls (randomness hashedMsg : Bytes) (preSig : Pt) (keyTweak : Fn) : List RoCall :=
  [byteCall "randomness" randomness, byteCall "hashed_message" hashedMsg, ptCall "pre_sig" preSig,
    scalarCall "key_tweak" keyTweak]

theorem rhoTranscript_eq (randomness hashedMsg : Bytes) (preSig : Pt) (keyTweak : Fn) :
    rhoTranscript randomness hashedMsg preSig keyTweak =
      Ro.run (ascii "ic-crypto-tecdsa-rerandomize-presig") (rhoCalls randomness hashedMsg preSig keyTweak) := rfl

theorem rhoCalls_accepted (randomness hashedMsg : Bytes) (preSig : Pt) (keyTweak : Fn) :
    accepted (rhoCalls randomness hashedMsg preSig keyTweak) =
      (rhoCalls randomness hashedMsg preSig keyTweak).filter fun c => decide c.WellFormed := by
  apply accepted_of_nodup
  show [ascii "randomness", ascii "hashed_message", ascii "pre_sig", ascii "key_tweak"].Nodup
  decide +kernel

theorem byteCall_wf (name : String) (b : Bytes) (h : 1 ≤ (ascii name).length ∧ (ascii name).length ≤ 255) :
    (byteCall name b).WellFormed ↔ b.length ≤ 255 := ⟨fun h => h.2.2, fun hb => ⟨h.1, h.2, hb⟩⟩

theorem scalarCall_wf (name : String) (s : Fn) (h : 1 ≤ (ascii name).length ∧ (ascii name).length ≤ 255) :
    (scalarCall name s).WellFormed := ⟨h.1, h.2, by simp [scalarCall, Ro.wf_tagged_scalar]⟩

theorem scalarCall_inj {name : String} {s t : Fn} (h : scalarCall name s = scalarCall name t) : s = t := by
  simp only [scalarCall, RoCall.mk.injEq, true_and, Scalar.serializeTagged, List.cons_append, List.nil_append,
    List.cons.injEq] at h
  exact Scalar.serialize_inj h

theorem mem_rho {randomness hashedMsg : Bytes} {preSig : Pt} {keyTweak : Fn} :
    ptCall "pre_sig" preSig ∈ accepted (rhoCalls randomness hashedMsg preSig keyTweak) ∧
    scalarCall "key_tweak" keyTweak ∈ accepted (rhoCalls randomness hashedMsg preSig keyTweak) ∧
    (randomness.length ≤ 255 → byteCall "randomness" randomness ∈ accepted (rhoCalls randomness hashedMsg preSig keyTweak)) ∧
    (hashedMsg.length ≤ 255 → byteCall "hashed_message" hashedMsg ∈ accepted (rhoCalls randomness hashedMsg preSig keyTweak)) := by
  simp only [rhoCalls_accepted, List.mem_filter, decide_eq_true_eq]
  exact ⟨⟨by simp [rhoCalls], ptCall_wf _ _ (by decide +kernel)⟩, ⟨by simp [rhoCalls], scalarCall_wf _ _ (by decide +kernel)⟩,
    fun h => ⟨by simp [rhoCalls], (byteCall_wf _ _ (by decide +kernel)).2 h⟩,
    fun h => ⟨by simp [rhoCalls], (byteCall_wf _ _ (by decide +kernel)).2 h⟩⟩

theorem rhoScalar_ok (P : Prim) (randomness hashedMsg : Bytes) (preSig : Pt) (keyTweak : Fn) :
    ∃ s, (rhoTranscript randomness hashedMsg preSig keyTweak).outputScalar P = .ok s := by
  rw [rhoTranscript_eq]
  exact Ro.run_outputScalar_ok P _ (List.ne_nil_of_mem mem_rho.1)

theorem preSigOf_ok {T : Option Com} {Q : Pt} (h : preSigOf T = .ok Q) :
    ∃ pts, T = some ⟨.interpolation, ⟨.simple, Q :: pts⟩⟩ := by
  rcases T with _ | ⟨w, k, pts⟩
  · simp [preSigOf] at h
  · cases w <;> simp only [preSigOf] at h <;> try cases h
    cases k <;> simp only at h <;> try cases h
    cases pts with
    | nil => simp [Commitment.constantTerm] at h
    | cons a l =>
      simp only [Commitment.constantTerm, Res.ok.injEq] at h
      subst h
      exact ⟨l, rfl⟩

theorem constantTerm_ok {T : Option Com} {Q : Pt} (h : constantTerm T = .ok Q) :
    ∃ w k pts, T = some ⟨w, ⟨k, Q :: pts⟩⟩ := by
  rcases T with _ | ⟨w, k, pts⟩
  · simp [constantTerm, nonNil] at h
  · cases pts with
    | nil => simp [constantTerm, nonNil, Commitment.constantTerm] at h
    | cons a l =>
      simp only [constantTerm, nonNil, Res.ok_bind, Commitment.constantTerm, Res.ok.injEq] at h
      subst h
      exact ⟨w, k, l, rfl⟩

/-- `DeriveRho` in one equation. -/
theorem deriveRho_eq {P : Prim} {hashedMsg randomness : Bytes} {path : List Key.Index} {keyT presigT : Option Com}
    {pre pk : Pt} {tweak rnd : Fn} {c : Bytes} (h1 : preSigOf presigT = .ok pre) (h2 : constantTerm keyT = .ok pk)
    (h3 : Key.deriveTweak P path pk = .ok (tweak, c))
    (h4 : (rhoTranscript randomness hashedMsg pre tweak).outputScalar P = .ok rnd) :
    deriveRho P hashedMsg randomness path keyT presigT =
      .ok ⟨((Point.affineX (pre + rnd • G)).val : Fn), tweak, rnd, pre + rnd • G⟩ := by
  simp only [deriveRho, h1, h2, h3, h4, Res.ok_bind, Point.scalarMul, ecdsaConversion_eq]

theorem deriveRho_ok {P : Prim} {hashedMsg randomness : Bytes} {path : List Key.Index} {keyT presigT : Option Com}
    {d : Derived} (h : deriveRho P hashedMsg randomness path keyT presigT = .ok d) :
    ∃ pre pk c, preSigOf presigT = .ok pre ∧ constantTerm keyT = .ok pk ∧
      Key.deriveTweak P path pk = .ok (d.keyTweak, c) ∧
      (rhoTranscript randomness hashedMsg pre d.keyTweak).outputScalar P = .ok d.randomizer ∧
      d.randomizedPresig = pre + d.randomizer • G ∧ d.rho = ((Point.affineX d.randomizedPresig).val : Fn) := by
  rw [deriveRho] at h
  obtain ⟨pre, h1, h⟩ := Res.bind_eq_ok.1 h
  obtain ⟨pk, h2, h⟩ := Res.bind_eq_ok.1 h
  obtain ⟨⟨tw, c⟩, h3, h⟩ := Res.bind_eq_ok.1 h
  obtain ⟨rnd, h4, h⟩ := Res.bind_eq_ok.1 h
  simp only [ecdsaConversion_eq, Res.ok_bind, Res.ok.injEq] at h
  subst h
  exact ⟨pre, pk, c, h1, h2, h3, h4, rfl, rfl⟩

/-! ### The derived public key -/

theorem derivePublicKey_serialize {P : Prim} {path : List Key.Index} {pk : Pt} {tweak : Fn} {c : Bytes}
    (h : Key.deriveTweak P path pk = .ok (tweak, c)) :
    derivePublicKey P (Point.serialize pk) path = .ok (Point.serialize (tweak • G + pk), c) := by
  simp only [derivePublicKey, Point.deserialize_serialize, Res.ok_bind, Point.ofRaw?_raw, h, Point.serializeRes_eq,
    Point.mulByG]

/-- `Deserialize` never leaves the curve. -/
theorem derivePublicKey_eq (P : Prim) (b : Bytes) (path : List Key.Index) :
    derivePublicKey P b path = (Point.deserialize K256 b >>= fun r =>
      match r with
      | none => .panic "nil pointer dereference"
      | some r => match Point.ofRaw? r with
        | none => .panic "not a point of the curve"
        | some pk => derivePublicKey P (Point.serialize pk) path) := by
  rw [derivePublicKey]
  cases hd : Point.deserialize K256 b with
  | ok r =>
    simp only [Res.ok_bind]
    cases r with
    | none => rfl
    | some r =>
      simp only
      cases hr : Point.ofRaw? r with
      | none => rfl
      | some pk =>
        simp only [derivePublicKey, Point.deserialize_serialize, Res.ok_bind, Point.ofRaw?_raw]
  | err e => rfl
  | panic e => rfl
  | diverge => rfl

/-! ### Verification -/

theorem verify_iff (P : Prim) (sig : Signature) (path : List Key.Index) (hashedMsg randomness : Bytes)
    (keyT presigT : Option Com) :
    sig.verify P path hashedMsg randomness keyT presigT = .ok () ↔
      sig.r ≠ 0 ∧ sig.s ≠ 0 ∧ hashedMsg.length ≤ 64 ∧
      ∃ d pk, deriveRho P hashedMsg randomness path keyT presigT = .ok d ∧ constantTerm keyT = .ok pk ∧
        sig.r = d.rho ∧ Scalar.isHigh sig.s = false ∧
        ((beVal hashedMsg : Fn) / sig.s) • G + (sig.r / sig.s) • (d.keyTweak • G + pk) ≠ 0 ∧
        Point.affineX (((beVal hashedMsg : Fn) / sig.s) • G + (sig.r / sig.s) • (d.keyTweak • G + pk)) =
          Point.affineX d.randomizedPresig := by
  rw [Signature.verify]
  by_cases h0 : sig.r = 0 ∨ sig.s = 0
  · rw [if_pos h0]
    constructor
    · intro h; cases h
    · rintro ⟨h1, h2, -⟩
      rcases h0 with h | h
      · exact absurd h h1
      · exact absurd h h2
  rw [if_neg h0]
  rw [not_or] at h0
  constructor
  · intro h
    obtain ⟨e, he, h⟩ := Res.bind_eq_ok.1 h
    obtain ⟨hm, rfl⟩ := convertHash_ok he
    obtain ⟨d, hd, h⟩ := Res.bind_eq_ok.1 h
    split_ifs at h with h1
    obtain ⟨pk, hpk, h⟩ := Res.bind_eq_ok.1 h
    simp only [Point.mulByG, Point.mulPoints, ← div_eq_mul_inv] at h
    split_ifs at h with h2 h3
    rw [not_or, not_not, Bool.not_eq_true] at h1
    exact ⟨h0.1, h0.2, hm, d, pk, hd, hpk, h1.1, h1.2, h2, not_not.1 h3⟩
  · rintro ⟨-, -, hm, d, pk, hd, hpk, h1, h2, h3, h4⟩
    rw [convertHash_eq hm, Res.ok_bind, hd, Res.ok_bind, if_neg (by rw [not_or, not_not, h2]; exact ⟨h1, by simp⟩), hpk,
      Res.ok_bind]
    simp only [Point.mulByG, Point.mulPoints, ← div_eq_mul_inv]
    rw [if_neg h3, if_neg (not_not.2 h4)]

/-! ### Combination -/

theorem scan_skip (count threshold : Int) (h : threshold ≤ count) (xs : List NodeIndex) (nums dens : List Fn) (m : ShareMap) :
    scan count threshold xs nums dens m = (xs, nums, dens) := by
  induction m with
  | nil => rfl
  | cons x l ih =>
    obtain ⟨i, sh⟩ := x
    rw [scan, if_pos (ge_iff_le.2 h), ih]

theorem scan_all (count threshold : Int) (h : count < threshold) (xs : List NodeIndex) (nums dens : List Fn) (m : ShareMap) :
    scan count threshold xs nums dens m =
      (xs ++ m.map Prod.fst, nums ++ m.filterMap (fun x => (pedersenValue x.2.sigmaNumerator).map Prod.fst),
        dens ++ m.filterMap (fun x => (pedersenValue x.2.sigmaDenominator).map Prod.fst)) := by
  induction m generalizing xs nums dens with
  | nil => simp [scan]
  | cons x l ih =>
    obtain ⟨i, sh⟩ := x
    rw [scan, if_neg (by omega), ih]
    rcases hn : pedersenValue sh.sigmaNumerator with _ | ⟨v, m⟩ <;>
      rcases hd : pedersenValue sh.sigmaDenominator with _ | ⟨v', m'⟩ <;> simp [appendValue, hn, hd]

theorem lowOf_eq (s : Fn) : (if Scalar.isHigh s then -s else s) = lowOf s := by
  rw [lowOf]
  simp only [(C16_high_low s).2.1]

theorem isHigh_lowOf (s : Fn) : Scalar.isHigh (lowOf s) = false := by
  rw [← lowOf_eq]
  split_ifs with h
  · exact (C16_high_low s).2.2.2 h
  · simpa using h

theorem lowOf_cases (s : Fn) : lowOf s = s ∨ lowOf s = -s := by
  rw [lowOf]; split_ifs
  · exact Or.inr rfl
  · exact Or.inl rfl

theorem lowOf_ne_zero {s : Fn} : lowOf s ≠ 0 ↔ s ≠ 0 := by
  rcases lowOf_cases s with h | h <;> rw [h]
  rw [neg_ne_zero]

theorem fst_eq_nil {l : ShareMap} : l.map Prod.fst = [] ↔ l = [] := List.map_eq_nil_iff

theorem combine_ok {P : Prim} {path : List Key.Index} {hashedMsg randomness : Bytes} {keyT presigT : Option Com}
    {threshold : Int} {shares : ShareMap} {sig : Signature}
    (h : combine P path hashedMsg randomness keyT presigT threshold shares = .ok sig) :
    ∃ d sigma, deriveRho P hashedMsg randomness path keyT presigT = .ok d ∧ sig = ⟨d.rho, lowOf sigma⟩ := by
  rw [combine] at h
  by_cases h1 : (shares.length : Int) < threshold
  · rw [if_pos h1] at h; cases h
  rw [if_neg h1] at h
  obtain ⟨d, hd, h⟩ := Res.bind_eq_ok.1 h
  by_cases h2 : threshold < 0
  · rw [if_pos h2] at h; cases h
  rw [if_neg h2] at h
  obtain ⟨cs, -, h⟩ := Res.bind_eq_ok.1 h
  obtain ⟨nu, -, h⟩ := Res.bind_eq_ok.1 h
  obtain ⟨de, -, h⟩ := Res.bind_eq_ok.1 h
  simp only [lowOf_eq] at h
  exact ⟨d, _, hd, (Res.ok.inj h).symm⟩

/-- Combination of shares that all carry Pedersen openings. -/
theorem combine_eq {P : Prim} {path : List Key.Index} {hashedMsg randomness : Bytes} {keyT presigT : Option Com}
    {threshold : Int} {signers : List NodeIndex} {d : Derived}
    (hd : deriveRho P hashedMsg randomness path keyT presigT = .ok d) (ht : 0 < threshold)
    (hc : threshold ≤ signers.length) (hn : signers.Nodup) (sh : NodeIndex → SigShare) (nv nm dv dm : NodeIndex → Fn)
    (hsh : ∀ i ∈ signers, sh i = ⟨some (.pedersen (nv i) (nm i)), some (.pedersen (dv i) (dm i))⟩) :
    ∃ w : NodeIndex → Fn,
      (∀ f : Fn[X], f.degree < signers.length → (signers.map fun i => w i * f.eval (place i)).sum = f.eval 0) ∧
      combine P path hashedMsg randomness keyT presigT threshold (signers.map fun i => (i, sh i)) =
        .ok ⟨d.rho, lowOf ((signers.map fun i => w i * nv i).sum * (signers.map fun i => w i * dv i).sum⁻¹)⟩ := by
  have hne : signers ≠ [] := by rintro rfl; simp at hc; omega
  obtain ⟨w, hw, hw'⟩ := Lagr.weights 0 signers hne hn
  refine ⟨w, hw', ?_⟩
  have hlen : ((signers.map fun i => (i, sh i)).length : Int) = signers.length := by simp
  have e1 : (signers.map fun i => (i, sh i)).map Prod.fst = signers := by simp [Function.comp_def]
  have e2 : (signers.map fun i => (i, sh i)).filterMap (fun x => (pedersenValue x.2.sigmaNumerator).map Prod.fst) =
      signers.map nv := by
    rw [List.filterMap_map, ← List.filterMap_eq_map]
    exact List.filterMap_congr fun i hi => by simp [hsh i hi, pedersenValue]
  have e3 : (signers.map fun i => (i, sh i)).filterMap (fun x => (pedersenValue x.2.sigmaDenominator).map Prod.fst) =
      signers.map dv := by
    rw [List.filterMap_map, ← List.filterMap_eq_map]
    exact List.filterMap_congr fun i hi => by simp [hsh i hi, pedersenValue]
  rw [combine, hlen, if_neg (by omega), hd, Res.ok_bind, if_neg (by omega), scan_all 0 threshold ht, e1, e2, e3]
  simp only [List.nil_append]
  rw [Lagr.atZero, hw, Res.ok_bind, Lagr.interpolateScalar_map signers hne, Res.ok_bind,
    Lagr.interpolateScalar_map signers hne, Res.ok_bind, lowOf_eq]

/-! ### Shares -/

theorem new_eq {P : Prim} {path : List Key.Index} {hashedMsg randomness : Bytes} {keyT presigT : Option Com} {d : Derived}
    (hd : deriveRho P hashedMsg randomness path keyT presigT = .ok d) (hm : hashedMsg.length ≤ 64) (lv lm kv km xv xm : Fn) :
    SigShare.new P path hashedMsg randomness keyT presigT (some (.pedersen lv lm)) (some (.pedersen kv km))
        (some (.pedersen xv xm)) =
      .ok ⟨some (.pedersen (((beVal hashedMsg : Fn) + d.rho * d.keyTweak) * lv + d.rho * xv)
          (((beVal hashedMsg : Fn) + d.rho * d.keyTweak) * lm + d.rho * xm)),
        some (.pedersen (d.randomizer * lv + kv) (d.randomizer * lm + km))⟩ := by
  rw [SigShare.new, hd, Res.ok_bind, convertHash_eq hm]
  rfl

theorem new_ok {P : Prim} {path : List Key.Index} {hashedMsg randomness : Bytes} {keyT presigT : Option Com}
    {l k x : Option Opening} {sh : SigShare}
    (h : SigShare.new P path hashedMsg randomness keyT presigT l k x = .ok sh) :
    hashedMsg.length ≤ 64 ∧ ∃ d, deriveRho P hashedMsg randomness path keyT presigT = .ok d := by
  rw [SigShare.new] at h
  obtain ⟨d, hd, h⟩ := Res.bind_eq_ok.1 h
  obtain ⟨e, he, h⟩ := Res.bind_eq_ok.1 h
  exact ⟨(convertHash_ok he).1, d, hd⟩

theorem eval_zero_toPoly {f : List Fn} {a : Fn} (h : f.head? = some a) : (toPoly f).eval 0 = a := by
  cases f with
  | nil => simp at h
  | cons b l =>
    simp only [List.head?_cons, Option.some.injEq] at h
    rw [toPoly_cons, h]; simp

theorem constantTerm_unmasked {f : List Fn} {a : Fn} (h : f.head? = some a) :
    constantTerm (unmasked f) = .ok (a • G) ∧ preSigOf (unmasked f) = .ok (a • G) := by
  cases f with
  | nil => simp at h
  | cons b l =>
    simp only [List.head?_cons, Option.some.injEq] at h
    subst h
    exact ⟨rfl, rfl⟩

theorem sum_linear (w f g : NodeIndex → Fn) (a b : Fn) (l : List NodeIndex) :
    (l.map fun i => w i * (a * f i + b * g i)).sum = a * (l.map fun i => w i * f i).sum + b * (l.map fun i => w i * g i).sum := by
  induction l with
  | nil => simp
  | cons i l ih => simp only [List.map_cons, List.sum_cons, ih]; ring

end Verif.Sign
