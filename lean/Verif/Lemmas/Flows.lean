import Verif.Spec.Protocol
import Verif.Lemmas.Protocol

/-! Sampling returns, if the generators do not reject forever. -/

set_option autoImplicit false

namespace Verif.Protocol

open Mega Dealings Complaints Sign

/-- A generator made from some seed, at a position the driver can reach. -/
def OnStream (P : Prim) (r : Rng) : Prop := ∃ sd : Seed, r.stream = P.chacha20 sd.value ∧ r.pos % 4 = 0

theorem onStream_rng (P : Prim) (sd : Seed) : OnStream P (sd.rng P) := ⟨sd, rfl, rfl⟩

theorem OnStream.pos {P : Prim} {r : Rng} (h : OnStream P r) {k : Nat} (hk : k % 4 = 0) : OnStream P { r with pos := r.pos + k } := by
  obtain ⟨sd, h1, h2⟩ := h
  exact ⟨sd, h1, by show (r.pos + k) % 4 = 0; omega⟩

theorem uint32_snd (r : Rng) : r.uint32.2 = { r with pos := r.pos + 4 } := rfl

theorem OnStream.uint32 {P : Prim} {r : Rng} (h : OnStream P r) : OnStream P r.uint32.2 := by
  rw [uint32_snd]; exact h.pos rfl

theorem random_flows {P : Prim} (hf : Flows P) {r : Rng} (h : OnStream P r) :
    ∃ x r', Scalar.random r = .ok (x, r') ∧ OnStream P r' := by
  have hr := h
  obtain ⟨sd, h1, h2⟩ := h
  obtain ⟨⟨x, r'⟩, hx⟩ := hf sd r.pos h2
  have e : r = ⟨P.chacha20 sd.value, r.pos⟩ := by cases r; cases h1; rfl
  rw [← e] at hx
  obtain ⟨k, -, -, e'⟩ := ((C21_random_scalar r).1 x r').1 hx
  refine ⟨x, r', hx, ?_⟩
  rw [e']
  exact hr.pos (by omega)

theorem randomCoeffs_flows {P : Prim} (hf : Flows P) (k : Nat) {r : Rng} (h : OnStream P r) :
    ∃ cs r', Poly.randomCoeffs r k = .ok (cs, r') ∧ OnStream P r' := by
  induction k generalizing r with
  | zero => exact ⟨[], r, rfl, h⟩
  | succ k ih =>
    obtain ⟨x, r1, h1, o1⟩ := random_flows hf h
    obtain ⟨cs, r2, h2, o2⟩ := ih o1
    refine ⟨x :: cs, r2, ?_, o2⟩
    rw [Poly.randomCoeffs, h1, Res.ok_bind]
    simp only
    rw [h2, Res.ok_bind]

theorem poly_random_flows {P : Prim} (hf : Flows P) {num : Int} (hn : 0 ≤ num) {r : Rng} (h : OnStream P r) :
    ∃ cs r', Poly.random num r = .ok (cs, r') ∧ OnStream P r' := by
  rw [Poly.random, if_neg (by omega)]
  exact randomCoeffs_flows hf _ h

theorem randomWithConstant_flows {P : Prim} (hf : Flows P) (s : Fn) {num : Int} (hn : 0 < num) {r : Rng} (h : OnStream P r) :
    ∃ cs r', Poly.randomWithConstant s num r = .ok (cs, r') ∧ OnStream P r' := by
  obtain ⟨cs, r', h1, h2⟩ := randomCoeffs_flows hf (num.toNat - 1) h
  refine ⟨s :: cs, r', ?_, h2⟩
  rw [Poly.randomWithConstant, if_neg (by omega), if_neg (by omega), h1, Res.ok_bind]

theorem encryptSingle_flows {P : Prim} (hf : Flows P) {poly : List Fn} {num : Int} {pks : List Pt} (dealer : NodeIndex)
    (ad : Bytes) (seed : Seed) (hnum : 0 < num) (hl : poly.length = num.toNat) (hne : pks ≠ []) :
    ∃ x, encryptAndCommitSingle P poly num pks dealer ad seed = .ok x := by
  obtain ⟨s, hs, -⟩ := C22_seed_derivation.2.2.1 P seed CType.single.ephemeralKeyDst
  obtain ⟨s', hs', -⟩ := C22_seed_derivation.2.2.1 P seed CType.single.popProofDst
  obtain ⟨x, r, hx, -⟩ := random_flows hf (onStream_rng P s)
  obtain ⟨y, r', hy, -⟩ := random_flows hf (onStream_rng P s')
  obtain ⟨ct, h⟩ := (C49_encrypt_returns P seed pks dealer ad hne ((List.range pks.length).map fun idx =>
    Poly.evaluateAt poly (Scalar.fromNodeIndex (BitVec.ofNat 64 idx))) (by simp)).2 s s' x y r r' hs hs' hx hy
  rw [encryptAndCommitSingle, Commitment.createSimple_self hl hnum.le, h]
  exact ⟨_, rfl⟩

theorem encryptPair_flows {P : Prim} (hf : Flows P) {v m : List Fn} {num : Int} {pks : List Pt} (dealer : NodeIndex)
    (ad : Bytes) (seed : Seed) (hnum : 0 < num) (hl : v.length = num.toNat) (hl' : m.length = num.toNat) (hne : pks ≠ []) :
    ∃ x, encryptAndCommitPair P v m num pks dealer ad seed = .ok x := by
  obtain ⟨s, hs, -⟩ := C22_seed_derivation.2.2.1 P seed CType.pairs.ephemeralKeyDst
  obtain ⟨s', hs', -⟩ := C22_seed_derivation.2.2.1 P seed CType.pairs.popProofDst
  obtain ⟨x, r, hx, -⟩ := random_flows hf (onStream_rng P s)
  obtain ⟨y, r', hy, -⟩ := random_flows hf (onStream_rng P s')
  obtain ⟨ct, h⟩ := (C50_encrypt_returns P seed pks dealer ad hne ((List.range pks.length).map fun idx =>
    (Poly.evaluateAt v (Scalar.fromNodeIndex (BitVec.ofNat 64 idx)),
      Poly.evaluateAt m (Scalar.fromNodeIndex (BitVec.ofNat 64 idx)))) (by simp)).2 s s' x y r r' hs hs' hx hy
  rw [encryptAndCommitPair, Commitment.createPedersen_self hl hl' hnum.le, h]
  exact ⟨_, rfl⟩

theorem product_create_flows {P : Prim} (hf : Flows P) (seed : Seed) (l r rm pr pm : Fn) (ad : Bytes) :
    ∃ pf, Zk.Product.create P seed l r rm pr pm ad = .ok pf := by
  obtain ⟨x, r1, hx, o1⟩ := random_flows hf (onStream_rng P seed)
  obtain ⟨y, r2, hy, -⟩ := random_flows hf o1
  obtain ⟨c, hc⟩ := Zk.prod_challenge_ok P (Zk.Product.fromWitness l r rm pr pm)
        (Point.scalarMul (Zk.Product.fromWitness l r rm pr pm).g x)
        (Point.mulPoints (Zk.Product.fromWitness l r rm pr pm).rhsCom x (Zk.Product.fromWitness l r rm pr pm).h y) ad
  rw [Zk.Product.create]
  simp only [hx, Res.ok_bind, hy, hc]
  exact ⟨_, rfl⟩

theorem new_flows {P : Prim} (hf : Flows P) (shares : Shares) (seed : Seed) (t : Int) (pks : List Pt) (dealer : NodeIndex)
    (ad : Bytes) (h : 1 ≤ t) (h' : t ≤ pks.length) : ∃ d, Dealings.new P shares seed t pks dealer ad = .ok d := by
  obtain ⟨ps, hps, -⟩ := C22_seed_derivation.2.2.1 P seed polyDst
  obtain ⟨ms, hms, -⟩ := C22_seed_derivation.2.2.1 P seed megaDst
  have hne : pks ≠ [] := by rintro rfl; simp at h'; omega
  rw [Dealings.new, if_neg (by omega), hps, hms, Res.ok_bind, Res.ok_bind]
  have hp := onStream_rng P ps
  cases shares with
  | random =>
    dsimp only
    obtain ⟨v, r1, h1, o1⟩ := poly_random_flows hf (by omega : 0 ≤ t) hp
    obtain ⟨w, r2, h2, -⟩ := poly_random_flows hf (by omega : 0 ≤ t) o1
    obtain ⟨x, hx⟩ := encryptPair_flows hf dealer ad ms (by omega) (Poly.random_ok h1).2 (Poly.random_ok h2).2 hne
    simp only [h1, Res.ok_bind, h2, hx]
    exact ⟨_, rfl⟩
  | reshareUnmasked s =>
    dsimp only
    obtain ⟨v, r1, h1, o1⟩ := randomWithConstant_flows hf s (by omega : 0 < t) hp
    obtain ⟨x, hx⟩ := encryptSingle_flows hf dealer ad ms (by omega) (Poly.randomWithConstant_ok h1).2.1 hne
    simp only [h1, Res.ok_bind, hx]
    exact ⟨_, rfl⟩
  | reshareMasked s m =>
    dsimp only
    obtain ⟨v, r1, h1, o1⟩ := randomWithConstant_flows hf s (by omega : 0 < t) hp
    obtain ⟨x, hx⟩ := encryptSingle_flows hf dealer ad ms (by omega) (Poly.randomWithConstant_ok h1).2.1 hne
    obtain ⟨zs, hz, -⟩ := C22_seed_derivation.2.2.1 P seed Zk.equalOpeningsDst
    obtain ⟨y, ry, hy, -⟩ := random_flows hf (onStream_rng P zs)
    obtain ⟨pf, hpf⟩ := (C46_equal_openings_completeness P zs s m ad).2 _ _ hy
    simp only [h1, Res.ok_bind, hx, hz, hpf]
    exact ⟨_, rfl⟩
  | unmaskedTimesMasked l r m =>
    dsimp only
    obtain ⟨pm, r0, h0, o0⟩ := random_flows hf hp
    obtain ⟨v, r1, h1, o1⟩ := randomWithConstant_flows hf (l * r) (by omega : 0 < t) o0
    obtain ⟨w, r2, h2, o2⟩ := randomWithConstant_flows hf pm (by omega : 0 < t) o1
    obtain ⟨x, hx⟩ := encryptPair_flows hf dealer ad ms (by omega) (Poly.randomWithConstant_ok h1).2.1
      (Poly.randomWithConstant_ok h2).2.1 hne
    obtain ⟨zs, hz, -⟩ := C22_seed_derivation.2.2.1 P seed Zk.productDst
    obtain ⟨pf, hpf⟩ := product_create_flows hf zs l r m (l * r) pm ad
    simp only [h0, h1, Res.ok_bind, h2, ignoreErr, nonNil, hx, hz, hpf]
    exact ⟨_, rfl⟩
  | other => exact ⟨_, rfl⟩

theorem genKeys_flows {P : Prim} (hf : Flows P) (k : Nat) {r : Rng} (h : OnStream P r) : ∃ x, genKeys k r = .ok x := by
  induction k generalizing r with
  | zero => exact ⟨_, rfl⟩
  | succ k ih =>
    obtain ⟨x, r1, h1, o1⟩ := random_flows hf h
    obtain ⟨y, h2⟩ := ih o1
    rw [genKeys]
    simp only [h1, Res.ok_bind, h2]
    exact ⟨_, rfl⟩

/-! ### Choosing -/

theorem thin_onStream {P : Prim} {V : Type} {bound : Int} {n : Nat} {rng rng' : Rng} {m m' : List (NodeIndex × V)}
    (h : thin bound n rng m = .ok (m', rng')) (ho : OnStream P rng) : OnStream P rng' := by
  induction n generalizing rng m with
  | zero =>
    rw [thin] at h
    split_ifs at h
    cases h; exact ho
  | succ n ih =>
    rw [thin] at h
    split_ifs at h with hb
    · exact ih h ho.uint32
    · cases h; exact ho

theorem chooseLoop_onStream {P : Prim} {all : List NodeIndex} {count : Nat} {rng rng' : Rng} {c c' : List (NodeIndex × Unit)}
    (h : chooseLoop all count rng c = some (c', rng')) (ho : OnStream P rng) : OnStream P rng' := by
  revert ho
  refine chooseLoop.partial_correctness all count (motive := fun rng _ res => OnStream P rng → OnStream P res.2) ?_
    rng c (c', rng') h
  intro f ih rng c res h ho
  simp only at h
  split_ifs at h with hc
  · split at h
    · exact ih _ _ _ h ho.uint32
    · exact ih _ _ _ h ho.uint32
  · cases h; exact ho

theorem length_set_of_not_mem {V : Type} {k : NodeIndex} (v : V) {m : List (NodeIndex × V)} (h : k ∉ m.map Prod.fst) :
    (OMap.set BitVec.toInt k v m).length = m.length + 1 := by
  induction m with
  | nil => simp [OMap.set]
  | cons y ys ih =>
    obtain ⟨k', w⟩ := y
    simp only [List.map_cons, List.mem_cons, not_or] at h
    rw [OMap.set]
    split_ifs with h1 h2
    · simp
    · simp [ih h.2]
    · exact absurd (BitVec.eq_of_toInt_eq (by omega)) h.1

theorem length_le_set {V : Type} (k : NodeIndex) (v : V) (m : List (NodeIndex × V)) :
    m.length ≤ (OMap.set BitVec.toInt k v m).length := by
  induction m with
  | nil => simp
  | cons y ys ih =>
    obtain ⟨k', w⟩ := y
    rw [OMap.set]
    split_ifs <;> simp only [List.length_cons] <;> omega

/-- With a fair generator the choice is made. -/
theorem chooseLoop_fair {P : Prim} (hf : Fair P) {all : List NodeIndex} {count : Nat} (hcount : count ≤ all.length)
    (hnd : all.Nodup) (hall : all.length ≤ 2 ^ 32) {rng : Rng} (ho : OnStream P rng) (c : List (NodeIndex × Unit)) :
    ∃ x, chooseLoop all count rng c = some x := by
  -- by induction on the number of entries still missing
  induction hm : count - c.length using Nat.strong_induction_on generalizing rng c with
  | _ m ih =>
    by_cases hc : c.length < count
    swap
    · rw [chooseLoop, if_neg hc]; exact ⟨_, rfl⟩
    -- an entry not chosen yet
    obtain ⟨a, ha, hac⟩ : ∃ a ∈ all, a ∉ c.map Prod.fst := by
      by_contra hcon
      push Not at hcon
      have := (hnd.subperm hcon).length_le
      rw [List.length_map] at this
      omega
    obtain ⟨p, hp, hpa⟩ := List.getElem_of_mem ha
    obtain ⟨sd, h1, h2⟩ := ho
    obtain ⟨k, hk⟩ := hf sd rng.pos all.length p h2 hall hp
    -- by induction on the number of draws until it comes
    induction k generalizing rng c with
    | zero =>
      have e : rng = ⟨P.chacha20 sd.value, rng.pos⟩ := by cases rng; cases h1; rfl
      rw [Nat.mul_zero, Nat.add_zero, ← e] at hk
      rw [chooseLoop, if_pos hc]
      rcases hu : rng.uint32 with ⟨x, rng1⟩
      rw [hu] at hk
      simp only at hk ⊢
      rw [hk, List.getElem?_eq_getElem hp, hpa]
      have ho1 : OnStream P rng1 := by
        have := (show OnStream P rng from ⟨sd, h1, h2⟩).uint32
        rwa [hu] at this
      exact ih _ (by rw [length_set_of_not_mem () hac]; omega) ho1 _ rfl
    | succ k ihk =>
      rw [chooseLoop, if_pos hc]
      rcases hu : rng.uint32 with ⟨x, rng1⟩
      have hr1 : rng1 = { rng with pos := rng.pos + 4 } := by rw [← uint32_snd, hu]
      simp only
      have ho1 : OnStream P rng1 := by
        have := (show OnStream P rng from ⟨sd, h1, h2⟩).uint32
        rwa [hu] at this
      have hk' : (Rng.uint32 ⟨P.chacha20 sd.value, rng1.pos + 4 * k⟩).1 % all.length = p := by
        rw [hr1]
        rw [← hk]
        congr 4
        show rng.pos + 4 + 4 * k = _
        omega
      have hs1 : rng1.stream = P.chacha20 sd.value := by rw [hr1]; exact h1
      have hp1 : rng1.pos % 4 = 0 := by rw [hr1]; show (rng.pos + 4) % 4 = 0; omega
      split
      · exact ihk c hm hc hac hs1 hp1 hk'
      · rename_i i hi
        by_cases hic : i ∈ c.map Prod.fst
        · -- nothing new
          by_cases hl : (OMap.set BitVec.toInt i () c).length = c.length
          · by_cases ha' : a ∈ (OMap.set BitVec.toInt i () c).map Prod.fst
            · exfalso
              obtain ⟨y, hy, hya⟩ := List.mem_map.1 ha'
              rcases OMap.mem_set hy with rfl | hy
              · simp only at hya; subst hya; exact hac hic
              · exact hac (List.mem_map.2 ⟨y, hy, hya⟩)
            · exact ihk _ (by rw [hl]; exact hm) (by rw [hl]; exact hc) ha' hs1 hp1 hk'
          · have := length_le_set i () c
            exact ih _ (by omega) ho1 _ rfl
        · exact ih _ (by rw [length_set_of_not_mem () hic]; omega) ho1 _ rfl

end Verif.Protocol
