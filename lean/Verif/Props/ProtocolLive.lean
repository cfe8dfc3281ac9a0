import Verif.Lemmas.Cbor
import Verif.Lemmas.ProtocolLive
import Verif.Props.Protocol

/-! C110: runs of the protocol go through. -/

set_option autoImplicit false

open Polynomial

namespace Verif.Protocol

open Mega Dealings Complaints Sign

theorem GoesThrough.ok {α : Type} {P : Prim} {corrupted : Nat} (a : α) : GoesThrough P corrupted (.ok a) := Or.inl ⟨a, rfl⟩

theorem GoesThrough.bind {α β : Type} {P : Prim} {corrupted : Nat} {r : Res α} {f : α → Res β} (h : GoesThrough P corrupted r)
    (hf : ∀ a, r = .ok a → GoesThrough P corrupted (f a)) : GoesThrough P corrupted (r >>= f) := by
  rcases h with ⟨a, rfl⟩ | ⟨hs, rfl⟩ | ⟨hb, hp⟩
  · exact hf a rfl
  · exact Or.inr (Or.inl ⟨hs, rfl⟩)
  · obtain ⟨e, rfl⟩ := Res.isPanic_iff.1 hp
    exact Or.inr (Or.inr ⟨hb, rfl⟩)

theorem range_map_get {β : Type} {f : Nat → β} {n j : Nat} {b : β} (h : ((List.range n).map f)[j]? = some b) : j < n ∧ b = f j := by
  have hj : j < n := by
    by_contra hc
    rw [List.getElem?_eq_none (by simpa using hc)] at h
    cases h
  rw [List.getElem?_map, List.getElem?_range hj] at h
  cases h
  exact ⟨hj, rfl⟩

theorem value_masked {R : Round} {n : Nat} {t : Int} {f g : List Fn} (ht : 0 < t) (h : SharesMasked R n t f g) {i : Nat}
    (hi : i < 2 ^ 63) : R.transcript.c.points ≠ [] ∧ R.transcript.c.points.length = f.length ∧
      valueAtNode R.transcript.c.points (node i) = shareOf f i • G + shareOf g i • Point.H := by
  obtain ⟨h1, h2, h3, -⟩ := h
  have hf : f ≠ [] := by rintro rfl; simp at h1; omega
  have hl : R.transcript.c.points.length = f.length := by rw [h3]; simp; omega
  refine ⟨?_, hl, ?_⟩
  · intro e
    rw [e] at hl
    exact hf (List.length_eq_zero_iff.1 hl.symm)
  · have := (opens_valueOf .pedersen hf (show g.length = f.length by omega) (node i)).2
    rw [place_node hi] at this
    rw [h3]
    exact this

theorem value_unmasked {R : Round} {n : Nat} {t : Int} {f : List Fn} (ht : 0 < t) (h : SharesUnmasked R n t f) {i : Nat}
    (hi : i < 2 ^ 63) : R.transcript.c.points ≠ [] ∧ R.transcript.c.points.length = f.length ∧
      valueAtNode R.transcript.c.points (node i) = shareOf f i • G := by
  obtain ⟨h1, h2, -⟩ := h
  have hf : f ≠ [] := by rintro rfl; simp at h1; omega
  have hl : R.transcript.c.points.length = f.length := by rw [h2]; simp
  refine ⟨?_, hl, ?_⟩
  · intro e
    rw [e] at hl
    exact hf (List.length_eq_zero_iff.1 hl.symm)
  · have := (opens_valueOf .simple hf (r := f) rfl (node i)).2
    rw [place_node hi] at this
    rw [h2]
    exact this

theorem commits_length {t : Int} {ds : DealingMap} {k : Kind} {q r : NodeIndex → List Fn}
    (hl : ∀ x ∈ ds, ((q x.1).length : Int) = t ∧ (r x.1).length = (q x.1).length) :
    ∀ x ∈ ds, (((fun i => commitTo k (q i) (r i)) x.1).points.length : Int) = t := fun x hx => by
  rw [commitTo_length rfl (hl x hx).2]
  exact (hl x hx).1

end Protocol

open Protocol Mega Dealings Complaints Sign

/-- What the rounds below have in common: thresholds and counts in range, and, if dealings get damaged, at least `threshold`
recipients left to help any one. -/
structure Protocol.Admissible (s : Setup) (available numberOfDealers corrupted : Nat) : Prop where
  threshold_pos : 0 < s.threshold
  threshold_le : s.threshold ≤ s.sk.length
  nodes : s.sk.length ≤ 2 ^ 32
  available_le : available ≤ 2 ^ 32
  dealers_pos : 0 < numberOfDealers
  dealers_le : numberOfDealers ≤ available
  corrupted_le : corrupted ≤ numberOfDealers
  helpers : corrupted = 0 ∨ 2 * s.threshold ≤ s.sk.length

/-- A random round goes through. -/
theorem C110_random_round (P : Prim) (cbor : Commitment → Res Bytes) (s : Setup) (numberOfDealers corrupted : Nat)
    (hcbor : ∀ c : Commitment, c.points ≠ [] → ∃ b, cbor c = .ok b) (h : Admissible s numberOfDealers numberOfDealers corrupted) :
    GoesThrough P corrupted (Round.random P cbor s numberOfDealers corrupted) := by
  refine make_goes h.threshold_pos h.threshold_le h.nodes (by simpa using h.available_le) (fun j sh hj => ?_) h.dealers_pos (by simp)
    h.corrupted_le hcbor h.helpers fun ds q r hsort hlen hcom hl _ => ?_
  · rw [List.eq_of_mem_replicate (List.mem_of_getElem? hj)]
    trivial
  · exact ⟨_, newTranscript_random hcom h.threshold_pos.le (commits_length hl) fun x _ => rfl⟩

/-- Resharing a masked secret goes through, if there are at least as many dealers as the old threshold. -/
theorem C110_reshare_masked_round (P : Prim) (cbor : Commitment → Res Bytes) (s : Setup) (masked : Round)
    (numberOfDealers corrupted nodes : Nat) (t : Int) (f g : List Fn) (ht0 : 0 < t) (hm : SharesMasked masked nodes t f g)
    (hcbor : ∀ c : Commitment, c.points ≠ [] → ∃ b, cbor c = .ok b) (h : Admissible s nodes numberOfDealers corrupted) (hd : t ≤ numberOfDealers) :
    GoesThrough P corrupted (Round.reshareOfMasked P cbor s masked numberOfDealers corrupted) := by
  have hsh : Res.mapM' maskedShare masked.openings =
      .ok ((List.range nodes).map fun i => .reshareMasked (shareOf f i) (shareOf g i)) := by
    rw [hm.2.2.2, mapM'_map]
    exact Res.mapM'_ok fun i _ => rfl
  have hav := h.available_le
  rw [Round.reshareOfMasked, hsh, Res.ok_bind]
  obtain ⟨-, hlen0, -⟩ := value_masked ht0 hm (i := 0) (by norm_num)
  have hf := hm.1
  refine make_goes h.threshold_pos h.threshold_le h.nodes (by simpa using h.available_le) (fun j sh hj => ?_) h.dealers_pos
    (by simpa using h.dealers_le) h.corrupted_le hcbor h.helpers fun ds q r hsort hlen hcom hl _ => ?_
  · obtain ⟨hj, rfl⟩ := range_map_get hj
    obtain ⟨h1, -, h3⟩ := value_masked ht0 hm (i := j) (by omega)
    exact ⟨h1, h3⟩
  · have hdp := h.dealers_pos
    obtain ⟨w, -, -, h1, -⟩ := newTranscript_interp hcom (OMap.nodup_keys hsort) (by rintro rfl; simp at hlen; omega)
      h.threshold_pos.le (commits_length hl)
    refine ⟨_, h1 _ ?_ ?_⟩
    · show masked.transcript.c.kind = _
      rw [hm.2.2.1]
    · show masked.transcript.c.points.length ≤ _
      omega

/-- Resharing a secret without mask. -/
theorem C110_reshare_unmasked_round (P : Prim) (cbor : Commitment → Res Bytes) (s : Setup) (unmasked : Round)
    (numberOfDealers corrupted nodes : Nat) (t : Int) (f : List Fn) (ht0 : 0 < t) (hm : SharesUnmasked unmasked nodes t f)
    (hcbor : ∀ c : Commitment, c.points ≠ [] → ∃ b, cbor c = .ok b) (h : Admissible s nodes numberOfDealers corrupted) (hd : t ≤ numberOfDealers) :
    GoesThrough P corrupted (Round.reshareOfUnmasked P cbor s unmasked numberOfDealers corrupted) := by
  have hsh : Res.mapM' unmaskedShare unmasked.openings =
      .ok ((List.range nodes).map fun i => .reshareUnmasked (shareOf f i)) := by
    rw [hm.2.2, mapM'_map]
    exact Res.mapM'_ok fun i _ => rfl
  have hav := h.available_le
  rw [Round.reshareOfUnmasked, hsh, Res.ok_bind]
  obtain ⟨hne, hlen0, -⟩ := value_unmasked ht0 hm (i := 0) (by norm_num)
  have hf := hm.1
  have hkind : unmasked.commitment.clone.c.kind = .simple := by
    show unmasked.transcript.c.kind = _
    rw [hm.2.1]
  refine make_goes h.threshold_pos h.threshold_le h.nodes (by simpa using h.available_le) (fun j sh hj => ?_) h.dealers_pos
    (by simpa using h.dealers_le) h.corrupted_le hcbor h.helpers fun ds q r hsort hlen hcom hl hsec => ?_
  · obtain ⟨hj, rfl⟩ := range_map_get hj
    obtain ⟨h1, -, h3⟩ := value_unmasked ht0 hm (i := j) (by omega)
    exact ⟨hkind, h1, h3⟩
  · refine C59_unmasked_goes_through s.threshold ds _ unmasked.commitment.clone h.threshold_pos hcom hsort (commits_length hl)
      hkind hne ?_ fun x hx => ?_
    · show unmasked.transcript.c.points.length ≤ _
      omega
    · obtain ⟨j, sh, hj, hxj, hco⟩ := hsec x hx
      obtain ⟨hj, rfl⟩ := range_map_get hj
      obtain ⟨-, -, h3⟩ := value_unmasked ht0 hm (i := j) (by omega)
      have h3' : valueAtNode unmasked.commitment.clone.c.points (node j) = shareOf f j • G := h3
      rw [hxj, h3', ← hxj]
      have hc0 := hco _ rfl
      have hq := (hl x hx).1
      have htp := h.threshold_pos
      cases hqx : q x.1 with
      | nil => rw [hqx] at hq; simp at hq; omega
      | cons a l =>
        rw [hqx] at hc0
        have : a = shareOf f j := hc0
        rw [← this]
        rfl

/-- A product goes through, if there are at least `t + t' - 1` dealers. -/
theorem C110_product_round (P : Prim) (cbor : Commitment → Res Bytes) (s : Setup) (masked unmasked : Round)
    (numberOfDealers corrupted nodes more : Nat) (t t' : Int) (f g l : List Fn) (ht0 : 0 < t) (ht0' : 0 < t') (hmore : nodes ≤ more)
    (hl : SharesUnmasked unmasked nodes t l) (hm : SharesMasked masked more t' f g)
    (hcbor : ∀ c : Commitment, c.points ≠ [] → ∃ b, cbor c = .ok b) (h : Admissible s nodes numberOfDealers corrupted) (hd : t + t' - 1 ≤ numberOfDealers) :
    GoesThrough P corrupted (Round.multiply P cbor s masked unmasked numberOfDealers corrupted) := by
  have hsh : productShares unmasked.openings masked.openings =
      .ok ((List.range nodes).map fun i => .unmaskedTimesMasked (shareOf l i) (shareOf f i) (shareOf g i)) := by
    rw [hl.2.2, hm.2.2.2]
    refine productShares_eq _ _ _ _ _ ?_
    obtain ⟨k, rfl⟩ := Nat.exists_eq_add_of_le hmore
    exact ⟨_, List.range_add⟩
  have hav := h.available_le
  rw [Round.multiply, hsh, Res.ok_bind]
  obtain ⟨-, hlen1, -⟩ := value_unmasked ht0 hl (i := 0) (by norm_num)
  obtain ⟨-, hlen2, -⟩ := value_masked ht0' hm (i := 0) (by norm_num)
  have hf := hm.1
  have hl0 := hl.1
  have hk1 : unmasked.commitment.clone.c.kind = .simple := by
    show unmasked.transcript.c.kind = _
    rw [hl.2.1]
  have hk2 : masked.commitment.clone.c.kind = .pedersen := by
    show masked.transcript.c.kind = _
    rw [hm.2.2.1]
  refine make_goes h.threshold_pos h.threshold_le h.nodes (by simpa using h.available_le) (fun j sh hj => ?_) h.dealers_pos
    (by simpa using h.dealers_le) h.corrupted_le hcbor h.helpers fun ds q r hsort hlen hcom hl _ => ?_
  · obtain ⟨hj, rfl⟩ := range_map_get hj
    obtain ⟨h1, -, h3⟩ := value_unmasked ht0 hl (i := j) (by omega)
    obtain ⟨h4, -, h5⟩ := value_masked ht0' hm (i := j) (by omega)
    exact ⟨hk1, h1, h3, hk2, h4, h5⟩
  · have hdp := h.dealers_pos
    obtain ⟨w, -, -, -, -, h1⟩ := newTranscript_interp hcom (OMap.nodup_keys hsort) (by rintro rfl; simp at hlen; omega)
      h.threshold_pos.le (commits_length hl)
    refine ⟨_, h1 _ _ hk1 hk2 ?_⟩
    show (unmasked.transcript.c.points.length + masked.transcript.c.points.length : Int) - 1 ≤ _
    omega

theorem Protocol.setup_goes {P : Prim} (corrupted receivers : Nat) (t : Int) (seed : Seed) :
    GoesThrough P corrupted (Setup.new P receivers t seed) := by
  rw [Setup.new]
  rcases hx : (seed.rng P).xorKeyStream (List.replicate 32 0) with ⟨ad, rng⟩
  simp only
  have ho : OnStream P rng := by
    have := (onStream_rng P seed).pos (k := 32) rfl
    have e := congrArg Prod.snd hx
    simp only [Rng.xorKeyStream, List.length_replicate] at e
    rwa [e] at this
  refine GoesThrough.bind ?_ fun a _ => GoesThrough.ok _
  have hcase : (∃ x, genKeys receivers rng = .ok x) ∨ genKeys receivers rng = .diverge := by
    clear hx ho
    induction receivers generalizing rng with
    | zero => exact Or.inl ⟨_, rfl⟩
    | succ n ih =>
      rw [genKeys]
      rcases hr : Scalar.random rng with ⟨x, rng1⟩ | e | e | _
      · rw [Res.ok_bind]
        simp only
        rcases ih rng1 with ⟨y, hy⟩ | hy
        · rw [hy]; exact Or.inl ⟨_, rfl⟩
        · rw [hy]; exact Or.inr rfl
      · have := (C21_random_scalar rng).2.2.1; rw [hr] at this; cases this
      · have := (C21_random_scalar rng).2.2.2; rw [hr] at this; cases this
      · exact Or.inr rfl
  rcases hcase with h | h
  · exact Or.inl h
  · refine Or.inr (Or.inl ⟨Or.inl fun hf => ?_, h⟩)
    obtain ⟨x, hx⟩ := genKeys_flows hf receivers ho
    rw [h] at hx
    cases hx

/-- Setting up keys and one presignature goes through with `2t - 1` nodes, or `2t` if dealings get damaged. -/
theorem C110_setup (P : Prim) (cbor : Commitment → Res Bytes) (nodes : Nat) (t : Int) (corrupted : Nat) (seed : Seed)
    (hcbor : ∀ c : Commitment, c.points ≠ [] → ∃ b, cbor c = .ok b) (ht : 0 < t) (hn : nodes ≤ 2 ^ 32) (hc : corrupted ≤ nodes)
    (h : 2 * t - 1 ≤ nodes) (h' : corrupted ≠ 0 → 2 * t ≤ nodes) :
    GoesThrough P corrupted (SigSetup.new P cbor nodes t corrupted seed) := by
  have adm : ∀ {s : Setup}, s.threshold = t ∧ s.sk.length = nodes → Admissible s nodes nodes corrupted := fun {s} e =>
    ⟨by omega, by omega, by omega, hn, by omega, le_rfl, hc, by rw [e.1, e.2]; by_cases h0 : corrupted = 0
                                                                · exact Or.inl h0
                                                                · exact Or.inr (h' h0)⟩
  have step : ∀ {s s' : Setup}, SameNodes s s' → s.threshold = t ∧ s.sk.length = nodes → s'.threshold = t ∧ s'.sk.length = nodes :=
    fun e h => ⟨e.1.trans h.1, by rw [e.2.1]; exact h.2⟩
  have head : ∀ f : List Fn, (f.length : Int) = t → ∃ a, f.head? = some a := fun f hf => by
    cases f with
    | nil => simp at hf; omega
    | cons a f => exact ⟨a, rfl⟩
  rw [SigSetup.new]
  refine (setup_goes corrupted nodes t seed).bind fun s0 hs0 => ?_
  have e0 := setup_new hs0
  refine (C110_random_round P cbor s0 nodes corrupted hcbor (adm e0)).bind fun x h1 => ?_
  obtain ⟨keyM, s1⟩ := x
  obtain ⟨b1, f1, g1, m1⟩ := C103_random_round P cbor s0 s1 nodes corrupted keyM (by omega) (by omega) (by omega) h1
  have e1 := step b1 e0
  simp only
  refine (C110_random_round P cbor s1 nodes corrupted hcbor (adm e1)).bind fun x h2 => ?_
  obtain ⟨kappaM, s2⟩ := x
  obtain ⟨b2, f2, g2, m2⟩ := C103_random_round P cbor s1 s2 nodes corrupted kappaM (by omega) (by omega) (by omega) h2
  have e2 := step b2 e1
  simp only
  refine (C110_random_round P cbor s2 nodes corrupted hcbor (adm e2)).bind fun x h3 => ?_
  obtain ⟨lambda, s3⟩ := x
  obtain ⟨b3, f3, g3, m3⟩ := C103_random_round P cbor s2 s3 nodes corrupted lambda (by omega) (by omega) (by omega) h3
  have e3 := step b3 e2
  rw [e0.1, e0.2] at m1
  rw [e1.1, e1.2] at m2
  rw [e2.1, e2.2] at m3
  simp only
  refine (C110_reshare_masked_round P cbor s3 keyM nodes corrupted nodes t f1 g1 ht m1 hcbor (adm e3) (by omega)).bind fun x h4 => ?_
  obtain ⟨key, s4⟩ := x
  obtain ⟨b4, -, f4, m4, -⟩ := C106_reshare_masked_round P cbor s3 s4 keyM key nodes corrupted nodes t f1 g1 (by omega) (by omega) ht
    (by omega) m1 h4
  have e4 := step b4 e3
  rw [e3.1, e3.2] at m4
  simp only
  refine (C110_reshare_masked_round P cbor s4 kappaM nodes corrupted nodes t f2 g2 ht m2 hcbor (adm e4) (by omega)).bind fun x h5 => ?_
  obtain ⟨kappa, s5⟩ := x
  obtain ⟨b5, -, f5, m5, -⟩ := C106_reshare_masked_round P cbor s4 s5 kappaM kappa nodes corrupted nodes t f2 g2 (by omega) (by omega) ht
    (by omega) m2 h5
  have e5 := step b5 e4
  rw [e4.1, e4.2] at m5
  obtain ⟨x0, hx0⟩ := head f4 m4.1
  obtain ⟨l0, hl0⟩ := head f3 m3.1
  simp only
  refine (C110_product_round P cbor s5 lambda key nodes corrupted nodes nodes t t f3 g3 f4 ht ht le_rfl m4 m3 hcbor (adm e5)
    (by omega)).bind fun x h6 => ?_
  obtain ⟨xl, s6⟩ := x
  obtain ⟨b6, -⟩ := C107_product_round P cbor s5 s6 lambda key xl nodes corrupted nodes nodes t t f3 g3 f4 x0 l0
    (by omega) (by omega) (by omega) m4 m3 hx0 hl0 h6
  have e6 := step b6 e5
  simp only
  refine (C110_product_round P cbor s6 lambda kappa nodes corrupted nodes nodes t t f3 g3 f5 ht ht le_rfl m5 m3 hcbor (adm e6)
    (by omega)).bind fun x h7 => ?_
  exact GoesThrough.ok _

/-! ### Signing -/

/-- Every node gets its signature share, unless the derivation of the key does not end. -/
theorem C110_shares (P : Prim) (cbor : Commitment → Res Bytes) (nodes : Nat) (t : Int) (corrupted : Nat) (seed : Seed) (S : SigSetup)
    (ht : 0 < t) (hn : nodes ≤ 2 ^ 63) (h : SigSetup.new P cbor nodes t corrupted seed = .ok S)
    (path : List Key.Index) (msg randomness : Bytes) :
    (∃ shares, S.generateShares P path (P.sha256 msg) randomness = .ok shares ∧
      shares.map Prod.fst = (List.range nodes).map node) ∨
    (S.generateShares P path (P.sha256 msg) randomness = .diverge ∧ S.publicKey P path = .diverge) := by
  obtain ⟨e1, e2, hcount, x, kappa, lambda, lambdaMask, kl, klMask, xl, xlMask, x0, k0, l0, mx, mk, ml, mkl, mxl, hx, hk, hl, hkl,
    hxl⟩ := C108_setup P cbor nodes t corrupted seed S ht hn h
  have hkey : some S.key.transcript = unmasked x := by rw [mx.2.1]; rfl
  have hkap : some S.kappa.transcript = unmasked kappa := by rw [mk.2.1]; rfl
  have hct : S.key.transcript.c.constantTerm = .ok (x0 • G) := by
    have := (constantTerm_unmasked hx).1
    rw [mx.2.1]
    exact this
  rcases C30_no_failure P path (x0 • G) with ⟨tw, c, hd⟩ | hd
  · left
    obtain ⟨rnd, hr⟩ := rhoScalar_ok P randomness (P.sha256 msg) (k0 • G) tw
    have hrho := deriveRho_eq (hashedMsg := P.sha256 msg) (constantTerm_unmasked hk).2 (constantTerm_unmasked hx).1 hd hr
    have hm : (P.sha256 msg).length ≤ 64 := by rw [P.sha256_length]; omega
    have hne : ∀ {R : Round} {f g : List Fn}, SharesMasked R nodes t f g → R.transcript.c.points ≠ [] := by
      intro R f g hs hnil
      obtain ⟨-, hlen, -⟩ := value_masked ht hs (i := 0) (by norm_num)
      have hlen' : R.transcript.c.points.length = f.length := hlen
      have hf := hs.1
      rw [hnil] at hlen'
      simp only [List.length_nil] at hlen'
      omega
    have hone : ∀ i ∈ List.range nodes, ∃ sh, S.share P path (P.sha256 msg) randomness i = .ok (node i, sh) := by
      intro i hi
      rw [List.mem_range] at hi
      rw [SigSetup.share, ml.2.2.2, mkl.2.2.2, mxl.2.2.2, index_range_map _ hi, index_range_map _ hi, index_range_map _ hi,
        hkey, hkap]
      simp only [Res.ok_bind]
      rw [new_eq hrho hm, Res.ok_bind, C69_false P path _ randomness _ _ _ _ _ (hne ml) (hne mkl) (hne mxl) _ hrho hm]
      exact ⟨_, rfl⟩
    have : Nonempty SigShare := ⟨⟨none, none⟩⟩
    choose! g hg using hone
    refine ⟨(List.range nodes).map fun i => (node i, g i), ?_, ?_⟩
    · rw [SigSetup.generateShares, e2]
      exact Res.mapM'_ok hg
    · rw [List.map_map]; rfl
  · right
    constructor
    · have hpos : 0 < nodes := by omega
      obtain ⟨k, hk'⟩ : ∃ k, List.range nodes = 0 :: k := by
        obtain ⟨m, rfl⟩ := Nat.exists_eq_succ_of_ne_zero hpos.ne'
        exact ⟨_, List.range_succ_eq_map⟩
      have hdiv : S.share P path (P.sha256 msg) randomness 0 = .diverge := by
        rw [SigSetup.share, ml.2.2.2, mkl.2.2.2, mxl.2.2.2, index_range_map _ hpos, index_range_map _ hpos, index_range_map _ hpos,
          hkey, hkap]
        simp only [Res.ok_bind, SigShare.new, deriveRho, (constantTerm_unmasked hk).2, (constantTerm_unmasked hx).1, hd,
          Res.diverge_bind]
      rw [SigSetup.generateShares, e2, hk', Res.mapM', hdiv, Res.diverge_bind]
    · rw [SigSetup.publicKey, hct, Res.ok_bind]
      simp only [derivePublicKey, Point.deserialize_serialize, Res.ok_bind, Point.ofRaw?_raw, hd, Res.diverge_bind]

/-! ### Examples: runs that return, also with damaged dealings -/

/-- A generator that counts: word number `w` of each key stream is `w`. -/
def Protocol.cycPrim : Prim :=
  { Prim.ofHash (fun _ => List.replicate 32 0) (by simp) with
    chacha20 := fun _ i => UInt8.ofNat (i / 4 / 256 ^ (3 - i % 4)) }

theorem Protocol.cyc_word (sd : Seed) (w : Nat) (i : Nat) (hi : i < 4) :
    (cycPrim.chacha20 sd.value (4 * w + i)).toNat = w / 256 ^ (3 - i) % 256 := by
  show (UInt8.ofNat ((4 * w + i) / 4 / 256 ^ (3 - (4 * w + i) % 4))).toNat = _
  rw [UInt8.toNat_ofNat', show (4 * w + i) / 4 = w by omega, show (4 * w + i) % 4 = i by omega]

theorem Protocol.cyc_beVal (sd : Seed) (w : Nat) :
    beVal [cycPrim.chacha20 sd.value (4 * w), cycPrim.chacha20 sd.value (4 * w + 1), cycPrim.chacha20 sd.value (4 * w + 2),
      cycPrim.chacha20 sd.value (4 * w + 3)] = w % 2 ^ 32 := by
  have h0 := cyc_word sd w 0 (by omega)
  have h1 := cyc_word sd w 1 (by omega)
  have h2 := cyc_word sd w 2 (by omega)
  have h3 := cyc_word sd w 3 (by omega)
  simp only [beVal, List.foldl]
  rw [add_zero] at h0
  rw [h0, h1, h2, h3]
  norm_num
  omega

theorem Protocol.cyc_flows : Flows cycPrim := by
  intro sd pos hp
  obtain ⟨w, rfl⟩ : ∃ w, pos = 4 * w := ⟨pos / 4, by omega⟩
  set r : Rng := ⟨cycPrim.chacha20 sd.value, 4 * w⟩ with hr
  have hlt : beVal (r.candidate 0) < n := by
    have hb : r.candidate 0 = [cycPrim.chacha20 sd.value (4 * w), cycPrim.chacha20 sd.value (4 * w + 1), cycPrim.chacha20 sd.value (4 * w + 2),
      cycPrim.chacha20 sd.value (4 * w + 3)] ++ ([cycPrim.chacha20 sd.value (4 * (w + 1)), cycPrim.chacha20 sd.value (4 * (w + 1) + 1), cycPrim.chacha20 sd.value (4 * (w + 1) + 2),
      cycPrim.chacha20 sd.value (4 * (w + 1) + 3)] ++ (r.candidate 0).drop 8) := rfl
    have hl : ((r.candidate 0).drop 8).length = 24 := rfl
    have hd := beVal_lt ((r.candidate 0).drop 8)
    rw [hb, beVal_append, beVal_append, cyc_beVal, cyc_beVal, List.length_append, hl]
    rw [hl] at hd
    simp only [List.length_cons, List.length_nil, zero_add, Nat.reduceAdd]
    have : n = 115792089237316195423570985008687907852837564279074904382605163141518161494337 := by decide +kernel
    rw [this]
    norm_num at hd ⊢
    omega
  refine ⟨((beVal (r.candidate 0) : Fn), _), ((C21_random_scalar r).1 _ _).2 ⟨0, by simp, ?_, rfl⟩⟩
  rw [ZMod.val_natCast, Nat.mod_eq_of_lt hlt]

theorem Protocol.cyc_fair : Fair cycPrim := by
  intro sd pos m i hp hm hi
  obtain ⟨w, rfl⟩ : ∃ w, pos = 4 * w := ⟨pos / 4, by omega⟩
  have hv : ∀ k, (Rng.uint32 ⟨cycPrim.chacha20 sd.value, 4 * w + 4 * k⟩).1 = (w + k) % 2 ^ 32 := fun k => by
    rw [← Nat.mul_add, ← cyc_beVal sd (w + k)]
    exact congrArg beVal (by simp [Rng.peek, List.range_succ])
  refine ⟨2 ^ 32 - w % 2 ^ 32 + i, ?_⟩
  rw [hv, show (w + (2 ^ 32 - w % 2 ^ 32 + i)) % 2 ^ 32 = i by omega, Nat.mod_eq_of_lt hi]

theorem Protocol.cyc_nonzero : ¬ ZeroScalar cycPrim := by
  rintro ⟨sd, rng, h⟩
  obtain ⟨k, h1, h2, -⟩ := ((C21_random_scalar _).1 _ _).1 h
  have hc : (sd.rng cycPrim).candidate 0 = (Rng.mk (fun i => UInt8.ofNat (i / 4 / 256 ^ (3 - i % 4))) 0).candidate 0 := rfl
  rcases Nat.eq_zero_or_pos k with rfl | hk
  · rw [hc, ZMod.val_zero] at h2
    revert h2
    decide +kernel
  · have := h1 0 hk
    rw [hc] at this
    revert this
    decide +kernel

/-- With this generator, nothing can go wrong. -/
theorem Protocol.cyc_goes {α : Type} {corrupted : Nat} {r : Res α} (h : GoesThrough cycPrim corrupted r) : ∃ a, r = .ok a := by
  rcases h with h | ⟨h | h, -⟩ | ⟨h, -⟩
  · exact h
  · exact absurd cyc_flows h
  · exact absurd cyc_fair h.2
  · exact absurd h.2 cyc_nonzero

/-- C110 for the bytes that the program itself makes its seeds from (poly/commitment.go `Serialize`). -/
theorem C110_program (P : Prim) (nodes : Nat) (t : Int) (corrupted : Nat) (seed : Seed) (ht : 0 < t) (hn : nodes ≤ 2 ^ 32)
    (hc : corrupted ≤ nodes) (h : 2 * t - 1 ≤ nodes) (h' : corrupted ≠ 0 → 2 * t ≤ nodes) :
    GoesThrough P corrupted (SigSetup.new P Commitment.serializeBytes nodes t corrupted seed) :=
  C110_setup P _ nodes t corrupted seed Commitment.serializeBytes_ok ht hn hc h h'

/-- Keys and a presignature for four nodes, one damaged dealing in each round, and a signature by three of the nodes: the
hypotheses of C103, C106, C107, C108 and C110 are met. -/
theorem cyc_signs (seed : Seed) (msg rn : Bytes) :
    ∃ S shares sig, SigSetup.new cycPrim Commitment.serializeBytes 4 2 1 seed = .ok S ∧
      S.generateShares cycPrim [] (cycPrim.sha256 msg) rn = .ok shares ∧ shares.length = 4 ∧
      S.generateSignature cycPrim [] (cycPrim.sha256 msg) rn (shares.drop 1) = .ok sig := by
  obtain ⟨S, hS⟩ := cyc_goes (C110_setup cycPrim Commitment.serializeBytes 4 2 1 seed Commitment.serializeBytes_ok (by norm_num) (by norm_num) (by norm_num) (by norm_num)
    (by norm_num))
  rcases C110_shares cycPrim Commitment.serializeBytes 4 2 1 seed S (by norm_num) (by norm_num) hS [] msg rn with ⟨shares, h1, h2⟩ | ⟨-, h⟩
  · have hl : shares.length = 4 := by simpa using congrArg List.length h2
    obtain ⟨sig, h3, -⟩ := (C108_signing cycPrim Commitment.serializeBytes 4 2 1 seed S (by norm_num) (by norm_num) hS [] msg rn shares h1
      (shares.drop 1) (List.drop_sublist 1 shares)).1 (by rw [List.length_drop, hl]; norm_num)
    exact ⟨S, shares, sig, hS, h1, hl, h3⟩
  · exfalso
    rw [SigSetup.publicKey] at h
    obtain ⟨e1, e2, -, x, -, -, -, -, -, -, -, x0, -, -, mx, -, -, -, -, hx, -⟩ :=
      C108_setup cycPrim Commitment.serializeBytes 4 2 1 seed S (by norm_num) (by norm_num) hS
    have hct : S.key.transcript.c.constantTerm = .ok (x0 • G) := by
      have := (constantTerm_unmasked hx).1
      rw [mx.2.1]
      exact this
    rw [hct, Res.ok_bind] at h
    rw [derivePublicKey_serialize (tweak := 0) (c := List.replicate 32 0) (show Key.deriveTweak cycPrim [] (x0 • G) = _ from rfl)] at h
    cases h

/-- Without enough helpers, four nodes with `t = 3`: a run without damage still returns only if `2t - 1 ≤ 4`. -/
example (cbor : Commitment → Res Bytes) (seed : Seed) (S : SigSetup) : SigSetup.new cycPrim cbor 4 3 0 seed ≠ .ok S := fun h => by
  have := (C108_setup cycPrim cbor 4 3 0 seed S (by norm_num) (by norm_num) h).2.2.1
  norm_num at this

end Verif
