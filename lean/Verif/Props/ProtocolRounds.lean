import Verif.Props.Protocol
import Verif.Props.ProtocolLive

/-!
C144, C145: what testutils/protocol_test.go checks on four and five nodes, for all sizes.
-/

namespace Verif

open Protocol Mega Dealings Complaints Sign

namespace Protocol

/-- A run with `corrupted` damaged dealings ends with an error, unless the generators have one of the defects of
`GoesThrough`. -/
def Refused {α : Type} (P : Prim) (corrupted : Nat) (r : Res α) : Prop :=
  (∃ e, r = .err e) ∨ ((¬ Flows P ∨ corrupted ≠ 0 ∧ ¬ Fair P) ∧ r = .diverge) ∨
    ((corrupted ≠ 0 ∧ ZeroScalar P) ∧ r.isPanic = true)

/-- Thresholds and counts in range. -/
structure Counts (s : Setup) (available numberOfDealers corrupted : Nat) : Prop where
  threshold_pos : 0 < s.threshold
  threshold_le : s.threshold ≤ s.sk.length
  nodes : s.sk.length ≤ 2 ^ 32
  available_le : available ≤ 2 ^ 32
  dealers_pos : 0 < numberOfDealers
  dealers_le : numberOfDealers ≤ available
  corrupted_le : corrupted ≤ numberOfDealers

/-- The dealings are made, and the transcript is refused. -/
theorem make_refused {P : Prim} {cbor : Commitment → Res Bytes} {s : Setup} {shares : List Shares} {op : Op}
    {numberOfDealers corrupted : Nat} (ht : 0 < s.threshold) (htn : s.threshold ≤ s.sk.length) (hn : s.sk.length ≤ 2 ^ 32)
    (hlen : shares.length ≤ 2 ^ 32) (hm : ∀ (j : Nat) (sh : Shares), shares[j]? = some sh → Matches (node j) sh op)
    (h0 : 0 < numberOfDealers) (hle : numberOfDealers ≤ shares.length) (hcor : corrupted ≤ numberOfDealers)
    (hT : ∀ (ds : DealingMap) (q r : NodeIndex → List Fn), ds.length = numberOfDealers →
      Commits ds (fun i => commitTo op.dealingKind (q i) (r i)) → (newTranscript s.threshold ds op).isErr = true) :
    Refused P corrupted (Round.make P cbor s shares op numberOfDealers corrupted) := by
  rw [Round.make, Setup.nextDealingSeed]
  obtain ⟨sd, hsd, -⟩ := C22_seed_derivation.2.2.1 P s.seed (ascii "ic-crypto-tecdsa-round-" ++ decimal s.round)
  rw [hsd, Res.ok_bind, Res.ok_bind]
  simp only
  rcases createDealings_goes (P := P) (s := { s with round := s.round + 1 }) ht htn hn hlen hm h0 hle hcor sd with
    ⟨ds, hds, hl, q, r, hsort, hd⟩ | ⟨h, hds⟩ | ⟨h, hds⟩
  · obtain ⟨e, he⟩ := Res.isErr_iff.1 (hT ds q r hl fun x hx => (hd x hx).1.deals.com)
    left
    refine ⟨e, ?_⟩
    rw [hds, Res.ok_bind, he]
    rfl
  · exact Or.inr (Or.inl ⟨h, by rw [hds]; rfl⟩)
  · obtain ⟨e, he⟩ := Res.isPanic_iff.1 hds
    exact Or.inr (Or.inr ⟨h, by rw [he]; rfl⟩)

end Protocol

/-! ### C144: too few dealers -/

/-- C144: resharing a masked secret with fewer dealers than its threshold is refused, whatever the new nodes and threshold. -/
theorem C144_reshare_masked (P : Prim) (cbor : Commitment → Res Bytes) (s : Setup) (masked : Round)
    (numberOfDealers corrupted nodes : Nat) (t : Int) (f g : List Fn) (ht0 : 0 < t) (hm : SharesMasked masked nodes t f g)
    (h : Counts s nodes numberOfDealers corrupted) (hd : numberOfDealers < t) :
    Refused P corrupted (Round.reshareOfMasked P cbor s masked numberOfDealers corrupted) := by
  have hsh : Res.mapM' maskedShare masked.openings =
      .ok ((List.range nodes).map fun i => .reshareMasked (shareOf f i) (shareOf g i)) := by
    rw [hm.2.2.2, mapM'_map]
    exact Res.mapM'_ok fun i _ => rfl
  have hav := h.available_le
  rw [Round.reshareOfMasked, hsh, Res.ok_bind]
  obtain ⟨-, hlen0, -⟩ := value_masked ht0 hm (i := 0) (by norm_num)
  have hf := hm.1
  refine make_refused h.threshold_pos h.threshold_le h.nodes (by simpa using h.available_le) (fun j sh hj => ?_) h.dealers_pos
    (by simpa using h.dealers_le) h.corrupted_le fun ds q r hlen hcom => ?_
  · obtain ⟨hj, rfl⟩ := range_map_get hj
    obtain ⟨h1, -, h3⟩ := value_masked ht0 hm (i := j) (by omega)
    exact ⟨h1, h3⟩
  · refine (C61_rejections_partial s.threshold ds _ hcom).2.1 _ (Or.inr ?_)
    show ds.length < masked.transcript.c.points.length
    have : masked.transcript.c.points.length = f.length := hlen0
    omega

/-- C144: the same for a secret without mask. -/
theorem C144_reshare_unmasked (P : Prim) (cbor : Commitment → Res Bytes) (s : Setup) (unmasked : Round)
    (numberOfDealers corrupted nodes : Nat) (t : Int) (f : List Fn) (ht0 : 0 < t) (hm : SharesUnmasked unmasked nodes t f)
    (h : Counts s nodes numberOfDealers corrupted) (hd : numberOfDealers < t) :
    Refused P corrupted (Round.reshareOfUnmasked P cbor s unmasked numberOfDealers corrupted) := by
  have hsh : Res.mapM' unmaskedShare unmasked.openings =
      .ok ((List.range nodes).map fun i => .reshareUnmasked (shareOf f i)) := by
    rw [hm.2.2, mapM'_map]
    exact Res.mapM'_ok fun i _ => rfl
  have hav := h.available_le
  rw [Round.reshareOfUnmasked, hsh, Res.ok_bind]
  obtain ⟨-, hlen0, -⟩ := value_unmasked ht0 hm (i := 0) (by norm_num)
  have hf := hm.1
  have hk : unmasked.commitment.clone.c.kind = .simple := by
    show unmasked.transcript.c.kind = _
    rw [hm.2.1]
  refine make_refused h.threshold_pos h.threshold_le h.nodes (by simpa using h.available_le) (fun j sh hj => ?_) h.dealers_pos
    (by simpa using h.dealers_le) h.corrupted_le fun ds q r hlen hcom => ?_
  · obtain ⟨hj, rfl⟩ := range_map_get hj
    obtain ⟨h1, -, h3⟩ := value_unmasked ht0 hm (i := j) (by omega)
    exact ⟨hk, h1, h3⟩
  · refine (C61_rejections_partial s.threshold ds _ hcom).2.2.1 _ (Or.inr ?_)
    show ds.length < unmasked.transcript.c.points.length
    have : unmasked.transcript.c.points.length = f.length := hlen0
    omega

/-- C144: multiplying by a masked secret that fewer nodes hold panics, with any number of dealers. -/
theorem C144_product_nodes (P : Prim) (cbor : Commitment → Res Bytes) (s : Setup) (masked unmasked : Round)
    (numberOfDealers corrupted nodes fewer : Nat) (t t' : Int) (f g l : List Fn) (hless : fewer < nodes)
    (hl : SharesUnmasked unmasked nodes t l) (hm : SharesMasked masked fewer t' f g) :
    (Round.multiply P cbor s masked unmasked numberOfDealers corrupted).isPanic = true := by
  have hp := productShares_short (fun i => shareOf l i) (fun i => shareOf f i) (fun i => shareOf g i) (List.range nodes)
    (List.range fewer) (by simpa using hless)
  rw [← hl.2.2, ← hm.2.2.2] at hp
  rw [Round.multiply]
  rcases e : productShares unmasked.openings masked.openings with _ | _ | _ | _ <;> rw [e] at hp <;> first | rfl | cases hp

/-- C144: a product with fewer than `t + t' - 1` dealers is refused. -/
theorem C144_product (P : Prim) (cbor : Commitment → Res Bytes) (s : Setup) (masked unmasked : Round)
    (numberOfDealers corrupted nodes more : Nat) (t t' : Int) (f g l : List Fn) (ht0 : 0 < t) (ht0' : 0 < t') (hmore : nodes ≤ more)
    (hl : SharesUnmasked unmasked nodes t l) (hm : SharesMasked masked more t' f g)
    (h : Counts s nodes numberOfDealers corrupted) (hd : numberOfDealers < t + t' - 1) :
    Refused P corrupted (Round.multiply P cbor s masked unmasked numberOfDealers corrupted) := by
  have hsh : productShares unmasked.openings masked.openings =
      .ok ((List.range nodes).map fun i => .unmaskedTimesMasked (shareOf l i) (shareOf f i) (shareOf g i)) := by
    rw [hl.2.2, hm.2.2.2]
    refine productShares_eq _ _ _ _ _ ?_
    obtain ⟨k, rfl⟩ := Nat.exists_eq_add_of_le hmore
    exact ⟨_, List.range_add⟩
  have hav := h.available_le
  rw [Round.multiply, hsh, Res.ok_bind]
  obtain ⟨-, hlen1, -⟩ := value_unmasked ht0 hl (i := 0) (by norm_num)
  obtain ⟨-, hlen2, -⟩ := value_masked ht0' hm (i := 0) (by norm_num)
  have hf := hm.1
  have hl0 := hl.1
  have hk1 : unmasked.commitment.clone.c.kind = .simple := by
    show unmasked.transcript.c.kind = _
    rw [hl.2.1]
  have hk2 : masked.commitment.clone.c.kind = .pedersen := by
    show masked.transcript.c.kind = _
    rw [hm.2.2.1]
  refine make_refused h.threshold_pos h.threshold_le h.nodes (by simpa using h.available_le) (fun j sh hj => ?_) h.dealers_pos
    (by simpa using h.dealers_le) h.corrupted_le fun ds q r hlen hcom => ?_
  · obtain ⟨hj, rfl⟩ := range_map_get hj
    obtain ⟨h1, -, h3⟩ := value_unmasked ht0 hl (i := j) (by omega)
    obtain ⟨h4, -, h5⟩ := value_masked ht0' hm (i := j) (by omega)
    exact ⟨hk1, h1, h3, hk2, h4, h5⟩
  · refine (C61_rejections_partial s.threshold ds _ hcom).2.2.2.1 _ _ (Or.inr (Or.inr ?_))
    show ds.length + 1 < unmasked.transcript.c.points.length + masked.transcript.c.points.length
    have e1 : unmasked.transcript.c.points.length = l.length := hlen1
    have e2 : masked.transcript.c.points.length = f.length := hlen2
    omega

/-! ### C145: constant terms -/

theorem Protocol.constantTerm_of {R : Round} {nodes : Nat} {t : Int} {f : List Fn} {a : Fn} (h : SharesUnmasked R nodes t f)
    (ha : f.head? = some a) : R.constantTerm = .ok (a • G) := by
  have h2 := (constantTerm_unmasked ha).1
  rw [Round.constantTerm]
  show R.transcript.c.constantTerm = _
  rw [h.2.1]
  exact h2

theorem Protocol.head_of {t : Int} {f : List Fn} (h : (f.length : Int) = t) (ht : 0 < t) : ∃ a, f.head? = some a := by
  cases f with
  | nil => simp at h; omega
  | cons a f => exact ⟨a, rfl⟩

/-- C145: resharings of one masked secret have the same constant term, whatever the setups (nodes and thresholds), the numbers
of dealers and of damaged dealings. -/
theorem C145_reshare_masked (P P' : Prim) (cbor cbor' : Commitment → Res Bytes) (s1 s1' s2 s2' : Setup) (masked R1 R2 : Round)
    (n1 n2 c1 c2 nodes : Nat) (t : Int) (f g : List Fn) (ht1 : 0 < s1.threshold) (hn1 : s1.sk.length ≤ 2 ^ 63)
    (ht2 : 0 < s2.threshold) (hn2 : s2.sk.length ≤ 2 ^ 63) (ht0 : 0 < t) (hn0 : nodes ≤ 2 ^ 63)
    (hm : SharesMasked masked nodes t f g)
    (h1 : Round.reshareOfMasked P cbor s1 masked n1 c1 = .ok (R1, s1'))
    (h2 : Round.reshareOfMasked P' cbor' s2 masked n2 c2 = .ok (R2, s2')) :
    ∃ Q, R1.constantTerm = .ok Q ∧ R2.constantTerm = .ok Q := by
  obtain ⟨-, -, f1, m1, e1⟩ := C106_reshare_masked_round P cbor s1 s1' masked R1 n1 c1 nodes t f g ht1 hn1 ht0 hn0 hm h1
  obtain ⟨-, -, f2, m2, e2⟩ := C106_reshare_masked_round P' cbor' s2 s2' masked R2 n2 c2 nodes t f g ht2 hn2 ht0 hn0 hm h2
  obtain ⟨a, ha⟩ := head_of hm.1 ht0
  exact ⟨a • G, constantTerm_of m1 (e1.trans ha), constantTerm_of m2 (e2.trans ha)⟩

/-- C145: resharing a secret without mask keeps the constant term. -/
theorem C145_reshare_unmasked (P : Prim) (cbor : Commitment → Res Bytes) (s s' : Setup) (unmasked R : Round)
    (numberOfDealers corrupted nodes : Nat) (t : Int) (f : List Fn) (ht : 0 < s.threshold) (hn : s.sk.length ≤ 2 ^ 63)
    (ht0 : 0 < t) (hn0 : nodes ≤ 2 ^ 63) (hm : SharesUnmasked unmasked nodes t f)
    (h : Round.reshareOfUnmasked P cbor s unmasked numberOfDealers corrupted = .ok (R, s')) :
    ∃ Q, R.constantTerm = .ok Q ∧ unmasked.constantTerm = .ok Q := by
  obtain ⟨-, -, f1, m1, e1⟩ := C106_reshare_unmasked_round P cbor s s' unmasked R numberOfDealers corrupted nodes t f ht hn ht0 hn0 hm h
  obtain ⟨a, ha⟩ := head_of hm.1 ht0
  exact ⟨a • G, constantTerm_of m1 (e1.trans ha), constantTerm_of hm ha⟩

/-- C145: with `c`, `d` the resharings of the random secrets `a`, `b`, the products `a·d` and `b·c`, reshared, have the same
constant term.  Round `i` has `n i` dealers, of which `k i` have their dealings damaged. -/
theorem C145_products (P : Prim) (cbor : Commitment → Res Bytes) (s0 s1 s2 s3 s4 s5 s6 s7 s8 : Setup)
    (a b c d ad bc r1 r2 : Round) (n k : Nat → Nat) (ht : 0 < s0.threshold) (hn : s0.sk.length ≤ 2 ^ 63) (hd : ∀ i, n i ≤ 2 ^ 63)
    (h1 : Round.random P cbor s0 (n 0) (k 0) = .ok (a, s1)) (h2 : Round.random P cbor s1 (n 1) (k 1) = .ok (b, s2))
    (h3 : Round.reshareOfMasked P cbor s2 a (n 2) (k 2) = .ok (c, s3))
    (h4 : Round.reshareOfMasked P cbor s3 b (n 3) (k 3) = .ok (d, s4))
    (h5 : Round.multiply P cbor s4 a d (n 4) (k 4) = .ok (ad, s5))
    (h6 : Round.multiply P cbor s5 b c (n 5) (k 5) = .ok (bc, s6))
    (h7 : Round.reshareOfMasked P cbor s6 ad (n 6) (k 6) = .ok (r1, s7))
    (h8 : Round.reshareOfMasked P cbor s7 bc (n 7) (k 7) = .ok (r2, s8)) :
    ∃ Q, r1.constantTerm = .ok Q ∧ r2.constantTerm = .ok Q := by
  obtain ⟨⟨t1, l1, -⟩, fa, ga, ma⟩ := C103_random_round P cbor s0 s1 _ _ a ht hn (hd 0) h1
  rw [← t1] at ht
  rw [← l1] at hn
  rw [← t1, ← l1] at ma
  obtain ⟨⟨t2, l2, -⟩, fb, gb, mb⟩ := C103_random_round P cbor s1 s2 _ _ b ht hn (hd 1) h2
  rw [← t2] at ht
  rw [← l2] at hn
  rw [← t2, ← l2] at ma mb
  obtain ⟨⟨t3, l3, -⟩, -, fc, mc, ec⟩ := C106_reshare_masked_round P cbor s2 s3 a c _ _ _ _ fa ga ht hn ht hn ma h3
  rw [← t3] at ht
  rw [← l3] at hn
  rw [← t3, ← l3] at ma mb mc
  obtain ⟨⟨t4, l4, -⟩, -, fd, md, ed⟩ := C106_reshare_masked_round P cbor s3 s4 b d _ _ _ _ fb gb ht hn ht hn mb h4
  rw [← t4] at ht
  rw [← l4] at hn
  rw [← t4, ← l4] at ma mb mc md
  obtain ⟨x, hx⟩ := head_of ma.1 ht
  obtain ⟨y, hy⟩ := head_of mb.1 ht
  obtain ⟨⟨t5, l5, -⟩, -, fad, gad, mad, ead⟩ := C107_product_round P cbor s4 s5 a d ad _ _ _ _ _ _ fa ga fd y x ht hn hn
    md ma (ed.trans hy) hx h5
  rw [← t5] at ht
  rw [← l5] at hn
  rw [← t5, ← l5] at mad mb mc
  obtain ⟨⟨t6, l6, -⟩, -, fbc, gbc, mbc, ebc⟩ := C107_product_round P cbor s5 s6 b c bc _ _ _ _ _ _ fb gb fc x y ht hn hn
    mc mb (ec.trans hx) hy h6
  rw [← t6] at ht
  rw [← l6] at hn
  rw [← t6, ← l6] at mad mbc
  obtain ⟨⟨t7, l7, -⟩, -, f1, m1, e1⟩ := C106_reshare_masked_round P cbor s6 s7 ad r1 _ _ _ _ fad gad ht hn ht hn mad h7
  rw [← t7] at ht
  rw [← l7] at hn
  rw [← t7, ← l7] at mbc
  obtain ⟨-, -, f2, m2, e2⟩ := C106_reshare_masked_round P cbor s7 s8 bc r2 _ _ _ _ fbc gbc ht hn ht hn mbc h8
  refine ⟨(y * x) • G, constantTerm_of m1 (e1.trans ead), constantTerm_of m2 ?_⟩
  rw [mul_comm]
  exact e2.trans ebc

/-- C145: after the threshold was changed and the last nodes were removed, resharing hands the secret to the remaining nodes
with the new threshold. -/
theorem C145_dynamic (P : Prim) (cbor : Commitment → Res Bytes) (s s1 s' : Setup) (unmasked R : Round) (removing : Nat) (t' : Int)
    (numberOfDealers corrupted nodes : Nat) (t : Int) (f : List Fn) (ht : 0 < t') (hn : s.sk.length ≤ 2 ^ 63) (ht0 : 0 < t)
    (hn0 : nodes ≤ 2 ^ 63) (hm : SharesUnmasked unmasked nodes t f) (h1 : (s.modifyThreshold t').removeNodes removing = .ok s1)
    (h : Round.reshareOfUnmasked P cbor s1 unmasked numberOfDealers corrupted = .ok (R, s')) :
    s1.sk <+: s.sk ∧ s1.sk.length + removing = s.sk.length ∧ s1.threshold = t' ∧ t ≤ numberOfDealers ∧
      ∃ f', SharesUnmasked R (s.sk.length - removing) t' f' ∧ f'.head? = f.head? := by
  unfold Setup.removeNodes Setup.modifyThreshold at h1
  dsimp only at h1
  by_cases hk : s.sk.length < removing
  · rw [if_pos hk] at h1; cases h1
  rw [if_neg hk] at h1
  obtain rfl := Res.ok.inj h1
  have hl : (s.sk.take (s.sk.length - removing)).length = s.sk.length - removing := by rw [List.length_take]; omega
  obtain ⟨-, h2, f', m, e⟩ := C106_reshare_unmasked_round P cbor _ s' unmasked R numberOfDealers corrupted nodes t f ht
    (show (s.sk.take (s.sk.length - removing)).length ≤ _ by omega) ht0 hn0 hm h
  refine ⟨List.take_prefix _ _, ?_, rfl, h2, f', ?_, e⟩
  · show (s.sk.take (s.sk.length - removing)).length + _ = _
    omega
  · rw [← hl]; exact m

/-- Four nodes, threshold two, one damaged dealing: a random secret is reshared by two, by three and by four dealers, with the same
constant term; one dealer is not enough. -/
example (s : Setup) (ht : s.threshold = 2) (hn : s.sk.length = 4) : ∃ a s1 b s2 c s3 Q,
    Round.random cycPrim Commitment.serializeBytes s 4 1 = .ok (a, s1) ∧
    Round.reshareOfMasked cycPrim Commitment.serializeBytes s1 a 2 1 = .ok (b, s2) ∧
    Round.reshareOfMasked cycPrim Commitment.serializeBytes s2 a 3 1 = .ok (c, s3) ∧
    b.constantTerm = .ok Q ∧ c.constantTerm = .ok Q ∧
    ∃ e, Round.reshareOfMasked cycPrim Commitment.serializeBytes s3 a 1 0 = .err e := by
  obtain ⟨⟨a, s1⟩, h1⟩ := cyc_goes (C110_random_round cycPrim Commitment.serializeBytes s 4 1 Commitment.serializeBytes_ok
    ⟨by omega, by omega, by omega, by omega, by omega, by omega, by omega, by omega⟩)
  obtain ⟨⟨t1, l1, -⟩, f, g, m⟩ := C103_random_round cycPrim _ s s1 4 1 a (by omega) (by omega) (by omega) h1
  rw [← t1] at ht
  rw [← l1] at hn
  rw [t1.symm, l1.symm, ht, hn] at m
  have ht1 := ht
  have hn1 := hn
  obtain ⟨⟨b, s2⟩, h2⟩ := cyc_goes (C110_reshare_masked_round cycPrim Commitment.serializeBytes s1 a 2 1 4 2 f g (by omega) m
    Commitment.serializeBytes_ok ⟨by omega, by omega, by omega, by omega, by omega, by omega, by omega, by omega⟩ (by omega))
  obtain ⟨⟨t2, l2, -⟩, -⟩ := C106_reshare_masked_round cycPrim _ s1 s2 a b 2 1 4 2 f g (by omega) (by omega) (by omega) (by omega) m h2
  rw [← t2] at ht
  rw [← l2] at hn
  obtain ⟨⟨c, s3⟩, h3⟩ := cyc_goes (C110_reshare_masked_round cycPrim Commitment.serializeBytes s2 a 3 1 4 2 f g (by omega) m
    Commitment.serializeBytes_ok ⟨by omega, by omega, by omega, by omega, by omega, by omega, by omega, by omega⟩ (by omega))
  obtain ⟨⟨t3, l3, -⟩, -⟩ := C106_reshare_masked_round cycPrim _ s2 s3 a c 3 1 4 2 f g (by omega) (by omega) (by omega) (by omega) m h3
  obtain ⟨Q, hb, hc⟩ := C145_reshare_masked cycPrim cycPrim _ _ s1 s2 s2 s3 a b c 2 3 1 1 4 2 f g (by omega) (by omega) (by omega)
    (by omega) (by omega) (by omega) m h2 h3
  rw [← t3] at ht
  rw [← l3] at hn
  refine ⟨a, s1, b, s2, c, s3, Q, h1, h2, h3, hb, hc, ?_⟩
  rcases C144_reshare_masked cycPrim Commitment.serializeBytes s3 a 1 0 4 2 f g (by omega) m
    ⟨by omega, by omega, by omega, by omega, by omega, by omega, by omega⟩ (by omega) with h | ⟨h, -⟩ | ⟨⟨h, -⟩, -⟩
  · exact h
  · rcases h with h | ⟨h, -⟩
    · exact absurd cyc_flows h
    · exact absurd rfl h
  · exact absurd rfl h

end Verif
