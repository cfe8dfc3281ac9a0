import Verif.Spec.Protocol
import Verif.Lemmas.Protocol
import Verif.Props.Sign

/-! C103, C106–C110: runs of the protocol. -/

set_option autoImplicit false

open Polynomial

namespace Verif.Protocol

open Mega Dealings Complaints Sign

theorem place_node {i : Nat} (h : i < 2 ^ 63) : place (node i) = (i : Fn) + 1 := by
  rw [place, node, show (BitVec.ofNat 64 i + 1) = BitVec.ofNat 64 (i + 1) from by simp [BitVec.ofNat_add],
    BitVec.toNat_ofNat, Nat.mod_eq_of_lt (by omega)]
  push_cast
  rfl

theorem map_valueOf_pedersen {n : Nat} (hn : n ≤ 2 ^ 63) (f g : List Fn) :
    ((List.range n).map fun i => valueOf .pedersen f g (node i)) =
      (List.range n).map fun i => .pedersen (shareOf f i) (shareOf g i) :=
  List.map_congr_left fun i hi => by
    rw [List.mem_range] at hi
    rw [valueOf, place_node (by omega), shareOf, shareOf]

theorem map_valueOf_simple {n : Nat} (hn : n ≤ 2 ^ 63) (f g : List Fn) :
    ((List.range n).map fun i => valueOf .simple f g (node i)) = (List.range n).map fun i => .simple (shareOf f i) :=
  List.map_congr_left fun i hi => by
    rw [List.mem_range] at hi
    rw [valueOf, place_node (by omega), shareOf]

theorem length_genKeys {n : Nat} {rng rng' : Rng} {l : List Fn} (h : genKeys n rng = .ok (l, rng')) : l.length = n := by
  induction n generalizing rng rng' l with
  | zero => cases h; rfl
  | succ n ih =>
    rw [genKeys] at h
    obtain ⟨⟨x, rng1⟩, -, h⟩ := Res.bind_eq_ok.1 h
    obtain ⟨⟨l', rng2⟩, h1, h⟩ := Res.bind_eq_ok.1 h
    cases h
    rw [List.length_cons, ih h1]

theorem setup_new {P : Prim} {receivers : Nat} {t : Int} {seed : Seed} {s : Setup} (h : Setup.new P receivers t seed = .ok s) :
    s.threshold = t ∧ s.sk.length = receivers := by
  rw [Setup.new] at h
  rcases hx : (seed.rng P).xorKeyStream (List.replicate 32 0) with ⟨ad, rng⟩
  rw [hx] at h
  simp only at h
  obtain ⟨⟨l, rng'⟩, h1, h⟩ := Res.bind_eq_ok.1 h
  cases h
  exact ⟨rfl, length_genKeys h1⟩

theorem mem_mapM' {α β : Type} {f : α → Res β} {l : List α} {bs : List β} (h : Res.mapM' f l = .ok bs) :
    ∀ b ∈ bs, ∃ a ∈ l, f a = .ok b := by
  have := Res.mapM'_eq_ok.1 h
  clear h
  induction this with
  | nil => simp
  | cons h1 h2 ih =>
    intro b hb
    rcases List.mem_cons.1 hb with rfl | hb
    · exact ⟨_, by simp, h1⟩
    · obtain ⟨a, ha, h⟩ := ih b hb
      exact ⟨a, List.mem_cons_of_mem _ ha, h⟩

theorem index_range_map {β : Type} (f : Nat → β) {n i : Nat} (h : i < n) : index ((List.range n).map f) i = .ok (f i) :=
  index_ok (by simp [h])

theorem nodup_range_node {n : Nat} (hn : n ≤ 2 ^ 63) : ((List.range n).map node).Nodup := by
  refine List.Nodup.map_on ?_ List.nodup_range
  intro a ha b hb e
  rw [List.mem_range] at ha hb
  have := congrArg BitVec.toInt e
  rw [toInt_node (by omega), toInt_node (by omega)] at this
  exact_mod_cast this

theorem get_of_nodup {V : Type} {m : List (NodeIndex × V)} (hn : (m.map Prod.fst).Nodup) {y : NodeIndex × V} (hy : y ∈ m) :
    OMap.get BitVec.toInt y.1 m = some y.2 := by
  induction m with
  | nil => simp at hy
  | cons z m ih =>
    obtain ⟨k, v⟩ := z
    rw [List.map_cons, List.nodup_cons] at hn
    rw [OMap.get]
    rcases List.mem_cons.1 hy with rfl | hy
    · rw [if_pos rfl]
    · rw [if_neg, ih hn.2 hy]
      intro e
      exact hn.1 (List.mem_map.2 ⟨y, hy, BitVec.eq_of_toInt_eq e⟩)

/-- The standard library's check is that of SEC 1. -/
theorem ecdsaVerify_iff {Q : Pt} {hash : Bytes} {r s : Fn} : ecdsaVerify Q hash r s = true ↔ EcdsaValid Q (hashNumber hash) r s := by
  simp only [ecdsaVerify, EcdsaValid, hashNumber, Bool.and_eq_true, decide_eq_true_eq, div_eq_mul_inv, and_assoc]
  refine and_congr Iff.rfl (and_congr Iff.rfl ?_)
  simp only [Point.mulPoints]
  generalize (((beVal (List.take 32 hash) : Nat) : Fn) * s⁻¹) • G + (r * s⁻¹) • Q = X
  constructor
  · rintro ⟨h1, h2⟩
    revert h1 h2
    refine Point.pt_cases (motive := fun X => X ≠ 0 → ((Point.affineX X).val : Fn) = r →
      ∃ x y, ∃ h : OnCurve x y, X = Pt.mk x y h ∧ r = (x.val : Fn)) ?_ ?_ X
    · exact fun h => absurd rfl h
    · exact fun x y h _ h2 => ⟨x, y, h, rfl, h2.symm⟩
  · rintro ⟨x, y, h, rfl, h2⟩
    exact ⟨WeierstrassCurve.Affine.Point.some_ne_zero _, h2.symm⟩

/-- The constant term of an interpolated polynomial. -/
theorem interp_head {t : Int} {op : Op} {ds : DealingMap} {cm : NodeIndex → Commitment} {T : Com} {w : NodeIndex → Fn}
    {q : NodeIndex → List Fn} (ht : 0 < t) (hs : Shape t ds cm op T w) (hop : op ≠ .random) (F : Fn[X])
    (hF : F.degree < ds.length) (hq : ∀ x ∈ ds, Poly.coeff (q x.1) 0 = F.eval (place x.1)) :
    (linComb w (ds.map Prod.fst) q t.toNat).head? = some (F.eval 0) := by
  obtain ⟨-, -, -, hsum⟩ := hs.interp hop
  rw [head_linComb _ _ _ (by omega), ← hsum F hF]
  congr 2
  refine List.map_congr_left fun i hi => ?_
  obtain ⟨x, hx, rfl⟩ := List.mem_map.1 hi
  rw [hq x hx]

theorem eval_zero_head {f : List Fn} {a : Fn} (h : f.head? = some a) : (toPoly f).eval 0 = a := by
  cases f with
  | nil => cases h
  | cons b f =>
    rw [← Poly.evaluateAt_eq, Poly.evaluateAt_zero]
    cases h; rfl

theorem mapM'_map {α β γ : Type} (f : β → Res γ) (g : α → β) (l : List α) :
    Res.mapM' f (l.map g) = Res.mapM' (fun a => f (g a)) l := by
  induction l with
  | nil => rfl
  | cons a l ih => simp only [List.map_cons, Res.mapM', ih]

theorem enough_masked {t : Int} {ds : DealingMap} {p1 : Com} {T : Option Com}
    (h : newTranscript t ds (.reshareMasked p1) = .ok T) : p1.c.points.length ≤ ds.length := by
  rw [newTranscript.eq_def] at h
  obtain ⟨⟨⟩, -, h⟩ := Res.bind_eq_ok.1 h
  simp only at h
  split_ifs at h with h1 h2
  omega

theorem enough_unmasked {t : Int} {ds : DealingMap} {p1 : Com} {T : Option Com}
    (h : newTranscript t ds (.reshareUnmasked p1) = .ok T) : p1.c.points.length ≤ ds.length := by
  rw [newTranscript.eq_def] at h
  obtain ⟨⟨⟩, -, h⟩ := Res.bind_eq_ok.1 h
  simp only at h
  split_ifs at h with h1 h2
  omega

theorem enough_product {t : Int} {ds : DealingMap} {l r : Com} {T : Option Com}
    (h : newTranscript t ds (.unmaskedTimesMasked l r) = .ok T) :
    (l.c.points.length : Int) + r.c.points.length - 1 ≤ ds.length := by
  rw [newTranscript.eq_def] at h
  obtain ⟨⟨⟩, -, h⟩ := Res.bind_eq_ok.1 h
  simp only at h
  split_ifs at h with h1 h2
  omega

theorem degree_mul_toPoly_lt {l r : List Fn} {m : Nat} (h : (l.length : Int) + r.length - 1 ≤ m) (hl : l ≠ []) (hr : r ≠ []) :
    (toPoly l * toPoly r).degree < m := by
  have h1 := List.length_pos_iff.2 hl
  have h2 := List.length_pos_iff.2 hr
  have h3 := degree_toPoly_lt l
  have h4 := degree_toPoly_lt r
  by_cases hz : toPoly l * toPoly r = 0
  · rw [hz, degree_zero]; exact WithBot.bot_lt_coe _
  · have hz1 := left_ne_zero_of_mul hz
    have hz2 := right_ne_zero_of_mul hz
    rw [degree_eq_natDegree hz1] at h3
    rw [degree_eq_natDegree hz2] at h4
    rw [degree_eq_natDegree hz, natDegree_mul hz1 hz2]
    have h3 : (toPoly l).natDegree < l.length := by exact_mod_cast h3
    have h4 : (toPoly r).natDegree < r.length := by exact_mod_cast h4
    have : (toPoly l).natDegree + (toPoly r).natDegree < m := by omega
    exact_mod_cast this

/-- A round whose dealers deal values of the polynomial `F`, whose degree is less than the number of dealings kept. -/
theorem make_interp {P : Prim} {cbor : Commitment → Res Bytes} {s s' : Setup} {nodes : Nat} {share : Nat → Shares} {op : Op}
    {numberOfDealers corrupted : Nat} {R : Round} (ht : 0 < s.threshold) (hn : s.sk.length ≤ 2 ^ 63)
    (hnodes : nodes ≤ 2 ^ 63) (hop : op ≠ .random) (hk : ∀ i, share i ≠ .other ∧ (share i).hidden = decide (op.dealingKind = .pedersen))
    (F : Fn[X]) (hF : ∀ i, i < nodes → (share i).secret = some (F.eval ((i : Fn) + 1)))
    (hdeg : ∀ T, newTranscript s.threshold R.dealings op = .ok T → F.degree < R.dealings.length)
    (h : Round.make P cbor s ((List.range nodes).map share) op numberOfDealers corrupted = .ok (R, s')) :
    SameNodes s s' ∧ R.dealings.length ≤ numberOfDealers ∧ (∃ T, newTranscript s.threshold R.dealings op = .ok T) ∧
      R.transcript.wrap = .interpolation ∧
      ∃ f g : List Fn, (f.length : Int) = s.threshold ∧ (g.length : Int) = s.threshold ∧ f.head? = some (F.eval 0) ∧
        R.transcript.c = commitTo op.dealingKind f g ∧
        R.openings = (List.range s.sk.length).map fun i => valueOf op.dealingKind f g (node i) := by
  obtain ⟨e1, e2, e3, e4, q, r, w, -, hle, hT, hs, hd, h1, h2⟩ := make_spec ht hn (by simpa using hnodes) (fun sh hsh => by
    obtain ⟨i, -, rfl⟩ := List.mem_map.1 hsh
    exact hk i) h
  refine ⟨⟨e1, e2, e3, e4⟩, hle, ⟨_, hT⟩, (hs.interp hop).1, _, _, ?_, ?_, ?_, h1, h2⟩
  · rw [Dealings.length_linComb]; omega
  · rw [Dealings.length_linComb]; omega
  · refine interp_head ht hs hop F (hdeg _ hT) fun x hx => ?_
    obtain ⟨j, sh, hj, hxj, hsec⟩ := hd x hx
    rw [List.getElem?_map] at hj
    have hj' : j < nodes := by
      by_contra hc
      rw [List.getElem?_eq_none (by simpa using hc)] at hj
      cases hj
    rw [List.getElem?_range hj'] at hj
    cases hj
    rw [hsec _ (hF j hj'), hxj, place_node (by omega)]

end Protocol

open Protocol Mega Dealings Complaints Sign

/-! ### C103: random secrets -/

/-- However many dealers there are and however many dealings are damaged: when a random round returns, its transcript
commits to a pair of polynomials with `threshold` coefficients, and every node has the values at its place. -/
theorem C103_random_round (P : Prim) (cbor : Commitment → Res Bytes) (s s' : Setup) (numberOfDealers corrupted : Nat) (R : Round)
    (ht : 0 < s.threshold) (hn : s.sk.length ≤ 2 ^ 63) (hd : numberOfDealers ≤ 2 ^ 63)
    (h : Round.random P cbor s numberOfDealers corrupted = .ok (R, s')) :
    SameNodes s s' ∧ ∃ f g, SharesMasked R s.sk.length s.threshold f g := by
  obtain ⟨e1, e2, e3, e4, q, r, w, -, -, -, -, -, h1, h2⟩ := make_spec ht hn (by simpa using hd)
    (fun sh hsh => by rw [List.eq_of_mem_replicate hsh]; exact ⟨by simp, rfl⟩) h
  refine ⟨⟨e1, e2, e3, e4⟩, _, _, ?_, ?_, h1, ?_⟩
  · rw [Dealings.length_linComb]; omega
  · rw [Dealings.length_linComb]; omega
  · rw [h2]
    exact map_valueOf_pedersen hn _ _

/-! ### C106: resharing keeps the secret -/

/-- Resharing a masked secret, possibly to other nodes and with another threshold: the new polynomial has the same constant
term, and its commitment is without mask. -/
theorem C106_reshare_masked_round (P : Prim) (cbor : Commitment → Res Bytes) (s s' : Setup) (masked R : Round)
    (numberOfDealers corrupted nodes : Nat) (t : Int) (f g : List Fn) (ht : 0 < s.threshold) (hn : s.sk.length ≤ 2 ^ 63)
    (ht0 : 0 < t) (hn0 : nodes ≤ 2 ^ 63) (hm : SharesMasked masked nodes t f g)
    (h : Round.reshareOfMasked P cbor s masked numberOfDealers corrupted = .ok (R, s')) :
    SameNodes s s' ∧ t ≤ numberOfDealers ∧
      ∃ f', SharesUnmasked R s.sk.length s.threshold f' ∧ f'.head? = f.head? := by
  obtain ⟨hf, hg, hc, ho⟩ := hm
  have hsh : Res.mapM' maskedShare masked.openings =
      .ok ((List.range nodes).map fun i => .reshareMasked (shareOf f i) (shareOf g i)) := by
    rw [ho, mapM'_map]
    exact Res.mapM'_ok fun i _ => rfl
  rw [Round.reshareOfMasked, hsh, Res.ok_bind] at h
  have hlen : masked.commitment.clone.c.points.length = f.length := by
    show masked.transcript.c.points.length = _
    rw [hc]
    simp only [List.length_zipWith]
    omega
  have hcount : ∀ T, newTranscript s.threshold R.dealings (.reshareMasked masked.commitment.clone) = .ok T →
      f.length ≤ R.dealings.length := fun T hT => by
    have := enough_masked hT
    omega
  obtain ⟨hsame, hle, ⟨T, hT⟩, hw, f', g', h1, -, h3, h4, h5⟩ := make_interp ht hn hn0 (by simp) (fun i => ⟨by simp, rfl⟩) (toPoly f)
    (fun i _ => rfl) (fun T hT => lt_of_lt_of_le (degree_toPoly_lt f) (by exact_mod_cast hcount T hT)) h
  have := hcount T hT
  refine ⟨hsame, by omega, f', ⟨h1, ?_, ?_⟩, ?_⟩
  · rcases hR : R.transcript with ⟨wr, c⟩
    rw [hR] at hw h4
    simp only at hw h4
    rw [hw, h4]; rfl
  · rw [h5]; exact map_valueOf_simple hn _ _
  · rw [h3]
    cases f with
    | nil => simp at hf; omega
    | cons a f => rw [eval_zero_head rfl]; rfl

/-- The same for a secret without mask. -/
theorem C106_reshare_unmasked_round (P : Prim) (cbor : Commitment → Res Bytes) (s s' : Setup) (unmasked R : Round)
    (numberOfDealers corrupted nodes : Nat) (t : Int) (f : List Fn) (ht : 0 < s.threshold) (hn : s.sk.length ≤ 2 ^ 63)
    (ht0 : 0 < t) (hn0 : nodes ≤ 2 ^ 63) (hm : SharesUnmasked unmasked nodes t f)
    (h : Round.reshareOfUnmasked P cbor s unmasked numberOfDealers corrupted = .ok (R, s')) :
    SameNodes s s' ∧ t ≤ numberOfDealers ∧
      ∃ f', SharesUnmasked R s.sk.length s.threshold f' ∧ f'.head? = f.head? := by
  obtain ⟨hf, hc, ho⟩ := hm
  have hsh : Res.mapM' unmaskedShare unmasked.openings =
      .ok ((List.range nodes).map fun i => .reshareUnmasked (shareOf f i)) := by
    rw [ho, mapM'_map]
    exact Res.mapM'_ok fun i _ => rfl
  rw [Round.reshareOfUnmasked, hsh, Res.ok_bind] at h
  have hlen : unmasked.commitment.clone.c.points.length = f.length := by
    show unmasked.transcript.c.points.length = _
    rw [hc]
    simp only [List.length_map]
  have hcount : ∀ T, newTranscript s.threshold R.dealings (.reshareUnmasked unmasked.commitment.clone) = .ok T →
      f.length ≤ R.dealings.length := fun T hT => by
    have := enough_unmasked hT
    omega
  obtain ⟨hsame, hle, ⟨T, hT⟩, hw, f', g', h1, -, h3, h4, h5⟩ := make_interp ht hn hn0 (by simp) (fun i => ⟨by simp, rfl⟩) (toPoly f)
    (fun i _ => rfl) (fun T hT => lt_of_lt_of_le (degree_toPoly_lt f) (by exact_mod_cast hcount T hT)) h
  have := hcount T hT
  refine ⟨hsame, by omega, f', ⟨h1, ?_, ?_⟩, ?_⟩
  · rcases hR : R.transcript with ⟨wr, c⟩
    rw [hR] at hw h4
    simp only at hw h4
    rw [hw, h4]; rfl
  · rw [h5]; exact map_valueOf_simple hn _ _
  · rw [h3]
    cases f with
    | nil => simp at hf; omega
    | cons a f => rw [eval_zero_head rfl]; rfl

/-! ### C107: products -/

theorem Protocol.productShares_eq (f v m : Nat → Fn) (l l' : List Nat) (h : ∃ k, l' = l ++ k) :
    productShares (l.map fun i => .simple (f i)) (l'.map fun i => .pedersen (v i) (m i)) =
      .ok (l.map fun i => .unmaskedTimesMasked (f i) (v i) (m i)) := by
  obtain ⟨k, rfl⟩ := h
  induction l with
  | nil => rfl
  | cons a l ih => simp only [List.map_cons, List.cons_append, productShares, ih, Res.ok_bind]

/-- With fewer holders of the masked secret the index of the loop runs out of range. -/
theorem Protocol.productShares_short (f v m : Nat → Fn) (l l' : List Nat) (h : l'.length < l.length) :
    (productShares (l.map fun i => .simple (f i)) (l'.map fun i => .pedersen (v i) (m i))).isPanic = true := by
  induction l generalizing l' with
  | nil => simp at h
  | cons a l ih =>
    cases l' with
    | nil => rfl
    | cons b l' =>
      have h' := ih l' (by simpa using h)
      simp only [List.map_cons, productShares]
      rcases e : productShares (l.map fun i => .simple (f i)) (l'.map fun i => .pedersen (v i) (m i)) with _ | _ | _ | _ <;>
        rw [e] at h' <;> first | rfl | cases h'

/-- A product of a secret `a` without mask and a masked secret `b`, held by any numbers of nodes: when the round returns, the new
secret is `a * b`. -/
theorem C107_product_round (P : Prim) (cbor : Commitment → Res Bytes) (s s' : Setup) (masked unmasked R : Round)
    (numberOfDealers corrupted nodes more : Nat) (t t' : Int) (f g l : List Fn) (a b : Fn) (ht : 0 < s.threshold)
    (hn : s.sk.length ≤ 2 ^ 63) (hn0 : nodes ≤ 2 ^ 63)
    (hl : SharesUnmasked unmasked nodes t l) (hm : SharesMasked masked more t' f g) (ha : l.head? = some a) (hb : f.head? = some b)
    (h : Round.multiply P cbor s masked unmasked numberOfDealers corrupted = .ok (R, s')) :
    SameNodes s s' ∧ t + t' - 1 ≤ numberOfDealers ∧
      ∃ f' g', SharesMasked R s.sk.length s.threshold f' g' ∧ f'.head? = some (a * b) := by
  obtain ⟨hll, hlc, hlo⟩ := hl
  obtain ⟨hf, hg, hc, ho⟩ := hm
  have hmore : nodes ≤ more := by
    by_contra hlt
    have hp := productShares_short (fun i => shareOf l i) (fun i => shareOf f i) (fun i => shareOf g i) (List.range nodes)
      (List.range more) (by simpa using hlt)
    rw [← hlo, ← ho] at hp
    rw [Round.multiply] at h
    rcases e : productShares unmasked.openings masked.openings with _ | _ | _ | _ <;> rw [e] at hp h <;>
      first | (cases hp; done) | (cases h; done)
  have hsh : productShares unmasked.openings masked.openings =
      .ok ((List.range nodes).map fun i => .unmaskedTimesMasked (shareOf l i) (shareOf f i) (shareOf g i)) := by
    rw [hlo, ho]
    refine productShares_eq _ _ _ _ _ ?_
    obtain ⟨k, rfl⟩ := Nat.exists_eq_add_of_le hmore
    exact ⟨_, List.range_add⟩
  rw [Round.multiply, hsh, Res.ok_bind] at h
  have hlen1 : unmasked.commitment.clone.c.points.length = l.length := by
    show unmasked.transcript.c.points.length = _
    rw [hlc]
    simp only [List.length_map]
  have hlen2 : masked.commitment.clone.c.points.length = f.length := by
    show masked.transcript.c.points.length = _
    rw [hc]
    simp only [List.length_zipWith]
    omega
  have hcount : ∀ T, newTranscript s.threshold R.dealings (.unmaskedTimesMasked unmasked.commitment.clone masked.commitment.clone) =
      .ok T → (l.length : Int) + f.length - 1 ≤ R.dealings.length := fun T hT => by
    have := enough_product hT
    omega
  obtain ⟨hsame, hle, ⟨T, hT⟩, hw, f', g', h1, h2, h3, h4, h5⟩ := make_interp ht hn hn0 (by simp) (fun i => ⟨by simp, rfl⟩)
    (toPoly l * toPoly f) (fun i _ => by rw [eval_mul]; rfl)
    (fun T hT => degree_mul_toPoly_lt (hcount T hT) (by rintro rfl; cases ha) (by rintro rfl; cases hb)) h
  have := hcount T hT
  refine ⟨hsame, by omega, f', g', ⟨h1, h2, h4, ?_⟩, ?_⟩
  · rw [h5]; exact map_valueOf_pedersen hn _ _
  · rw [h3, eval_mul, eval_zero_head ha, eval_zero_head hb]

/-! ### C108: from key generation to signature -/

/-- What `NewSignatureProtocolSetup` has set up when it returns. -/
theorem C108_setup (P : Prim) (cbor : Commitment → Res Bytes) (nodes : Nat) (t : Int) (corrupted : Nat) (seed : Seed) (S : SigSetup)
    (ht : 0 < t) (hn : nodes ≤ 2 ^ 63) (h : SigSetup.new P cbor nodes t corrupted seed = .ok S) :
    S.setup.threshold = t ∧ S.setup.sk.length = nodes ∧ 2 * t - 1 ≤ nodes ∧
      ∃ (x kappa lambda lambdaMask kl klMask xl xlMask : List Fn) (x0 k0 l0 : Fn),
        SharesUnmasked S.key nodes t x ∧ SharesUnmasked S.kappa nodes t kappa ∧
        SharesMasked S.lambda nodes t lambda lambdaMask ∧ SharesMasked S.kappaTimesLambda nodes t kl klMask ∧
        SharesMasked S.keyTimesLambda nodes t xl xlMask ∧ x.head? = some x0 ∧ kappa.head? = some k0 ∧ lambda.head? = some l0 ∧
        kl.head? = some (k0 * l0) ∧ xl.head? = some (x0 * l0) := by
  have head : ∀ f : List Fn, (f.length : Int) = t → ∃ a, f.head? = some a := fun f hf => by
    cases f with
    | nil => simp at hf; omega
    | cons a f => exact ⟨a, rfl⟩
  rw [SigSetup.new] at h
  obtain ⟨s0, hs0, h⟩ := Res.bind_eq_ok.1 h
  obtain ⟨⟨keyM, s1⟩, h1, h⟩ := Res.bind_eq_ok.1 h
  obtain ⟨⟨kappaM, s2⟩, h2, h⟩ := Res.bind_eq_ok.1 h
  obtain ⟨⟨lambda, s3⟩, h3, h⟩ := Res.bind_eq_ok.1 h
  obtain ⟨⟨key, s4⟩, h4, h⟩ := Res.bind_eq_ok.1 h
  obtain ⟨⟨kappa, s5⟩, h5, h⟩ := Res.bind_eq_ok.1 h
  obtain ⟨⟨xl, s6⟩, h6, h⟩ := Res.bind_eq_ok.1 h
  obtain ⟨⟨kl, s7⟩, h7, h⟩ := Res.bind_eq_ok.1 h
  cases h
  simp only at h1 h2 h3 h4 h5 h6 h7 ⊢
  obtain ⟨t0, n0⟩ := setup_new hs0
  have step : ∀ {s s' : Setup}, SameNodes s s' → s.threshold = t ∧ s.sk.length = nodes → s'.threshold = t ∧ s'.sk.length = nodes :=
    fun e h => ⟨e.1.trans h.1, by rw [e.2.1]; exact h.2⟩
  have e0 : s0.threshold = t ∧ s0.sk.length = nodes := ⟨t0, n0⟩
  obtain ⟨b1, f1, g1, m1⟩ := C103_random_round P cbor s0 s1 nodes corrupted keyM (by omega) (by omega) hn h1
  have e1 := step b1 e0
  obtain ⟨b2, f2, g2, m2⟩ := C103_random_round P cbor s1 s2 nodes corrupted kappaM (by omega) (by omega) hn h2
  have e2 := step b2 e1
  obtain ⟨b3, f3, g3, m3⟩ := C103_random_round P cbor s2 s3 nodes corrupted lambda (by omega) (by omega) hn h3
  have e3 := step b3 e2
  rw [e0.1, e0.2] at m1
  rw [e1.1, e1.2] at m2
  rw [e2.1, e2.2] at m3
  obtain ⟨b4, -, f4, m4, -⟩ := C106_reshare_masked_round P cbor s3 s4 keyM key nodes corrupted nodes t f1 g1 (by omega) (by omega) ht hn m1 h4
  have e4 := step b4 e3
  obtain ⟨b5, -, f5, m5, -⟩ := C106_reshare_masked_round P cbor s4 s5 kappaM kappa nodes corrupted nodes t f2 g2 (by omega) (by omega) ht
    hn m2 h5
  have e5 := step b5 e4
  rw [e3.1, e3.2] at m4
  rw [e4.1, e4.2] at m5
  obtain ⟨x0, hx0⟩ := head f4 m4.1
  obtain ⟨k0, hk0⟩ := head f5 m5.1
  obtain ⟨l0, hl0⟩ := head f3 m3.1
  obtain ⟨b6, hle, f6, g6, m6, p6⟩ := C107_product_round P cbor s5 s6 lambda key xl nodes corrupted nodes nodes t t f3 g3 f4 x0 l0
    (by omega) (by omega) hn m4 m3 hx0 hl0 h6
  have e6 := step b6 e5
  obtain ⟨b7, -, f7, g7, m7, p7⟩ := C107_product_round P cbor s6 s7 lambda kappa kl nodes corrupted nodes nodes t t f3 g3 f5 k0 l0
    (by omega) (by omega) hn m5 m3 hk0 hl0 h7
  have e7 := step b7 e6
  rw [e5.1, e5.2] at m6
  rw [e6.1, e6.2] at m7
  exact ⟨e7.1, e7.2, by omega, f4, f5, f3, g3, f7, g7, f6, g6, x0, k0, l0, m4, m5, m3, m7, m6, hx0, hk0, hl0, p7, p6⟩

/-- Any part of the shares, if there are at least `t`, combines to a signature.  Unless one of its values is zero, it passes
`VerifySignature`, that is, both the library's own check and ECDSA verification under the derived public key. -/
theorem C108_signing (P : Prim) (cbor : Commitment → Res Bytes) (nodes : Nat) (t : Int) (corrupted : Nat) (seed : Seed) (S : SigSetup)
    (ht : 0 < t) (hn : nodes ≤ 2 ^ 63) (h : SigSetup.new P cbor nodes t corrupted seed = .ok S)
    (path : List Key.Index) (msg randomness : Bytes) (shares : ShareMap)
    (hs : S.generateShares P path (P.sha256 msg) randomness = .ok shares) (part : ShareMap) (hp : part.Sublist shares) :
    (t ≤ part.length → ∃ sig, S.generateSignature P path (P.sha256 msg) randomness part = .ok sig ∧
      (sig.r ≠ 0 → sig.s ≠ 0 → S.verifySignature P path (P.sha256 msg) randomness sig = .ok () ∧
        ∃ Q c, S.publicKey P path = .ok (Point.serialize Q, c) ∧ EcdsaValid Q (hashNumber (P.sha256 msg)) sig.r sig.s)) ∧
    ((part.length : Int) < t → (S.generateSignature P path (P.sha256 msg) randomness part).isErr = true) := by
  obtain ⟨e1, e2, hcount, x, kappa, lambda, lambdaMask, kl, klMask, xl, xlMask, x0, k0, l0, mx, mk, ml, mkl, mxl, hx, hk, hl, hkl,
    hxl⟩ := C108_setup P cbor nodes t corrupted seed S ht hn h
  constructor
  swap
  · intro hlt
    rw [SigSetup.generateSignature, combine, e1, if_pos hlt]
    rfl
  intro hge
  set sec : Secrets := ⟨x, kappa, lambda, kl, xl, lambdaMask, klMask, xlMask⟩ with hsec
  have hcons : sec.Consistent t.toNat x0 k0 l0 := by
    have h1 := ml.1
    have h2 := mkl.1
    have h3 := mxl.1
    exact ⟨hx, hk, hl, hkl, hxl, by show lambda.length ≤ _; omega, by show kl.length ≤ _; omega, by show xl.length ≤ _; omega⟩
  have hkey : some S.key.transcript = unmasked sec.x := by rw [mx.2.1]; rfl
  have hkap : some S.kappa.transcript = unmasked sec.kappa := by rw [mk.2.1]; rfl
  -- the shares are what `new` gives
  rw [SigSetup.generateShares, e2] at hs
  have hmem : ∀ y ∈ shares, SigShare.new P path (P.sha256 msg) randomness (unmasked sec.x) (unmasked sec.kappa)
      (share sec.lambda sec.lambdaMask y.1) (share sec.kl sec.klMask y.1) (share sec.xl sec.xlMask y.1) = .ok y.2 := by
    intro y hy
    obtain ⟨i, hi, h⟩ := mem_mapM' hs y hy
    rw [List.mem_range] at hi
    rw [SigSetup.share, ml.2.2.2, mkl.2.2.2, mxl.2.2.2, index_range_map _ hi, index_range_map _ hi, index_range_map _ hi,
      hkey, hkap] at h
    simp only [Res.ok_bind] at h
    obtain ⟨sh, h1, h⟩ := Res.bind_eq_ok.1 h
    obtain ⟨⟨⟩, -, h⟩ := Res.bind_eq_ok.1 h
    cases h
    simp only [share, place_node (show i < 2 ^ 63 by omega)]
    exact h1
  have hkeys : shares.map Prod.fst = (List.range nodes).map node := by
    have := Res.mapM'_eq_ok.1 hs
    clear hs hmem hp
    generalize List.range nodes = l at this
    induction this with
    | nil => rfl
    | cons h1 h2 ih =>
      rw [List.map_cons, List.map_cons, ih]
      rw [SigSetup.share] at h1
      obtain ⟨_, -, h1⟩ := Res.bind_eq_ok.1 h1
      obtain ⟨_, -, h1⟩ := Res.bind_eq_ok.1 h1
      obtain ⟨_, -, h1⟩ := Res.bind_eq_ok.1 h1
      obtain ⟨_, -, h1⟩ := Res.bind_eq_ok.1 h1
      obtain ⟨⟨⟩, -, h1⟩ := Res.bind_eq_ok.1 h1
      cases h1
      rfl
  have hnd : (part.map Prod.fst).Nodup := by
    refine List.Nodup.sublist (hp.map _) ?_
    rw [hkeys]
    exact nodup_range_node hn
  set sh : NodeIndex → SigShare := fun i => (OMap.get BitVec.toInt i part).getD ⟨none, none⟩ with hshdef
  have hpart : part = (part.map Prod.fst).map fun i => (i, sh i) := by
    rw [List.map_map]
    conv_lhs => rw [← List.map_id part]
    refine List.map_congr_left fun y hy => ?_
    simp only [Function.comp_apply, id, hshdef, get_of_nodup hnd hy, Option.getD_some]
  have hsh : HonestShares P path (P.sha256 msg) randomness sec (part.map Prod.fst) sh := by
    intro i hi
    obtain ⟨y, hy, rfl⟩ := List.mem_map.1 hi
    simp only [hshdef, get_of_nodup hnd hy, Option.getD_some]
    exact hmem y (hp.subset hy)
  obtain ⟨sig, tweak, rnd, c, h1, h2, -, -, -, h3⟩ := C68_threshold_signature P path (P.sha256 msg) randomness sec t.toNat x0 k0 l0
    hcons (part.map Prod.fst) (by omega) (by rw [List.length_map]; omega) hnd sh hsh
  rw [← hpart, Int.toNat_of_nonneg ht.le] at h1
  refine ⟨sig, ?_, fun hr hs0 => ?_⟩
  · rw [SigSetup.generateSignature, hkey, hkap, e1, h1]
  · obtain ⟨h4, h5⟩ := h3 hr hs0
    have hpk : S.publicKey P path = .ok (Point.serialize ((x0 + tweak) • G), c) := by
      have hct : S.key.transcript.c.constantTerm = .ok (x0 • G) := by
        have := (constantTerm_unmasked hx).1
        rw [mx.2.1]
        exact this
      rw [SigSetup.publicKey, hct, Res.ok_bind, h2]
    have hnum : hashNumber (P.sha256 msg) = ((beVal (P.sha256 msg) : Nat) : Fn) := by
      rw [hashNumber, List.take_of_length_le (P.sha256_length msg).le]
    rw [← hnum] at h5
    refine ⟨?_, (x0 + tweak) • G, c, hpk, h5⟩
    rw [SigSetup.verifySignature, hkey, hkap, h4, Res.ok_bind, hpk, Res.ok_bind]
    simp only [Point.deserialize_serialize, Point.ofRaw?_raw]
    rw [if_pos (ecdsaVerify_iff.2 h5)]

end Verif
