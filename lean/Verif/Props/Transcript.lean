import Verif.Lemmas.Transcript

/-! Theorems about transcripts. -/

set_option autoImplicit false

namespace Verif

open Mega Zk Dealings Polynomial

theorem Dealings.getD_linCombPts (w : NodeIndex → Fn) (samples : List NodeIndex) (pts : NodeIndex → List Pt) {t j : Nat}
    (h : j < t) : (linCombPts w samples pts t).getD j 0 = (samples.map fun i => w i • (pts i).getD j 0).sum := by
  simp [linCombPts, List.getD_eq_getElem?_getD, h]

theorem Dealings.head_linCombPts (w : NodeIndex → Fn) (samples : List NodeIndex) (pts : NodeIndex → List Pt) {t : Nat}
    (h : 0 < t) : (linCombPts w samples pts t).head? = some (samples.map fun i => w i • (pts i).getD 0 0).sum := by
  obtain ⟨k, rfl⟩ : ∃ k, t = k + 1 := ⟨t - 1, by omega⟩
  simp [linCombPts, List.range_succ_eq_map]

theorem Dealings.head_linComb (w : NodeIndex → Fn) (samples : List NodeIndex) (q : NodeIndex → List Fn) {t : Nat}
    (h : 0 < t) : (linComb w samples q t).head? = some (samples.map fun i => w i * Poly.coeff (q i) 0).sum := by
  obtain ⟨k, rfl⟩ : ∃ k, t = k + 1 := ⟨t - 1, by omega⟩
  simp [linComb, List.range_succ_eq_map]

/-! ### C58 -/

/-- A random transcript is the pointwise sum of its dealings' commitments, and openings of all the dealings at a node add
up to an opening of it. -/
theorem C58_random_sum (t : Int) (ds : DealingMap) (cm : NodeIndex → Commitment) (hc : Commits ds cm) (ht : 0 < t)
    (hl : ∀ x ∈ ds, ((cm x.1).points.length : Int) = t) (hk : ∀ x ∈ ds, (cm x.1).kind = .pedersen) :
    ∃ pts : List Pt, newTranscript t ds .random = .ok (some ⟨.summation, ⟨.pedersen, pts⟩⟩) ∧ (pts.length : Int) = t ∧
      (∀ j : Nat, j < t.toNat → pts.getD j 0 = (ds.map fun x => (cm x.1).points.getD j 0).sum) ∧
      ∀ (i : NodeIndex) (v m : NodeIndex → Fn),
        (∀ x ∈ ds, valueAtNode (cm x.1).points i = v x.1 • G + m x.1 • Point.H) →
        valueAtNode pts i = (ds.map fun x => v x.1).sum • G + (ds.map fun x => m x.1).sum • Point.H ∧
        combineOpenings (ds.map Prod.fst) (ds.map fun x => .pedersen (v x.1) (m x.1))
          (some ⟨.summation, ⟨.pedersen, pts⟩⟩) i =
            .ok (.pedersen (ds.map fun x => v x.1).sum (ds.map fun x => m x.1).sum) := by
  have hT := newTranscript_random hc ht.le hl hk
  have hs : Shape t ds cm .random ⟨.summation, ⟨.pedersen, linCombPts (fun _ => 1) (ds.map Prod.fst) (fun i => (cm i).points) t.toNat⟩⟩
      (fun _ => 1) := ⟨ht.le, hl, rfl, fun _ => ⟨rfl, fun _ => rfl, hk⟩, fun e => absurd rfl e⟩
  refine ⟨_, hT, by rw [length_linCombPts]; omega, fun j hj => ?_, fun i v m ho => ?_⟩
  · rw [getD_linCombPts _ _ _ hj, List.map_map]
    simp [Function.comp_def]
  · have h1 := combineOpenings_eq hs ht hk i (fun j => .pedersen (v j) (m j)) fun x hx => ⟨hk x hx, ho x hx⟩
    simp only [Op.dealingKind, Opening.val, Opening.mask, one_mul, List.map_map, Function.comp_def] at h1
    refine ⟨?_, h1⟩
    have h2 : combineOpenings (ds.map Prod.fst) (ds.map fun x => .pedersen (v x.1) (m x.1))
        (some ⟨.summation, ⟨.pedersen, linCombPts (fun _ => 1) (ds.map Prod.fst) (fun i => (cm i).points) t.toNat⟩⟩) i =
        .ok (.pedersen (ds.map fun x => v x.1).sum (ds.map fun x => m x.1).sum) := h1
    rw [combineOpenings] at h2
    obtain ⟨⟨a, b⟩, h3, h4⟩ := Res.bind_eq_ok.1 h2
    obtain ⟨h5, -, h6⟩ := returnOpening_ok h4
    rw [← h5] at h6
    exact h6.2

/-! ### C63 and C88: shares of the nodes -/

/-- The result of combining openings opens the transcript's commitment. -/
theorem Dealings.combineOpenings_ok {dealers : List NodeIndex} {openings : List Opening} {T : Option Com} {i : NodeIndex}
    {o : Opening} (h : combineOpenings dealers openings T i = .ok o) : ∃ c, T = some c ∧ Opens c.c i o := by
  rw [combineOpenings.eq_def] at h
  split at h
  · cases h
  · obtain ⟨⟨a, b⟩, -, h⟩ := Res.bind_eq_ok.1 h
    obtain ⟨rfl, -, h6⟩ := returnOpening_ok h
    exact ⟨_, rfl, h6⟩
  · split at h
    · obtain ⟨⟨a, b⟩, -, h⟩ := Res.bind_eq_ok.1 h
      obtain ⟨c, -, h⟩ := Res.bind_eq_ok.1 h
      obtain ⟨v, -, h⟩ := Res.bind_eq_ok.1 h
      obtain ⟨rfl, -, h6⟩ := returnOpening_ok h
      exact ⟨_, rfl, h6⟩
    · obtain ⟨⟨a, b, b'⟩, -, h⟩ := Res.bind_eq_ok.1 h
      obtain ⟨c, -, h⟩ := Res.bind_eq_ok.1 h
      obtain ⟨v, -, h⟩ := Res.bind_eq_ok.1 h
      obtain ⟨v', -, h⟩ := Res.bind_eq_ok.1 h
      obtain ⟨rfl, -, h6⟩ := returnOpening_ok h
      exact ⟨_, rfl, h6⟩
  · cases h

/-- Whatever the dealings and the provided openings: a node's share, if it gets one, opens the transcript's commitment at
the node's index. -/
theorem C63_shares_consistent (P : Prim) (ds : DealingMap) (provided : List (NodeIndex × OpeningMap)) (T : Option Com)
    (ad : Bytes) (i : NodeIndex) (k : Fn) (pk : Pt) (o : Opening) :
    (fromDealings P ds T ad i k pk = .ok o → ∃ c, T = some c ∧ Opens c.c i o) ∧
    (fromDealingsAndOpenings P ds provided T ad i k pk = .ok o → ∃ c, T = some c ∧ Opens c.c i o) := by
  constructor
  · intro h
    rw [fromDealings] at h
    obtain ⟨os, -, h⟩ := Res.bind_eq_ok.1 h
    exact combineOpenings_ok h
  · intro h
    rw [fromDealingsAndOpenings] at h
    obtain ⟨os, -, h⟩ := Res.bind_eq_ok.1 h
    exact combineOpenings_ok h

/-- An opened dealing's opening opens the dealing's commitment. -/
theorem Dealings.openDealing_ok {P : Prim} {d : Dealing} {ad : Bytes} {dealer i : NodeIndex} {k : Fn} {pk : Pt} {o : Opening}
    {cm : Commitment} (hcm : d.commitment = some cm) (h : openDealing P d ad dealer i k pk = .ok o) :
    cm.points ≠ [] ∧ Opens cm i o := by
  rw [openDealing.eq_def] at h
  obtain ⟨c, hci, h⟩ := Res.bind_eq_ok.1 h
  rw [hcm] at h
  simp only at h
  have hval : ∀ Q : Pt, cm.evaluateAt i = .ok Q → cm.points ≠ [] ∧ valueAtNode cm.points i = Q := by
    intro Q hQ
    have hne : cm.points ≠ [] := by
      intro hn
      have := Commitment.evaluateAt_nil hn i
      rw [hQ] at this
      cases this
    rw [Commitment.evaluateAt_value hne] at hQ
    exact ⟨hne, by simpa using hQ⟩
  cases c with
  | single m =>
    obtain ⟨s, rfl, h1, -, h3⟩ := ((C79_decrypt_and_check P cm ad dealer i k pk o).1 m).1 h
    exact ⟨(hval _ h3).1, h1, (hval _ h3).2⟩
  | pair m =>
    obtain ⟨s, r, rfl, h1, -, h3⟩ := ((C79_decrypt_and_check P cm ad dealer i k pk o).2 m).1 h
    exact ⟨(hval _ h3).1, h1, (hval _ h3).2⟩

/-- Whoever the dealers are: a node that can open every dealing of a transcript gets a share, provided the dealings' kinds
are the ones dealings for the operation carry (which public verification checks, and transcript creation does not). -/
theorem C88_shares_available (P : Prim) (t : Int) (ds : DealingMap) (cm : NodeIndex → Commitment) (op : Op) (T : Com)
    (ad : Bytes) (i : NodeIndex) (k : Fn) (pk : Pt) (hc : Commits ds cm) (hn : OMap.Sorted BitVec.toInt ds) (ht : 0 < t)
    (hk : ∀ x ∈ ds, (cm x.1).kind = op.dealingKind) (hT : newTranscript t ds op = .ok (some T))
    (ho : ∀ x ∈ ds, ∃ o, openDealing P x.2 ad x.1 i k pk = .ok o) :
    ∃ o, fromDealings P ds (some T) ad i k pk = .ok o := by
  have hnd := OMap.nodup_keys hn
  obtain ⟨w, hs⟩ := newTranscript_shape hc hnd hT
  have hex : ∀ j, ∃ o, ∀ x ∈ ds, x.1 = j → openDealing P x.2 ad x.1 i k pk = .ok o := by
    intro j
    by_cases hj : ∃ x ∈ ds, x.1 = j
    · obtain ⟨x, hx, rfl⟩ := hj
      obtain ⟨o, hxo⟩ := ho x hx
      refine ⟨o, fun y hy e => ?_⟩
      have : y = x := List.inj_on_of_nodup_map hnd hy hx e
      rw [this, hxo]
    · exact ⟨.simple 0, fun x hx e => absurd ⟨x, hx, e⟩ hj⟩
  choose o hoo using hex
  have hopen : ∀ x ∈ ds, Opens (cm x.1) i (o x.1) := fun x hx => (openDealing_ok (hc x hx) (hoo x.1 x hx rfl)).2
  rw [fromDealings, Res.mapM'_ok (g := fun x => o x.1) fun x hx => hoo x.1 x hx rfl, Res.ok_bind,
    combineOpenings_eq hs ht hk i o hopen]
  exact ⟨_, rfl⟩

/-! ### C59, C60: secrets of honest transcripts -/

/-- The dealings that honest dealers make: what C85 says, for all of them at once. -/
theorem Dealings.honest_dealings {P : Prim} {t : Int} {dealers : List NodeIndex} {d : NodeIndex → Dealing}
    {sh : NodeIndex → Shares} {seed : NodeIndex → Seed} {keys : List Fn} {ad : Bytes} (hid : Bool)
    (hne : ∀ i ∈ dealers, sh i ≠ .other) (hh : ∀ i ∈ dealers, (sh i).hidden = hid)
    (h : ∀ i ∈ dealers, new P (sh i) (seed i) t (keys.map Point.mulByG) i ad = .ok (d i)) :
    ∃ q r : NodeIndex → List Fn, ∀ i ∈ dealers, ((q i).length : Int) = t ∧ ((r i).length : Int) = t ∧
      (∀ s, (sh i).secret = some s → Poly.coeff (q i) 0 = s) ∧
      (d i).commitment = some (if hid then ⟨.pedersen, List.zipWith Point.pedersen (q i) (r i)⟩
        else ⟨.simple, (q i).map Point.mulByG⟩) ∧
      ∀ (j : NodeIndex) (k : Fn), 0 ≤ j.toInt → keys[j.toInt.toNat]? = some k →
        openDealing P (d i) ad i j k (k • G) = .ok
          (if hid then .pedersen ((toPoly (q i)).eval (place j)) ((toPoly (r i)).eval (place j))
            else .simple ((toPoly (q i)).eval (place j))) := by
  have hex : ∀ i, ∃ q r : List Fn, i ∈ dealers → ((q.length : Int) = t ∧ (r.length : Int) = t ∧
      (∀ s, (sh i).secret = some s → Poly.coeff q 0 = s) ∧
      (d i).commitment = some (if hid then ⟨.pedersen, List.zipWith Point.pedersen q r⟩
        else ⟨.simple, q.map Point.mulByG⟩) ∧
      ∀ (j : NodeIndex) (k : Fn), 0 ≤ j.toInt → keys[j.toInt.toNat]? = some k →
        openDealing P (d i) ad i j k (k • G) = .ok
          (if hid then .pedersen ((toPoly q).eval (place j)) ((toPoly r).eval (place j))
            else .simple ((toPoly q).eval (place j)))) := by
    intro i
    by_cases hi : i ∈ dealers
    · obtain ⟨q, r, c, ⟨ckind, cpts⟩, h1, h2, h3, h4, h5, -, -, h6, h7⟩ :=
        C85_dealing_contents P (sh i) (seed i) t keys i ad (d i) (hne i hi) (h i hi)
      rw [hh i hi] at h6 h7
      refine ⟨q, r, fun _ => ⟨h3, h4, fun s hs => ?_, ?_, fun j k hj hk => ?_⟩⟩
      · have := h5 s hs
        cases q with
        | nil => cases this
        | cons a q => simpa [Poly.coeff] using this
      · rw [h1]
        cases hid with
        | true =>
          obtain ⟨rfl, rfl⟩ := h6
          rfl
        | false =>
          obtain ⟨rfl, rfl⟩ := h6
          rfl
      · rw [openDealing.eq_def, h1, h2]
        exact h7 j k hj hk
    · exact ⟨[], [], fun e => absurd e hi⟩
  choose q r hqr using hex
  exact ⟨q, r, hqr⟩

theorem Dealings.mapOf_fst (dealers : List NodeIndex) (d : NodeIndex → Dealing) : (mapOf dealers d).map Prod.fst = dealers := by
  simp [mapOf, Function.comp_def]

theorem Dealings.length_mapOf (dealers : List NodeIndex) (d : NodeIndex → Dealing) :
    (mapOf dealers d).length = dealers.length := by simp [mapOf]

/-- Honest dealings for an operation, once a transcript is made of them: its commitment is to a polynomial (or a pair), whose
constant term is the weighted sum of the dealt values, and every recipient gets its value. -/
theorem Dealings.honest_transcript {P : Prim} {t : Int} {dealers : List NodeIndex} {d : NodeIndex → Dealing}
    {sh : NodeIndex → Shares} {seed : NodeIndex → Seed} {keys : List Fn} {ad : Bytes} {op : Op} (ht : 0 < t)
    (hne : ∀ i ∈ dealers, sh i ≠ .other)
    (hh : ∀ i ∈ dealers, (sh i).hidden = decide (op.dealingKind = .pedersen))
    (h : ∀ i ∈ dealers, new P (sh i) (seed i) t (keys.map Point.mulByG) i ad = .ok (d i)) :
    ∃ q r : NodeIndex → List Fn, ∃ cm : NodeIndex → Commitment, Commits (mapOf dealers d) cm ∧
      (∀ i ∈ dealers, ((q i).length : Int) = t ∧ ((r i).length : Int) = t ∧ ((cm i).points.length : Int) = t ∧
        (cm i).kind = op.dealingKind ∧ (∀ s, (sh i).secret = some s → Poly.coeff (q i) 0 = s) ∧
        (op.dealingKind = .simple → (cm i).points = (q i).map Point.mulByG) ∧
        (op.dealingKind = .pedersen → (cm i).points = List.zipWith Point.pedersen (q i) (r i))) ∧
      ∀ (T : Com) (w : NodeIndex → Fn), Shape t (mapOf dealers d) cm op T w →
        T.c = (match op.dealingKind with
          | .simple => ⟨.simple, (linComb w dealers q t.toNat).map Point.mulByG⟩
          | .pedersen => ⟨.pedersen, List.zipWith Point.pedersen (linComb w dealers q t.toNat) (linComb w dealers r t.toNat)⟩) ∧
        ∀ (j : NodeIndex) (k : Fn), 0 ≤ j.toInt → keys[j.toInt.toNat]? = some k →
          fromDealings P (mapOf dealers d) (some T) ad j k (k • G) = .ok (match op.dealingKind with
            | .simple => .simple ((toPoly (linComb w dealers q t.toNat)).eval (place j))
            | .pedersen => .pedersen ((toPoly (linComb w dealers q t.toNat)).eval (place j))
                ((toPoly (linComb w dealers r t.toNat)).eval (place j))) := by
  obtain ⟨q, r, hqr⟩ := honest_dealings (decide (op.dealingKind = .pedersen)) hne hh h
  refine ⟨q, r, fun i => if op.dealingKind = .pedersen then ⟨.pedersen, List.zipWith Point.pedersen (q i) (r i)⟩
        else ⟨.simple, (q i).map Point.mulByG⟩, ?_, fun i hi => ?_, fun T w hs => ⟨?_, fun j k hj hk => ?_⟩⟩
  · intro x hx
    obtain ⟨i, hi, rfl⟩ := List.mem_map.1 hx
    rw [(hqr i hi).2.2.2.1]
    simp
  · obtain ⟨h1, h2, h3, -⟩ := hqr i hi
    refine ⟨h1, h2, ?_, ?_, h3, ?_, ?_⟩
    · split_ifs
      · simp only [List.length_zipWith]; omega
      · simp only [List.length_map]; omega
    · cases hk : op.dealingKind <;> rfl
    · intro hk; simp [hk]
    · intro hk; simp [hk]
  · rw [hs.com, mapOf_fst]
    cases hk : op.dealingKind with
    | simple => simp only [reduceCtorEq, if_false]; rw [linCombPts_mulByG]
    | pedersen =>
      simp only [if_true]
      rw [linCombPts_pedersen]
      intro i hi
      obtain ⟨h1, h2, -⟩ := hqr i hi
      omega
  · have hlen : ∀ i ∈ dealers, (q i).length ≤ t.toNat ∧ (r i).length ≤ t.toNat := fun i hi => by
      obtain ⟨h1, h2, -⟩ := hqr i hi
      omega
    set o : NodeIndex → Opening := fun i => if op.dealingKind = .pedersen then
      .pedersen ((toPoly (q i)).eval (place j)) ((toPoly (r i)).eval (place j)) else .simple ((toPoly (q i)).eval (place j))
      with hodef
    have hopen : ∀ x ∈ mapOf dealers d, openDealing P x.2 ad x.1 j k (k • G) = .ok (o x.1) := by
      intro x hx
      obtain ⟨i, hi, rfl⟩ := List.mem_map.1 hx
      have := (hqr i hi).2.2.2.2 j k hj hk
      simp only [decide_eq_true_eq] at this
      exact this
    have hcm : ∀ x ∈ mapOf dealers d, x.2.commitment = some (if op.dealingKind = .pedersen then
        ⟨.pedersen, List.zipWith Point.pedersen (q x.1) (r x.1)⟩ else ⟨.simple, (q x.1).map Point.mulByG⟩) := by
      intro x hx
      obtain ⟨i, hi, rfl⟩ := List.mem_map.1 hx
      rw [(hqr i hi).2.2.2.1]
      simp
    rw [fromDealings, Res.mapM'_ok (g := fun x => o x.1) hopen, Res.ok_bind,
      combineOpenings_eq hs ht (fun x hx => by cases hk : op.dealingKind <;> rfl) j o
        (fun x hx => (openDealing_ok (hcm x hx) (hopen x hx)).2), mapOf_fst,
      eval_linComb _ _ _ _ (fun i hi => (hlen i hi).1), eval_linComb _ _ _ _ (fun i hi => (hlen i hi).2)]
    cases hk : op.dealingKind <;> simp [hodef, hk, Opening.val, Opening.mask]

theorem Dealings.sorted_mapOf_nodup {dealers : List NodeIndex} {d : NodeIndex → Dealing}
    (h : OMap.Sorted BitVec.toInt (mapOf dealers d)) : dealers.Nodup := by
  have := OMap.nodup_keys h
  rwa [mapOf_fst] at this

/-- End to end for random transcripts: the transcript commits to a pair of polynomials, the first of which is the sum of the
dealers' polynomials, and every recipient gets the values at its place. -/
theorem C58_honest_random (P : Prim) (t : Int) (dealers : List NodeIndex) (d : NodeIndex → Dealing)
    (seed : NodeIndex → Seed) (keys : List Fn) (ad : Bytes) (ht : 0 < t)
    (h : ∀ i ∈ dealers, new P .random (seed i) t (keys.map Point.mulByG) i ad = .ok (d i)) :
    ∃ f g : List Fn, (f.length : Int) = t ∧ (g.length : Int) = t ∧
      newTranscript t (mapOf dealers d) .random =
        .ok (some ⟨.summation, ⟨.pedersen, List.zipWith (fun v m : Fn => v • G + m • Point.H) f g⟩⟩) ∧
      ∀ (j : NodeIndex) (k : Fn), 0 ≤ j.toInt → keys[j.toInt.toNat]? = some k →
        fromDealings P (mapOf dealers d)
            (some ⟨.summation, ⟨.pedersen, List.zipWith (fun v m : Fn => v • G + m • Point.H) f g⟩⟩) ad j k (k • G) =
          .ok (.pedersen ((toPoly f).eval (place j)) ((toPoly g).eval (place j))) := by
  obtain ⟨q, r, cm, hc, hq, hT⟩ := honest_transcript (op := .random) (sh := fun _ => .random) ht
    (fun _ _ => by simp) (fun _ _ => rfl) h
  have hl : ∀ x ∈ mapOf dealers d, ((cm x.1).points.length : Int) = t := by
    intro x hx
    obtain ⟨i, hi, rfl⟩ := List.mem_map.1 hx
    exact (hq i hi).2.2.1
  have hk : ∀ x ∈ mapOf dealers d, (cm x.1).kind = .pedersen := by
    intro x hx
    obtain ⟨i, hi, rfl⟩ := List.mem_map.1 hx
    exact (hq i hi).2.2.2.1
  have hnew := newTranscript_random hc ht.le hl hk
  obtain ⟨h1, h2⟩ := hT ⟨.summation, _⟩ (fun _ => 1)
    ⟨ht.le, hl, rfl, fun _ => ⟨rfl, fun _ => rfl, hk⟩, fun e => absurd rfl e⟩
  simp only [Op.dealingKind] at h1 h2
  rw [h1] at hnew h2
  exact ⟨_, _, by rw [length_linComb]; omega, by rw [length_linComb]; omega, hnew, h2⟩

/-- Resharing masked shares of a polynomial with at most as many coefficients as there are dealers: the new transcript
commits, without mask, to a polynomial of the new threshold with the same constant term. -/
theorem C59_reshare_masked (P : Prim) (t : Int) (dealers : List NodeIndex) (d : NodeIndex → Dealing)
    (seed : NodeIndex → Seed) (keys : List Fn) (ad : Bytes) (v m : List Fn) (wrap : Wrap) (ht : 0 < t)
    (hsort : OMap.Sorted BitVec.toInt (mapOf dealers d)) (hv : v ≠ []) (hm : m.length = v.length)
    (hcount : v.length ≤ dealers.length)
    (h : ∀ i ∈ dealers, new P (.reshareMasked ((toPoly v).eval (place i)) ((toPoly m).eval (place i))) (seed i) t
      (keys.map Point.mulByG) i ad = .ok (d i)) :
    ∃ f : List Fn, (f.length : Int) = t ∧ f.head? = v.head? ∧
      newTranscript t (mapOf dealers d)
          (.reshareMasked ⟨wrap, ⟨.pedersen, List.zipWith (fun v m : Fn => v • G + m • Point.H) v m⟩⟩) =
        .ok (some ⟨.interpolation, ⟨.simple, f.map fun v : Fn => v • G⟩⟩) ∧
      ∀ (j : NodeIndex) (k : Fn), 0 ≤ j.toInt → keys[j.toInt.toNat]? = some k →
        fromDealings P (mapOf dealers d) (some ⟨.interpolation, ⟨.simple, f.map fun v : Fn => v • G⟩⟩) ad j k (k • G) =
          .ok (.simple ((toPoly f).eval (place j))) := by
  set p1 : Com := ⟨wrap, ⟨.pedersen, List.zipWith (fun v m : Fn => v • G + m • Point.H) v m⟩⟩ with hp1
  obtain ⟨q, r, cm, hc, hq, hT⟩ := honest_transcript (op := .reshareMasked p1)
    (sh := fun i => .reshareMasked ((toPoly v).eval (place i)) ((toPoly m).eval (place i))) ht
    (fun _ _ => by simp) (fun _ _ => rfl) h
  have hl : ∀ x ∈ mapOf dealers d, ((cm x.1).points.length : Int) = t := by
    intro x hx
    obtain ⟨i, hi, rfl⟩ := List.mem_map.1 hx
    exact (hq i hi).2.2.1
  have hvl : 0 < v.length := List.length_pos_iff.2 hv
  have hdne : mapOf dealers d ≠ [] := by
    intro e
    have := congrArg List.length e
    rw [length_mapOf, List.length_nil] at this
    omega
  obtain ⟨w, hw, hsum, hnew, -⟩ := newTranscript_interp hc (OMap.nodup_keys hsort) hdne ht.le hl
  have hnew := hnew p1 rfl (by rw [length_mapOf, hp1, List.length_zipWith]; omega)
  obtain ⟨h1, h2⟩ := hT ⟨.interpolation, _⟩ w ⟨ht.le, hl, rfl, (fun e => by cases e), fun _ => ⟨rfl, hdne, hw, hsum⟩⟩
  simp only [Op.dealingKind] at h1 h2
  rw [h1] at hnew h2
  refine ⟨linComb w dealers q t.toNat, by rw [length_linComb]; omega, ?_, hnew, h2⟩
  rw [head_linComb _ _ _ (by omega)]
  have e : ∀ i ∈ dealers, w i * Poly.coeff (q i) 0 = w i * (toPoly v).eval (place i) := fun i hi => by
    rw [(hq i hi).2.2.2.2.1 _ rfl]
  rw [List.map_congr_left e]
  rw [mapOf_fst] at hsum
  rw [hsum _ (lt_of_lt_of_le (degree_toPoly_lt v) (by rw [length_mapOf]; exact_mod_cast hcount))]
  cases v with
  | nil => exact absurd rfl hv
  | cons a v => rw [← Poly.evaluateAt_eq, Poly.evaluateAt_zero]; rfl

/-- The same for shares without mask. -/
theorem C59_reshare_unmasked (P : Prim) (t : Int) (dealers : List NodeIndex) (d : NodeIndex → Dealing)
    (seed : NodeIndex → Seed) (keys : List Fn) (ad : Bytes) (v : List Fn) (wrap : Wrap) (ht : 0 < t)
    (hsort : OMap.Sorted BitVec.toInt (mapOf dealers d)) (hv : v ≠ []) (hcount : v.length ≤ dealers.length)
    (h : ∀ i ∈ dealers, new P (.reshareUnmasked ((toPoly v).eval (place i))) (seed i) t
      (keys.map Point.mulByG) i ad = .ok (d i)) :
    ∃ f : List Fn, (f.length : Int) = t ∧ f.head? = v.head? ∧
      newTranscript t (mapOf dealers d) (.reshareUnmasked ⟨wrap, ⟨.simple, v.map fun v : Fn => v • G⟩⟩) =
        .ok (some ⟨.interpolation, ⟨.simple, f.map fun v : Fn => v • G⟩⟩) ∧
      ∀ (j : NodeIndex) (k : Fn), 0 ≤ j.toInt → keys[j.toInt.toNat]? = some k →
        fromDealings P (mapOf dealers d) (some ⟨.interpolation, ⟨.simple, f.map fun v : Fn => v • G⟩⟩) ad j k (k • G) =
          .ok (.simple ((toPoly f).eval (place j))) := by
  set p1 : Com := ⟨wrap, ⟨.simple, v.map fun v : Fn => v • G⟩⟩ with hp1
  obtain ⟨q, r, cm, hc, hq, hT⟩ := honest_transcript (op := .reshareUnmasked p1)
    (sh := fun i => .reshareUnmasked ((toPoly v).eval (place i))) ht
    (fun _ _ => by simp) (fun _ _ => rfl) h
  have hl : ∀ x ∈ mapOf dealers d, ((cm x.1).points.length : Int) = t := by
    intro x hx
    obtain ⟨i, hi, rfl⟩ := List.mem_map.1 hx
    exact (hq i hi).2.2.1
  have hvl : 0 < v.length := List.length_pos_iff.2 hv
  have hdne : mapOf dealers d ≠ [] := by
    intro e
    have := congrArg List.length e
    rw [length_mapOf, List.length_nil] at this
    omega
  obtain ⟨w, hw, hsum, -, hnew, -⟩ := newTranscript_interp hc (OMap.nodup_keys hsort) hdne ht.le hl
  obtain ⟨h1, h2⟩ := hT ⟨.interpolation, _⟩ w ⟨ht.le, hl, rfl, (fun e => by cases e), fun _ => ⟨rfl, hdne, hw, hsum⟩⟩
  simp only [Op.dealingKind] at h1 h2
  have hhead : (linComb w dealers q t.toNat).head? = v.head? := by
    rw [head_linComb _ _ _ (by omega)]
    have e : ∀ i ∈ dealers, w i * Poly.coeff (q i) 0 = w i * (toPoly v).eval (place i) := fun i hi => by
      rw [(hq i hi).2.2.2.2.1 _ rfl]
    rw [List.map_congr_left e]
    rw [mapOf_fst] at hsum
    rw [hsum _ (lt_of_lt_of_le (degree_toPoly_lt v) (by rw [length_mapOf]; exact_mod_cast hcount))]
    cases v with
    | nil => exact absurd rfl hv
    | cons a v => rw [← Poly.evaluateAt_eq, Poly.evaluateAt_zero]; rfl
  obtain ⟨a, ha⟩ : ∃ a, v.head? = some a := by
    cases v with
    | nil => exact absurd rfl hv
    | cons a v => exact ⟨a, rfl⟩
  have hnew := hnew p1 (a • G) rfl (by rw [length_mapOf, hp1, List.length_map]; omega)
    (by rw [hp1, List.head?_map, ha]; rfl) ht
  have hsumeq : ((List.map Prod.fst (mapOf dealers d)).map fun i => w i • (cm i).points.getD 0 0).sum = a • G := by
    have e1 := head_linCombPts w ((mapOf dealers d).map Prod.fst) (fun i => (cm i).points) (t := t.toNat) (by omega)
    have e2 := congrArg Commitment.points h1
    simp only at e2
    rw [e2, List.head?_map, hhead, ha] at e1
    simpa [Point.mulByG] using e1.symm
  rw [if_neg (by rw [hsumeq]; simp), h1] at hnew
  rw [h1] at h2
  exact ⟨linComb w dealers q t.toNat, by rw [length_linComb]; omega, hhead, hnew, h2⟩

/-- Products: with at least as many dealers as the product of the two polynomials has coefficients, the new transcript
commits to a polynomial whose constant term is the product of the constant terms. -/
theorem C60_product (P : Prim) (t : Int) (dealers : List NodeIndex) (d : NodeIndex → Dealing)
    (seed : NodeIndex → Seed) (keys : List Fn) (ad : Bytes) (l r m : List Fn) (wl wr : Wrap) (ht : 0 < t)
    (hsort : OMap.Sorted BitVec.toInt (mapOf dealers d)) (a b : Fn) (hla : l.head? = some a) (hrb : r.head? = some b)
    (hm : m.length = r.length) (hcount : l.length + r.length - 1 ≤ dealers.length)
    (h : ∀ i ∈ dealers, new P (.unmaskedTimesMasked ((toPoly l).eval (place i)) ((toPoly r).eval (place i))
      ((toPoly m).eval (place i))) (seed i) t (keys.map Point.mulByG) i ad = .ok (d i)) :
    ∃ f g : List Fn, (f.length : Int) = t ∧ (g.length : Int) = t ∧ f.head? = some (a * b) ∧
      newTranscript t (mapOf dealers d) (.unmaskedTimesMasked ⟨wl, ⟨.simple, l.map fun v : Fn => v • G⟩⟩
          ⟨wr, ⟨.pedersen, List.zipWith (fun v m : Fn => v • G + m • Point.H) r m⟩⟩) =
        .ok (some ⟨.interpolation, ⟨.pedersen, List.zipWith (fun v m : Fn => v • G + m • Point.H) f g⟩⟩) ∧
      ∀ (j : NodeIndex) (k : Fn), 0 ≤ j.toInt → keys[j.toInt.toNat]? = some k →
        fromDealings P (mapOf dealers d)
            (some ⟨.interpolation, ⟨.pedersen, List.zipWith (fun v m : Fn => v • G + m • Point.H) f g⟩⟩) ad j k (k • G) =
          .ok (.pedersen ((toPoly f).eval (place j)) ((toPoly g).eval (place j))) := by
  set L : Com := ⟨wl, ⟨.simple, l.map fun v : Fn => v • G⟩⟩ with hL
  set R : Com := ⟨wr, ⟨.pedersen, List.zipWith (fun v m : Fn => v • G + m • Point.H) r m⟩⟩ with hR
  obtain ⟨q, q', cm, hc, hq, hT⟩ := honest_transcript (op := .unmaskedTimesMasked L R)
    (sh := fun i => .unmaskedTimesMasked ((toPoly l).eval (place i)) ((toPoly r).eval (place i))
      ((toPoly m).eval (place i))) ht (fun _ _ => by simp) (fun _ _ => rfl) h
  have hl : ∀ x ∈ mapOf dealers d, ((cm x.1).points.length : Int) = t := by
    intro x hx
    obtain ⟨i, hi, rfl⟩ := List.mem_map.1 hx
    exact (hq i hi).2.2.1
  have hll : 0 < l.length := List.length_pos_iff.2 (by rintro rfl; cases hla)
  have hrl : 0 < r.length := List.length_pos_iff.2 (by rintro rfl; cases hrb)
  have hdne : mapOf dealers d ≠ [] := by
    intro e
    have := congrArg List.length e
    rw [length_mapOf, List.length_nil] at this
    omega
  obtain ⟨w, hw, hsum, -, -, hnew⟩ := newTranscript_interp hc (OMap.nodup_keys hsort) hdne ht.le hl
  have hnew := hnew L R rfl rfl (by
    rw [length_mapOf, hL, hR]
    simp only [List.length_map, List.length_zipWith, hm, min_self]
    omega)
  obtain ⟨h1, h2⟩ := hT ⟨.interpolation, _⟩ w ⟨ht.le, hl, rfl, (fun e => by cases e), fun _ => ⟨rfl, hdne, hw, hsum⟩⟩
  simp only [Op.dealingKind] at h1 h2
  rw [h1] at hnew h2
  refine ⟨linComb w dealers q t.toNat, linComb w dealers q' t.toNat, by rw [length_linComb]; omega,
    by rw [length_linComb]; omega, ?_, hnew, h2⟩
  rw [head_linComb _ _ _ (by omega)]
  have e : ∀ i ∈ dealers, w i * Poly.coeff (q i) 0 = w i * (toPoly l * toPoly r).eval (place i) := fun i hi => by
    rw [(hq i hi).2.2.2.2.1 _ rfl, eval_mul]
  rw [List.map_congr_left e]
  rw [mapOf_fst] at hsum
  have hdeg : (toPoly l * toPoly r).degree < (mapOf dealers d).length := by
    rw [length_mapOf]
    have h3 := degree_toPoly_lt l
    have h4 := degree_toPoly_lt r
    by_cases hz : toPoly l * toPoly r = 0
    · rw [hz, degree_zero]; exact WithBot.bot_lt_coe _
    · have hz1 := left_ne_zero_of_mul hz
      have hz2 := right_ne_zero_of_mul hz
      rw [degree_eq_natDegree hz1] at h3
      rw [degree_eq_natDegree hz2] at h4
      rw [degree_eq_natDegree hz, natDegree_mul hz1 hz2]
      have h3 : (toPoly l).natDegree < l.length := by exact_mod_cast h3
      have h4 : (toPoly r).natDegree < r.length := by exact_mod_cast h4
      have : (toPoly l).natDegree + (toPoly r).natDegree < dealers.length := by omega
      exact_mod_cast this
  rw [hsum _ hdeg, eval_mul, ← Poly.evaluateAt_eq, ← Poly.evaluateAt_eq, Poly.evaluateAt_zero, Poly.evaluateAt_zero]
  cases l with
  | nil => cases hla
  | cons x l =>
    cases r with
    | nil => cases hrb
    | cons y r => cases hla; cases hrb; rfl

/-- Whoever the dealers are: an unmasked resharing that goes through keeps the public key. -/
theorem C59_unmasked_keeps_key (t : Int) (ds : DealingMap) (p1 : Com) (T : Option Com)
    (h : newTranscript t ds (.reshareUnmasked p1) = .ok T) :
    ∃ pk, p1.c.constantTerm = .ok pk ∧ constantTerm T = .ok pk := by
  rw [newTranscript.eq_def] at h
  obtain ⟨⟨⟩, -, h⟩ := Res.bind_eq_ok.1 h
  simp only at h
  split_ifs at h
  obtain ⟨c, -, h⟩ := Res.bind_eq_ok.1 h
  obtain ⟨a, ha, h⟩ := Res.bind_eq_ok.1 h
  obtain ⟨b, hb, h⟩ := Res.bind_eq_ok.1 h
  split_ifs at h with hab
  rw [ne_eq, not_not] at hab
  simp only [Res.ok.injEq] at h
  subst h hab
  have hidx : ∀ l : List Pt, index l 0 = .ok a → l.head? = some a := by
    intro l hl
    cases l with
    | nil => cases hl
    | cons x l => rw [index_zero] at hl; simpa using hl
  exact ⟨a, Commitment.constantTerm_head.2 (hidx _ ha), Commitment.constantTerm_head.2 (hidx _ hb)⟩

/-- Whoever the dealers are: if every dealing's constant term is the dealer's share in the exponent (what public
verification checks for plain commitments), unmasked resharing by enough dealers goes through. -/
theorem C59_unmasked_goes_through (t : Int) (ds : DealingMap) (cm : NodeIndex → Commitment) (p1 : Com) (ht : 0 < t)
    (hc : Commits ds cm) (hsort : OMap.Sorted BitVec.toInt ds) (hl : ∀ x ∈ ds, ((cm x.1).points.length : Int) = t)
    (hk : p1.c.kind = .simple) (hne : p1.c.points ≠ []) (hcount : p1.c.points.length ≤ ds.length)
    (h0 : ∀ x ∈ ds, (cm x.1).points.head? = some (valueAtNode p1.c.points x.1)) :
    ∃ T, newTranscript t ds (.reshareUnmasked p1) = .ok (some T) := by
  have hdne : ds ≠ [] := by
    rintro rfl
    exact hne (List.length_eq_zero_iff.1 (by simpa using hcount))
  obtain ⟨a, ha⟩ : ∃ a, p1.c.points.head? = some a := by
    cases hp : p1.c.points with
    | nil => exact absurd hp hne
    | cons a l => exact ⟨a, rfl⟩
  obtain ⟨w, hw, hsum, -, hnew, -⟩ := newTranscript_interp hc (OMap.nodup_keys hsort) hdne ht.le hl
  have hnew := hnew p1 a hk hcount ha ht
  have e : ∀ i ∈ ds.map Prod.fst, w i • (cm i).points.getD 0 0 = w i • valueAtNode p1.c.points i := by
    intro i hi
    obtain ⟨x, hx, rfl⟩ := List.mem_map.1 hi
    have := h0 x hx
    rw [List.getD_eq_getElem?_getD, ← List.head?_eq_getElem?, this]
    rfl
  rw [List.map_congr_left e, sum_weights_valueAt (v := 0) (by simpa using hsum) _ (by simpa using hcount), valueAt_zero ha,
    if_neg (by simp)] at hnew
  exact ⟨_, hnew⟩

/-! ### Concrete cases -/

/-- Three honest dealers exist, whatever they deal. -/
theorem dealings_exist (sh : NodeIndex → Shares) : ∃ d : NodeIndex → Dealing,
    OMap.Sorted BitVec.toInt (mapOf [0, 1, 2] d) ∧
    ∀ i ∈ ([0, 1, 2] : List NodeIndex), new zeroPrim (sh i) ⟨[]⟩ 2 (([3, 4, 5] : List Fn).map Point.mulByG) i [7] = .ok (d i) := by
  have h : ∀ i : NodeIndex, ∃ d, new zeroPrim (sh i) ⟨[]⟩ 2 (([3, 4, 5] : List Fn).map Point.mulByG) i [7] = .ok d := fun i =>
    dealing_exists (sh i) ⟨[]⟩ 2 _ i [7] (by omega) (by simp)
  choose d hd using h
  exact ⟨d, by simp [OMap.Sorted, mapOf], fun i _ => hd i⟩

/-- The hypotheses of C58 to C60 hold for three dealers; with C60 the product 6 * 5 is committed to. -/
example : ∃ d f g, newTranscript 2 (mapOf [0, 1, 2] d) .random =
    .ok (some ⟨.summation, ⟨.pedersen, List.zipWith (fun v m : Fn => v • G + m • Point.H) f g⟩⟩) := by
  obtain ⟨d, -, hd⟩ := dealings_exist fun _ => .random
  obtain ⟨f, g, -, -, h, -⟩ := C58_honest_random zeroPrim 2 [0, 1, 2] d (fun _ => ⟨[]⟩) [3, 4, 5] [7] (by omega) hd
  exact ⟨d, f, g, h⟩

example : ∃ d op, ∃ f : List Fn, f.head? = some (6 : Fn) ∧ newTranscript 2 (mapOf [0, 1, 2] d) (.reshareMasked op) =
    .ok (some ⟨.interpolation, ⟨.simple, f.map fun v : Fn => v • G⟩⟩) := by
  obtain ⟨d, hs, hd⟩ := dealings_exist fun i => .reshareMasked ((toPoly [6, 1]).eval (place i)) ((toPoly [8, 9]).eval (place i))
  obtain ⟨f, -, h0, h, -⟩ := C59_reshare_masked zeroPrim 2 [0, 1, 2] d (fun _ => ⟨[]⟩) [3, 4, 5] [7] [6, 1] [8, 9] .plain
    (by omega) hs (by simp) rfl (by simp) hd
  exact ⟨d, _, f, h0, h⟩

example : ∃ d op, ∃ f : List Fn, f.head? = some (6 : Fn) ∧ newTranscript 2 (mapOf [0, 1, 2] d) (.reshareUnmasked op) =
    .ok (some ⟨.interpolation, ⟨.simple, f.map fun v : Fn => v • G⟩⟩) := by
  obtain ⟨d, hs, hd⟩ := dealings_exist fun i => .reshareUnmasked ((toPoly [6, 1]).eval (place i))
  obtain ⟨f, -, h0, h, -⟩ := C59_reshare_unmasked zeroPrim 2 [0, 1, 2] d (fun _ => ⟨[]⟩) [3, 4, 5] [7] [6, 1] .plain
    (by omega) hs (by simp) (by simp) hd
  exact ⟨d, _, f, h0, h⟩

example : ∃ d l r, ∃ f g : List Fn, f.head? = some (6 * 5 : Fn) ∧ newTranscript 2 (mapOf [0, 1, 2] d) (.unmaskedTimesMasked l r) =
    .ok (some ⟨.interpolation, ⟨.pedersen, List.zipWith (fun v m : Fn => v • G + m • Point.H) f g⟩⟩) ∧
    ∃ o, fromDealings zeroPrim (mapOf [0, 1, 2] d)
      (some ⟨.interpolation, ⟨.pedersen, List.zipWith (fun v m : Fn => v • G + m • Point.H) f g⟩⟩) [7] 1 4 ((4 : Fn) • G) =
        .ok o := by
  obtain ⟨d, hs, hd⟩ := dealings_exist fun i => .unmaskedTimesMasked ((toPoly [6, 1]).eval (place i))
    ((toPoly [5, 2]).eval (place i)) ((toPoly [8, 9]).eval (place i))
  obtain ⟨f, g, -, -, h0, h, hshare⟩ := C60_product zeroPrim 2 [0, 1, 2] d (fun _ => ⟨[]⟩) [3, 4, 5] [7] [6, 1] [5, 2] [8, 9]
    .plain .plain (by omega) hs 6 5 rfl rfl rfl (by simp) hd
  exact ⟨d, _, _, f, g, h0, h, _, hshare 1 4 (by decide) (by rfl)⟩

/-! ### C64, C89: reconstruction from openings -/

/-- Whatever the openings: the reconstructed share opens the dealing's commitment, and too few openings are refused. -/
theorem C64_reconstruction_sound (d : Dealing) (cm : Commitment) (hcm : d.commitment = some cm) (openings : OpeningMap)
    (i : NodeIndex) :
    (∀ o, reconstructShare d openings i = .ok o → cm.points.length ≤ openings.length ∧ Opens cm i o) ∧
    (openings.length < cm.points.length → (reconstructShare d openings i).isErr = true) := by
  constructor
  · intro o h
    rw [reconstructShare.eq_def, hcm, nonNil, Res.ok_bind] at h
    split_ifs at h with hlen
    refine ⟨not_lt.1 hlen, ?_⟩
    obtain ⟨ct, -, h⟩ := Res.bind_eq_ok.1 h
    simp only at h
    split at h
    · obtain ⟨⟨xs, vs⟩, -, h⟩ := Res.bind_eq_ok.1 h
      obtain ⟨co, -, h⟩ := Res.bind_eq_ok.1 h
      obtain ⟨v, -, h⟩ := Res.bind_eq_ok.1 h
      obtain ⟨e, -, h6⟩ := returnOpening_ok h
      rwa [e]
    · obtain ⟨⟨xs, vs, ms⟩, -, h⟩ := Res.bind_eq_ok.1 h
      obtain ⟨co, -, h⟩ := Res.bind_eq_ok.1 h
      obtain ⟨v, -, h⟩ := Res.bind_eq_ok.1 h
      obtain ⟨v', -, h⟩ := Res.bind_eq_ok.1 h
      obtain ⟨e, -, h6⟩ := returnOpening_ok h
      rwa [e]
  · intro hlt
    rw [reconstructShare.eq_def, hcm, nonNil, Res.ok_bind, if_pos hlt]
    rfl

/-- The reconstruction from correct openings, explicitly. -/
theorem Dealings.reconstruct_eq (d : Dealing) (cm : Commitment) (hcm : d.commitment = some cm) (hne : cm.points ≠ [])
    (openers : List NodeIndex) (o : NodeIndex → Opening) (hn : openers.Nodup) (hlen : cm.points.length ≤ openers.length)
    (ho : ∀ j ∈ openers, Opens cm j (o j)) (i : NodeIndex) :
    ∃ w : NodeIndex → Fn,
      (∀ f : Fn[X], f.degree < openers.length → (openers.map fun j => w j * f.eval (place j)).sum = f.eval (place i)) ∧
      reconstructShare d (openers.map fun j => (j, o j)) i = .ok (match cm.kind with
        | .simple => .simple (openers.map fun j => w j * Opening.val (o j)).sum
        | .pedersen => .pedersen (openers.map fun j => w j * Opening.val (o j)).sum
            (openers.map fun j => w j * Opening.mask (o j)).sum) := by
  have hone : openers ≠ [] := by
    rintro rfl
    exact hne (List.length_eq_zero_iff.1 (by simpa using hlen))
  obtain ⟨w, hw, hsum⟩ := Lagr.weights (place i) openers hone hn
  refine ⟨w, hsum, ?_⟩
  have hval := sum_weights_valueAt hsum cm.points hlen
  have hct : ∃ ct, cm.curveType = .ok ct := by
    rw [Commitment.curveType]
    cases hp : cm.points with
    | nil => exact absurd hp hne
    | cons a l => exact ⟨_, rfl⟩
  obtain ⟨ct, hct⟩ := hct
  have hplace : Scalar.fromNodeIndex i = place i := rfl
  rw [reconstructShare.eq_def, hcm, nonNil, Res.ok_bind, if_neg (by rw [List.length_map]; omega), hct, Res.ok_bind]
  simp only [hplace]
  cases hk : cm.kind with
  | simple =>
    have ho' := fun j hj => opens_simple (ho j hj) hk
    have e1 : (openers.map fun j => (j, o j)) = openers.map fun j => (j, .simple (Opening.val (o j))) :=
      List.map_congr_left fun j hj => by rw [← (ho' j hj).1]
    simp only
    rw [e1, collectSimple_eq, Res.ok_bind]
    simp only
    rw [hw, Res.ok_bind, Lagr.interpolateScalar_map openers hone w, Res.ok_bind]
    refine returnOpening_simple hk hne ?_
    rw [← sum_map_smul_G]
    refine Eq.trans hval.symm ?_
    congr 1
    exact List.map_congr_left fun j hj => by rw [(ho' j hj).2]
  | pedersen =>
    have ho' := fun j hj => opens_pedersen (ho j hj) hk
    have e1 : (openers.map fun j => (j, o j)) =
        openers.map fun j => (j, .pedersen (Opening.val (o j)) (Opening.mask (o j))) :=
      List.map_congr_left fun j hj => by rw [← (ho' j hj).1]
    simp only
    rw [e1, collectPedersen_eq, Res.ok_bind]
    simp only
    rw [hw, Res.ok_bind, Lagr.interpolateScalar_map openers hone w, Res.ok_bind, Lagr.interpolateScalar_map openers hone w,
      Res.ok_bind]
    refine returnOpening_pedersen hk hne ?_
    rw [← sum_map_smul_G, ← sum_map_smul_G, ← sum_map_add]
    refine Eq.trans hval.symm ?_
    congr 1
    exact List.map_congr_left fun j hj => by rw [(ho' j hj).2, smul_add]

/-- From at least as many correct openings as the commitment has coefficients the share is reconstructed: for a simple
commitment it is the only opening, whoever opened; if the commitment is to a pair of polynomials and the openings are their
values, it is the pair of their values at the accused node. -/
theorem C64_reconstruction (d : Dealing) (cm : Commitment) (hcm : d.commitment = some cm) (hne : cm.points ≠ [])
    (openers : List NodeIndex) (o : NodeIndex → Opening) (hn : openers.Nodup) (hlen : cm.points.length ≤ openers.length)
    (ho : ∀ j ∈ openers, Opens cm j (o j)) (i : NodeIndex) :
    ∃ res, reconstructShare d (openers.map fun j => (j, o j)) i = .ok res ∧ Opens cm i res ∧
      (cm.kind = .simple → ∀ o', Opens cm i o' → o' = res) ∧
      (∀ q r : List Fn, cm = ⟨.pedersen, List.zipWith (fun v m : Fn => v • G + m • Point.H) q r⟩ → q.length = r.length →
        (∀ j ∈ openers, o j = .pedersen ((toPoly q).eval (place j)) ((toPoly r).eval (place j))) →
        res = .pedersen ((toPoly q).eval (place i)) ((toPoly r).eval (place i))) := by
  obtain ⟨w, hsum, hres⟩ := reconstruct_eq d cm hcm hne openers o hn hlen ho i
  refine ⟨_, hres, ((C64_reconstruction_sound d cm hcm _ i).1 _ hres).2, fun hk o' ho' => ?_, fun q r hc hl hj => ?_⟩
  · have h1 := ((C64_reconstruction_sound d cm hcm _ i).1 _ hres).2
    obtain ⟨e1, e2⟩ := opens_simple h1 hk
    obtain ⟨e3, e4⟩ := opens_simple ho' hk
    rw [e1, e3]
    congr 1
    exact smul_left_injective Fn G_ne_zero (e4.symm.trans e2)
  · have hql : q.length ≤ openers.length := by
      refine le_trans (le_of_eq ?_) hlen
      rw [hc, List.length_zipWith, hl, min_self]
    have hk : cm.kind = .pedersen := by rw [hc]
    rw [hk]
    simp only
    have e1 : ∀ j ∈ openers, w j * Opening.val (o j) = w j * (toPoly q).eval (place j) := fun j hjm => by rw [hj j hjm]; rfl
    have e2 : ∀ j ∈ openers, w j * Opening.mask (o j) = w j * (toPoly r).eval (place j) := fun j hjm => by rw [hj j hjm]; rfl
    rw [List.map_congr_left e1, List.map_congr_left e2,
      hsum _ (lt_of_lt_of_le (degree_toPoly_lt q) (by exact_mod_cast hql)),
      hsum _ (lt_of_lt_of_le (degree_toPoly_lt r) (by rw [← hl]; exact_mod_cast hql))]

/-- A case of C64: two openers of a line, a third node's share. -/
example : reconstructShare ⟨none, some ⟨.simple, [(6 : Fn) • G, (1 : Fn) • G]⟩, none⟩
    [(0, .simple 7), (4, .simple 11)] 2 = .ok (.simple 9) := by
  have hv : ∀ j : NodeIndex, valueAtNode [(6 : Fn) • G, (1 : Fn) • G] j = (6 + place j) • G := by
    intro j
    rw [valueAtNode, valueAt]
    refine (Fin.sum_univ_two (fun k : Fin 2 => place j ^ (k : ℕ) • ([(6 : Fn) • G, (1 : Fn) • G] : List Pt)[k])).trans ?_
    simp [add_smul]
  have p0 : (6 : Fn) + place 0 = 7 := by decide +kernel
  have p2 : (6 : Fn) + place 2 = 9 := by decide +kernel
  have p4 : (6 : Fn) + place 4 = 11 := by decide +kernel
  obtain ⟨res, h1, h2, h3, -⟩ := C64_reconstruction ⟨none, some ⟨.simple, [(6 : Fn) • G, (1 : Fn) • G]⟩, none⟩ _ rfl (by simp)
    [0, 4] (fun j => if j = 0 then .simple 7 else .simple 11) (by simp) (by simp) (by
      intro j hj
      simp only [List.mem_cons, List.not_mem_nil, or_false] at hj
      rcases hj with rfl | rfl
      · exact ⟨rfl, by rw [hv, p0]⟩
      · exact ⟨rfl, by rw [hv, p4]⟩) 2
  rw [h3 rfl (.simple 9) ⟨rfl, by rw [hv, p2]⟩]
  exact h1

/-- Openings as they come from the wire (poly/commitment.go:22-30 and 52-75 make pointers) are skipped, so that correct ones,
however many, are not enough. -/
theorem C89_false (d : Dealing) (cm : Commitment) (hcm : d.commitment = some cm) (hne : cm.points ≠ []) (openings : OpeningMap)
    (hptr : ∀ x ∈ openings, (∃ v, x.2 = .simplePtr v) ∨ ∃ v m, x.2 = .pedersenPtr v m) (i : NodeIndex) :
    (reconstructShare d openings i).isErr = true := by
  have h1 : collectSimple openings = .ok ([], []) := by
    induction openings with
    | nil => rfl
    | cons x l ih =>
      obtain ⟨j, o⟩ := x
      rcases hptr (j, o) (by simp) with ⟨v, hx⟩ | ⟨v, m, hx⟩ <;> simp only at hx <;> subst hx <;>
        exact ih fun y hy => hptr y (by simp [hy])
  have h2 : collectPedersen openings = .ok ([], [], []) := by
    clear h1
    induction openings with
    | nil => rfl
    | cons x l ih =>
      obtain ⟨j, o⟩ := x
      rcases hptr (j, o) (by simp) with ⟨v, hx⟩ | ⟨v, m, hx⟩ <;> simp only at hx <;> subst hx <;>
        exact ih fun y hy => hptr y (by simp [hy])
  have hct : ∃ ct, cm.curveType = .ok ct := by
    rw [Commitment.curveType]
    cases hp : cm.points with
    | nil => exact absurd hp hne
    | cons a l => exact ⟨_, rfl⟩
  obtain ⟨ct, hct⟩ := hct
  obtain ⟨e, he⟩ := Lagr.atValue_err (Scalar.fromNodeIndex i) [] (Or.inl rfl)
  rw [reconstructShare.eq_def, hcm, nonNil, Res.ok_bind]
  split_ifs
  · rfl
  · rw [hct, Res.ok_bind]
    simp only
    split
    · rw [h1, Res.ok_bind]
      simp only
      rw [he]; rfl
    · rw [h2, Res.ok_bind]
      simp only
      rw [he]; rfl

/-- Openings that are values, not pointers. -/
def Dealings.isValue : Opening → Bool
  | .simple _ => true
  | .pedersen _ _ => true
  | _ => false

/-- Openings behind pointers do no harm, as long as there are enough others: what is missing in `C89_false` is only their
use. -/
theorem C89_pointers_ignored_partial (d : Dealing) (cm : Commitment) (hcm : d.commitment = some cm) (openings : OpeningMap)
    (i : NodeIndex) (hlen : cm.points.length ≤ (openings.filter fun x => isValue x.2).length) :
    reconstructShare d openings i = reconstructShare d (openings.filter fun x => isValue x.2) i := by
  have h1 : collectSimple openings = collectSimple (openings.filter fun x => isValue x.2) := by
    clear hlen
    induction openings with
    | nil => rfl
    | cons x l ih =>
      obtain ⟨j, o⟩ := x
      cases o <;> simp [collectSimple, isValue, ih]
  have h2 : collectPedersen openings = collectPedersen (openings.filter fun x => isValue x.2) := by
    clear hlen h1
    induction openings with
    | nil => rfl
    | cons x l ih =>
      obtain ⟨j, o⟩ := x
      cases o <;> simp [collectPedersen, isValue, ih]
  have h3 := List.length_filter_le (fun x : NodeIndex × Opening => isValue x.2) openings
  rw [reconstructShare.eq_def, reconstructShare.eq_def, hcm, nonNil, Res.ok_bind, Res.ok_bind, if_neg (by omega), if_neg (by omega),
    h1, h2]

/-! ### C61, C62: checks of the code -/

/-- What is refused: wrong lengths, operands of the wrong kind, fewer dealings than the old polynomial(s) need, and, for
random transcripts only, dealings of the wrong kind.  What is missing: see `C61_false`. -/
theorem C61_rejections_partial (t : Int) (ds : DealingMap) (cm : NodeIndex → Commitment) (hc : Commits ds cm) :
    (∀ op, (∃ x ∈ ds, ((cm x.1).points.length : Int) ≠ t) → (newTranscript t ds op).isErr = true) ∧
    (∀ p1, p1.c.kind ≠ .pedersen ∨ ds.length < p1.c.points.length →
      (newTranscript t ds (.reshareMasked p1)).isErr = true) ∧
    (∀ p1, p1.c.kind ≠ .simple ∨ ds.length < p1.c.points.length →
      (newTranscript t ds (.reshareUnmasked p1)).isErr = true) ∧
    (∀ l r, l.c.kind ≠ .simple ∨ r.c.kind ≠ .pedersen ∨ ds.length + 1 < l.c.points.length + r.c.points.length →
      (newTranscript t ds (.unmaskedTimesMasked l r)).isErr = true) ∧
    ((∃ x ∈ ds, (cm x.1).kind ≠ .pedersen) → (newTranscript t ds .random).isErr = true) := by
  obtain ⟨hcl, hcases⟩ := checkLengths_cases hc t
  have herr : ∀ op, ¬ checkLengths t ds = .ok () → (newTranscript t ds op).isErr = true := by
    intro op hno
    obtain ⟨e, he⟩ := Res.isErr_iff.1 (hcases.resolve_left hno)
    rw [newTranscript.eq_def, he]; rfl
  refine ⟨fun op hx => herr op fun hok => ?_, fun p1 hp => ?_, fun p1 hp => ?_, fun l r hp => ?_, fun hx => ?_⟩
  · obtain ⟨x, hx, hne⟩ := hx
    exact hne (hcl.1 hok x hx)
  · by_cases hok : checkLengths t ds = .ok ()
    · rw [newTranscript, hok, Res.ok_bind]
      split_ifs with h1 h2
      · rfl
      · rfl
      · rw [not_not] at h1
        rcases hp with hp | hp
        · exact absurd h1 hp
        · exact absurd hp h2
    · exact herr _ hok
  · by_cases hok : checkLengths t ds = .ok ()
    · rw [newTranscript, hok, Res.ok_bind]
      split_ifs with h1 h2
      · rfl
      · rfl
      · rw [not_not] at h1
        rcases hp with hp | hp
        · exact absurd h1 hp
        · exact absurd hp h2
    · exact herr _ hok
  · by_cases hok : checkLengths t ds = .ok ()
    · rw [newTranscript, hok, Res.ok_bind]
      split_ifs with h1 h2
      · rfl
      · rfl
      · exfalso
        push Not at h1
        rcases hp with hp | hp | hp
        · exact hp h1.1
        · exact hp h1.2
        · omega
    · exact herr _ hok
  · by_cases hok : checkLengths t ds = .ok ()
    · have hl := hcl.1 hok
      have ht : 0 ≤ t := by
        obtain ⟨x, hx, -⟩ := hx
        have := hl x hx
        omega
      have := sumLoop_kind hc (List.replicate t.toNat 0) hx fun x hx => by
        rw [List.length_replicate]; have := hl x hx; omega
      obtain ⟨e, he⟩ := Res.isErr_iff.1 this
      rw [newTranscript, hok, Res.ok_bind, if_neg (by omega), he]; rfl
    · exact herr _ hok

/-- The kinds of the dealings are not checked for resharing: one with a Pedersen commitment goes into a transcript whose
commitment is labelled simple.  And a random transcript can be made of no dealings at all: it commits to zero. -/
theorem C61_false :
    (∃ (ds : DealingMap) (cm : NodeIndex → Commitment) (op : Op) (T : Com), Commits ds cm ∧ OMap.Sorted BitVec.toInt ds ∧
      (∃ x ∈ ds, (cm x.1).kind ≠ op.dealingKind) ∧ newTranscript 1 ds op = .ok (some T)) ∧
    (∀ t : Int, 0 ≤ t → newTranscript t [] .random = .ok (some ⟨.summation, ⟨.pedersen, List.replicate t.toNat 0⟩⟩)) := by
  constructor
  · set d : Dealing := ⟨none, some ⟨.pedersen, [Point.H]⟩, none⟩
    have hc : Commits [((0 : NodeIndex), d)] fun _ => ⟨.pedersen, [Point.H]⟩ := by
      intro x hx
      rw [List.mem_singleton] at hx
      rw [hx]
    have hsort : OMap.Sorted BitVec.toInt [((0 : NodeIndex), d)] := List.pairwise_singleton _ _
    obtain ⟨w, -, -, hnew, -⟩ := newTranscript_interp hc (OMap.nodup_keys hsort) (by simp) (t := 1) (by omega)
      (fun x hx => by simp)
    exact ⟨_, _, .reshareMasked ⟨.plain, ⟨.pedersen, [Point.H]⟩⟩, _, hc, hsort,
      ⟨_, List.mem_singleton_self _, by simp [Op.dealingKind]⟩, hnew ⟨.plain, ⟨.pedersen, [Point.H]⟩⟩ rfl (by simp)⟩
  · intro t ht
    rw [newTranscript, checkLengths, Res.ok_bind, if_neg (by omega)]
    rfl

theorem Dealings.bytesCompare_self (b : Bytes) : bytesCompare b b = 0 := by
  induction b with
  | nil => rfl
  | cons a l ih => rw [bytesCompare, if_neg (UInt8.lt_irrefl a), if_neg (UInt8.lt_irrefl a), ih]

/-- `Compare` never looks at its argument: it calls any two transcripts equal. -/
theorem C62_false (c c' : Com) (h : c.c.points ≠ []) : Dealings.compare (some c) (some c') = .ok 0 := by
  have : ∃ b, c.c.stableRepresentation = .ok b := by
    rw [Commitment.stableRepresentation, Commitment.curveType]
    cases hp : c.c.points with
    | nil => exact absurd hp h
    | cons a l => exact ⟨_, rfl⟩
  obtain ⟨b, hb⟩ := this
  simp only [Dealings.compare, nonNil, Res.ok_bind, hb, bytesCompare_self]

/-- What is left: a transcript is equal to itself. -/
theorem C62_reflexive_partial (c : Com) (h : c.c.points ≠ []) : Dealings.compare (some c) (some c) = .ok 0 := C62_false c c h

/-! ### C90: unknown operations -/

/-- An operation outside the four kinds yields a transcript without commitment, and no error; using it panics. -/
theorem C90_false (t : Int) (ds : DealingMap) (cm : NodeIndex → Commitment) (hc : Commits ds cm)
    (hl : ∀ x ∈ ds, ((cm x.1).points.length : Int) = t) (i : NodeIndex) :
    newTranscript t ds .other = .ok none ∧ (constantTerm none).isPanic = true ∧
      (transcriptEvaluateAt none i).isPanic = true := by
  refine ⟨?_, rfl, rfl⟩
  rw [newTranscript, (checkLengths_cases hc t).1.2 hl]
  rfl

/-- The four kinds of operation never yield one. -/
theorem C90_known_operations_partial (t : Int) (ds : DealingMap) (op : Op) (T : Option Com) (hop : op ≠ .other)
    (h : newTranscript t ds op = .ok T) : T ≠ none := by
  rintro rfl
  rw [newTranscript.eq_def] at h
  obtain ⟨⟨⟩, -, h⟩ := Res.bind_eq_ok.1 h
  cases op with
  | random =>
    simp only at h
    split_ifs at h
    obtain ⟨a, -, h⟩ := Res.bind_eq_ok.1 h
    cases h
  | reshareMasked p1 =>
    simp only at h
    split_ifs at h
    obtain ⟨a, -, h⟩ := Res.bind_eq_ok.1 h
    cases h
  | reshareUnmasked p1 =>
    simp only at h
    split_ifs at h
    obtain ⟨a, -, h⟩ := Res.bind_eq_ok.1 h
    obtain ⟨b, -, h⟩ := Res.bind_eq_ok.1 h
    obtain ⟨b', -, h⟩ := Res.bind_eq_ok.1 h
    split_ifs at h <;> cases h
  | unmaskedTimesMasked l r =>
    simp only at h
    split_ifs at h
    obtain ⟨a, -, h⟩ := Res.bind_eq_ok.1 h
    cases h
  | other => exact hop rfl

/-! ### C91: the public view agrees with the shares -/

/-- The transcript's public value at a node is the public image of the share the node gets. -/
theorem C91_public_share (P : Prim) (ds : DealingMap) (T : Option Com) (ad : Bytes) (i : NodeIndex) (k : Fn) (pk : Pt) :
    (∀ v, fromDealings P ds T ad i k pk = .ok (.simple v) → transcriptEvaluateAt T i = .ok (v • G)) ∧
    (∀ v m, fromDealings P ds T ad i k pk = .ok (.pedersen v m) → transcriptEvaluateAt T i = .ok (v • G + m • Point.H)) := by
  have hne : ∀ o, fromDealings P ds T ad i k pk = .ok o → ∃ c, T = some c ∧ c.c.points ≠ [] := by
    intro o h
    rw [fromDealings] at h
    obtain ⟨os, -, h⟩ := Res.bind_eq_ok.1 h
    rw [combineOpenings.eq_def] at h
    split at h
    · cases h
    · obtain ⟨⟨a, b⟩, -, h⟩ := Res.bind_eq_ok.1 h
      exact ⟨_, rfl, (returnOpening_ok h).2.1⟩
    · split at h
      · obtain ⟨⟨a, b⟩, -, h⟩ := Res.bind_eq_ok.1 h
        obtain ⟨c, -, h⟩ := Res.bind_eq_ok.1 h
        obtain ⟨v, -, h⟩ := Res.bind_eq_ok.1 h
        exact ⟨_, rfl, (returnOpening_ok h).2.1⟩
      · obtain ⟨⟨a, b, b'⟩, -, h⟩ := Res.bind_eq_ok.1 h
        obtain ⟨c, -, h⟩ := Res.bind_eq_ok.1 h
        obtain ⟨v, -, h⟩ := Res.bind_eq_ok.1 h
        obtain ⟨v', -, h⟩ := Res.bind_eq_ok.1 h
        exact ⟨_, rfl, (returnOpening_ok h).2.1⟩
    · cases h
  constructor
  · intro v h
    obtain ⟨c, rfl, hp⟩ := hne _ h
    obtain ⟨c', e, ho⟩ := (C63_shares_consistent P ds [] _ ad i k pk _).1 h
    cases e
    rw [transcriptEvaluateAt, nonNil, Res.ok_bind, Commitment.evaluateAt_value hp, ho.2]
  · intro v m h
    obtain ⟨c, rfl, hp⟩ := hne _ h
    obtain ⟨c', e, ho⟩ := (C63_shares_consistent P ds [] _ ad i k pk _).1 h
    cases e
    rw [transcriptEvaluateAt, nonNil, Res.ok_bind, Commitment.evaluateAt_value hp, ho.2]

end Verif
