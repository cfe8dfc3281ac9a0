import Verif.Spec.DriverLeak
import Verif.Props.SeedReuse
import Verif.Props.ProtocolCheck
import Verif.Props.RunSeeds

/-!
C200: in the protocol driver, a damaged dealing costs its recipients their private keys.
-/

set_option autoImplicit false

namespace Verif

open Protocol Dealings Mega Complaints Sign DriverLeak

theorem DriverLeak.self_mem_set {V : Type} (k : NodeIndex) (v : V) (m : List (NodeIndex × V)) : (k, v) ∈ OMap.set BitVec.toInt k v m := by
  induction m with
  | nil => simp [OMap.set]
  | cons y ys ih =>
    rw [OMap.set]
    split_ifs
    · simp
    · exact List.mem_cons_of_mem _ ih
    · simp

theorem DriverLeak.each {α β : Type} {f : α → Res β} {l : List α} {bs : List β} (h : Res.mapM' f l = .ok bs) : ∀ a ∈ l, ∃ b, f a = .ok b := by
  have := Res.mapM'_eq_ok.1 h
  clear h
  induction this with
  | nil => simp
  | cons h1 h2 ih =>
    intro a ha
    rcases List.mem_cons.1 ha with rfl | ha
    · exact ⟨_, h1⟩
    · exact ih a ha

/-- Some node cannot verify some dealing. -/
def DriverLeak.Stuck (P : Prim) (s : Setup) (ds : DealingMap) : Prop :=
  ∃ y ∈ s.receivers, ∃ x ∈ ds, ∃ e, privateVerify P x.2 K256 y.2 (Point.mulByG y.2) s.ad x.1 y.1 = .err e

theorem DriverLeak.open_not_ok {P : Prim} {d : Dealing} {k : Fn} {pk : Pt} {ad : Bytes} {j i : NodeIndex} {e : String}
    (h : privateVerify P d K256 k pk ad j i = .err e) (o : Opening) : openDealing P d ad j i k pk ≠ .ok o := by
  intro ho
  rw [privateVerify, if_neg (by simp)] at h
  rw [openDealing] at ho
  obtain ⟨c, hc, ho⟩ := Res.bind_eq_ok.1 ho
  rw [hc] at h
  cases hcm : d.commitment with
  | none => rw [hcm] at h; cases h
  | some cm =>
    rw [hcm] at h ho
    simp only at ho
    rw [show nonNil (some cm) = .ok cm from rfl, Res.ok_bind] at h
    cases hp : cm.points with
    | nil =>
      rw [Commitment.constantTerm, hp] at h
      cases h
    | cons y ys =>
      rw [Commitment.constantTerm, hp, Res.ok_bind, Res.ok_bind, ho] at h
      cases h

theorem DriverLeak.choose_mem {l : List NodeIndex} {count : Nat} {rng rng' : Rng} {chosen : List NodeIndex} (hc : 0 < count)
    (h : choose l count rng = .ok (chosen, rng')) : ∃ t ∈ chosen, t ∈ l := by
  rw [choose, if_neg (by omega)] at h
  split_ifs at h
  split at h
  · cases h
  · rename_i c' rng' hc
    cases h
    obtain ⟨-, h2, h3⟩ := chooseLoop_spec hc OMap.sorted_nil (by simp)
    cases c' with
    | nil => simp at h3; omega
    | cons y ys => exact ⟨y.1, by simp, h2 y (by simp)⟩

theorem DriverLeak.damageLoop_stuck {P : Prim} {s : Setup} {damage : List NodeIndex} {rng : Rng} {ds ds' : DealingMap}
    (hne : damage ≠ []) (h : damageLoop P s damage rng ds = .ok ds') : Stuck P s ds' := by
  induction damage generalizing rng ds with
  | nil => exact absurd rfl hne
  | cons i rest ih =>
    rw [damageLoop] at h
    obtain ⟨d, hg, h⟩ := Res.bind_eq_ok.1 h
    rcases hu : rng.uint32 with ⟨x, rng1⟩
    rw [hu] at h
    simp only at h
    split_ifs at h with ht
    obtain ⟨⟨targets, rng2⟩, hch, h⟩ := Res.bind_eq_ok.1 h
    obtain ⟨⟨sd, rng3⟩, -, h⟩ := Res.bind_eq_ok.1 h
    obtain ⟨bad, hb, h⟩ := Res.bind_eq_ok.1 h
    obtain ⟨⟨⟩, hcc, h⟩ := Res.bind_eq_ok.1 h
    cases rest with
    | cons i' rest => exact ih (by simp) h
    | nil =>
      cases h
      have hpos : 0 < ((x : Int).tmod s.threshold + 1).toNat := by
        have := Int.tmod_nonneg s.threshold (Int.natCast_nonneg x)
        omega
      obtain ⟨t, ht, hall⟩ := choose_mem hpos hch
      obtain ⟨m, hm, rfl⟩ := List.mem_map.1 hall
      have hm' := List.mem_range.1 hm
      have hrec : (node m, s.sk[m]) ∈ s.receivers :=
        List.mem_map.2 ⟨(s.sk[m], m), List.mem_zipIdx_iff_getElem?.2 (List.getElem?_eq_getElem hm'), rfl⟩
      rw [checkCorrupted] at hcc
      obtain ⟨us, hus, -⟩ := Res.bind_eq_ok.1 hcc
      refine ⟨_, hrec, _, self_mem_set i bad ds, ?_⟩
      obtain ⟨b, hb'⟩ := each hus _ hrec
      simp only at hb'
      split at hb'
      · rw [if_pos ht] at hb'; cases hb'
      · rename_i e he
        exact ⟨e, he⟩
      · cases hb'
      · cases hb'

theorem DriverLeak.complaintLoop_verified {P : Prim} {s : Setup} {ds : DealingMap} {i : NodeIndex} {pk : Pt} {cs : List (NodeIndex × Complaint)}
    {rng rng' : Rng} {provided : List (NodeIndex × OpeningMap)} (h : complaintLoop P s ds i pk cs rng = .ok (provided, rng')) :
    ∀ x ∈ cs, ∃ d, (x.1, d) ∈ ds ∧ Complaints.verify P x.2 d x.1 i pk s.ad = .ok () := by
  induction cs generalizing rng provided with
  | nil => simp
  | cons x rest ih =>
    obtain ⟨j, c⟩ := x
    rw [complaintLoop] at h
    cases hg : OMap.get BitVec.toInt j ds with
    | none => rw [hg] at h; cases h
    | some d =>
      rw [hg] at h
      obtain ⟨⟨⟩, hv, h⟩ := Res.bind_eq_ok.1 h
      obtain ⟨os, -, h⟩ := Res.bind_eq_ok.1 h
      obtain ⟨⟨os', rng1⟩, -, h⟩ := Res.bind_eq_ok.1 h
      obtain ⟨⟨prov, rng2⟩, hr, h⟩ := Res.bind_eq_ok.1 h
      cases h
      intro y hy
      rcases List.mem_cons.1 hy with rfl | hy
      · obtain ⟨j', e, hm⟩ := OMap.mem_of_get hg
        cases BitVec.eq_of_toInt_eq e
        exact ⟨d, hm, hv⟩
      · exact ih hr y hy

/-- A node that cannot open one of the dealings makes complaints, with a seed derived from that of the loop, and they are accepted. -/
theorem DriverLeak.openLoop_complains {P : Prim} {s : Setup} {ds : DealingMap} {T : Option Com} {root : Seed} {rs : List (NodeIndex × Fn)}
    {rng : Rng} {os : List Opening} (h : openLoop P s ds T root rs rng = .ok os) {i : NodeIndex} {k : Fn} (hi : (i, k) ∈ rs)
    (hn : ∀ o, fromDealings P ds T s.ad i k (Point.mulByG k) ≠ .ok o) :
    ∃ seed cs, root.derive P (ascii "complaint-" ++ decimal i.toNat) = .ok seed ∧
      generateComplaints P ds s.ad i k (Point.mulByG k) seed = .ok cs ∧
      ∀ x ∈ cs, ∃ d, (x.1, d) ∈ ds ∧ Complaints.verify P x.2 d x.1 i (Point.mulByG k) s.ad = .ok () := by
  induction rs generalizing rng os with
  | nil => cases hi
  | cons x rest ih =>
    obtain ⟨i', k'⟩ := x
    rw [openLoop] at h
    split at h
    · rename_i o ho
      obtain ⟨os', hos, h⟩ := Res.bind_eq_ok.1 h
      rcases List.mem_cons.1 hi with e | hi
      · cases e
        exact absurd ho (hn o)
      · exact ih hos hi
    · obtain ⟨seed, h1, h⟩ := Res.bind_eq_ok.1 h
      obtain ⟨cs, h2, h⟩ := Res.bind_eq_ok.1 h
      obtain ⟨⟨prov, rng'⟩, h3, h⟩ := Res.bind_eq_ok.1 h
      obtain ⟨o, -, h⟩ := Res.bind_eq_ok.1 h
      obtain ⟨os', hos, h⟩ := Res.bind_eq_ok.1 h
      rcases List.mem_cons.1 hi with e | hi
      · cases e
        exact ⟨seed, cs, h1, h2, complaintLoop_verified h3⟩
      · exact ih hos hi
    · cases h
    · cases h

/-- C200, any operation. -/
theorem DriverLeak.make_revealed {P : Prim} {cbor : Commitment → Res Bytes} {s s' : Setup} {shares : List Shares} {op : Op}
    {numberOfDealers corrupted : Nat} {R : Round} (hc : 0 < corrupted)
    (h : Round.make P cbor s shares op numberOfDealers corrupted = .ok (R, s')) : Revealed P cbor s R := by
  rw [Round.make] at h
  obtain ⟨⟨seed, s1⟩, hs1, h⟩ := Res.bind_eq_ok.1 h
  obtain ⟨ds, h1, h⟩ := Res.bind_eq_ok.1 h
  obtain ⟨T, h2, h⟩ := Res.bind_eq_ok.1 h
  obtain ⟨os, h3, h⟩ := Res.bind_eq_ok.1 h
  obtain ⟨c, h4, h⟩ := Res.bind_eq_ok.1 h
  cases h
  rw [Setup.nextDealingSeed] at hs1
  obtain ⟨sd, hsd, hs1⟩ := Res.bind_eq_ok.1 hs1
  cases hs1
  rw [createDealings] at h1
  obtain ⟨⟨ds1, rng1⟩, g1, h1⟩ := Res.bind_eq_ok.1 h1
  obtain ⟨⟨ds2, rng2⟩, g2, h1⟩ := Res.bind_eq_ok.1 h1
  obtain ⟨⟨damage, rng3⟩, g3, h1⟩ := Res.bind_eq_ok.1 h1
  have hne : damage ≠ [] := by
    obtain ⟨t, ht, -⟩ := choose_mem hc g3
    exact List.ne_nil_of_mem ht
  have hst := damageLoop_stuck hne h1
  refine ⟨hst, ?_⟩
  rw [openDealings, h4, Res.ok_bind] at h3
  obtain ⟨encoded, e1, h3⟩ := Res.bind_eq_ok.1 h3
  obtain ⟨root, e2, h3⟩ := Res.bind_eq_ok.1 h3
  obtain ⟨rs, -, h3⟩ := Res.bind_eq_ok.1 h3
  refine ⟨encoded, e1, fun y hi hbad => ?_⟩
  obtain ⟨i, k⟩ := y
  obtain ⟨x, hj, e, he⟩ := hbad
  obtain ⟨own, cs, f1, f2, f3⟩ := openLoop_complains h3 hi (by
    intro o ho
    rw [fromDealings] at ho
    obtain ⟨ops, ho, -⟩ := Res.bind_eq_ok.1 ho
    obtain ⟨o', ho'⟩ := each ho _ hj
    exact open_not_ok he o' ho')
  have hcs : cs ≠ [] := by
    intro e
    subst e
    rw [generateComplaints] at f2
    obtain ⟨cs', -, f2⟩ := Res.bind_eq_ok.1 f2
    split_ifs at f2 with hl
    cases f2
    exact hl rfl
  refine ⟨own, cs, f2, hcs, fun x hx => ⟨f3 x hx, fun h0 => ?_⟩⟩
  obtain ⟨-, sd, r, rng, q1, q2, q3⟩ := C170_complaints P own k ds _ i _ cs x.1 x.2 f2 hx
  rw [key, e2, Res.ok_bind, f1, Res.ok_bind, q1, Res.ok_bind, q2, Res.ok_bind]
  exact congrArg Res.ok (q3 h0)

/-- C200: whichever of the four operations a round of the driver runs, if it damages at least one dealing and returns, then some node
cannot verify a dealing, and every such node makes complaints that everybody accepts and from each of which everybody can compute its private
key, unless the challenge of the
complaint's proof is zero: the seed of the complaints is derived from the commitment of the transcript and the number of the node, which
are public (testutils/dealings.go:18-30). -/
theorem C200_rounds (P : Prim) (cbor : Commitment → Res Bytes) (s s' : Setup) (numberOfDealers corrupted : Nat) (R : Round)
    (hc : 0 < corrupted) :
    (Round.random P cbor s numberOfDealers corrupted = .ok (R, s') → Revealed P cbor s R) ∧
    (∀ masked, Round.reshareOfMasked P cbor s masked numberOfDealers corrupted = .ok (R, s') → Revealed P cbor s R) ∧
    (∀ unmasked, Round.reshareOfUnmasked P cbor s unmasked numberOfDealers corrupted = .ok (R, s') → Revealed P cbor s R) ∧
    ∀ masked unmasked, Round.multiply P cbor s masked unmasked numberOfDealers corrupted = .ok (R, s') → Revealed P cbor s R := by
  refine ⟨fun h => make_revealed hc h, fun m h => ?_, fun u h => ?_, fun m u h => ?_⟩
  · obtain ⟨shares, -, h⟩ := Res.bind_eq_ok.1 h
    exact make_revealed hc h
  · obtain ⟨shares, -, h⟩ := Res.bind_eq_ok.1 h
    exact make_revealed hc h
  · obtain ⟨shares, -, h⟩ := Res.bind_eq_ok.1 h
    exact make_revealed hc h

theorem DriverLeak.revealed_next {P : Prim} {cbor : Commitment → Res Bytes} {s s' : Setup} {R : Round} (h : Revealed P cbor s R)
    (hs : s'.sk = s.sk ∧ s'.ad = s.ad) : Revealed P cbor s' R := by
  unfold Revealed GivesAway Damaged Setup.receivers
  rw [hs.1, hs.2]
  exact h

theorem DriverLeak.make_same {P : Prim} {cbor : Commitment → Res Bytes} {s s' : Setup} {shares : List Shares} {op : Op}
    {numberOfDealers corrupted : Nat} {R : Round} (h : Round.make P cbor s shares op numberOfDealers corrupted = .ok (R, s')) :
    s'.sk = s.sk ∧ s'.ad = s.ad := by
  rw [(RunSeeds.make_seeds h).1]
  exact ⟨rfl, rfl⟩

/-- C200, signing: after the setup of the signing protocol with damaged dealings, this holds of every round that the setup keeps. -/
theorem C200_signing (P : Prim) (cbor : Commitment → Res Bytes) (numberOfDealers : Nat) (threshold : Int) (corrupted : Nat) (seed : Seed)
    (S : SigSetup) (hc : 0 < corrupted) (h : SigSetup.new P cbor numberOfDealers threshold corrupted seed = .ok S) :
    ∀ R ∈ [S.key, S.kappa, S.lambda, S.keyTimesLambda, S.kappaTimesLambda], Revealed P cbor S.setup R := by
  rw [SigSetup.new] at h
  obtain ⟨s0, -, h⟩ := Res.bind_eq_ok.1 h
  obtain ⟨⟨k0, s1⟩, h1, h⟩ := Res.bind_eq_ok.1 h
  obtain ⟨⟨κ0, s2⟩, h2, h⟩ := Res.bind_eq_ok.1 h
  obtain ⟨⟨l, s3⟩, h3, h⟩ := Res.bind_eq_ok.1 h
  obtain ⟨⟨key, s4⟩, h4, h⟩ := Res.bind_eq_ok.1 h
  obtain ⟨⟨κ, s5⟩, h5, h⟩ := Res.bind_eq_ok.1 h
  obtain ⟨⟨xl, s6⟩, h6, h⟩ := Res.bind_eq_ok.1 h
  obtain ⟨⟨κl, s7⟩, h7, h⟩ := Res.bind_eq_ok.1 h
  cases h
  obtain ⟨_, -, h4⟩ := Res.bind_eq_ok.1 h4
  obtain ⟨_, -, h5⟩ := Res.bind_eq_ok.1 h5
  obtain ⟨_, -, h6⟩ := Res.bind_eq_ok.1 h6
  obtain ⟨_, -, h7⟩ := Res.bind_eq_ok.1 h7
  have e3 := make_same h3
  have e4 := make_same h4
  have e5 := make_same h5
  have e6 := make_same h6
  have e7 := make_same h7
  have r3 := make_revealed hc h3
  have r4 := make_revealed hc h4
  have r5 := make_revealed hc h5
  have r6 := make_revealed hc h6
  have r7 := make_revealed hc h7
  simp only [List.mem_cons, List.not_mem_nil, or_false, forall_eq_or_imp, forall_eq]
  refine ⟨revealed_next r4 ?_, revealed_next r5 ?_, revealed_next r3 ?_, revealed_next r6 ?_, revealed_next r7 ?_⟩ <;>
    simp only [e3, e4, e5, e6, e7, and_self]

/-- The rounds of C200 exist: a random sharing by five dealers, two of their dealings damaged, among five nodes. -/
example (seed : Seed) :
    ∃ s R s', Setup.new cycPrim 5 2 seed = .ok s ∧ Round.random cycPrim Commitment.serializeBytes s 5 2 = .ok (R, s') ∧
      Revealed cycPrim Commitment.serializeBytes s R := by
  obtain ⟨s, hs⟩ := cyc_goes (setup_goes (P := cycPrim) 2 5 2 seed)
  obtain ⟨e1, e2⟩ := setup_new hs
  obtain ⟨⟨R, s'⟩, hR⟩ := cyc_goes (C110_random_round cycPrim Commitment.serializeBytes s 5 2 Commitment.serializeBytes_ok
    ⟨by omega, by omega, by omega, by omega, by omega, le_rfl, by omega, Or.inr (by omega)⟩)
  exact ⟨s, R, s', hs, hR, (C200_rounds cycPrim Commitment.serializeBytes s s' 5 2 R (by omega)).1 hR⟩

/-- The setups of `C200_signing` exist: four nodes, threshold 2, one dealing of every round damaged. -/
example (seed : Seed) : ∃ S, SigSetup.new cycPrim Commitment.serializeBytes 4 2 1 seed = .ok S ∧
    Revealed cycPrim Commitment.serializeBytes S.setup S.key := by
  obtain ⟨S, -, -, hS, -⟩ := cyc_signs seed [] []
  exact ⟨S, hS, C200_signing cycPrim Commitment.serializeBytes 4 2 1 seed S (by norm_num) hS _ (by simp)⟩

end Verif
