import Verif.Spec.Rogue
import Verif.Props.TranscriptExact
import Verif.Props.KeyGen

/-! C196: dealings that are verified publicly but by no recipient. -/

set_option autoImplicit false

namespace Verif

open Mega Zk Dealings Polynomial

namespace Dealings

theorem weightAtZero_ne_zero {dealers : List NodeIndex} (h0 : ∀ i ∈ dealers, 0 ≤ i.toInt) (j : NodeIndex) :
    weightAtZero dealers j ≠ 0 := by
  rw [weightAtZero, Ne, List.prod_eq_zero_iff, List.mem_map]
  rintro ⟨l, hl, h⟩
  rw [List.mem_filter, decide_eq_true_eq] at hl
  rcases div_eq_zero_iff.1 h with h | h
  · exact place_ne_zero (h0 l hl.1) h
  · exact hl.2 (Lagr.fromNodeIndex_injective (sub_eq_zero.1 h))

theorem weight_ne_zero {dealers : List NodeIndex} (h0 : ∀ i ∈ dealers, 0 ≤ i.toInt) (op : Op) (j : NodeIndex) :
    op.weight dealers j ≠ 0 := by
  cases op with
  | random => exact one_ne_zero
  | _ => exact weightAtZero_ne_zero h0 j

theorem length_roguePoints (op : Op) (t : Nat) (dealers : List NodeIndex) (j : NodeIndex) (own now wanted : List Pt) :
    (roguePoints op t dealers j own now wanted).length = t := by simp [roguePoints]

theorem getD_roguePoints (op : Op) {t : Nat} (dealers : List NodeIndex) (j : NodeIndex) (own now wanted : List Pt) {c : Nat} (hc : c < t) :
    (roguePoints op t dealers j own now wanted).getD c 0 =
      own.getD c 0 + (op.weight dealers j)⁻¹ • (wanted.getD c 0 - now.getD c 0) := by
  rw [roguePoints, List.getD_eq_getElem?_getD, List.getElem?_map, List.getElem?_range hc]
  rfl

theorem sum_update {dealers : List NodeIndex} (hn : dealers.Nodup) {j : NodeIndex} (hj : j ∈ dealers) (w : NodeIndex → Fn)
    (f : NodeIndex → Pt) (x : Pt) (hw : w j ≠ 0) :
    (dealers.map fun i => w i • (if i = j then f j + (w j)⁻¹ • x else f i)).sum = (dealers.map fun i => w i • f i).sum + x := by
  rw [← List.sum_toFinset _ hn, ← List.sum_toFinset _ hn]
  rw [← Finset.add_sum_erase _ _ (List.mem_toFinset.2 hj), ← Finset.add_sum_erase _ _ (List.mem_toFinset.2 hj)]
  rw [if_pos rfl, smul_add, smul_smul, mul_inv_cancel₀ hw, one_smul, add_right_comm]
  congr 2
  refine Finset.sum_congr rfl fun i hi => ?_
  rw [if_neg (Finset.ne_of_mem_erase hi)]

end Dealings

/-- C196 is false when dealings are only verified publicly: the dealer that deals last can choose its commitment so that the transcript has
the points that it wants: all of them if the operation is the random one, and all but the first (the secret) otherwise.  `PubliclyVerify`
accepts its dealing as it accepted the one before. -/
theorem C196_false (P : Prim) (op : Op) (hop : op ≠ .other) (t : Nat) (ht : 0 < t) (dealers : List NodeIndex) (hn : dealers.Nodup)
    (h0 : ∀ i ∈ dealers, 0 ≤ i.toInt) (d : NodeIndex → Dealing) (cm : NodeIndex → Commitment)
    (hcm : ∀ i ∈ dealers, (d i).commitment = some (cm i)) (T : Com) (hT : newTranscript t (mapOf dealers d) op = .ok (some T))
    (j : NodeIndex) (hj : j ∈ dealers) (receivers : Int) (ad : Bytes)
    (hv : publiclyVerify P (d j) K256 op t j receivers ad = .ok ())
    (wanted : List Pt) (hl : wanted.length = t) (hw : op = .random ∨ wanted.head? = T.c.points.head?) :
    publiclyVerify P (rogue op t dealers j (d j) (cm j) T.c.points wanted) K256 op t j receivers ad = .ok () ∧
    newTranscript t (mapOf dealers (Function.update d j (rogue op t dealers j (d j) (cm j) T.c.points wanted))) op =
      .ok (some ⟨T.wrap, ⟨T.c.kind, wanted⟩⟩) := by
  have hkeys : ∀ d : NodeIndex → Dealing, (mapOf dealers d).map Prod.fst = dealers := fun d => by
    rw [mapOf, List.map_map]; exact List.map_id dealers
  have hc : Commits (mapOf dealers d) cm := by
    intro x hx
    obtain ⟨i, hi, rfl⟩ := List.mem_map.1 hx
    exact hcm i hi
  obtain ⟨hA, hTe⟩ := ((C188_exactly t ht _ cm hc (by rw [hkeys]; exact hn) op hop).1 _).1 hT
  obtain rfl := Option.some.inj hTe
  set pts := (combinedOf op t (mapOf dealers d) cm).c.points with hpts
  have hlen : ∀ i ∈ dealers, (cm i).points.length = t := fun i hi => hA.1 (i, d i) (List.mem_map.2 ⟨i, hi, rfl⟩)
  have hwj := weight_ne_zero h0 op j
  have hptsc : ∀ c < t, pts.getD c 0 = combinedPoint op (mapOf dealers d) cm c := fun c hc => by
    rw [show pts = (List.range t).map (combinedPoint op (mapOf dealers d) cm) from rfl, List.getD_eq_getElem?_getD, List.getElem?_map,
      List.getElem?_range hc]
    rfl
  set cm' : NodeIndex → Commitment := fun i =>
    if i = j then ⟨(cm j).kind, roguePoints op t dealers j (cm j).points pts wanted⟩ else cm i with hcm'
  have hc' : Commits (mapOf dealers (Function.update d j (rogue op t dealers j (d j) (cm j) pts wanted))) cm' := by
    intro x hx
    obtain ⟨i, hi, rfl⟩ := List.mem_map.1 hx
    by_cases h : i = j
    · subst h
      simp only [Function.update_self, hcm', if_true]
      rfl
    · simp only [Function.update_of_ne h, hcm', if_neg h]
      exact hcm i hi
  have hcomb : ∀ c < t, combinedPoint op (mapOf dealers (Function.update d j (rogue op t dealers j (d j) (cm j) pts wanted))) cm' c =
      wanted.getD c 0 := fun c hc => by
    rw [combinedPoint, hkeys, mapOf, List.map_map]
    have h1 := sum_update hn hj (op.weight dealers) (fun i => (cm i).points.getD c 0) (wanted.getD c 0 - pts.getD c 0) hwj
    have h2 : combinedPoint op (mapOf dealers d) cm c = (dealers.map fun i => op.weight dealers i • (cm i).points.getD c 0).sum := by
      rw [combinedPoint, hkeys, mapOf, List.map_map]; rfl
    rw [← h2, ← hptsc c hc, add_sub_cancel] at h1
    rw [← h1]
    congr 1
    refine List.map_congr_left fun i _ => ?_
    simp only [Function.comp_apply, hcm']
    by_cases h : i = j
    · rw [if_pos h, if_pos h, h, getD_roguePoints op dealers j _ _ _ hc]
    · rw [if_neg h, if_neg h]
  have hkind : ∀ i, (cm' i).kind = (cm i).kind := fun i => by
    simp only [hcm']
    by_cases h : i = j
    · rw [if_pos h, h]
    · rw [if_neg h]
  have hlen' : ∀ x ∈ mapOf dealers (Function.update d j (rogue op t dealers j (d j) (cm j) pts wanted)), (cm' x.1).points.length = t := by
    intro x hx
    obtain ⟨i, hi, rfl⟩ := List.mem_map.1 hx
    simp only [hcm']
    by_cases h : i = j
    · rw [if_pos h]; exact length_roguePoints ..
    · rw [if_neg h]; exact hlen i hi
  have hmaplen : ∀ d d' : NodeIndex → Dealing, (mapOf dealers d).length = (mapOf dealers d').length := fun d d' => by simp [mapOf]
  have hhead : op ≠ .random → wanted.getD 0 0 = pts.getD 0 0 := fun h => by
    have := hw.resolve_left h
    rw [List.getD_eq_getElem?_getD, List.getD_eq_getElem?_getD, ← List.head?_eq_getElem?, ← List.head?_eq_getElem?, this]
  constructor
  · rw [C57_accepted_iff] at hv ⊢
    obtain ⟨h1, cmj, c, c0, h2, h3, h4, h5, h6, h7, h8⟩ := hv
    obtain rfl : cm j = cmj := Option.some.inj ((hcm j hj).symm.trans h2)
    obtain ⟨a, ha⟩ : ∃ a, (roguePoints op t dealers j (cm j).points pts wanted).head? = some a := by
      cases hr : roguePoints op t dealers j (cm j).points pts wanted with
      | nil => have := length_roguePoints op t dealers j (cm j).points pts wanted; rw [hr] at this; simp at this; omega
      | cons a l => exact ⟨a, rfl⟩
    refine ⟨h1, _, c, a, rfl, h3, by rw [length_roguePoints], ha, h6, h7, ?_⟩
    have e : op ≠ .random → a = c0 := fun h => by
      have e1 := getD_roguePoints op dealers j (cm j).points pts wanted ht
      rw [hhead h, sub_self, smul_zero, add_zero, List.getD_eq_getElem?_getD, List.getD_eq_getElem?_getD,
        ← List.head?_eq_getElem?, ← List.head?_eq_getElem?, ha, h5] at e1
      exact e1
    by_cases hr : op = .random
    · subst hr; exact h8
    · rw [e hr]; exact h8
  · have hAllowed : op.Allowed t (mapOf dealers (Function.update d j (rogue op t dealers j (d j) (cm j) pts wanted))) cm' := by
      refine ⟨hlen', ?_⟩
      have hA2 := hA.2
      have hne : mapOf dealers d ≠ [] →
          mapOf dealers (Function.update d j (rogue op t dealers j (d j) (cm j) pts wanted)) ≠ [] := fun h e => h (by
        rw [← List.length_eq_zero_iff] at e ⊢
        rw [← e]; exact hmaplen _ _)
      have hml := hmaplen d (Function.update d j (rogue op t dealers j (d j) (cm j) pts wanted))
      cases op with
      | random =>
        intro x hx
        obtain ⟨i, hi, rfl⟩ := List.mem_map.1 hx
        rw [hkind]
        exact hA2 (i, d i) (List.mem_map.2 ⟨i, hi, rfl⟩)
      | reshareMasked p => exact ⟨hne hA2.1, hA2.2.1, hml ▸ hA2.2.2⟩
      | reshareUnmasked p =>
        refine ⟨hne hA2.1, hA2.2.1, hml ▸ hA2.2.2.1, ?_⟩
        rw [hcomb 0 ht, hhead (by simp), hptsc 0 ht]
        exact hA2.2.2.2
      | unmaskedTimesMasked l r => exact ⟨hne hA2.1, hA2.2.1, hA2.2.2.1, hml ▸ hA2.2.2.2⟩
      | other => exact absurd rfl hop
    rw [((C188_exactly t ht _ cm' hc' (by rw [hkeys]; exact hn) op hop).1 _).2 ⟨hAllowed, rfl⟩]
    congr 2
    have e : (List.range t).map (combinedPoint op
        (mapOf dealers (Function.update d j (rogue op t dealers j (d j) (cm j) pts wanted))) cm') = wanted := by
      refine List.ext_getElem (by simp [hl]) fun c h1 h2 => ?_
      have hc : c < t := by simpa using h1
      rw [List.getElem_map, List.getElem_range, hcomb c hc, List.getD_eq_getElem?_getD, List.getElem?_eq_getElem h2, Option.getD_some]
    simp only [combinedOf, e]

/-- What private verification adds: if as many recipients as the threshold hold openings of such a dealing in a random transcript, and the
dealer knows an opening of the constant term that it wanted, then both together give the secret of all other dealers, or the discrete logarithm
of `H`.  So the dealer cannot have made such a dealing without knowing one of these. -/
theorem C196_opened_partial (t : Nat) (ht : 0 < t) (dealers : List NodeIndex) (hn : dealers.Nodup) (d : NodeIndex → Dealing)
    (cm : NodeIndex → Commitment) (hcm : ∀ i ∈ dealers, (d i).commitment = some (cm i)) (T : Com)
    (hT : newTranscript t (mapOf dealers d) .random = .ok (some T)) (j : NodeIndex) (hj : j ∈ dealers) (wanted : List Pt) (q0 r0 f0 g0 : Fn)
    (hq : wanted.getD 0 0 = q0 • G + r0 • Point.H)
    (hothers : ((dealers.erase j).map fun i => (cm i).points.getD 0 0).sum = f0 • G + g0 • Point.H)
    (nodes : List NodeIndex) (hnodes : nodes.Nodup) (hlen : t ≤ nodes.length) (v m : NodeIndex → Fn)
    (ho : ∀ i ∈ nodes, Opens ⟨.pedersen, roguePoints .random t dealers j (cm j).points T.c.points wanted⟩ i (.pedersen (v i) (m i))) :
    (f0 = q0 - (nodes.map fun i => weightAtZero nodes i * v i).sum ∧ g0 = r0 - (nodes.map fun i => weightAtZero nodes i * m i).sum) ∨
    Point.H = ((q0 - f0 - (nodes.map fun i => weightAtZero nodes i * v i).sum) /
      ((nodes.map fun i => weightAtZero nodes i * m i).sum - (r0 - g0))) • G := by
  have hkeys : (mapOf dealers d).map Prod.fst = dealers := by
    rw [mapOf, List.map_map]; exact List.map_id dealers
  have hc : Commits (mapOf dealers d) cm := by
    intro x hx
    obtain ⟨i, hi, rfl⟩ := List.mem_map.1 hx
    exact hcm i hi
  obtain ⟨hA, hTe⟩ := ((C188_exactly t ht _ cm hc (by rw [hkeys]; exact hn) .random (by simp)).1 _).1 hT
  obtain rfl := Option.some.inj hTe
  have hT0 : (combinedOf .random t (mapOf dealers d) cm).c.points.getD 0 0 =
      (cm j).points.getD 0 0 + (f0 • G + g0 • Point.H) := by
    rw [show (combinedOf .random t (mapOf dealers d) cm).c.points = (List.range t).map (combinedPoint .random (mapOf dealers d) cm) from rfl,
      List.getD_eq_getElem?_getD, List.getElem?_map, List.getElem?_range ht, ← hothers]
    have e : combinedPoint .random (mapOf dealers d) cm 0 = (dealers.map fun i => (cm i).points.getD 0 0).sum := by
      rw [combinedPoint, mapOf, List.map_map]
      congr 1
      exact List.map_congr_left fun i _ => one_smul Fn _
    refine e.trans ?_
    rw [← List.sum_cons, ← List.map_cons (f := fun i => (cm i).points.getD 0 0)]
    exact ((List.perm_cons_erase hj).map _).sum_eq
  set pts := roguePoints .random t dealers j (cm j).points (combinedOf .random t (mapOf dealers d) cm).c.points wanted with hpts
  have hpl : pts.length = t := length_roguePoints ..
  have hp0 : pts.getD 0 0 = (q0 - f0) • G + (r0 - g0) • Point.H := by
    rw [hpts, getD_roguePoints _ _ _ _ _ _ ht, hT0, hq, show (Op.weight .random dealers j) = 1 from rfl, inv_one, one_smul]
    module
  have hne : nodes ≠ [] := by rintro rfl; simp at hlen; omega
  have hsum : ∀ f : Fn[X], f.degree < nodes.length → (nodes.map fun i => weightAtZero nodes i * f.eval (place i)).sum = f.eval 0 :=
    fun f hf => KeyGen.weights_sum hne hnodes hf
  have hval := sum_weights_valueAt hsum pts (by rw [hpl]; exact hlen)
  have hv0 : valueAt pts 0 = pts.getD 0 0 := by
    rw [valueAt_range _ _ le_rfl, hpl, Finset.sum_eq_single 0]
    · rw [pow_zero, one_smul]
    · intro b _ hb; rw [zero_pow hb]; exact zero_smul Fn (pts.getD b 0)
    · intro h; exact absurd (Finset.mem_range.2 ht) h
  rw [hv0, hp0] at hval
  have hval' : (nodes.map fun i => weightAtZero nodes i • valueAtNode pts i).sum =
      (nodes.map fun i => weightAtZero nodes i * v i).sum • G + (nodes.map fun i => weightAtZero nodes i * m i).sum • Point.H := by
    rw [← sum_map_smul_G, ← sum_map_smul_G, ← sum_map_add]
    congr 1
    exact List.map_congr_left fun i hi => by rw [(ho i hi).2, smul_add]
  rw [hval'] at hval
  generalize (nodes.map fun i => weightAtZero nodes i * v i).sum = V at hval ⊢
  generalize (nodes.map fun i => weightAtZero nodes i * m i).sum = M at hval ⊢
  have h : (q0 - f0 - V) • G = (M - (r0 - g0)) • Point.H := by
    rw [sub_smul, sub_smul M, sub_eq_sub_iff_add_eq_add, ← hval]
    abel
  by_cases hM : M - (r0 - g0) = 0
  · left
    rw [hM, show (0 : Fn) • Point.H = 0 from zero_smul Fn Point.H] at h
    have h' := (smul_eq_zero_iff_left G_ne_zero).1 h
    constructor
    · linear_combination -h'
    · linear_combination hM
  · right
    rw [div_eq_inv_mul, mul_smul, h, smul_smul, inv_mul_cancel₀ hM, one_smul]

/-- A case: dealers 0 and 1 deal at random with threshold 2 to two recipients; then dealer 1 makes a transcript of which it knows the secret, 5. -/
example : ∃ (d : NodeIndex → Dealing) (cm : NodeIndex → Commitment) (T : Com) (d' : Dealing),
    (∀ i ∈ ([0, 1] : List NodeIndex), new zeroPrim .random ⟨[]⟩ 2 (([3, 4] : List Fn).map Point.mulByG) i [7] = .ok (d i)) ∧
    newTranscript 2 (mapOf [0, 1] d) .random = .ok (some T) ∧
    d' = rogue .random 2 [0, 1] 1 (d 1) (cm 1) T.c.points [(5 : Fn) • G, 0] ∧
    publiclyVerify zeroPrim d' K256 .random 2 1 2 [7] = .ok () ∧
    newTranscript 2 (mapOf [0, 1] (Function.update d 1 d')) .random = .ok (some ⟨.summation, ⟨.pedersen, [(5 : Fn) • G, 0]⟩⟩) := by
  have hex : ∀ i : NodeIndex, ∃ d cm, new zeroPrim .random ⟨[]⟩ 2 (([3, 4] : List Fn).map Point.mulByG) i [7] = .ok d ∧
      publiclyVerify zeroPrim d K256 .random 2 i 2 [7] = .ok () ∧ d.commitment = some cm ∧ cm.points.length = 2 ∧ cm.kind = .pedersen := by
    intro i
    obtain ⟨d, hd⟩ := dealing_exists .random ⟨[]⟩ 2 (([3, 4] : List Fn).map Point.mulByG) i [7] (by norm_num) (by simp)
    have h := (C54_honest_dealings_verify zeroPrim .random .random ⟨[]⟩ 2 [3, 4] i [7] d trivial hd).1
    obtain ⟨-, cm, c, c0, hcm, hc, hl, hc0, hsz, hpop, hp⟩ := accepted_only h
    exact ⟨d, cm, hd, h, hcm, by exact_mod_cast hl, hp.1⟩
  choose d cm h1 h2 h3 h4 h5 using hex
  have hc : Commits (mapOf [0, 1] d) cm := by
    intro x hx
    obtain ⟨i, hi, rfl⟩ := List.mem_map.1 hx
    exact h3 i
  have hT := ((C188_exactly 2 (by norm_num) (mapOf [0, 1] d) cm hc (by simp [mapOf]) .random (by simp)).1
    (some (combinedOf .random 2 (mapOf [0, 1] d) cm))).2 ⟨⟨fun x _ => h4 x.1, fun x _ => h5 x.1⟩, rfl⟩
  obtain ⟨ha, hb⟩ := C196_false zeroPrim .random (by simp) 2 (by norm_num) [0, 1] (by simp) (by simp) d cm (fun i _ => h3 i) _ hT 1 (by simp) 2 [7]
    (h2 1) [(5 : Fn) • G, 0] rfl (Or.inl rfl)
  exact ⟨d, cm, _, _, fun i _ => h1 i, hT, rfl, ha, hb⟩

/-- A case of the second part: the others dealt 2 with mask 3; dealer 1 wants 7 with mask 9, and node 0 holds 5 and 6. -/
example (cm : NodeIndex → Commitment) (hcm : cm = fun i => ⟨.pedersen, if i = 0 then [(2 : Fn) • G + (3 : Fn) • Point.H] else [0]⟩) :
    (2 : Fn) = 7 - (([0] : List NodeIndex).map fun i => weightAtZero [0] i * 5).sum ∧
      (3 : Fn) = 9 - (([0] : List NodeIndex).map fun i => weightAtZero [0] i * 6).sum ∨
    Point.H = ((7 - 2 - (([0] : List NodeIndex).map fun i => weightAtZero [0] i * 5).sum) /
      ((([0] : List NodeIndex).map fun i => weightAtZero [0] i * 6).sum - (9 - 3) : Fn)) • G := by
  have hc : Commits (mapOf [0, 1] fun i => ⟨none, some (cm i), none⟩) cm := by
    intro x hx
    obtain ⟨i, hi, rfl⟩ := List.mem_map.1 hx
    rfl
  have hl : ∀ i, (cm i).points.length = 1 := fun i => by rw [hcm]; dsimp only; split_ifs <;> rfl
  have hT := ((C188_exactly 1 (by norm_num) (mapOf [0, 1] fun i => ⟨none, some (cm i), none⟩) cm hc (by simp [mapOf]) .random (by simp)).1
    (some (combinedOf .random 1 (mapOf [0, 1] fun i => ⟨none, some (cm i), none⟩) cm))).2
      ⟨⟨fun x _ => hl x.1, fun x _ => by rw [hcm]⟩, rfl⟩
  refine C196_opened_partial 1 (by norm_num) [0, 1] (by simp) _ cm (fun i _ => rfl) _ hT 1 (by simp)
    [(7 : Fn) • G + (9 : Fn) • Point.H] 7 9 2 3 rfl (by subst hcm; simp) [0] (by simp) (by simp) (fun _ => 5) (fun _ => 6) ?_
  intro i _
  refine ⟨rfl, ?_⟩
  have e : roguePoints .random 1 [0, 1] 1 (cm 1).points
      (combinedOf .random 1 (mapOf [0, 1] fun i => ⟨none, some (cm i), none⟩) cm).c.points [(7 : Fn) • G + (9 : Fn) • Point.H] =
      [(5 : Fn) • G + (6 : Fn) • Point.H] := by
    subst hcm
    simp [roguePoints, combinedOf, combinedPoint, mapOf, Op.weight]
    module
  rw [e]
  simp [valueAtNode, valueAt]

end Verif
