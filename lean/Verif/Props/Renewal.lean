import Verif.Props.CheatingSigners

/-!
Property C175: resharing renews shares, so that old shares of some nodes and new shares of others do not add up.
-/

set_option autoImplicit false

namespace Verif.Dealings

open Mega Polynomial Sign
open Point (H)

theorem Renewal.shared_eq (r : Renewal) (f : NodeIndex → List Fn) :
    r.shared f = linComb (sumWeight r.dealers) r.dealers f r.t := by
  rw [Renewal.shared, linComb]
  refine List.map_congr_left fun k _ => ?_
  simp only [Poly.coeff_eq_getD]

/-- Exactly one polynomial with one coefficient more than there are nodes has given values at the nodes and at 0. -/
theorem existsUnique_sharing (B : List NodeIndex) (hB : B.Nodup) (hpos : ∀ j ∈ B, 0 ≤ j.toInt) (t : Nat) (ht : B.length + 1 = t)
    (g : NodeIndex → Fn) (s : Fn) :
    ∃! l : List Fn, l.length = t ∧ l.head? = some s ∧ ∀ j ∈ B, (toPoly l).eval (place j) = g j := by
  obtain ⟨l, ⟨h1, h2, h3⟩, hu⟩ := (C38_sharing_secrecy t (B.map fun j => (j, g j)) (by rw [List.map_map]; simpa [Function.comp_def] using hB)
    (fun o ho => by obtain ⟨j, hj, rfl⟩ := List.mem_map.1 ho; exact hpos j hj) (by simp only [List.length_map]; omega)).2.2
    (by simpa using ht) s
  refine ⟨l, ⟨h1, (head?_eq_coeff h1 (by omega) s).2 h3, fun j hj => ?_⟩, ?_⟩
  · have := h2 _ (List.mem_map.2 ⟨j, hj, rfl⟩)
    rwa [Poly.evaluateAt_eq] at this
  · rintro l' ⟨k1, k2, k3⟩
    refine hu l' ⟨k1, fun o ho => ?_, (head?_eq_coeff k1 (by omega) s).1 k2⟩
    obtain ⟨j, hj, rfl⟩ := List.mem_map.1 ho
    rw [Poly.evaluateAt_eq]
    exact k3 j hj

theorem explains_existsUnique (rs : List Renewal) : ∀ (A : List NodeIndex) (F F' : List Fn) (fs : List (NodeIndex → List Fn)),
    OneShort F.length rs → (∀ j ∈ A, (toPoly F').eval (place j) = (toPoly F).eval (place j)) → Explains A F rs fs →
    ∃! fs', Explains A F' rs fs' := by
  induction rs with
  | nil =>
    intro A F F' fs _ _ h
    refine ⟨[], trivial, fun fs' h' => ?_⟩
    cases fs' with
    | nil => rfl
    | cons f fs' => exact h'.elim
  | cons r rs ih =>
    intro A F F' fs hs hA h
    obtain ⟨hd, -, hn, hpos, ht, hs⟩ := hs
    cases fs with
    | nil => exact h.elim
    | cons f fs =>
    obtain ⟨h1, h2, h3⟩ := h
    choose l hl hu using fun i => existsUnique_sharing r.next hn hpos r.t ht (r.given i) ((toPoly F').eval (place i))
    set f' : NodeIndex → List Fn := fun i => if i ∈ r.dealers then l i else [] with hf'
    have hfl : ∀ i ∈ r.dealers, f' i = l i := fun i hi => if_pos hi
    have hdealt : ∀ i ∈ r.dealers, i ∈ A → l i = r.dealt i := by
      intro i hi hiA
      obtain ⟨a, b, c, d⟩ := h2 i hi
      rw [← c hiA]
      exact (hu i _ ⟨a, by rw [b, hA i hiA], d⟩).symm
    have hlen : (r.shared f).length = r.t := by rw [r.shared_eq, length_linComb]
    have hsh : ∀ j ∈ r.next, (toPoly (r.shared f')).eval (place j) = (toPoly (r.shared f)).eval (place j) := by
      intro j hj
      rw [r.shared_eq, r.shared_eq, eval_linComb _ _ _ _ (fun i hi => by rw [hfl i hi]; exact (hl i).1.le),
        eval_linComb _ _ _ _ fun i hi => (h2 i hi).1.le]
      congr 1
      refine List.map_congr_left fun i hi => ?_
      rw [hfl i hi, (hl i).2.2 j hj, (h2 i hi).2.2.2 j hj]
    obtain ⟨fs', hfs', hfu⟩ := ih r.next (r.shared f) (r.shared f') fs (by rw [hlen]; exact hs) hsh h3
    refine ⟨f' :: fs', ⟨fun i hi => if_neg hi, fun i hi => ?_, hfs'⟩, fun gs hgs => ?_⟩
    · rw [hfl i hi]
      exact ⟨(hl i).1, (hl i).2.1, hdealt i hi, (hl i).2.2⟩
    · cases gs with
      | nil => exact hgs.elim
      | cons g gs =>
      obtain ⟨g1, g2, g3⟩ := hgs
      have hg : g = f' := by
        funext i
        by_cases hi : i ∈ r.dealers
        · rw [hfl i hi]
          obtain ⟨a, b, c, d⟩ := g2 i hi
          exact hu i _ ⟨a, b, d⟩
        · rw [g1 i hi, hf']
          exact (if_neg hi).symm
      subst hg
      rw [hfu gs g3]

/-- C175: however often a secret is reshared, and whichever nodes the adversary is in control of between the resharings, as long as it
is one node less than the threshold every time: what they know is compatible with every secret, in exactly one way for each. -/
theorem C175_every_secret (A : List NodeIndex) (hA : A.Nodup) (hpos : ∀ j ∈ A, 0 ≤ j.toInt) (old : NodeIndex → Fn)
    (rs : List Renewal) (hrs : OneShort (A.length + 1) rs) (F : List Fn) (fs : List (NodeIndex → List Fn)) (hF : F.length = A.length + 1)
    (hold : ∀ j ∈ A, (toPoly F).eval (place j) = old j) (h : Explains A F rs fs) (s : Fn) :
    ∃! c : List Fn × List (NodeIndex → List Fn), c.1.length = A.length + 1 ∧ c.1.head? = some s ∧
      (∀ j ∈ A, (toPoly c.1).eval (place j) = old j) ∧ Explains A c.1 rs c.2 := by
  obtain ⟨F', ⟨h1, h2, h3⟩, hu⟩ := existsUnique_sharing A hA hpos _ rfl old s
  obtain ⟨fs', hf, hfu⟩ := explains_existsUnique rs A F F' fs (by rw [hF]; exact hrs) (fun j hj => by rw [h3 j hj, hold j hj]) h
  refine ⟨(F', fs'), ⟨h1, h2, h3, hf⟩, ?_⟩
  rintro ⟨F'', fs''⟩ ⟨k1, k2, k3, k4⟩
  obtain rfl := hu F'' ⟨k1, k2, k3⟩
  rw [hfu fs'' k4]

/-- The weights interpolate. -/
theorem sumWeight_interpolates {nodes : List NodeIndex} (hn : nodes.Nodup) (hne : nodes ≠ []) (f : Fn[X]) (hf : f.degree < nodes.length) :
    (nodes.map fun i => sumWeight nodes i * f.eval (place i)).sum = f.eval 0 := by
  obtain ⟨w, -, hw⟩ := Lagr.weights 0 nodes hne hn
  rw [← hw f hf]
  congr 1
  exact List.map_congr_left fun i hi => by rw [sumWeight_eq hn hw hi]

/-- C175: and in the end the secret is still the same. -/
theorem C175_secret_kept (rs : List Renewal) : ∀ (A : List NodeIndex) (F : List Fn) (fs : List (NodeIndex → List Fn)),
    F ≠ [] → OneShort F.length rs → Explains A F rs fs → (finalShared F rs fs).head? = F.head? := by
  induction rs with
  | nil => intro A F fs _ _ _; rfl
  | cons r rs ih =>
    intro A F fs hne hs h
    obtain ⟨hd, hle, -, -, ht, hs⟩ := hs
    cases fs with
    | nil => exact h.elim
    | cons f fs =>
    obtain ⟨h1, h2, h3⟩ := h
    have hlen : (r.shared f).length = r.t := by rw [r.shared_eq, length_linComb]
    have hne' : r.shared f ≠ [] := fun e => by rw [e] at hlen; simp at hlen; omega
    rw [finalShared, ih r.next (r.shared f) fs hne' (by rw [hlen]; exact hs) h3, head_of_coeff hne, head_of_coeff hne']
    congr 1
    have ev : ∀ l : List Fn, (toPoly l).eval 0 = Poly.coeff l 0 := fun l => by rw [← Polynomial.coeff_zero_eq_eval_zero, coeff_toPoly]
    rw [← ev, ← ev, r.shared_eq, eval_linComb _ _ _ _ fun i hi => (h2 i hi).1.le,
      ← sumWeight_interpolates hd (fun e => by rw [e] at hle; exact hne (List.length_eq_zero_iff.1 (by simpa using hle))) (toPoly F)
        (lt_of_lt_of_le (degree_toPoly_lt F) (by exact_mod_cast hle))]
    congr 1
    refine List.map_congr_left fun i hi => ?_
    obtain ⟨a, b, -⟩ := h2 i hi
    rw [ev, (head?_eq_coeff a (by omega) _).1 b]

theorem getD_smul (l : List Fn) (k : Nat) : ((l.map fun v : Fn => v • G).getD k 0) = l.getD k 0 • G := by
  by_cases h : k < l.length
  · simp [List.getD_eq_getElem?_getD, h]
  · rw [List.getD_eq_getElem?_getD, List.getD_eq_getElem?_getD, List.getElem?_eq_none (by simpa using h), List.getElem?_eq_none (by simpa using h),
      Option.getD_none, Option.getD_none, zero_smul Fn G]

theorem simulated_head {l : List Fn} {t : Nat} (hl : l.length = t) (B : List NodeIndex) (hB : B.Nodup) (hpos : ∀ j ∈ B, 0 ≤ j.toInt)
    (ht : B.length + 1 = t) (s : Fn) (hs : l.head? = some s) (g : NodeIndex → Fn) (hg : ∀ j ∈ B, (toPoly l).eval (place j) = g j) :
    simulated t (s • G) (B.map fun j => (j, g j)) = l.map fun v : Fn => v • G := by
  rw [← simulated_eq l hl B hB hpos ht, ← Polynomial.coeff_zero_eq_eval_zero, coeff_toPoly, (head?_eq_coeff hl (by omega) s).1 hs]
  congr 1
  exact List.map_congr_left fun j hj => by rw [hg j hj]

theorem commitments_shown (rs : List Renewal) : ∀ (A : List NodeIndex) (F : List Fn) (fs : List (NodeIndex → List Fn)),
    OneShort F.length rs → Explains A F rs fs →
    (fs.map fun f i => (f i).map fun v : Fn => v • G) = commitmentsShown (F.map fun v : Fn => v • G) rs := by
  induction rs with
  | nil =>
    intro A F fs _ h
    cases fs with
    | nil => rfl
    | cons f fs => exact h.elim
  | cons r rs ih =>
    intro A F fs hs h
    obtain ⟨hd, -, hn, hpos, ht, hs⟩ := hs
    cases fs with
    | nil => exact h.elim
    | cons f fs =>
    obtain ⟨h1, h2, h3⟩ := h
    have hlen : (r.shared f).length = r.t := by rw [r.shared_eq, length_linComb]
    have hg : (fun i => if i ∈ r.dealers then simulated r.t (valueAtNode (F.map fun v : Fn => v • G) i) (r.next.map fun j => (j, r.given i j))
        else []) = fun i => (f i).map fun v : Fn => v • G := by
      funext i
      split_ifs with hi
      · obtain ⟨a, b, -, c⟩ := h2 i hi
        rw [valueAtNode_exponents, simulated_head a r.next hn hpos ht _ b _ c]
      · rw [h1 i hi]; rfl
    rw [List.map_cons, commitmentsShown, hg, ih r.next (r.shared f) fs (by rw [hlen]; exact hs) h3]
    congr 2
    rw [Renewal.shared, List.map_map]
    refine List.map_congr_left fun k _ => ?_
    simp only [getD_smul, Function.comp]
    generalize hw : sumWeight r.dealers = w
    clear hw h1 h2 h3 hg hlen hs hd ih
    induction r.dealers with
    | nil => exact zero_smul Fn G
    | cons i l ih => simp only [List.map_cons, List.sum_cons, ← ih, add_smul, mul_smul]

/-- C175: the commitments of all dealings of all resharings follow from the public key and what the adversary knows. -/
theorem C175_only_public_key (A : List NodeIndex) (hA : A.Nodup) (hpos : ∀ j ∈ A, 0 ≤ j.toInt) (old : NodeIndex → Fn)
    (rs : List Renewal) (hrs : OneShort (A.length + 1) rs) (F : List Fn) (fs : List (NodeIndex → List Fn)) (hF : F.length = A.length + 1)
    (hold : ∀ j ∈ A, (toPoly F).eval (place j) = old j) (h : Explains A F rs fs) (s : Fn) (hs : F.head? = some s) :
    (F.map fun v : Fn => v • G) = simulated (A.length + 1) (s • G) (A.map fun j => (j, old j)) ∧
    (fs.map fun f i => (f i).map fun v : Fn => v • G) =
      commitmentsShown (simulated (A.length + 1) (s • G) (A.map fun j => (j, old j))) rs := by
  have e := simulated_head hF A hA hpos rfl s hs old hold
  rw [e]
  exact ⟨rfl, commitments_shown rs A F fs (by rw [hF]; exact hrs) h⟩

/-- The polynomial of a dealing is the secret followed by scalars drawn from the generator of a derived seed. -/
theorem reshare_draws {P : Prim} {s : Fn} {seed : Seed} {t : Nat} {keys : List Pt} {i : NodeIndex} {ad : Bytes} {d : Dealing}
    (h : new P (.reshareUnmasked s) seed t keys i ad = .ok d) : ∃ (ps : Seed) (cs : List Fn) (r : Rng), seed.derive P polyDst = .ok ps ∧
      Poly.random ((t - 1 : Nat) : Int) (ps.rng P) = .ok (cs, r) ∧ d.commitment = some ⟨.simple, (s :: cs).map fun v : Fn => v • G⟩ := by
  rw [new] at h
  split_ifs at h with h0
  obtain ⟨ps, hps, h⟩ := Res.bind_eq_ok.1 h
  obtain ⟨ms, hms, h⟩ := Res.bind_eq_ok.1 h
  dsimp only at h
  obtain ⟨⟨values, r⟩, hv, h⟩ := Res.bind_eq_ok.1 h
  dsimp only at h
  obtain ⟨⟨ct, cm⟩, hct, h⟩ := Res.bind_eq_ok.1 h
  cases h
  obtain ⟨hpos, hvl, -⟩ := Poly.randomWithConstant_ok hv
  rw [Poly.randomWithConstant, if_neg (by omega), if_neg (by omega)] at hv
  obtain ⟨⟨cs, r'⟩, hcs, hv⟩ := Res.bind_eq_ok.1 hv
  cases hv
  rw [encryptAndCommitSingle] at hct
  obtain ⟨c0, -, hct⟩ := Res.bind_eq_ok.1 hct
  obtain ⟨cm0, hcm, hct⟩ := Res.bind_eq_ok.1 hct
  cases hct
  refine ⟨ps, cs, r, hps, by rw [Poly.random, if_neg (by omega)]; exact hcs, ?_⟩
  rw [Commitment.createSimple_self hvl (by omega)] at hcm
  cases hcm
  rfl

/-- C175, the link to the code: honest dealings of the shares of an unmasked secret use some polynomials, of which the coefficients are drawn except
for the share (C172 counts these draws), and the receivers decrypt their values; the transcript commits to the
polynomial of `Renewal.shared`, and its values are the new shares. -/
theorem C175_code (P : Prim) (t : Nat) (dealers : List NodeIndex) (d : NodeIndex → Dealing) (seed : NodeIndex → Seed) (keys : List Fn)
    (ad : Bytes) (F : List Fn) (wrap : Wrap) (ht : 0 < t) (hsort : OMap.Sorted BitVec.toInt (mapOf dealers d)) (hF : F ≠ [])
    (hcount : F.length ≤ dealers.length) (h : ∀ i ∈ dealers, new P (.reshareUnmasked ((toPoly F).eval (place i))) (seed i) t
      (keys.map Point.mulByG) i ad = .ok (d i)) :
    ∃ f : NodeIndex → List Fn,
      (∀ i ∈ dealers, ∃ ps cs g, (seed i).derive P polyDst = .ok ps ∧ Poly.random ((t - 1 : Nat) : Int) (ps.rng P) = .ok (cs, g) ∧
        f i = (toPoly F).eval (place i) :: cs) ∧
      (∀ i ∈ dealers, ∃ c cm, (d i).ciphertext = some c ∧ (d i).commitment = some cm ∧ cm = ⟨.simple, (f i).map fun v : Fn => v • G⟩ ∧
        ∀ (j : NodeIndex) (k : Fn), 0 ≤ j.toInt → keys[j.toInt.toNat]? = some k →
          c.decryptAndCheck P cm ad i j k (k • G) = .ok (.simple ((toPoly (f i)).eval (place j)))) ∧
      ∀ A next : List NodeIndex, ∀ r : Renewal, r = ⟨dealers, t, next, f, fun i j => (toPoly (f i)).eval (place j)⟩ →
        Explains A F [r] [f] ∧
        newTranscript t (mapOf dealers d) (.reshareUnmasked ⟨wrap, ⟨.simple, F.map fun v : Fn => v • G⟩⟩) =
          .ok (some ⟨.interpolation, ⟨.simple, (r.shared f).map fun v : Fn => v • G⟩⟩) ∧
        ∀ (j : NodeIndex) (k : Fn), 0 ≤ j.toInt → keys[j.toInt.toNat]? = some k →
          fromDealings P (mapOf dealers d) (some ⟨.interpolation, ⟨.simple, (r.shared f).map fun v : Fn => v • G⟩⟩) ad j k (k • G) =
            .ok (.simple ((toPoly (r.shared f)).eval (place j))) := by
  classical
  have hc : ∀ i, ∃ l : List Fn, (i ∉ dealers → l = []) ∧ (i ∈ dealers → l.length = t ∧ l.head? = some ((toPoly F).eval (place i)) ∧
      ∃ c cm, (d i).ciphertext = some c ∧ (d i).commitment = some cm ∧ cm = ⟨.simple, l.map fun v : Fn => v • G⟩ ∧
        ∀ (j : NodeIndex) (k : Fn), 0 ≤ j.toInt → keys[j.toInt.toNat]? = some k →
          c.decryptAndCheck P cm ad i j k (k • G) = .ok (.simple ((toPoly l).eval (place j)))) := by
    intro i
    by_cases hi : i ∈ dealers
    · obtain ⟨values, mask, c, cm, h1, h2, h3, -, h4, -, -, h5, h6⟩ := C85_dealing_contents P _ _ _ keys i ad (d i) (by simp) (h i hi)
      refine ⟨values, fun hn => absurd hi hn, fun _ => ⟨by exact_mod_cast h3, h4 _ rfl, c, cm, h2, h1, ?_, h6⟩⟩
      rcases cm with ⟨kind, pts⟩
      obtain ⟨rfl, rfl⟩ := h5
      rfl
    · exact ⟨[], fun _ => rfl, fun h => absurd h hi⟩
  choose f hf0 hf using hc
  refine ⟨f, fun i hi => ?_, fun i hi => (hf i hi).2.2, ?_⟩
  · obtain ⟨ps, cs, g, h1, h2, h3⟩ := reshare_draws (h i hi)
    obtain ⟨-, -, c, cm, -, h4, h5, -⟩ := hf i hi
    rw [h4, h5] at h3
    exact ⟨ps, cs, g, h1, h2, (List.map_injective_iff.2 fun a b hab => Commitment.mulByG_inj.1 hab)
      (congrArg Commitment.points (Option.some.inj h3))⟩
  rintro A next r rfl
  obtain ⟨f', hf', -, hT, hsh⟩ := C59_reshare_unmasked P t dealers d seed keys ad F wrap (by exact_mod_cast ht) hsort hF hcount h
  have hcm : Commits (mapOf dealers d) fun i => ⟨.simple, (f i).map fun v : Fn => v • G⟩ := by
    intro x hx
    obtain ⟨i, hi, rfl⟩ := List.mem_map.1 hx
    obtain ⟨-, -, c, cm, -, h1, h2, -⟩ := hf i hi
    rw [h1, h2]
  have hnd := OMap.nodup_keys hsort
  obtain ⟨w, hw⟩ := newTranscript_shape hcm hnd hT
  obtain ⟨-, -, -, hsum⟩ := hw.interp (by simp)
  have e : f' = Renewal.shared ⟨dealers, t, next, f, fun i j => (toPoly (f i)).eval (place j)⟩ f := by
    have hp := congrArg Commitment.points hw.com
    simp only at hp
    have h2 := linCombPts_mulByG w ((mapOf dealers d).map Prod.fst) f t
    rw [show ((t : Int)).toNat = t from rfl] at hp
    have h3 : f'.map Point.mulByG = (linComb w ((mapOf dealers d).map Prod.fst) f t).map Point.mulByG := hp.trans h2
    have h4 := (List.map_injective_iff.2 fun a b hab => Commitment.mulByG_inj.1 hab) h3
    rw [mapOf_fst] at h4 hsum hnd
    rw [length_mapOf] at hsum
    rw [h4, Renewal.shared_eq, linComb, linComb]
    refine List.map_congr_left fun k _ => ?_
    congr 1
    exact List.map_congr_left fun i hi => by rw [sumWeight_eq hnd hsum hi]
  rw [← e]
  exact ⟨⟨hf0, fun i hi => ⟨(hf i hi).1, (hf i hi).2.1, fun _ => rfl, fun _ _ => rfl⟩, trivial⟩, hT, hsh⟩

/-- Dealers 0, 1 and 2 deal polynomials with the coefficient 1 at the first power, and the adversary is given what node `b` receives. -/
noncomputable def renewalTo (F : List Fn) (b : NodeIndex) : Renewal :=
  ⟨[0, 1, 2], 2, [b], fun i => if i ∈ ([0, 1, 2] : List NodeIndex) then [(toPoly F).eval (place i), 1] else [],
    fun i j => (toPoly (if i ∈ ([0, 1, 2] : List NodeIndex) then [(toPoly F).eval (place i), 1] else [])).eval (place j)⟩

theorem explains_renewalTo (A : List NodeIndex) (F : List Fn) (b : NodeIndex) (rs : List Renewal) (fs : List (NodeIndex → List Fn))
    (h : Explains [b] ((renewalTo F b).shared (renewalTo F b).dealt) rs fs) :
    Explains A F (renewalTo F b :: rs) ((renewalTo F b).dealt :: fs) :=
  ⟨fun _ hi => if_neg hi, fun i hi => by
    have hi' : i ∈ ([0, 1, 2] : List NodeIndex) := hi
    simp only [renewalTo, if_pos hi']
    refine ⟨?_, ?_, ?_, ?_⟩ <;> simp, h⟩

/-- The hypotheses can be met: two resharings with threshold 2 while the adversary is in control of node 0, then 1, then 2.  They have had
three shares, and yet everything may be the secret. -/
example : ∃ (old : NodeIndex → Fn) (rs : List Renewal), rs.length = 2 ∧ ∀ s : Fn, ∃! c : List Fn × List (NodeIndex → List Fn),
    c.1.length = 2 ∧ c.1.head? = some s ∧ (∀ j ∈ ([0] : List NodeIndex), (toPoly c.1).eval (place j) = old j) ∧ Explains [0] c.1 rs c.2 := by
  set r := renewalTo [6, 1] 1 with hr
  set r' := renewalTo (r.shared r.dealt) 2 with hr'
  refine ⟨fun j => (toPoly [6, 1]).eval (place j), [r, r'], rfl, fun s => ?_⟩
  refine C175_every_secret [0] (by simp) (by simp) _ [r, r'] ?_ [6, 1] [r.dealt, r'.dealt] rfl (fun _ _ => rfl)
    (explains_renewalTo _ _ _ _ _ (explains_renewalTo _ _ _ _ _ trivial)) s
  refine ⟨?_, ?_, ?_, ?_, rfl, ?_, ?_, ?_, ?_, rfl, trivial⟩ <;> simp [hr, hr', renewalTo]

/-- The hypotheses of the link can be met. -/
example : ∃ d : NodeIndex → Dealing, ∃ f : NodeIndex → List Fn, ∀ r : Renewal,
    r = ⟨[0, 1, 2], 2, [1], f, fun i j => (toPoly (f i)).eval (place j)⟩ → Explains [0] [6, 1] [r] [f] ∧
      fromDealings zeroPrim (mapOf [0, 1, 2] d) (some ⟨.interpolation, ⟨.simple, (r.shared f).map fun v : Fn => v • G⟩⟩) [7] 1 4
        ((4 : Fn) • G) = .ok (.simple ((toPoly (r.shared f)).eval (place 1))) := by
  obtain ⟨d, hs, hd⟩ := dealings_exist fun i => .reshareUnmasked ((toPoly [6, 1]).eval (place i))
  obtain ⟨f, -, -, h⟩ := C175_code zeroPrim 2 [0, 1, 2] d (fun _ => ⟨[]⟩) [3, 4, 5] [7] [6, 1] .plain (by omega) hs (by simp) (by simp) hd
  exact ⟨d, f, fun r hr => ⟨(h [0] [1] r hr).1, (h [0] [1] r hr).2.2 1 4 (by decide) (by rfl)⟩⟩

end Verif.Dealings
