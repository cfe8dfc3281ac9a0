import Verif.Props.Secrecy
import Verif.Props.Transcript

/-!
Property C130: a random transcript with one honest dealer hides its secret from fewer than threshold-many recipients.
-/

set_option autoImplicit false

namespace Verif.Dealings

open Mega Polynomial
open Point (H)

/-- Dealings that are alike are opened alike by the group. -/
theorem Alike.open_eq {B : List NodeIndex} {d d' : Dealing} (h : Alike B d d') (P : Prim) (ad : Bytes) (dealer i : NodeIndex)
    (hi : i ∈ B) (k : Fn) (pk : Pt) : openDealing P d' ad dealer i k pk = openDealing P d ad dealer i k pk := by
  obtain ⟨h1, -, c, c', hc, hc', e1, e2, e3, e4, e5⟩ := h
  have hidx : index c'.ctexts i.toInt = index c.ctexts i.toInt := by rw [index, index, e5 i hi]
  have hd : Pair.decrypt P c' ad dealer i k pk = Pair.decrypt P c ad dealer i k pk := by
    simp only [Pair.decrypt, Pair.decryptFromSharedSecret, e1, e2, e3, e4, hidx]
  rw [openDealing.eq_def, openDealing.eq_def, h1, hc, hc']
  cases d.commitment with
  | none => simp only [nonNil, Res.ok_bind, hd]
  | some cm => simp only [nonNil, Res.ok_bind, Cipher.decryptAndCheck, Pair.decryptAndCheck, hd]

/-- A transcript depends only on the commitments. -/
theorem newTranscript_congr (t : Int) (dealers : List NodeIndex) (d d' : NodeIndex → Dealing)
    (h : ∀ i ∈ dealers, (d' i).commitment = (d i).commitment) :
    newTranscript t (mapOf dealers d') .random = newTranscript t (mapOf dealers d) .random := by
  have h1 : checkLengths t (mapOf dealers d') = checkLengths t (mapOf dealers d) := by
    induction dealers with
    | nil => rfl
    | cons a l ih =>
      have ih' := ih fun i hi => h i (List.mem_cons_of_mem _ hi)
      simp only [mapOf, List.map_cons, checkLengths, h a (by simp)] at ih' ⊢
      rw [ih']
  have h2 : ∀ c, sumLoop c (mapOf dealers d') = sumLoop c (mapOf dealers d) := by
    clear h1
    induction dealers with
    | nil => exact fun _ => rfl
    | cons a l ih =>
      intro c
      have ih' := ih fun i hi => h i (List.mem_cons_of_mem _ hi)
      simp only [mapOf, List.map_cons, sumLoop, h a (by simp)] at ih' ⊢
      simp only [ih']
  simp only [newTranscript, h1, h2]

/-- C130: take a random transcript in which dealer `a` is honest, and the other dealings are accepted publicly and by the
recipients.  Then for every group of fewer than threshold-many recipients and every `s` there are random choices of dealer `a`
such that the transcript is the same, all the group sees of `a`'s dealing is the same, its members get the same shares, and the
shares of the recipients are those of a polynomial with constant term `s`. -/
theorem C130_random_transcript (P : Prim) (t : Int) (dealers : List NodeIndex) (d : NodeIndex → Dealing) (keys : List Fn)
    (ad : Bytes) (a : NodeIndex) (seed : Seed) (hnd : dealers.Nodup) (ha : a ∈ dealers)
    (h : new P .random seed t (keys.map Point.mulByG) a ad = .ok (d a)) (hk : KeysDiffer P seed .random)
    (hothers : ∀ j ∈ dealers, j ≠ a → publiclyVerify P (d j) K256 .random t j keys.length ad = .ok () ∧
      ∃ s, SharesOut P (d j) t keys ad j s)
    (B : List NodeIndex) (hB : B.Nodup) (hpos : ∀ j ∈ B, 0 ≤ j.toInt) (hlt : (B.length : Int) < t) (s : Fn) :
    ∃ (T : Com) (streams : Bytes → Nat → UInt8) (da : Dealing) (f g : List Fn),
      newTranscript t (mapOf dealers d) .random = .ok (some T) ∧
      new (P.withStreams streams) .random seed t (keys.map Point.mulByG) a ad = .ok da ∧ Alike B (d a) da ∧
      newTranscript t (mapOf dealers (Function.update d a da)) .random = .ok (some T) ∧
      (∀ i ∈ B, ∀ k pk, fromDealings P (mapOf dealers (Function.update d a da)) (some T) ad i k pk =
        fromDealings P (mapOf dealers d) (some T) ad i k pk) ∧
      (f.length : Int) = t ∧ (g.length : Int) = t ∧ f.head? = some s ∧
      ∀ (i : NodeIndex) (k : Fn), 0 ≤ i.toInt → keys[i.toInt.toNat]? = some k →
        fromDealings P (mapOf dealers (Function.update d a da)) (some T) ad i k (k • G) =
          .ok (.pedersen ((toPoly f).eval (place i)) ((toPoly g).eval (place i))) := by
  have ht : 0 < t := by have := Int.natCast_nonneg B.length; omega
  -- the secrets of the others
  have hs : ∀ j, ∃ sj, j ∈ dealers → j ≠ a → SharesOut P (d j) t keys ad j sj := by
    intro j
    by_cases hj : j ∈ dealers ∧ j ≠ a
    · obtain ⟨sj, h1⟩ := (hothers j hj.1 hj.2).2
      exact ⟨sj, fun _ _ => h1⟩
    · exact ⟨0, fun h1 h2 => absurd ⟨h1, h2⟩ hj⟩
  choose sec hsec using hs
  obtain ⟨streams, da, hda, hal, hsa⟩ := C129_random P seed t keys a ad (d a) hk h B hB hpos hlt
    (s - ((dealers.erase a).map sec).sum)
  set d' := Function.update d a da with hd'
  have hd'a : d' a = da := Function.update_self ..
  have hd'j : ∀ j, j ≠ a → d' j = d j := fun j hj => Function.update_of_ne hj ..
  have hcom : ∀ j ∈ dealers, (d' j).commitment = (d j).commitment := by
    intro j _
    by_cases hj : j = a
    · rw [hj, hd'a]; exact hal.1
    · rw [hd'j j hj]
  -- the polynomials of all
  have hex : ∀ j, ∃ (q r : List Fn) (cm : Commitment), j ∈ dealers → (d' j).commitment = some cm ∧
      (cm.points.length : Int) = t ∧ cm.kind = .pedersen ∧ (q.length : Int) = t ∧ (r.length : Int) = t ∧
      q.head? = some (if j = a then s - ((dealers.erase a).map sec).sum else sec j) ∧
      ∀ (i : NodeIndex) (k : Fn), 0 ≤ i.toInt → keys[i.toInt.toNat]? = some k →
        openDealing P (d' j) ad j i k (k • G) = .ok (.pedersen ((toPoly q).eval (place i)) ((toPoly r).eval (place i))) := by
    intro j
    by_cases hj : j ∈ dealers
    · by_cases hja : j = a
      · subst hja
        obtain ⟨q, r, c, cm, h1, h2, h3, h4, h5, h6⟩ := hsa
        obtain ⟨v, m, -, cm0, k1, -, hv, hm, -, -, -, hpts, -⟩ :=
          C85_dealing_contents P .random seed t keys j ad (d j) (by simp) h
        obtain rfl : cm = cm0 := by
          have := hal.1; rw [h2, k1] at this; exact Option.some.inj this
        simp only [Shares.hidden, if_true] at hpts
        refine ⟨q, r, cm, fun _ => ⟨by rw [hd'a, h2], ?_, hpts.1, h3, h4, by rw [h5, if_pos rfl], fun i k hi hki => ?_⟩⟩
        · rw [hpts.2, List.length_zipWith]
          omega
        · rw [hd'a, openDealing.eq_def, h1, h2]
          exact h6 i k hi hki
      · obtain ⟨hv, -⟩ := hothers j hj hja
        obtain ⟨-, cm, c, c0, hcm, hc, hl, hc0, hsz, hpop, hkind, -, -⟩ := accepted_only hv
        obtain ⟨q, r, c', cm', h1, h2, h3, h4, h5, h6⟩ := hsec j hj hja
        obtain rfl : cm = cm' := by rw [hcm] at h2; exact Option.some.inj h2
        refine ⟨q, r, cm, fun _ => ⟨by rw [hd'j j hja, h2], hl, hkind, h3, h4, by rw [h5, if_neg hja], fun i k hi hki => ?_⟩⟩
        rw [hd'j j hja, openDealing.eq_def, h1, h2]
        exact h6 i k hi hki
    · exact ⟨[], [], ⟨.simple, []⟩, fun e => absurd e hj⟩
  choose q r cm hqr using hex
  have hc : Commits (mapOf dealers d') cm := by
    intro x hx
    obtain ⟨j, hj, rfl⟩ := List.mem_map.1 hx
    exact (hqr j hj).1
  have hl : ∀ x ∈ mapOf dealers d', ((cm x.1).points.length : Int) = t := by
    intro x hx
    obtain ⟨j, hj, rfl⟩ := List.mem_map.1 hx
    exact (hqr j hj).2.1
  have hkd : ∀ x ∈ mapOf dealers d', (cm x.1).kind = .pedersen := by
    intro x hx
    obtain ⟨j, hj, rfl⟩ := List.mem_map.1 hx
    exact (hqr j hj).2.2.1
  obtain ⟨pts, hT, -, -, hcomb⟩ := C58_random_sum t _ cm hc ht hl hkd
  have hlq : ∀ j ∈ dealers, (q j).length ≤ t.toNat := fun j hj => by have := (hqr j hj).2.2.2.1; omega
  have hlr : ∀ j ∈ dealers, (r j).length ≤ t.toNat := fun j hj => by have := (hqr j hj).2.2.2.2.1; omega
  refine ⟨_, streams, da, linComb (fun _ => 1) dealers q t.toNat, linComb (fun _ => 1) dealers r t.toNat,
    (newTranscript_congr t dealers d d' hcom) ▸ hT, hda, hal, hT, fun i hi k pk => ?_, by rw [length_linComb]; omega,
    by rw [length_linComb]; omega, ?_, fun i k hi hki => ?_⟩
  · have : ∀ l : List NodeIndex, Res.mapM' (fun x : NodeIndex × Dealing => openDealing P x.2 ad x.1 i k pk) (mapOf l d') =
        Res.mapM' (fun x : NodeIndex × Dealing => openDealing P x.2 ad x.1 i k pk) (mapOf l d) := by
      intro l
      induction l with
      | nil => rfl
      | cons b l ih =>
        have hb : openDealing P (d' b) ad b i k pk = openDealing P (d b) ad b i k pk := by
          by_cases e : b = a
          · rw [e, hd'a]; exact hal.open_eq P ad a i hi k pk
          · rw [hd'j b e]
        simp only [mapOf, List.map_cons, Res.mapM', hb] at ih ⊢
        rw [ih]
    rw [fromDealings, fromDealings, this, mapOf_fst, mapOf_fst]
  · rw [head?_eq_coeff (t := t.toNat) (length_linComb ..) (by omega), coeff_linComb, if_pos (by omega)]
    have e1 : ∀ j ∈ dealers, (1 : Fn) * Poly.coeff (q j) 0 = if j = a then s - ((dealers.erase a).map sec).sum else sec j := by
      intro j hj
      rw [one_mul]
      exact (head?_eq_coeff (t := t.toNat) (by have := (hqr j hj).2.2.2.1; omega) (by omega) _).1 (hqr j hj).2.2.2.2.2.1
    rw [List.map_congr_left e1, ((List.perm_cons_erase ha).map _).sum_eq, List.map_cons, List.sum_cons, if_pos rfl]
    have e2 : (dealers.erase a).map (fun j => if j = a then s - ((dealers.erase a).map sec).sum else sec j) =
        (dealers.erase a).map sec := by
      refine List.map_congr_left fun j hj => if_neg ?_
      rintro rfl
      exact hnd.not_mem_erase hj
    rw [e2, sub_add_cancel]
  · have hopen : ∀ x ∈ mapOf dealers d', openDealing P x.2 ad x.1 i k (k • G) =
        .ok (.pedersen ((toPoly (q x.1)).eval (place i)) ((toPoly (r x.1)).eval (place i))) := by
      intro x hx
      obtain ⟨j, hj, rfl⟩ := List.mem_map.1 hx
      exact (hqr j hj).2.2.2.2.2.2 i k hi hki
    obtain ⟨-, h2⟩ := hcomb i (fun j => (toPoly (q j)).eval (place i)) (fun j => (toPoly (r j)).eval (place i))
      (fun x hx => (openDealing_ok (hc x hx) (hopen x hx)).2.2)
    rw [fromDealings, Res.mapM'_ok (g := fun x => Opening.pedersen ((toPoly (q x.1)).eval (place i))
      ((toPoly (r x.1)).eval (place i))) hopen, Res.ok_bind, h2, eval_linComb _ _ _ _ hlq, eval_linComb _ _ _ _ hlr]
    simp [mapOf, Function.comp_def]

/-- Nodes 1 and 2 deal at threshold 2 to two nodes, with SHA-256; to recipient 0 the secret of the transcript could as well be
100. -/
example : ∃ (P : Prim) (d : NodeIndex → Dealing) (T : Com), newTranscript 2 (mapOf [1, 2] d) .random = .ok (some T) ∧
    ∃ streams da f g, new (P.withStreams streams) .random ⟨List.replicate 32 0⟩ 2 ([4, 6].map Point.mulByG) 1 [1] = .ok da ∧
      Alike [0] (d 1) da ∧ f.head? = some (100 : Fn) ∧
      fromDealings P (mapOf [1, 2] (Function.update d 1 da)) (some T) [1] 1 6 ((6 : Fn) • G) =
        .ok (.pedersen ((toPoly f).eval (place 1)) ((toPoly g).eval (place 1))) := by
  obtain ⟨s1, d1, h1, -⟩ := C115_free_choices Kat.prim .random (by simp) ⟨List.replicate 32 0⟩ 2
    ([4, 6].map Point.mulByG) 1 [1] (by decide) (by decide) (keysDiffer_zero _) ⟨[17, 9], [4, 4], 11, 12, 11, 0⟩ rfl rfl
    (by rintro s h; simp [Shares.secret] at h)
  obtain ⟨s2, d2, h2, -⟩ := C115_free_choices Kat.prim .random (by simp) ⟨List.replicate 32 0⟩ 2
    ([4, 6].map Point.mulByG) 2 [1] (by decide) (by decide) (keysDiffer_zero _) ⟨[5, 3], [8, 1], 2, 3, 4, 6⟩ rfl rfl
    (by rintro s h; simp [Shares.secret] at h)
  have hv := (C54_honest_dealings_verify _ .random .random _ 2 [4, 6] 2 [1] d2 trivial h2).1
  obtain ⟨v, m, c, cm, k1, k2, k3, k4, -, -, -, -, k5⟩ := C85_dealing_contents _ .random _ 2 [4, 6] 2 [1] d2 (by simp) h2
  have hsh : ∃ s, SharesOut (Kat.prim.withStreams s1) d2 2 [4, 6] [1] 2 s := by
    cases v with
    | nil => simp at k3
    | cons v0 vs => exact ⟨v0, v0 :: vs, m, c, cm, k2, k1, k3, k4, rfl, k5⟩
  obtain ⟨T, st, da, f, g, e1, e2, e3, -, -, -, -, e4, e5⟩ := C130_random_transcript (Kat.prim.withStreams s1) 2 [1, 2]
    (fun j => if j = 1 then d1 else d2) [4, 6] [1] 1 ⟨List.replicate 32 0⟩ (by decide) (by decide) h1 (keysDiffer_zero .random)
    (fun j hj hne => by
      obtain rfl : j = 2 := (List.mem_cons.1 hj).elim (fun e => absurd e hne) List.mem_singleton.1
      exact ⟨hv, hsh⟩)
    [0] (by simp) (by simp) (by decide) 100
  exact ⟨_, _, T, e1, st, da, f, g, e2, e3, e4, e5 1 6 (by decide) rfl⟩

end Verif.Dealings
