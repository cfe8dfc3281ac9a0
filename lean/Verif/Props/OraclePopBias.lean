import Verif.Props.OraclePop

/-!
C178 for the secret of a transcript: dealers who deal after an honest one, and are shown its dealing with the proof of possession, can
neither predict nor bias the secret unless they compute Diffie-Hellman values.
-/

set_option autoImplicit false

namespace Verif

open Oracle Mega

namespace Oracle

theorem share_average_add_mul {X Y Z W : Type} [Finite X] [Nonempty X] [Finite Y] [Finite Z] [Finite W] (p : X → Y → Prop)
    (p' : X → Z → Prop) (δ c : ℚ) (p'' : X → W → Prop) (h : ∀ x, share (p x) ≤ share (p' x) + δ + c * share (p'' x)) :
    share (fun u : X × Y => p u.1 u.2) ≤ share (fun u : X × Z => p' u.1 u.2) + δ + c * share (fun u : X × W => p'' u.1 u.2) := by
  have := Fintype.ofFinite X
  have hX : (0 : ℚ) < Nat.card X := by exact_mod_cast Nat.card_pos
  have e : δ = (∑ _x : X, δ) / Nat.card X := by
    rw [Finset.sum_const, Finset.card_univ, nsmul_eq_mul, ← Nat.card_eq_fintype_card, mul_div_cancel_left₀ _ hX.ne']
  rw [share_sum, share_sum, share_sum, e, ← mul_div_assoc, Finset.mul_sum, ← add_div, ← Finset.sum_add_distrib, ← add_div,
    ← Finset.sum_add_distrib]
  exact div_le_div_of_nonneg_right (Finset.sum_le_sum fun x _ => h x) hX.le

/-- A random number that plays no other part is in a set of `t` numbers, shifted or not, for the share `t / n`. -/
theorem share_blind {X : Type} [Finite X] [Nonempty X] (f : X → Fn × Finset Fn) (t : Nat) (ht : ∀ x, (f x).2.card = t) :
    share (fun u : Fn × X => u.1 + (f u.2).1 ∈ (f u.2).2) = t / n := by
  have := Fintype.ofFinite X
  rw [← share_equiv (Equiv.prodComm _ _) (fun u : Fn × X => u.1 + (f u.2).1 ∈ (f u.2).2)]
  have e := share_sum (fun (x : X) (s : Fn) => s + (f x).1 ∈ (f x).2)
  refine e.trans ?_
  simp only [share_shift, ht]
  rw [Finset.sum_const, Finset.card_univ, Nat.card_eq_fintype_card, nsmul_eq_mul, mul_div_cancel_left₀]
  exact_mod_cast Fintype.card_ne_zero

/-- What holds for every set of results of a given size holds for a set and for its complement. -/
theorem share_both_sides {X : Type} [Finite X] [Nonempty X] (sec : X → Fn) (f : X → Fn × Finset Fn) (t : Nat)
    (ht : ∀ x, (f x).2.card = t) (δ : ℚ)
    (h : ∀ (T : Fn × Finset Fn → Finset Fn) (t' : Nat), (∀ r, r.2.card = t → (T r).card = t') →
      share (fun x => sec x + (f x).1 ∈ T (f x)) ≤ t' / n + δ) :
    |share (fun x => sec x + (f x).1 ∈ (f x).2) - t / n| ≤ δ := by
  have h1 := h (fun r => r.2) t fun _ h => h
  have h2 := h (fun r => r.2ᶜ) (n - t) fun r hr => by rw [Finset.card_compl, hr, ← Nat.card_eq_fintype_card, card_Fn]
  simp only [Finset.mem_compl] at h2
  rw [share_not] at h2
  have hle : t ≤ n := by
    obtain ⟨x⟩ := ‹Nonempty X›
    have := Finset.card_le_univ (f x).2
    rwa [ht, ← Nat.card_eq_fintype_card, card_Fn] at this
  rw [Nat.cast_sub hle, sub_div, div_self (by exact_mod_cast n_pos.ne')] at h2
  rw [abs_le]
  constructor <;> linarith

end Oracle

variable {D E : Finset Question} {S : Type} {k m : Nat}

/-- C178 for the secret of a transcript: a program as in `C178_random` ends with a number, the sum of the secrets it deals itself, and a set
of `t` numbers.  For random secrets of the given dealing the sum of all secrets is in the set for the share `t / n`, up to `2 q / n` and
the number of pads asked for times the number of recipients times the share of random choices for which `solve`, given `b • G` and
`w • G` and nothing else about `b` and `w`, finds `(b * w) • G`. -/
theorem C178_bias (hm : m ≤ 2 ^ 32) (d : NodeIndex) (ad : Bytes) (B : Finset (Fin m)) (hB : B.card ≤ k) (sk : Fin m → Fn)
    (q : Nat) (first : (Fin m → Pt) → Pt → Pt → Alg E Fn S) (hq : ∀ keys V base, (first keys V base).AtMost q)
    (g : S → Pop → (Fin (k + 1) → Pt) → (Fin m → Pt) → (Fin m → Fn × Fn) → Alg2 D E (Fn × Fn) (Fn × Finset Fn)) (q' : Nat)
    (hq' : ∀ s pop cm keys e, (g s pop cm keys e).AtMostPads q') (t : Nat)
    (ht : ∀ s pop cm keys e O Ch, ((g s pop cm keys e).run O Ch).2.card = t) (b : Fn) (qs : (Fin m → Fn) → Fin m → D)
    (hqs : ∀ a (i : Fin m), within D (padOf .pairs d ad b i (keysFrom B sk 0 a i)) = some (qs a i))
    (hE : ∀ r nonce, ∃ v, within E ((popTask b r ad).asks nonce) = some v) (w : Fn) :
    let view (u : Fn × ((Fin m → Fn) × Fn) × (DealerCoins k × (D → Fn × Fn)) × Fn × (E → Fn)) :=
      (g ((first (keysFrom B sk 0 u.2.1.1) (b • G) (u.2.1.2 • G)).run u.2.2.2.2) (popReal b u.2.1.2 ad u.2.2.2.2 u.2.2.2.1)
        (commitments (withSecret u.1 u.2.2.1.1) u.2.2.1.1.2) (keysFrom B sk 0 u.2.1.1)
        (entries (qs u.2.1.1) (dealt (withSecret u.1 u.2.2.1.1) u.2.2.1.1.2) u.2.2.1.2)).run u.2.2.1.2 u.2.2.2.2
    let asks (V : Pt) (c : Fn × Fn × ((Fn × Fn) × (E → Fn)) × DealerCoins k) (keys : Fin m → Pt) (e : Fin m → Fn × Fn)
        (O : D → Fn × Fn) :=
      (g ((first keys V (c.2.1 • G)).run c.2.2.1.2) (popMade V c.2.1 c.2.2.1.1)
        (commitments (withSecret c.1 c.2.2.2) c.2.2.2.2) keys e).pads O (popChallenges V c.2.1 ad c.2.2.1.2 c.2.2.1.1)
    |share (fun u => u.1 + (view u).1 ∈ (view u).2) - t / n| ≤ 2 * q / n + q' * m * share (fun u :
        ((Fin m → Fn) × (Fn × Fn × ((Fn × Fn) × (E → Fn)) × DealerCoins k) × (D → Fn × Fn) ×
          ((Bᶜ : Finset (Fin m)) → Fn × Fn)) × Fin q' × Fin m =>
      solve .pairs d ad B sk (fun c => dealt (withSecret c.1 c.2.2.2) c.2.2.2.2) (asks (b • G)) (b • G) (w • G)
        u.1.1 u.1.2 u.2.1 u.2.2 = (b * w) • G) := by
  intro view asks
  let U := ((Fin m → Fn) × Fn) × (DealerCoins k × (D → Fn × Fn)) × Fn × (E → Fn)
  have htv : ∀ u : Fn × U, (view u).2.card = t := fun u => ht _ _ _ _ _ _ _
  refine share_both_sides (X := Fn × U) Prod.fst view t htv _ ?_
  intro T t' hT
  let solved (s : Fn) (u : ((Fin m → Fn) × (Fn × ((Fn × Fn) × (E → Fn)) × DealerCoins k) × (D → Fn × Fn) ×
          ((Bᶜ : Finset (Fin m)) → Fn × Fn)) × Fin q' × Fin m) : Prop :=
      solve .pairs d ad B sk (fun c => dealt (withSecret s c.2.2) c.2.2.2) (fun c => asks (b • G) (s, c)) (b • G) (w • G)
        u.1.1 u.1.2 u.2.1 u.2.2 = (b * w) • G
  have h := share_average_add_mul (fun s x => s + (view (s, x)).1 ∈ T (view (s, x))) (fun s x => s + (view (0, x)).1 ∈ T (view (0, x)))
    (2 * q / n) (q' * m) solved
    fun s => C178_random hm d ad B hB sk q first hq g q' hq' b qs hqs hE (fun r => s + r.1 ∈ T r) s 0 w
  have hb := share_blind (fun x => ((view (0, x)).1, T (view (0, x)))) t' fun x => hT _ (htv (0, x))
  let re : (Fn × ((Fin m → Fn) × (Fn × ((Fn × Fn) × (E → Fn)) × DealerCoins k) × (D → Fn × Fn) ×
          ((Bᶜ : Finset (Fin m)) → Fn × Fn)) × Fin q' × Fin m) ≃
      ((Fin m → Fn) × (Fn × Fn × ((Fn × Fn) × (E → Fn)) × DealerCoins k) × (D → Fn × Fn) ×
          ((Bᶜ : Finset (Fin m)) → Fn × Fn)) × Fin q' × Fin m :=
    ⟨fun u => ((u.2.1.1, (u.1, u.2.1.2.1), u.2.1.2.2), u.2.2), fun v => (v.1.2.1.1, (v.1.1, v.1.2.1.2, v.1.2.2), v.2),
      fun _ => rfl, fun _ => rfl⟩
  have hs := share_equiv re (fun u => solve .pairs d ad B sk (fun c => dealt (withSecret c.1 c.2.2.2) c.2.2.2.2) (asks (b • G)) (b • G)
    (w • G) u.1.1 u.1.2 u.2.1 u.2.2 = (b * w) • G)
  have hs' : share (fun u : Fn × (((Fin m → Fn) × (Fn × ((Fn × Fn) × (E → Fn)) × DealerCoins k) × (D → Fn × Fn) ×
      ((Bᶜ : Finset (Fin m)) → Fn × Fn)) × Fin q' × Fin m) => solved u.1 u.2) = _ := hs
  rw [hs'] at h
  have hb' : share (fun u : Fn × ((Fin m → Fn) × Fn) × (DealerCoins k × (D → Fn × Fn)) × Fn × (E → Fn) =>
      u.1 + (view (0, u.2)).1 ∈ T (view (0, u.2))) = t' / n := hb
  rw [hb'] at h
  rw [← add_assoc]
  exact h

/-- The hypotheses are met, for any number of recipients, group, keys and threshold, by the program that asks nothing and bets on `0`. -/
example (d : NodeIndex) (ad : Bytes) (B : Finset (Fin m)) (sk : Fin m → Fn) (b : Fn) :
    ∃ (D E : Finset Question) (qs : (Fin m → Fn) → Fin m → D),
      (∀ a (i : Fin m), within D (padOf .pairs d ad b i (keysFrom B sk 0 a i)) = some (qs a i)) ∧
      (∀ r nonce, ∃ v, within E ((popTask b r ad).asks nonce) = some v) ∧
      ∃ g : Alg2 D E (Fn × Fn) (Fn × Finset Fn), g.AtMostPads 0 ∧ ∀ O Ch, (g.run O Ch).2.card = 1 := by
  have hex : ∀ z : (Fin m → Fn) × Fin m, ∃ q, question (padOf .pairs d ad b z.2 (keysFrom B sk 0 z.1 z.2)) = some q := by
    intro z
    rw [padOf, padTranscript_eq]
    obtain ⟨x, hx⟩ := Ro.form_ok_of_accepted (ds := CType.pairs.encryptionDst)
      (List.ne_nil_of_mem (mem_pad (d := d) (r := BitVec.ofNat 64 z.2) (ad := ad) (pk := keysFrom B sk 0 z.1 z.2) (eph := b • G)
        (shared := b • keysFrom B sk 0 z.1 z.2)).1)
    exact ⟨_, question_run.2 ⟨x, hx, rfl⟩⟩
  choose f hf using hex
  have hfin : (Set.range f).Finite := Set.finite_range f
  obtain ⟨E, hE⟩ := pop_domain b ad
  exact ⟨hfin.toFinset, E, fun a i => ⟨f (a, i), by simp⟩, fun a i => within_eq.2 (hf (a, i)), hE, .done (0, {0}), trivial,
    fun _ _ => Finset.card_singleton _⟩

end Verif
