import Verif.Spec.OracleDh
import Verif.Props.OracleReshare
import Verif.Props.OracleBias

/-!
C177: who learns something from dealings computes Diffie-Hellman values.
-/

set_option autoImplicit false

namespace Verif

open Oracle Mega

namespace Oracle

theorem readPoint_serialize (X : Pt) : readPoint (Point.serialize X) = X := by
  rw [readPoint, Point.deserialize_serialize]
  simp only [Point.ofRaw?_eq_some.2 rfl, Option.getD_some]

/-- Choosing at random hits with at least one chance in `card ι`. -/
theorem share_pick {α ι : Type} [Finite α] [Finite ι] (p : α → Prop) (p' : α → ι → Prop) (h : ∀ a, p a → ∃ i, p' a i) :
    share p ≤ Nat.card ι * share (fun x : α × ι => p' x.1 x.2) := by
  rcases isEmpty_or_nonempty ι with hι | hι
  · rw [share_false fun a ha => hι.elim (h a ha).choose]
    exact mul_nonneg (Nat.cast_nonneg _) (div_nonneg (Nat.cast_nonneg _) (Nat.cast_nonneg _))
  · have hc : (0 : ℚ) < Nat.card ι := by exact_mod_cast Nat.card_pos
    rw [share, share, Nat.card_prod, Nat.cast_mul, mul_comm (Nat.card α : ℚ), ← mul_div_assoc, mul_div_mul_left _ _ hc.ne']
    refine div_le_div_of_nonneg_right ?_ (Nat.cast_nonneg _)
    have : Nat.card {a // p a} ≤ Nat.card {x : α × ι // p' x.1 x.2} :=
      Nat.card_le_card_of_injective (fun a => ⟨(a.1, (h a.1 a.2).choose), (h a.1 a.2).choose_spec⟩) fun a b hab =>
        Subtype.ext (congrArg (fun z => z.1.1) hab)
    exact_mod_cast this

theorem share_average_add_const {X Y Z W : Type} [Finite X] [Nonempty X] [Finite Y] [Finite Z] [Finite W] (p : X → Y → Prop)
    (p' : X → Z → Prop) (δ : ℚ) (p'' : X → W → Prop) (h : ∀ x, share (p x) ≤ share (p' x) + δ + share (p'' x)) :
    share (fun u : X × Y => p u.1 u.2) ≤ share (fun u : X × Z => p' u.1 u.2) + δ + share (fun u : X × W => p'' u.1 u.2) := by
  have := Fintype.ofFinite X
  have hX : (0 : ℚ) < Nat.card X := by exact_mod_cast Nat.card_pos
  have e : δ = (∑ _x : X, δ) / Nat.card X := by
    rw [Finset.sum_const, Finset.card_univ, nsmul_eq_mul, ← Nat.card_eq_fintype_card, mul_div_cancel_left₀ _ hX.ne']
  rw [share_sum, share_sum, share_sum, e, ← add_div, ← Finset.sum_add_distrib, ← add_div, ← Finset.sum_add_distrib]
  exact div_le_div_of_nonneg_right (Finset.sum_le_sum fun x _ => h x) hX.le

theorem share_average_abs_const {X Y Z W : Type} [Finite X] [Nonempty X] [Finite Y] [Finite Z] [Finite W] (p : X → Y → Prop)
    (p' : X → Z → Prop) (δ : ℚ) (p'' : X → W → Prop) (h : ∀ x, |share (p x) - share (p' x)| ≤ δ + share (p'' x)) :
    |share (fun u : X × Y => p u.1 u.2) - share (fun u : X × Z => p' u.1 u.2)| ≤ δ + share (fun u : X × W => p'' u.1 u.2) := by
  rw [abs_sub_le_iff]
  have h1 := share_average_add_const p p' δ p'' fun x => by linarith [(abs_sub_le_iff.1 (h x)).1]
  have h2 := share_average_add_const p' p δ p'' fun x => by linarith [(abs_sub_le_iff.1 (h x)).2]
  constructor <;> linarith

theorem share_average_const {X Y W : Type} [Finite X] [Nonempty X] [Finite Y] [Finite W] (p : X → Y → Prop) (δ : ℚ) (p' : X → W → Prop)
    (h : ∀ x, |share (p x) - δ| ≤ share (p' x)) : |share (fun u : X × Y => p u.1 u.2) - δ| ≤ share (fun u : X × W => p' u.1 u.2) := by
  have := Fintype.ofFinite X
  have hX : (0 : ℚ) < Nat.card X := by exact_mod_cast Nat.card_pos
  have e : δ = (∑ _x : X, δ) / Nat.card X := by
    rw [Finset.sum_const, Finset.card_univ, nsmul_eq_mul, ← Nat.card_eq_fintype_card, mul_div_cancel_left₀ _ hX.ne']
  rw [share_sum, share_sum, e, ← sub_div, ← Finset.sum_sub_distrib, abs_div, abs_of_pos hX]
  exact div_le_div_of_nonneg_right ((Finset.abs_sum_le_sum_abs _ _).trans (Finset.sum_le_sum fun x _ => h x)) hX.le

variable {D : Finset Question} {A C R : Type} {m : Nat}

theorem keysFrom_add (B : Finset (Fin m)) (sk : Fin m → Fn) (w : Fn) (r : Fin m → Fn) :
    keysFrom B sk (w • G) r = keysFrom B sk 0 (fun i => w + r i) := by
  funext i
  simp only [keysFrom, zero_add, add_smul]

theorem entriesFrom_eq [AddCommGroup A] (t : CType) (d : NodeIndex) (ad : Bytes) (b : Fn) (B : Finset (Fin m)) (sk : Fin m → Fn)
    (keys : Fin m → Pt) (hkeys : ∀ i ∈ B, keys i = sk i • G) (qs : Fin m → D)
    (hqs : ∀ i : Fin m, within D (padOf t d ad b i (keys i)) = some (qs i)) (plain : Fin m → A) (O : D → A)
    (e : (Bᶜ : Finset (Fin m)) → A) : entriesFrom t d ad (b • G) B sk plain O e = madeUp qs plain Bᶜ O e := by
  funext i
  simp only [entriesFrom, madeUp]
  split_ifs with hi
  · rfl
  · have hB : i ∈ B := by simpa using hi
    have h := hqs i
    rw [padOf, hkeys i hB, smul_comm b (sk i) G] at h
    rw [padFrom, h]

theorem Alg2.pads_le {E : Finset Question} (O : D → A) (Ch : E → Fn) :
    ∀ (g : Alg2 D E A R) (q : Nat), g.AtMostPads q → (g.pads O Ch).length ≤ q
  | .done _, _, _ => Nat.zero_le _
  | .pad _ _, 0, h => h.elim
  | .pad _ next, q + 1, h => Nat.succ_le_succ (pads_le O Ch (next _) q (h _))
  | .challenge _ next, q, h => pads_le O Ch (next _) q (h _)

/-- Asking for the pad of a recipient outside the group happens at most as often, on average over the keys of these recipients, as the
number of questions times the number of recipients times the share of random choices for which `solve` succeeds. -/
theorem asks_le [Finite A] [AddCommGroup A] [Finite C] (t : CType) (d : NodeIndex) (ad : Bytes) (B : Finset (Fin m)) (sk : Fin m → Fn)
    (plain : C → Fin m → A) (asks : C → (Fin m → Pt) → (Fin m → A) → (D → A) → List D) (q : Nat)
    (hq : ∀ c keys e O, (asks c keys e O).length ≤ q) (b : Fn)
    (qs : (Fin m → Fn) → Fin m → D) (hqs : ∀ a (i : Fin m), within D (padOf t d ad b i (keysFrom B sk 0 a i)) = some (qs a i)) (w : Fn) :
    share (fun u : (Fin m → Fn) × C × (D → A) × ((Bᶜ : Finset (Fin m)) → A) =>
        ∃ i ∈ Bᶜ, qs u.1 i ∈ asks u.2.1 (keysFrom B sk 0 u.1) (madeUp (qs u.1) (plain u.2.1) Bᶜ u.2.2.1 u.2.2.2) u.2.2.1) ≤
      q * m * share (fun u : ((Fin m → Fn) × C × (D → A) × ((Bᶜ : Finset (Fin m)) → A)) × Fin q × Fin m =>
        solve t d ad B sk plain asks (b • G) (w • G) u.1.1 u.1.2 u.2.1 u.2.2 = (b * w) • G) := by
  let α := (Fin m → Fn) × C × (D → A) × ((Bᶜ : Finset (Fin m)) → A)
  have hpick := share_pick (α := α) (ι := Fin q × Fin m)
    (fun u => ∃ i ∈ Bᶜ, (qs fun i => w + u.1 i) i ∈ asks u.2.1 (keysFrom B sk 0 fun i => w + u.1 i)
      (madeUp (qs fun i => w + u.1 i) (plain u.2.1) Bᶜ u.2.2.1 u.2.2.2) u.2.2.1)
    (fun u z => solve t d ad B sk plain asks (b • G) (w • G) u.1 u.2 z.1 z.2 = (b * w) • G) ?_
  · rw [← share_equiv (Equiv.prodCongr (Equiv.addLeft (fun _ : Fin m => w)) (Equiv.refl (C × (D → A) × ((Bᶜ : Finset (Fin m)) → A))))]
    refine hpick.trans (le_of_eq ?_)
    rw [Nat.card_prod, Nat.card_eq_fintype_card, Nat.card_eq_fintype_card, Fintype.card_fin, Fintype.card_fin, Nat.cast_mul]
  · rintro ⟨r, c, O, y⟩ h
    dsimp only at h
    set a : Fin m → Fn := fun i => w + r i with ha
    obtain ⟨i, hi, hmem⟩ := h
    obtain ⟨j, hj, hget⟩ := List.mem_iff_getElem.1 hmem
    have hjq : j < q := hj.trans_le (hq _ _ _ _)
    refine ⟨(⟨j, hjq⟩, i), ?_⟩
    have hent := entriesFrom_eq t d ad b B sk (keysFrom B sk 0 a) (fun i hi => if_pos hi) (qs a) (hqs a) (plain c) O y
    have htail := tail33_pad (within_eq.1 (hqs a i))
    have hkey : keysFrom B sk 0 a i = w • G + r i • G := by
      rw [keysFrom, if_neg (by simpa using hi), ha, zero_add, add_smul]
    simp only [solve]
    rw [keysFrom_add, hent, List.getElem?_eq_getElem hj, hget]
    dsimp only
    rw [htail, readPoint_serialize, hkey, smul_add, smul_comm b (r i) G, add_sub_cancel_right, mul_smul]

end Oracle

variable {D : Finset Question} {R : Type} {k m : Nat}

/-- C177 for random dealings: a program is given the public keys and everything published of a random dealing; it has the private keys
of a group of `k` or fewer recipients.  On average over the keys of the other recipients it tells two secrets apart with an advantage of
at most the number of its questions times the number of recipients times the share of random choices for which `solve`, given `b • G`
and `w • G`, finds their Diffie-Hellman value `(b * w) • G`; and that for every `b` and `w`. -/
theorem C177_random (hm : m ≤ 2 ^ 32) (d : NodeIndex) (ad : Bytes) (B : Finset (Fin m)) (hB : B.card ≤ k) (sk : Fin m → Fn)
    (g : (Fin (k + 1) → Pt) → (Fin m → Pt) → (Fin m → Fn × Fn) → Alg D (Fn × Fn) R) (q : Nat) (hq : ∀ cm keys e, (g cm keys e).AtMost q)
    (b : Fn) (qs : (Fin m → Fn) → Fin m → D)
    (hqs : ∀ a (i : Fin m), within D (padOf .pairs d ad b i (keysFrom B sk 0 a i)) = some (qs a i)) (win : R → Prop) (s s' w : Fn) :
    let view (s : Fn) (u : (Fin m → Fn) × DealerCoins k × (D → Fn × Fn)) :=
      (g (commitments (withSecret s u.2.1) u.2.1.2) (keysFrom B sk 0 u.1)
        (entries (qs u.1) (dealt (withSecret s u.2.1) u.2.1.2) u.2.2)).run u.2.2
    share (fun u => win (view s u)) ≤ share (fun u => win (view s' u)) + q * m * share (fun u :
        ((Fin m → Fn) × DealerCoins k × (D → Fn × Fn) × ((Bᶜ : Finset (Fin m)) → Fn × Fn)) × Fin q × Fin m =>
      solve .pairs d ad B sk (fun c : DealerCoins k => dealt (withSecret s c) c.2)
        (fun c keys e => (g (commitments (withSecret s c) c.2) keys e).asked) (b • G) (w • G) u.1.1 u.1.2 u.2.1 u.2.2 = (b * w) • G) := by
  intro view
  have h := fun a => C161_masked_dealing hm d ad b (keysFrom B sk 0 a) (qs a) (hqs a) B hB (fun cm _ => g cm (keysFrom B sk 0 a))
    (fun cm O O' _ => rfl) win s s'
  refine (share_average_add (fun a x => win (view s (a, x))) (fun a x => win (view s' (a, x))) _ h).trans (add_le_add_right ?_ _)
  exact asks_le .pairs d ad B sk (fun c : DealerCoins k => dealt (withSecret s c) c.2) (fun c keys e => (g (commitments (withSecret s c) c.2) keys e).asked) q
    (fun _ _ _ O => Alg.asked_le O _ q (hq _ _ _)) b qs hqs w

/-- C177 for resharings without mask: the same for telling the dealing of `s` apart from one that is made up from `s • G`. -/
theorem C177_unmasked (hm : m ≤ 2 ^ 32) (d : NodeIndex) (ad : Bytes) (B : Finset (Fin m)) (Z : Fin (k + 1) → Fn) (hZ : Vanishes B Z)
    (sk : Fin m → Fn) (g : (Fin (k + 1) → Pt) → (Fin m → Pt) → (Fin m → Fn) → Alg D Fn R) (q : Nat)
    (hq : ∀ cm keys e, (g cm keys e).AtMost q) (b : Fn) (qs : (Fin m → Fn) → Fin m → D)
    (hqs : ∀ a (i : Fin m), within D (padOf .single d ad b i (keysFrom B sk 0 a i)) = some (qs a i)) (win : R → Prop) (s w : Fn) :
    let view (u : (Fin m → Fn) × (Fin k → Fn) × (D → Fn)) :=
      (g (simpleCommitments (polyOf s u.2.1)) (keysFrom B sk 0 u.1) (entries (qs u.1) (values (polyOf s u.2.1)) u.2.2)).run u.2.2
    let sim (S : Pt) (u : (Fin m → Fn) × (Fin k → Fn) × (D → Fn) × ((Bᶜ : Finset (Fin m)) → Fn)) :=
      (g (shown Z S u.2.1) (keysFrom B sk 0 u.1) (madeUp (qs u.1) (values (polyOf 0 u.2.1)) Bᶜ u.2.2.1 u.2.2.2)).run u.2.2.1
    |share (fun u => win (view u)) - share (fun u => win (sim (s • G) u))| ≤ q * m * share (fun u :
        ((Fin m → Fn) × (Fin k → Fn) × (D → Fn) × ((Bᶜ : Finset (Fin m)) → Fn)) × Fin q × Fin m =>
      solve .single d ad B sk (fun c : Fin k → Fn => values (polyOf 0 c)) (fun c keys e => (g (shown Z (s • G) c) keys e).asked) (b • G) (w • G)
        u.1.1 u.1.2 u.2.1 u.2.2 = (b * w) • G) := by
  intro view sim
  have h := fun a => C167_without_mask hm d ad b (keysFrom B sk 0 a) (qs a) (hqs a) B Z hZ (fun cm _ => g cm (keysFrom B sk 0 a))
    (fun cm O O' _ => rfl) win s
  refine (share_average_abs (fun a x => win (view (a, x))) (fun a x => win (sim (s • G) (a, x))) _ h).trans ?_
  exact asks_le .single d ad B sk (fun c : Fin k → Fn => values (polyOf 0 c)) (fun c keys e => (g (shown Z (s • G) c) keys e).asked) q
    (fun _ _ _ O => Alg.asked_le O _ q (hq _ _ _)) b qs hqs w

/-- C177 for the secret of a transcript: a program that makes the sum of the given dealing's secret and of those it deals itself lie in a
set of `t` numbers more or less often than `t / n` does so with a bias of at most the same bound. -/
theorem C177_bias (hm : m ≤ 2 ^ 32) (d : NodeIndex) (ad : Bytes) (B : Finset (Fin m)) (hB : B.card ≤ k) (sk : Fin m → Fn)
    (g : (Fin (k + 1) → Pt) → (Fin m → Pt) → (Fin m → Fn × Fn) → Alg D (Fn × Fn) (Fn × Finset Fn)) (q : Nat)
    (hq : ∀ cm keys e, (g cm keys e).AtMost q) (t : Nat) (ht : ∀ cm keys e O, ((g cm keys e).run O).2.card = t) (b : Fn)
    (qs : (Fin m → Fn) → Fin m → D)
    (hqs : ∀ a (i : Fin m), within D (padOf .pairs d ad b i (keysFrom B sk 0 a i)) = some (qs a i)) (w : Fn) :
    let view (u : (Fin m → Fn) × Fn × DealerCoins k × (D → Fn × Fn)) :=
      (g (commitments (withSecret u.2.1 u.2.2.1) u.2.2.1.2) (keysFrom B sk 0 u.1)
        (entries (qs u.1) (dealt (withSecret u.2.1 u.2.2.1) u.2.2.1.2) u.2.2.2)).run u.2.2.2
    |share (fun u => u.2.1 + (view u).1 ∈ (view u).2) - t / n| ≤ q * m * share (fun u :
        ((Fin m → Fn) × (Fn × DealerCoins k) × (D → Fn × Fn) × ((Bᶜ : Finset (Fin m)) → Fn × Fn)) × Fin q × Fin m =>
      solve .pairs d ad B sk (fun c : Fn × DealerCoins k => dealt (withSecret c.1 c.2) c.2.2)
        (fun c keys e => (g (commitments (withSecret c.1 c.2) c.2.2) keys e).asked) (b • G) (w • G) u.1.1 u.1.2 u.2.1 u.2.2 = (b * w) • G) := by
  intro view
  have h := fun a => C166_no_bias hm d ad b (keysFrom B sk 0 a) (qs a) (hqs a) B hB (fun cm _ => g cm (keysFrom B sk 0 a))
    (fun cm O O' _ => rfl) t (fun cm O e => ht cm _ e O)
  refine (share_average_const (fun a x => x.1 + (view (a, x)).1 ∈ (view (a, x)).2) _ _ h).trans ?_
  refine le_trans (le_of_eq ?_) (asks_le .pairs d ad B sk (fun c : Fn × DealerCoins k => dealt (withSecret c.1 c.2) c.2.2)
    (fun c keys e => (g (commitments (withSecret c.1 c.2) c.2.2) keys e).asked) q
    (fun _ _ _ O => Alg.asked_le O _ q (hq _ _ _)) b qs hqs w)
  exact (share_equiv (Equiv.prodCongr (Equiv.refl (Fin m → Fn)) (Equiv.prodAssoc Fn (DealerCoins k)
    ((D → Fn × Fn) × ((Bᶜ : Finset (Fin m)) → Fn × Fn)))) _).symm

/-- C177 for dealings of a product, with their proofs (see C165 for the programs and for what is compared). -/
theorem C177_product {E : Finset Question} {S : Type} (hm : m ≤ 2 ^ 32) (d : NodeIndex) (ad : Bytes) (B : Finset (Fin m)) (hB : B.card ≤ k)
    (sk : Fin m → Fn) (q : Nat) (first : Alg E Fn S) (hq : first.AtMost q)
    (g : S → (Fin (k + 1) → Pt) → (Fin m → Pt) → (Fin m → Fn × Fn) → Zk.Product.Proof → Alg2 D E (Fn × Fn) R) (q' : Nat)
    (hq' : ∀ s cm keys e pf, (g s cm keys e pf).AtMostPads q') (b : Fn) (qs : (Fin m → Fn) → Fin m → D)
    (hqs : ∀ a (i : Fin m), within D (padOf .pairs d ad b i (keysFrom B sk 0 a i)) = some (qs a i)) (win : R → Prop)
    (x y : Factors) (hxy : x.Same y)
    (hE : ∀ z : Factors, x.Same z → ∀ (c : DealerCoins k) r, ∃ v, within E ((z.task ad c).asks r) = some v) (w : Fn) :
    let view (z : Factors) (u : (Fin m → Fn) × (DealerCoins k × (D → Fn × Fn)) × (Fn × Fn) × (E → Fn)) :=
      (g (first.run u.2.2.2) (commitments (z.poly u.2.1.1) u.2.1.1.2) (keysFrom B sk 0 u.1)
        (entries (qs u.1) (dealt (z.poly u.2.1.1) u.2.1.1.2) u.2.1.2) ((z.task ad u.2.1.1).proof u.2.2.2 u.2.2.1)).run u.2.1.2 u.2.2.2
    let asks (c : ((Fn × Fn × Fn) × (E → Fn)) × DealerCoins k) (keys : Fin m → Pt) (e : Fin m → Fn × Fn) (O : D → Fn × Fn) :=
      let pf : Zk.Product.Proof := ⟨c.1.1.1, c.1.1.2.1, c.1.1.2.2⟩
      (g (first.run c.1.2) (commitments (x.poly c.2) c.2.2) keys e pf).pads O (program c.1.2 ((x.task ad c.2).claim pf).asks pf.challenge)
    share (fun u => win (view x u)) ≤ share (fun u => win (view y u)) + 2 * q / n ^ 2 + q' * m * share (fun u :
        ((Fin m → Fn) × (((Fn × Fn × Fn) × (E → Fn)) × DealerCoins k) × (D → Fn × Fn) × ((Bᶜ : Finset (Fin m)) → Fn × Fn)) ×
          Fin q' × Fin m =>
      solve .pairs d ad B sk (fun c => dealt (x.poly c.2) c.2.2) asks (b • G) (w • G) u.1.1 u.1.2 u.2.1 u.2.2 = (b * w) • G) := by
  intro view asks
  have h := fun a => C165_product_dealing hm d ad b (keysFrom B sk 0 a) (qs a) (hqs a) B hB q first hq
    (fun s cm _ => g s cm (keysFrom B sk 0 a)) (fun _ _ _ _ _ _ _ => rfl) win x y hxy hE
  refine (share_average_add_const (fun a u => win (view x (a, u))) (fun a u => win (view y (a, u))) _ _ h).trans (add_le_add_right ?_ _)
  refine le_trans (le_of_eq ?_) (asks_le .pairs d ad B sk
    (fun c : ((Fn × Fn × Fn) × (E → Fn)) × DealerCoins k => dealt (x.poly c.2) c.2.2) asks q'
    (fun _ _ _ _ => Alg2.pads_le _ _ _ _ (hq' _ _ _ _ _)) b qs hqs w)
  exact (share_equiv (Equiv.prodCongr (Equiv.refl (Fin m → Fn)) (Equiv.prodAssoc ((Fn × Fn × Fn) × (E → Fn)) (DealerCoins k)
    ((D → Fn × Fn) × ((Bᶜ : Finset (Fin m)) → Fn × Fn)))) _).symm

/-- C177 for resharings of masked secrets, with their proofs: telling the dealing apart from one that is made up from the secret times G
and the masked commitment (see C167). -/
theorem C177_masked {E : Finset Question} {S : Type} (hm : m ≤ 2 ^ 32) (d : NodeIndex) (t : EqTask) (B : Finset (Fin m))
    (Z : Fin (k + 1) → Fn) (hZ : Vanishes B Z) (sk : Fin m → Fn) (q : Nat) (first : Alg E Fn S) (hq : first.AtMost q)
    (g : S → (Fin (k + 1) → Pt) → (Fin m → Pt) → (Fin m → Fn) → Zk.Proof → Alg2 D E Fn R) (q' : Nat)
    (hq' : ∀ s cm keys e pf, (g s cm keys e pf).AtMostPads q') (b : Fn) (qs : (Fin m → Fn) → Fin m → D)
    (hqs : ∀ a (i : Fin m), within D (padOf .single d t.ad b i (keysFrom B sk 0 a i)) = some (qs a i)) (win : R → Prop)
    (hE : ∀ r, ∃ v, within E (t.asks r) = some v) (w : Fn) :
    let view (u : (Fin m → Fn) × ((Fin k → Fn) × (D → Fn)) × Fn × (E → Fn)) :=
      (g (first.run u.2.2.2) (simpleCommitments (polyOf t.secret u.2.1.1)) (keysFrom B sk 0 u.1)
        (entries (qs u.1) (values (polyOf t.secret u.2.1.1)) u.2.1.2) (t.proof u.2.2.2 u.2.2.1)).run u.2.1.2 u.2.2.2
    let sim (K : Pt) (c : ((Fn × Fn) × (E → Fn)) × (Fin k → Fn)) (keys : Fin m → Pt) (e : Fin m → Fn) :=
      g (first.run c.1.2) (shown Z K c.2) keys e ⟨c.1.1.1, c.1.1.2⟩
    let challenges (M K : Pt) (u : (Fn × Fn) × (E → Fn)) := program u.2 (EqClaim.asks ⟨M, K, t.ad, ⟨u.1.1, u.1.2⟩⟩) u.1.1
    let K := t.secret • G
    let M := t.secret • G + t.masking • Point.H
    |share (fun u => win (view u)) - share (fun u :
          (Fin m → Fn) × (((Fn × Fn) × (E → Fn)) × (Fin k → Fn)) × (D → Fn) × ((Bᶜ : Finset (Fin m)) → Fn) =>
        win ((sim K u.2.1 (keysFrom B sk 0 u.1) (madeUp (qs u.1) (values (polyOf 0 u.2.1.2)) Bᶜ u.2.2.1 u.2.2.2)).run u.2.2.1
          (challenges M K u.2.1.1)))| ≤
      q / n + q' * m * share (fun u :
        ((Fin m → Fn) × (((Fn × Fn) × (E → Fn)) × (Fin k → Fn)) × (D → Fn) × ((Bᶜ : Finset (Fin m)) → Fn)) × Fin q' × Fin m =>
      solve .single d t.ad B sk (fun c => values (polyOf 0 c.2)) (fun c keys e O => (sim K c keys e).pads O (challenges M K c.1))
        (b • G) (w • G) u.1.1 u.1.2 u.2.1 u.2.2 = (b * w) • G) := by
  intro view sim challenges K M
  have h := fun a => C167_with_proof hm d b (keysFrom B sk 0 a) (qs a) t (hqs a) B Z hZ q first hq
    (fun s cm _ => g s cm (keysFrom B sk 0 a)) (fun _ _ _ _ _ _ _ => rfl) win hE
  let asc := Equiv.prodCongr (Equiv.refl (Fin m → Fn)) (Equiv.prodAssoc ((Fn × Fn) × (E → Fn)) (Fin k → Fn)
    ((D → Fn) × ((Bᶜ : Finset (Fin m)) → Fn)))
  have h' := share_average_abs_const _ _ _ _ h
  rw [← share_equiv asc, ← share_equiv asc] at h'
  exact h'.trans (add_le_add_right (asks_le .single d t.ad B sk (fun c : ((Fn × Fn) × (E → Fn)) × (Fin k → Fn) => values (polyOf 0 c.2))
    (fun c keys e O => (sim K c keys e).pads O (challenges M K c.1)) q' (fun _ _ _ _ => Alg2.pads_le _ _ _ _ (hq' _ _ _ _ _)) b qs hqs w) _)

/-- The hypotheses are met, for any number of recipients, private keys, ephemeral key and group below the threshold: there is a finite set
of questions that has all pads for all keys. -/
example (hm : m ≤ 2 ^ 32) (t : CType) (d : NodeIndex) (ad : Bytes) (B : Finset (Fin m)) (hB : B.card ≤ k) (sk : Fin m → Fn) (b : Fn) :
    ∃ (D : Finset Question) (qs : (Fin m → Fn) → Fin m → D) (Z : Fin (k + 1) → Fn), Vanishes B Z ∧
      ∀ a (i : Fin m), within D (padOf t d ad b i (keysFrom B sk 0 a i)) = some (qs a i) := by
  have hex : ∀ z : (Fin m → Fn) × Fin m, ∃ q, question (padOf t d ad b z.2 (keysFrom B sk 0 z.1 z.2)) = some q := by
    intro z
    rw [padOf, padTranscript_eq]
    obtain ⟨x, hx⟩ := Ro.form_ok_of_accepted (ds := t.encryptionDst)
      (List.ne_nil_of_mem (mem_pad (d := d) (r := BitVec.ofNat 64 z.2) (ad := ad) (pk := keysFrom B sk 0 z.1 z.2) (eph := b • G)
        (shared := b • keysFrom B sk 0 z.1 z.2)).1)
    exact ⟨_, question_run.2 ⟨x, hx, rfl⟩⟩
  choose f hf using hex
  have hfin : (Set.range f).Finite := Set.finite_range f
  obtain ⟨Z, hZ⟩ := exists_vanishing hm B hB
  exact ⟨hfin.toFinset, fun a i => ⟨f (a, i), by simp⟩, Z, hZ, fun a i => within_eq.2 (hf (a, i))⟩

/-- `solve` succeeds when the program asks for the pad of a recipient outside the group: here it asks the question `x` whose end is the
encoding of `b • (w + r) • G`. -/
example (t : CType) (d : NodeIndex) (ad : Bytes) (sk r : Fin 1 → Fn) (b w : Fn) (x : D)
    (hx : tail33 x.1 = Point.serialize (b • (w + r 0) • G)) (O : D → Fn) (e : ((∅ : Finset (Fin 1))ᶜ : Finset (Fin 1)) → Fn) :
    solve t d ad ∅ sk (fun _ : Unit => 0) (fun _ _ _ => (Alg.ask x fun _ => Alg.done ()).asked) (b • G) (w • G) r ((), O, e) 0 0 = (b * w) • G := by
  simp only [solve, Alg.asked]
  rw [List.getElem?_cons_zero]
  dsimp only
  rw [hx, readPoint_serialize, add_smul, smul_add, smul_comm b (r 0) G, add_sub_cancel_right, mul_smul]

end Verif
