import Verif.Props.SignView
import Verif.Lemmas.Oracle
import Verif.Spec.SignGame

/-!
Property C186: who forges signatures with the knowledge of a group below the threshold forges ordinary ECDSA signatures.
-/

set_option autoImplicit false

namespace Verif.Sign

open Dealings Mega Zk Complaints Polynomial
open Point (H)

section counting

variable {N : Nat} {α L : Type}

theorem card_snd {A Y : Type} [Finite A] [Finite Y] (p : A × Y → Prop) : Nat.card {x // p x} = ∑ᶠ y, Nat.card {a // p (a, y)} := by
  have := Fintype.ofFinite Y
  rw [finsum_eq_sum_of_fintype, ← Nat.card_sigma]
  exact Nat.card_congr
    { toFun := fun x => ⟨x.1.2, ⟨x.1.1, x.2⟩⟩
      invFun := fun y => ⟨(y.2.1, y.1), y.2.2⟩
      left_inv := fun _ => rfl
      right_inv := fun _ => rfl }

theorem card_coordinate [Finite L] (i : Fin N) (F : L → (Fin N → L) → Prop)
    (hF : ∀ l f x, F l f → F l (Function.update f i x)) :
    Nat.card {f : Fin N → L // F (f i) f} * Nat.card L = ∑ᶠ l, Nat.card {f : Fin N → L // F l f} := by
  rw [← Nat.card_prod, ← card_snd fun x : (Fin N → L) × L => F x.2 x.1]
  exact Nat.card_congr
    { toFun := fun x => ⟨(Function.update x.1.1 i x.2, x.1.1 i), hF _ _ _ x.1.2⟩
      invFun := fun y => (⟨Function.update y.1.1 i y.1.2, by rw [Function.update_self]; exact hF _ _ _ y.2⟩, y.1.1 i)
      left_inv := fun x => by simp
      right_inv := fun y => by simp }

/-- A program's run does not depend on what belongs to presignatures that were used. -/
theorem run_congr (R : Fin N → Request → L → NodeIndex → Res SigShare) (A : Attack N α) : ∀ (asked : List (Fin N × Request)) (f g : Fin N → L),
    (∀ i, i ∉ asked.map Prod.fst → f i = g i) → A.run (fun i q => R i q (f i)) asked = A.run (fun i q => R i q (g i)) asked := by
  induction A with
  | stop a => intro asked f g _; rfl
  | sign i q next ih =>
    intro asked f g h
    simp only [Attack.run]
    split_ifs with hi
    · exact ih _ _ _ _ h
    · rw [h i hi]
      exact ih _ _ _ _ fun j hj => h j fun hj' => hj (by rw [List.map_cons]; exact List.mem_cons_of_mem _ hj')

/-- If for each request the answers are the same up to a permutation of what they are drawn from, then so are the runs. -/
theorem card_run [Finite L] [Nonempty L] (R S : Fin N → Request → L → NodeIndex → Res SigShare) (σ : Fin N → Request → L ≃ L)
    (h : ∀ i q l, R i q l = S i q (σ i q l)) (p : List (Fin N × Request) × α → Prop) (A : Attack N α) :
    ∀ asked : List (Fin N × Request), Nat.card {f : Fin N → L // p (A.run (fun i q => R i q (f i)) asked)} =
      Nat.card {f : Fin N → L // p (A.run (fun i q => S i q (f i)) asked)} := by
  induction A with
  | stop a => intro asked; rfl
  | sign i q next ih =>
    intro asked
    simp only [Attack.run]
    split_ifs with hi
    · exact ih _ _
    · refine Nat.eq_of_mul_eq_mul_right (Nat.card_pos (α := L)) ?_
      have key : ∀ T : Fin N → Request → L → NodeIndex → Res SigShare,
          Nat.card {f : Fin N → L // p ((next (some (T i q (f i)))).run (fun i q => T i q (f i)) ((i, q) :: asked))} * Nat.card L =
            ∑ᶠ l, Nat.card {f : Fin N → L // p ((next (some (T i q l))).run (fun i q => T i q (f i)) ((i, q) :: asked))} := by
        intro T
        refine card_coordinate i (fun l f => p ((next (some (T i q l))).run (fun i q => T i q (f i)) ((i, q) :: asked))) fun l f x hf => ?_
        rwa [run_congr T (next (some (T i q l))) ((i, q) :: asked) _ f]
        intro j hj
        exact Function.update_of_ne (fun e => hj (by simp [e])) _ _
      rw [key R, key S, ← finsum_comp_equiv (σ i q) (f := fun l => Nat.card {f : Fin N → L //
        p ((next (some (S i q l))).run (fun i q => S i q (f i)) ((i, q) :: asked))})]
      refine finsum_congr fun l => ?_
      rw [ih, h]

theorem card_pairs {A Y B₁ B₂ : Type} [Finite A] [Finite Y] (e₁ : A × Y ≃ B₁) (e₂ : A × Y ≃ B₂) (p₁ : B₁ → Prop) (p₂ : B₂ → Prop)
    (h : ∀ y, Nat.card {a // p₁ (e₁ (a, y))} = Nat.card {a // p₂ (e₂ (a, y))}) : Oracle.share p₁ = Oracle.share p₂ := by
  rw [← Oracle.share_equiv e₁ p₁, ← Oracle.share_equiv e₂ p₂, Oracle.share, Oracle.share, card_snd, card_snd]
  congr 2
  exact finsum_congr h

end counting

/-- Commitments without mask to polynomials through given values. -/
theorem map_through {t : Nat} {B : List NodeIndex} (a : Fn) (f : NodeIndex → Fn) :
    ((through t B a f).map fun v : Fn => v • G) = throughPts t B (a • G) fun j => f j • G := by
  rw [through, List.map_map, throughPts]
  refine List.map_congr_left fun k _ => ?_
  rw [Function.comp_apply, add_smul, sum_mul_smul, smul_smul, mul_comm a]

/-- What is drawn, with the commitments of `λ`, `κλ` and `xλ` in place of their masks. -/
def blindsEquiv {N : Nat} (η x0 : Fn) (k0 : Fin N → Fn) : (Fin N → Fn) × (Fin N → Fn × Fn × Fn) ≃ (Fin N → Blinds) where
  toFun y i := ⟨y.1 i, (y.2 i).1 - y.1 i * η, (y.2 i).2.1 - k0 i * y.1 i * η, (y.2 i).2.2 - x0 * y.1 i * η⟩
  invFun b := (fun i => (b i).lambda, fun i => ((b i).lambdaMask + (b i).lambda * η, (b i).klMask + k0 i * (b i).lambda * η,
    (b i).xlMask + x0 * (b i).lambda * η))
  left_inv y := by simp
  right_inv b := by simp

/-- The same for what is made up. -/
def madeEquiv {N : Nat} : (Fin N → Fn) × (Fin N → Fn × Fn × Fn) ≃ (Fin N → Made) where
  toFun y i := ⟨y.1 i, (y.2 i).1, (y.2 i).2.1, (y.2 i).2.2⟩
  invFun m := (fun i => (m i).c, fun i => ((m i).lambda, (m i).kl, (m i).xl))
  left_inv _ := rfl
  right_inv _ := rfl

theorem commit_zero {η : Fn} (hη : G = η • H) (a b c : Fn) (h : b = c - a * η) : a • G + b • H = c • H := by
  rw [hη, smul_smul, ← add_smul, h]
  congr 1
  ring

/-- Published presignatures are the made-up ones. -/
theorem presig_eq {t : Nat} {B : List NodeIndex} {keyShares : NodeIndex → Fn} {h : Held} {η x0 k0 : Fn} (hη : G = η • H) (l c u w z : Fn) :
    presigOf (secretsOf t B keyShares h x0 k0 ⟨l, u - l * η, w - k0 * l * η, z - x0 * l * η⟩) = presigFor t B h (k0 • G) ⟨c, u, w, z⟩ := by
  simp only [presigOf, secretsOf, presigFor, map_through, zipWith_through]
  rw [commit_zero hη l _ u rfl, commit_zero hη (k0 * l) _ w rfl, commit_zero hη (x0 * l) _ z rfl]

/-- The oracle's signatures, by the nonce's point. -/
theorem ecdsaSign_eq (x k e : Fn) : ecdsaSign x k e = if k = 0 then none else
    some (((Point.affineX (k • G)).val : Fn), (e + ((Point.affineX (k • G)).val : Fn) * x) / k) := by
  unfold ecdsaSign
  split
  · rename_i h
    rw [if_pos]
    by_contra hk
    exact (smul_ne_zero hk G_ne_zero) h
  · rename_i a b hab h
    rw [if_neg, h]
    · rfl
    · rintro rfl
      rw [show ((0 : Fn) • G : Pt) = 0 from zero_smul Fn G] at h
      cases h

section shares

variable {t : Nat} {B : List NodeIndex} (hB : B.Nodup) (hpos : ∀ j ∈ B, 0 ≤ j.toInt) (hlt : B.length + 1 = t)

include hB hpos hlt

theorem eval_comb (c e a b : Fn) (f g : NodeIndex → Fn) (x : Fn) :
    Poly.evaluateAt (through t B (c * a + e * b) fun j => c * f j + e * g j) x =
      c * (toPoly (through t B a f)).eval x + e * (toPoly (through t B b g)).eval x := by
  have h := eval_through hB hpos hlt (through t B a f) (through t B b g) (length_through _ _) (length_through _ _) c e x
  rw [(through_spec hB hpos hlt a f).1, (through_spec hB hpos hlt b g).1] at h
  rw [← h]
  congr 1
  refine List.map_congr_left fun k _ => ?_
  congr 2
  refine List.map_congr_left fun j hj => ?_
  simp only [(through_spec hB hpos hlt a f).2 j hj, (through_spec hB hpos hlt b g).2 j hj]

/-- The nodes' signature shares are the made-up ones, with the blinding `λ` multiplied by a number that the program's request
determines. -/
theorem shares_eq (P : Prim) (q : Request) (keyShares : NodeIndex → Fn) (h : Held) (η x0 k0 u w z : Fn) :
    ∃ c : Fn, c ≠ 0 ∧ ∀ (l : Fn) (j : NodeIndex),
      SigShare.new P q.path q.hashedMsg q.randomness (unmasked (through t B x0 keyShares)) (unmasked (through t B k0 h.kappa))
        (share (through t B l h.seen.lambda) (through t B (u - l * η) h.seen.lambdaMask) j)
        (share (through t B (k0 * l) h.seen.kl) (through t B (w - k0 * l * η) h.seen.klMask) j)
        (share (through t B (x0 * l) h.seen.xl) (through t B (z - x0 * l * η) h.seen.xlMask) j) =
      (do
        let d ← deriveRho P q.hashedMsg q.randomness q.path (plainCom (throughPts t B (x0 • G) fun j => keyShares j • G))
          (plainCom (throughPts t B (k0 • G) fun j => h.kappa j • G))
        let e ← convertHashToInteger q.hashedMsg
        .ok (sharesFor t B h.seen η (x0 • G) d e (ecdsaSign (x0 + d.keyTweak) (k0 + d.randomizer) e) ⟨c * l, u, w, z⟩ j)) := by
  rw [← map_through, ← map_through]
  change ∃ c : Fn, c ≠ 0 ∧ ∀ (l : Fn) (j : NodeIndex), _ = (do
    let d ← deriveRho P q.hashedMsg q.randomness q.path (unmasked (through t B x0 keyShares)) (unmasked (through t B k0 h.kappa))
    let e ← convertHashToInteger q.hashedMsg
    .ok (sharesFor t B h.seen η (x0 • G) d e (ecdsaSign (x0 + d.keyTweak) (k0 + d.randomizer) e) ⟨c * l, u, w, z⟩ j))
  cases hd : deriveRho P q.hashedMsg q.randomness q.path (unmasked (through t B x0 keyShares)) (unmasked (through t B k0 h.kappa)) with
  | err e => exact ⟨1, one_ne_zero, fun l j => by rw [SigShare.new, hd]; rfl⟩
  | panic e => exact ⟨1, one_ne_zero, fun l j => by rw [SigShare.new, hd]; rfl⟩
  | diverge => exact ⟨1, one_ne_zero, fun l j => by rw [SigShare.new, hd]; rfl⟩
  | ok d =>
  cases he : convertHashToInteger q.hashedMsg with
  | err e => exact ⟨1, one_ne_zero, fun l j => by rw [SigShare.new, hd, Res.ok_bind, he]; rfl⟩
  | panic e => exact ⟨1, one_ne_zero, fun l j => by rw [SigShare.new, hd, Res.ok_bind, he]; rfl⟩
  | diverge => exact ⟨1, one_ne_zero, fun l j => by rw [SigShare.new, hd, Res.ok_bind, he]; rfl⟩
  | ok e =>
  have htpos : 0 < t := by omega
  have hhead : (through t B k0 h.kappa).head? = some k0 :=
    head_of_eval (by rw [length_through]; exact htpos) (through_spec hB hpos hlt k0 _).1
  obtain ⟨pre, pk, ck, h1, -, -, -, h5, h6⟩ := deriveRho_ok hd
  rw [(constantTerm_unmasked hhead).2] at h1
  obtain rfl := Res.ok.inj h1
  rw [← add_smul] at h5
  rw [h5] at h6
  set θ : Fn := e + d.rho * d.keyTweak with hθ
  have hX : θ • G + d.rho • (x0 • G) = (θ + d.rho * x0) • G := by rw [smul_smul, ← add_smul]
  -- what the nodes compute
  have hnew : ∀ (l : Fn) (j : NodeIndex), SigShare.new P q.path q.hashedMsg q.randomness (unmasked (through t B x0 keyShares))
        (unmasked (through t B k0 h.kappa))
        (share (through t B l h.seen.lambda) (through t B (u - l * η) h.seen.lambdaMask) j)
        (share (through t B (k0 * l) h.seen.kl) (through t B (w - k0 * l * η) h.seen.klMask) j)
        (share (through t B (x0 * l) h.seen.xl) (through t B (z - x0 * l * η) h.seen.xlMask) j) = .ok
      ⟨some (.pedersen (Poly.evaluateAt (through t B ((θ + d.rho * x0) * l) fun i => θ * h.seen.lambda i + d.rho * h.seen.xl i) (place j))
          (Poly.evaluateAt (through t B (θ * u + d.rho * z - (θ + d.rho * x0) * l * η)
            fun i => θ * h.seen.lambdaMask i + d.rho * h.seen.xlMask i) (place j))),
        some (.pedersen (Poly.evaluateAt (through t B ((k0 + d.randomizer) * l) fun i => d.randomizer * h.seen.lambda i + h.seen.kl i) (place j))
          (Poly.evaluateAt (through t B (d.randomizer * u + w - (k0 + d.randomizer) * l * η)
            fun i => d.randomizer * h.seen.lambdaMask i + h.seen.klMask i) (place j)))⟩ := by
    intro l j
    have n1 := eval_comb hB hpos hlt θ d.rho l (x0 * l) h.seen.lambda h.seen.xl (place j)
    have n2 := eval_comb hB hpos hlt θ d.rho (u - l * η) (z - x0 * l * η) h.seen.lambdaMask h.seen.xlMask (place j)
    have n3 := eval_comb hB hpos hlt d.randomizer 1 l (k0 * l) h.seen.lambda h.seen.kl (place j)
    have n4 := eval_comb hB hpos hlt d.randomizer 1 (u - l * η) (w - k0 * l * η) h.seen.lambdaMask h.seen.klMask (place j)
    simp only [one_mul] at n3 n4
    rw [show θ * l + d.rho * (x0 * l) = (θ + d.rho * x0) * l by ring] at n1
    rw [show θ * (u - l * η) + d.rho * (z - x0 * l * η) = θ * u + d.rho * z - (θ + d.rho * x0) * l * η by ring] at n2
    rw [show d.randomizer * l + k0 * l = (k0 + d.randomizer) * l by ring] at n3
    rw [show d.randomizer * (u - l * η) + (w - k0 * l * η) = d.randomizer * u + w - (k0 + d.randomizer) * l * η by ring] at n4
    rw [n1, n2, n3, n4, SigShare.new, hd, Res.ok_bind, he, Res.ok_bind]
    rfl
  simp only [hnew, Res.ok_bind, ecdsaSign_eq, ← h6]
  by_cases hk : k0 + d.randomizer = 0
  · by_cases hb : θ + d.rho * x0 = 0
    · refine ⟨1, one_ne_zero, fun l j => ?_⟩
      simp only [sharesFor, ← hθ, hX, hb, hk, zero_smul Fn G, if_true, zero_mul]
    · refine ⟨θ + d.rho * x0, hb, fun l j => ?_⟩
      simp only [sharesFor, ← hθ, hX, hk, if_neg (smul_ne_zero hb G_ne_zero), if_true, zero_mul]
  · refine ⟨k0 + d.randomizer, hk, fun l j => ?_⟩
    simp only [sharesFor, if_neg hk, ← hθ]
    have hs : (e + d.rho * (x0 + d.keyTweak)) / (k0 + d.randomizer) * ((k0 + d.randomizer) * l) = (θ + d.rho * x0) * l := by
      rw [← mul_assoc, div_mul_cancel₀ _ hk, hθ]
      ring
    rw [hs]

end shares

end Verif.Sign

namespace Verif

open Dealings Mega Zk Complaints Sign Polynomial
open Point (H)

/-- The same for fixed commitments of the presignatures. -/
theorem Sign.card_attack (P : Prim) (t : Nat) (B : List NodeIndex) (hB : B.Nodup) (hpos : ∀ j ∈ B, 0 ≤ j.toInt) (hlt : B.length + 1 = t)
    (N : Nat) (α : Type) (keyShares : NodeIndex → Fn) (held : Fin N → Held) (η : Fn) (hη : G = η • H) (x0 : Fn) (k0 : Fin N → Fn)
    (A : List Pt → (Fin N → Presig) → Attack N α) (p : List (Fin N × Request) × α → Prop) (y : Fin N → Fn × Fn × Fn) :
    Nat.card {f : Fin N → Fn // p (attackNodes P t B keyShares held x0 k0 A (blindsEquiv η x0 k0 (f, y)))} =
      Nat.card {f : Fin N → Fn //
        p (attackOracle P t B keyShares held η (x0 • G) (fun i => k0 i • G) (ecdsaOracle x0 k0) A (madeEquiv (f, y)))} := by
  choose c hc hs using fun i q => shares_eq hB hpos hlt P q keyShares (held i) η x0 (k0 i) (y i).1 (y i).2.1 (y i).2.2
  have hview : ∀ f : Fin N → Fn, (fun i => presigOf (secretsOf t B keyShares (held i) x0 (k0 i) (blindsEquiv η x0 k0 (f, y) i))) =
      fun i => presigFor t B (held i) (k0 i • G) (madeEquiv (f, y) i) := fun f => funext fun i => presig_eq hη _ _ _ _ _
  have hview' : ∀ f : Fin N → Fn, (fun i => presigFor t B (held i) (k0 i • G) (madeEquiv (f, y) i)) =
      fun i => presigFor t B (held i) (k0 i • G) (madeEquiv (0, y) i) := fun f => rfl
  simp only [attackNodes, attackOracle, hview, hview', map_through]
  exact card_run
    (fun i q l j => SigShare.new P q.path q.hashedMsg q.randomness (unmasked (through t B x0 keyShares))
      (unmasked (through t B (k0 i) (held i).kappa))
      (share (through t B l (held i).seen.lambda) (through t B ((y i).1 - l * η) (held i).seen.lambdaMask) j)
      (share (through t B (k0 i * l) (held i).seen.kl) (through t B ((y i).2.1 - k0 i * l * η) (held i).seen.klMask) j)
      (share (through t B (x0 * l) (held i).seen.xl) (through t B ((y i).2.2 - x0 * l * η) (held i).seen.xlMask) j))
    (fun i q l j => do
      let d ← deriveRho P q.hashedMsg q.randomness q.path (plainCom (throughPts t B (x0 • G) fun j => keyShares j • G))
        (plainCom (throughPts t B (k0 i • G) fun j => (held i).kappa j • G))
      let e ← convertHashToInteger q.hashedMsg
      .ok (sharesFor t B (held i).seen η (x0 • G) d e (ecdsaSign (x0 + d.keyTweak) (k0 i + d.randomizer) e)
        ⟨l, (y i).1, (y i).2.1, (y i).2.2⟩ j))
    (fun i q => Equiv.mulLeft₀ (c i q) (hc i q)) (fun i q l => funext fun j => hs i q l j) p _ []

/-- C186: whatever a program does that knows what a group one short of the threshold knows, and has signatures made with up to `N`
presignatures: it does the same, on exactly the same share of random choices, when it is run with made-up presignatures and shares that are
computed from the public key, the public points of the nonces, and one ordinary ECDSA signature for each request.  This holds for every key
and all nonces. -/
theorem C186_same (P : Prim) (t : Nat) (B : List NodeIndex) (hB : B.Nodup) (hpos : ∀ j ∈ B, 0 ≤ j.toInt) (hlt : B.length + 1 = t)
    (N : Nat) (α : Type) (keyShares : NodeIndex → Fn) (held : Fin N → Held) (η : Fn) (hη : G = η • H) (x0 : Fn) (k0 : Fin N → Fn)
    (A : List Pt → (Fin N → Presig) → Attack N α) (p : List (Fin N × Request) × α → Prop) :
    Oracle.share (fun b : Fin N → Blinds => p (attackNodes P t B keyShares held x0 k0 A b)) =
      Oracle.share (fun m : Fin N → Made => p (attackOracle P t B keyShares held η (x0 • G) (fun i => k0 i • G) (ecdsaOracle x0 k0) A m)) :=
  card_pairs (blindsEquiv η x0 k0) madeEquiv _ _ fun y => card_attack P t B hB hpos hlt N α keyShares held η hη x0 k0 A p y

/-- C186, forging: a program that has nodes sign ends with a signature on something it did not have signed exactly as often as it
forges an ordinary ECDSA signature under the derived key when run with the oracle. -/
theorem C186_forgery (P : Prim) (t : Nat) (B : List NodeIndex) (hB : B.Nodup) (hpos : ∀ j ∈ B, 0 ≤ j.toInt) (hlt : B.length + 1 = t)
    (N : Nat) (keyShares : NodeIndex → Fn) (held : Fin N → Held) (η : Fn) (hη : G = η • H) (x0 : Fn) (k0 : Fin N → Fn)
    (A : List Pt → (Fin N → Presig) → Attack N Forgery) :
    Oracle.share (fun b : Fin N → Blinds => Forged P (x0 • G) (attackNodes P t B keyShares held x0 k0 A b)) =
      Oracle.share (fun m : Fin N → Made =>
        Forged P (x0 • G) (attackOracle P t B keyShares held η (x0 • G) (fun i => k0 i • G) (ecdsaOracle x0 k0) A m)) :=
  C186_same P t B hB hpos hlt N Forgery keyShares held η hη x0 k0 A (Forged P (x0 • G))

/-- C186, the number of signatures: every nonce is used once, so that no more than `N` signatures are made. -/
theorem C186_once {N : Nat} {α : Type} (answer : Fin N → Request → NodeIndex → Res SigShare) (A : Attack N α) :
    ((A.run answer []).1.map Prod.fst).Nodup ∧ (A.run answer []).1.length ≤ N := by
  have h : ∀ (A : Attack N α) (asked : List (Fin N × Request)), (asked.map Prod.fst).Nodup → ((A.run answer asked).1.map Prod.fst).Nodup := by
    intro A
    induction A with
    | stop a => exact fun _ h => h
    | sign i q next ih =>
      intro asked h
      simp only [Attack.run]
      split_ifs with hi
      · exact ih _ _ h
      · exact ih _ _ (by rw [List.map_cons]; exact List.nodup_cons.2 ⟨hi, h⟩)
  have h0 := h A [] List.nodup_nil
  refine ⟨h0, ?_⟩
  have := h0.length_le_card
  rwa [List.length_map, Fintype.card_fin] at this

/-- C186, the oracle: it gives ECDSA signatures, unless one of the numbers is zero. -/
theorem C186_oracle (x k e r s : Fn) (h : ecdsaSign x k e = some (r, s)) (hr : r ≠ 0) (hs : s ≠ 0) : EcdsaValid (x • G) e r s := by
  rw [ecdsaSign] at h
  split at h
  · cases h
  · rename_i a b hab hk
    obtain ⟨rfl, rfl⟩ := Prod.mk.inj (Option.some.inj h)
    refine ⟨hr, hs, a, b, (nonsingular_iff a b).1 hab, ?_, rfl⟩
    change _ = WeierstrassCurve.Affine.Point.some a b hab
    rw [← hk, smul_smul, ← add_smul]
    congr 1
    have hn : e + (a.val : Fn) * x ≠ 0 := fun h0 => hs (by rw [h0, zero_div])
    have hk0 : k ≠ 0 := fun h0 => hs (by rw [h0, div_zero])
    field_simp

/-- C186, what is drawn: the choices of the four scalars are, one to one, the secrets that are possible for what the group holds, the key and
the nonce. -/
theorem C186_secrets (t : Nat) (B : List NodeIndex) (hB : B.Nodup) (hpos : ∀ j ∈ B, 0 ≤ j.toInt) (hlt : B.length + 1 = t)
    (keyShares : NodeIndex → Fn) (h : Held) (x0 k0 : Fn) :
    Set.BijOn (secretsOf t B keyShares h x0 k0) Set.univ (Possible (through t B x0 keyShares) (through t B k0 h.kappa) x0 k0 t B h.seen) := by
  have hspec := fun (a : Fn) (f : NodeIndex → Fn) => through_spec (t := t) (B := B) hB hpos hlt a f
  have htpos : 0 < t := by omega
  have hhead : ∀ (a : Fn) (f : NodeIndex → Fn), (through t B a f).head? = some a := fun a f =>
    head_of_eval (by rw [length_through]; exact htpos) (hspec a f).1
  refine ⟨fun b _ => ⟨rfl, rfl, ⟨b.lambda, hhead _ _, hhead _ _, hhead _ _, hhead _ _, hhead _ _, ?_, ?_, ?_⟩, ?_, ?_⟩, ?_, ?_⟩
  · exact (length_through _ _).le
  · exact (length_through _ _).le
  · exact (length_through _ _).le
  · exact ⟨length_through _ _, length_through _ _, length_through _ _, length_through _ _, length_through _ _, length_through _ _⟩
  · exact fun j hj => ⟨(hspec _ _).2 j hj, (hspec _ _).2 j hj, (hspec _ _).2 j hj, (hspec _ _).2 j hj, (hspec _ _).2 j hj,
      (hspec _ _).2 j hj⟩
  · intro b _ b' _ e
    have inj : ∀ {a a' : Fn} {f : NodeIndex → Fn}, through t B a f = through t B a' f → a = a' := fun {a a' f} e => by
      rw [← (hspec a f).1, e, (hspec a' f).1]
    have e1 := inj (congrArg Secrets.lambda e)
    have e2 := inj (congrArg Secrets.lambdaMask e)
    have e3 := inj (congrArg Secrets.klMask e)
    have e4 := inj (congrArg Secrets.xlMask e)
    cases b; cases b'
    simp only at e1 e2 e3 e4
    rw [e1, e2, e3, e4]
  · rintro S ⟨h1, h2, ⟨l0, hc⟩, ⟨l1, l2, l3, l4, l5, l6⟩, ho⟩
    refine ⟨⟨l0, (toPoly S.lambdaMask).eval 0, (toPoly S.klMask).eval 0, (toPoly S.xlMask).eval 0⟩, trivial, ?_⟩
    refine Secrets.ext' h1.symm h2.symm (Eq.symm ?_) (Eq.symm ?_) (Eq.symm ?_) (Eq.symm ?_) (Eq.symm ?_) (Eq.symm ?_)
    · exact eq_through hB hpos hlt l1 (eval_zero_toPoly hc.hl) fun j hj => (ho j hj).1
    · exact eq_through hB hpos hlt l3 (eval_zero_toPoly hc.hkl) fun j hj => (ho j hj).2.2.1
    · exact eq_through hB hpos hlt l5 (eval_zero_toPoly hc.hxl) fun j hj => (ho j hj).2.2.2.2.1
    · exact eq_through hB hpos hlt l2 rfl fun j hj => (ho j hj).2.1
    · exact eq_through hB hpos hlt l4 rfl fun j hj => (ho j hj).2.2.2.1
    · exact eq_through hB hpos hlt l6 rfl fun j hj => (ho j hj).2.2.2.2.2

/-- The hypotheses can be met: with threshold 2, a program knowing what node 3 knows has the nodes sign twice with one presignature.  Only the
first request is answered, and it sees the share of node 0. -/
example : ∃ η : Fn, G = η • H ∧
    ∀ A : List Pt → (Fin 1 → Presig) → Attack 1 (Option Fn), A = (fun _ _ => .sign 0 ⟨[], [5], []⟩ fun a => .sign 0 ⟨[], [6], []⟩ fun _ =>
      .stop (a.bind fun f => match f 0 with | .ok ⟨some (.pedersen v _), _⟩ => some v | _ => none)) →
    (∀ b, (attackNodes zeroPrim 2 [3] (fun _ => 0) (fun _ => ⟨fun _ => 0, ⟨fun _ => 0, fun _ => 0, fun _ => 0, fun _ => 0, fun _ => 0, fun _ => 0⟩⟩)
      6 (fun _ => 1) A b).1 = [(0, ⟨[], [5], []⟩)]) ∧
    ∀ v, Oracle.share (fun b => (attackNodes zeroPrim 2 [3] (fun _ => 0)
        (fun _ => ⟨fun _ => 0, ⟨fun _ => 0, fun _ => 0, fun _ => 0, fun _ => 0, fun _ => 0, fun _ => 0⟩⟩) 6 (fun _ => 1) A b).2 = v) =
      Oracle.share (fun m => (attackOracle zeroPrim 2 [3] (fun _ => 0)
        (fun _ => ⟨fun _ => 0, ⟨fun _ => 0, fun _ => 0, fun _ => 0, fun _ => 0, fun _ => 0, fun _ => 0⟩⟩) η ((6 : Fn) • G) (fun _ => (1 : Fn) • G)
        (ecdsaOracle 6 fun _ => 1) A m).2 = v) := by
  obtain ⟨η, hη⟩ := exists_smul_eq H_ne_zero G
  refine ⟨η, hη, ?_⟩
  rintro A rfl
  refine ⟨fun b => ?_, fun v => ?_⟩
  · simp [attackNodes, Attack.run]
  · exact C186_same zeroPrim 2 [3] (by simp) (by simp) rfl 1 _ _ _ η hη 6 _ _ fun r => r.2 = v

end Verif
