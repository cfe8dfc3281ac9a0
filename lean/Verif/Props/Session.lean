import Verif.Props.Presig
import Verif.Spec.Session

/-!
Property C193: presignatures may be made while signatures are made.
-/

set_option autoImplicit false
set_option linter.unusedSectionVars false
set_option linter.constructorNameAsVariable false

namespace Verif.KeyGen

open Dealings Sign Polynomial
open Point (H)

/-- The mean of a function on a finite type. -/
noncomputable def mean {X : Type} (g : X → ℚ) : ℚ := (∑ᶠ x, g x) / Nat.card X

theorem mean_const {X : Type} [Finite X] [Nonempty X] (q : ℚ) : mean (fun _ : X => q) = q := by
  have := Fintype.ofFinite X
  have h : (Nat.card X : ℚ) ≠ 0 := by exact_mod_cast Nat.card_pos.ne'
  rw [mean, finsum_eq_sum_of_fintype, Finset.sum_const, Finset.card_univ, ← Nat.card_eq_fintype_card, nsmul_eq_mul]
  field_simp

theorem mean_prod {X Y : Type} [Finite X] [Finite Y] (g : X → Y → ℚ) : mean (fun u : X × Y => g u.1 u.2) = mean fun x => mean (g x) := by
  have := Fintype.ofFinite X
  have := Fintype.ofFinite Y
  simp only [mean, finsum_eq_sum_of_fintype]
  rw [← Finset.sum_div, Fintype.sum_prod_type, Nat.card_prod, Nat.cast_mul, div_div, mul_comm]

theorem mean_equiv {X Y : Type} (e : X ≃ Y) (g : Y → ℚ) : mean (fun x => g (e x)) = mean g := by
  rw [mean, mean, Nat.card_congr e, finsum_comp_equiv]

theorem mean_comm {X Y : Type} [Finite X] [Finite Y] (g : X → Y → ℚ) : (mean fun x => mean (g x)) = mean fun y => mean fun x => g x y := by
  rw [← mean_prod, ← mean_prod, ← mean_equiv (Equiv.prodComm Y X)]
  rfl

theorem share_eq_mean {X : Type} [Finite X] (p : X → Prop) : Oracle.share p = mean fun x => (open Classical in if p x then 1 else 0) := by
  classical
  have := Fintype.ofFinite X
  rw [Oracle.share, mean, finsum_eq_sum_of_fintype, Finset.sum_boole, Nat.card_eq_fintype_card, Fintype.card_subtype]

section abstract

variable {W V A D α F C E : Type} {T : Type} [Finite D] [Finite F] [Finite C] [Finite E] [Nonempty E] [Nonempty F]

/-- How often the result has a property. -/
noncomputable def chance (m : Machine W V T A D) (p : List (Nat × T) × α → Prop) (s : Session W V T A α) (n : Nat)
    (made : List (Option (W × D))) (asked : List (Nat × T)) : ℚ :=
  Oracle.share fun tape : Fin n → D => p (s.run m (List.ofFn tape) made asked)

variable (m : Machine W V T A D) (p : List (Nat × T) × α → Prop)

theorem chance_make_zero (w : W) (next : Option V → Session W V T A α) (made : List (Option (W × D))) (asked : List (Nat × T)) :
    chance m p (.make w next) 0 made asked = chance m p (next none) 0 made asked := by
  simp only [chance, List.ofFn_zero, Session.run]

theorem chance_make_succ (w : W) (next : Option V → Session W V T A α) (n : Nat) (made : List (Option (W × D))) (asked : List (Nat × T)) :
    chance m p (.make w next) (n + 1) made asked = mean fun d => chance m p (next (some (m.view w d))) n (made ++ [some (w, d)]) asked := by
  simp only [chance, share_eq_mean]
  rw [← mean_prod, ← mean_equiv (Fin.consEquiv fun _ : Fin (n + 1) => D)]
  congr 1
  funext u
  have h : List.ofFn ((Fin.consEquiv fun _ : Fin (n + 1) => D) u) = u.1 :: List.ofFn u.2 := List.ofFn_cons u.1 u.2
  rw [h]
  rfl

theorem chance_ask (i : Nat) (q : T) (next : Option A → Session W V T A α) (n : Nat) (made : List (Option (W × D))) (asked : List (Nat × T)) :
    chance m p (.ask i q next) n made asked = match made[i]? with
      | some (some (w, d)) => chance m p (next (some (m.answer w d q))) n (made.set i none) ((i, q) :: asked)
      | _ => chance m p (next none) n made asked := by
  simp only [chance, Session.run]
  rcases h : made[i]? with _ | _ | ⟨w, d⟩ <;> rfl

/-- The mean over what is not known of the presignatures that were made: `embed` says what was drawn for each. -/
noncomputable def meanOver (embed : W → F → C → E → D) : List (Option (W × C × E)) → (List (Option (W × D)) → ℚ) → ℚ
  | [], g => g []
  | none :: l, g => meanOver embed l fun s => g (none :: s)
  | some (w, c, e) :: l, g => mean fun f => meanOver embed l fun s => g (some (w, embed w f c e) :: s)

variable (embed : W → F → C → E → D)

theorem meanOver_const (q : ℚ) : ∀ l : List (Option (W × C × E)), meanOver embed l (fun _ => q) = q
  | [] => rfl
  | none :: l => meanOver_const q l
  | some (w, c, e) :: l => by rw [meanOver, meanOver_const q l, mean_const]

theorem meanOver_mean {X : Type} [Finite X] : ∀ (l : List (Option (W × C × E))) (g : X → List (Option (W × D)) → ℚ),
    (meanOver embed l fun s => mean fun x => g x s) = mean fun x => meanOver embed l (g x)
  | [], _ => rfl
  | none :: l, g => meanOver_mean l fun x s => g x (none :: s)
  | some (w, c, e) :: l, g => by
    simp only [meanOver]
    rw [mean_comm]
    congr 1
    funext f
    exact meanOver_mean l fun x s => g x (some (w, embed w f c e) :: s)

theorem meanOver_append (w : W) (c : C) (e : E) : ∀ (l : List (Option (W × C × E))) (g : List (Option (W × D)) → ℚ),
    meanOver embed (l ++ [some (w, c, e)]) g = mean fun f => meanOver embed l fun s => g (s ++ [some (w, embed w f c e)])
  | [], _ => rfl
  | none :: l, g => meanOver_append w c e l fun s => g (none :: s)
  | some (w', c', e') :: l, g => by
    rw [List.cons_append]
    simp only [meanOver]
    rw [mean_comm]
    congr 1
    funext f
    exact meanOver_append w c e l fun s => g (some (w', embed w' f c' e') :: s)

theorem meanOver_ask (g : W → D → List (Option (W × D)) → ℚ) (g0 : List (Option (W × D)) → ℚ) : ∀ (l : List (Option (W × C × E))) (i : Nat),
    (meanOver embed l fun s => match s[i]? with
      | some (some (w, d)) => g w d (s.set i none)
      | _ => g0 s) = match l[i]? with
      | some (some (w, c, e)) => mean fun f => meanOver embed (l.set i none) (g w (embed w f c e))
      | _ => meanOver embed l g0 := by
  intro l
  induction l generalizing g g0 with
  | nil => intro i; rfl
  | cons x l ih =>
    intro i
    cases i with
    | zero =>
      rcases x with _ | ⟨w, c, e⟩ <;> rfl
    | succ i =>
      rcases x with _ | ⟨w, c, e⟩
      · refine (ih (fun w d s => g w d (none :: s)) (fun s => g0 (none :: s)) i).trans ?_
        simp only [List.getElem?_cons_succ]
        rcases l[i]? with _ | _ | ⟨w, c, e⟩ <;> rfl
      · have h := fun f => ih (fun w' d s => g w' d (some (w, embed w f c e) :: s)) (fun s => g0 (some (w, embed w f c e) :: s)) i
        refine (congrArg mean (funext h)).trans ?_
        simp only [List.getElem?_cons_succ]
        rcases l[i]? with _ | _ | ⟨w, c, e⟩
        · rfl
        · rfl
        · rw [mean_comm]; rfl

/-- Two machines between which a program cannot tell: what is drawn for the first one is split into what the other one draws and something that
does not matter; the views agree and do not depend on `f`, and the answers agree up to a permutation of `f`. -/
theorem session_same [Nonempty D] [Nonempty C] (m : Machine W V T A D) (m' : Machine W V T A (F × C)) (embed : W → F → C → E → D) (view : W → C → V)
    (σ : W → C → T → F ≃ F)
    (hsplit : ∀ w (g : D → ℚ), mean g = mean fun c => mean fun e => mean fun f => g (embed w f c e))
    (hview : ∀ w f c e, m.view w (embed w f c e) = view w c) (hview' : ∀ w f c, m'.view w (f, c) = view w c)
    (hans : ∀ w f c e q, m.answer w (embed w f c e) q = m'.answer w (σ w c q f, c) q) (p : List (Nat × T) × α → Prop)
    (s : Session W V T A α) : ∀ (n : Nat) (l : List (Option (W × C × E))) (asked : List (Nat × T)),
    (meanOver embed l fun made => chance m p s n made asked) =
      meanOver (fun _ f c (_ : E) => (f, c)) l fun made => chance m' p s n made asked := by
  induction s with
  | stop a =>
    intro n l asked
    simp only [chance, Session.run, share_eq_mean]
    rw [mean_const, mean_const, meanOver_const, meanOver_const]
  | make w next ih =>
    intro n l asked
    cases n with
    | zero => simp only [chance_make_zero]; exact ih none 0 l asked
    | succ n =>
      simp only [chance_make_succ]
      rw [meanOver_mean, meanOver_mean, hsplit w]
      have h2 : ∀ g : F × C → ℚ, mean g = mean fun c => mean fun _ : E => mean fun f => g (f, c) := fun g => by
        simp only [mean_const]
        rw [← mean_equiv (Equiv.prodComm C F), ← mean_prod]
        rfl
      rw [h2]
      congr 1; funext c
      congr 1; funext e
      have h3 := ih (some (view w c)) n (l ++ [some (w, c, e)]) asked
      rw [meanOver_append, meanOver_append] at h3
      simp only [hview, hview']
      exact h3
  | ask i q next ih =>
    intro n l asked
    simp only [chance_ask]
    rw [meanOver_ask embed (fun w d made => chance m p (next (some (m.answer w d q))) n made ((i, q) :: asked))
        (fun made => chance m p (next none) n made asked),
      meanOver_ask (fun _ f c (_ : E) => (f, c)) (fun w d made => chance m' p (next (some (m'.answer w d q))) n made ((i, q) :: asked))
        (fun made => chance m' p (next none) n made asked)]
    rcases l[i]? with _ | _ | ⟨w, c, e⟩
    · exact ih none n l asked
    · exact ih none n l asked
    · simp only [hans]
      rw [← mean_equiv (σ w c q) fun f => meanOver (fun _ f c (_ : E) => (f, c)) (l.set i none)
        fun made => chance m' p (next (some (m'.answer w (f, c) q))) n made ((i, q) :: asked)]
      congr 1
      funext f
      exact ih _ n _ _

end abstract

section live

variable {k M R Q : Nat} {B : List NodeIndex} (hB : B.Nodup) (hpos : ∀ j ∈ B, 0 ≤ j.toInt) (hl : B.length = k) {η : Fn} (hη : G = η • H)
  (keyNodes : Fin R → NodeIndex) (nodes : Fin (Q + 1) → NodeIndex) (P : Prim)

instance : Nonempty (Coins k M R) := ⟨⟨fun _ => 0, fun _ _ => 0, fun _ _ => 0, fun _ _ => 0⟩⟩
instance : Nonempty (PresigCoins k M Q) := ⟨⟨Classical.arbitrary _, Classical.arbitrary _, Classical.arbitrary _⟩⟩
instance : Nonempty (Drawn k M R) := ⟨⟨fun _ _ => 0, fun _ _ => 0, fun _ _ => 0⟩⟩
instance : Nonempty (ProductDrawn k Q) := ⟨⟨fun _ _ => 0, fun _ _ => 0⟩⟩

/-- What is drawn for a presignature, in another order. -/
def sessionOrder (k M R Q : Nat) : ((Fin M → Fn) × (Fn × Coins k M R)) × (((Fin 1 → Fn) × (Fin 1 → PresigCoins k M Q)) × (Fin 1 → Fin M → Fn)) ≃
    ((Fn × Coins k M R) × (Fin 1 → PresigCoins k M Q)) × (((Fin M → Fn) × (Fin 1 → Fin M → Fn)) × Fn) where
  toFun u := ((u.1.2, u.2.1.2), ((u.1.1, u.2.2), u.2.1.1 0))
  invFun u := ((u.2.1.1, u.1.1), ((fun _ => u.2.2, u.1.2), u.2.1.2))
  left_inv u := by
    obtain ⟨⟨a, b⟩, ⟨⟨c, d⟩, e⟩⟩ := u
    have : (fun _ => c 0) = c := funext fun i => by rw [Subsingleton.elim i 0]
    simp only [this]
  right_inv _ := rfl

/-- The generations, once the nonce's is made up. -/
noncomputable def withNonce (B : List NodeIndex) (o : Outcome M R) (W : Meddling k M R Q 1) (y : Fn × Coins k M R) (v : Fin 1 → First M) :
    List (Outcome M R) := makeUpFrom B keyNodes (W.keys v) [y.2.first B] [o] [y]

/-- What honest nodes draw, from what the other program draws and from the rest. -/
noncomputable def presigEmbed (o : Outcome M R) (W : Proper k M R Q B nodes) (f : Fn)
    (c : (Fn × Coins k M R) × (Fin 1 → PresigCoins k M Q)) (e : (Fin M → Fn) × (Fin 1 → Fin M → Fn)) : PresigDrawn k M R Q :=
  (toDrawn keyNodes (fun v => (W.1.keys fun i => (c.2 i).lambda.first B).adds [v] [o.view]) B η (e.1, c.1),
    drawEquiv hB hpos hl hη nodes W.1 (withNonce keyNodes B o W.1 c.1) ((fun _ => f, c.2), e.2))

include hB hpos hl hη

theorem lambdaViews_draw (W : Meddling k M R Q 1) (L : (Fin 1 → First M) → List (Outcome M R))
    (u : ((Fin 1 → Fn) × (Fin 1 → PresigCoins k M Q)) × (Fin 1 → Fin M → Fn)) :
    lambdaViews B (drawEquiv hB hpos hl hη nodes W L u).1 = fun i => (u.1.2 i).lambda.first B := by
  rw [drawEquiv_apply]
  dsimp only
  rw [views_toLambdas hB hpos hl hη]
  rfl

theorem presig_split (o : Outcome M R) (W : Proper k M R Q B nodes) (g : PresigDrawn k M R Q → ℚ) :
    mean g = mean fun c => mean fun e => mean fun f => g (presigEmbed hB hpos hl hη keyNodes nodes o W f c e) := by
  have h1 : mean g = mean fun d2 => mean fun d1 => g (d1, d2) := (mean_prod fun d1 d2 => g (d1, d2)).trans (mean_comm _)
  have h2 : ∀ d2 : (Fin 1 → Drawn k M 0) × (Fin 1 → ProductDrawn k Q × ProductDrawn k Q), (mean fun d1 => g (d1, d2)) =
      mean fun y => g (toDrawn keyNodes (fun v => (W.1.keys (lambdaViews B d2.1)).adds [v] [o.view]) B η y, d2) := fun d2 =>
    (mean_equiv (drawnEquiv keyNodes (fun v => (W.1.keys (lambdaViews B d2.1)).adds [v] [o.view]) hB hpos hl hη) fun d1 => g (d1, d2)).symm
  rw [h1, funext h2, mean_comm]
  have h3 : ∀ y : (Fin M → Fn) × (Fn × Coins k M R),
      (mean fun d2 => g (toDrawn keyNodes (fun v => (W.1.keys (lambdaViews B d2.1)).adds [v] [o.view]) B η y, d2)) =
      mean fun u => g (toDrawn keyNodes (fun v => (W.1.keys fun i => (u.1.2 i).lambda.first B).adds [v] [o.view]) B η y,
        drawEquiv hB hpos hl hη nodes W.1 (withNonce keyNodes B o W.1 y.2) u) := fun y => by
    rw [← mean_equiv (drawEquiv hB hpos hl hη nodes W.1 (withNonce keyNodes B o W.1 y.2))]
    congr 1
    funext u
    rw [lambdaViews_draw hB hpos hl hη]
  rw [funext h3]
  have h4 := (mean_prod fun (y : (Fin M → Fn) × (Fn × Coins k M R)) (u : ((Fin 1 → Fn) × (Fin 1 → PresigCoins k M Q)) × (Fin 1 → Fin M → Fn)) =>
    g (toDrawn keyNodes (fun v => (W.1.keys fun i => (u.1.2 i).lambda.first B).adds [v] [o.view]) B η y,
        drawEquiv hB hpos hl hη nodes W.1 (withNonce keyNodes B o W.1 y.2) u)).symm
  rw [h4, ← mean_equiv (sessionOrder k M R Q).symm]
  have h5 := fun c => mean_prod fun (e : (Fin M → Fn) × (Fin 1 → Fin M → Fn)) (f : Fn) =>
    g (presigEmbed hB hpos hl hη keyNodes nodes o W f c e)
  rw [← funext h5]
  exact mean_prod fun c (u : ((Fin M → Fn) × (Fin 1 → Fin M → Fn)) × Fn) => g (presigEmbed hB hpos hl hη keyNodes nodes o W u.2 c u.1)

/-- The generation of the nonce. -/
theorem generations_eq (o : Outcome M R) (W : Proper k M R Q B nodes) (f : Fn)
    (c : (Fn × Coins k M R) × (Fin 1 → PresigCoins k M Q)) (e : (Fin M → Fn) × (Fin 1 → Fin M → Fn))
    (d : PresigDrawn k M R Q) (hd : d = presigEmbed hB hpos hl hη keyNodes nodes o W f c e) :
    generateFrom B keyNodes (W.1.keys (lambdaViews B d.2.1)) [d.1.first B] [o] [d.1] =
      withNonce keyNodes B o W.1 c.1 fun i => (c.2 i).lambda.first B := by
  obtain ⟨d1, d2⟩ := d
  obtain ⟨hd1, hd2⟩ := Prod.mk.inj hd
  dsimp only
  have hv : lambdaViews B d2.1 = fun i => (c.2 i).lambda.first B := by rw [hd2]; exact lambdaViews_draw hB hpos hl hη nodes _ _ _
  have hf : d1.first B = c.1.2.first B := by rw [hd1]; exact first_toDrawn keyNodes _ hB hpos hl hη _
  have hs := shown_toDrawn keyNodes (fun v => (W.1.keys fun i => (c.2 i).lambda.first B).adds [v] [o.view]) hB hpos hl hη (e.1, c.1)
  rw [← hd1] at hs
  have hk := key_toDrawn keyNodes (fun v => (W.1.keys fun i => (c.2 i).lambda.first B).adds [v] [o.view]) hB hpos hl hη (e.1, c.1)
  rw [← hd1] at hk
  have hs' : d1.shown B keyNodes (fun _ => (W.1.keys fun i => (c.2 i).lambda.first B).adds [c.1.2.first B] [o.view]) =
      c.1.2.made B keyNodes (fun _ => (W.1.keys fun i => (c.2 i).lambda.first B).adds [c.1.2.first B] [o.view]) (c.1.1 • G) := by
    refine Eq.trans ?_ (hs.trans rfl)
    rw [← hf]
    rfl
  have hk' : d1.key B (fun _ => (W.1.keys fun i => (c.2 i).lambda.first B).adds [c.1.2.first B] [o.view]) = c.1.1 := by
    refine Eq.trans ?_ hk
    rw [← hf]
    rfl
  rw [hv, hf]
  simp only [generateFrom, withNonce, makeUpFrom, Drawn.outcome, Coins.outcome, List.map_cons, List.map_nil, hs', hk']

/-- All polynomials of a presignature are those of the game of C186. -/
theorem secrets_eq (o : Outcome M R) (W : Proper k M R Q B nodes) (f : Fn)
    (c : (Fn × Coins k M R) × (Fin 1 → PresigCoins k M Q)) (e : (Fin M → Fn) × (Fin 1 → Fin M → Fn))
    (d : PresigDrawn k M R Q) (hd : d = presigEmbed hB hpos hl hη keyNodes nodes o W f c e)
    (l : List (Outcome M R)) (hl' : l = withNonce keyNodes B o W.1 c.1 fun i => (c.2 i).lambda.first B)
    (m : Made) (hm : m = madeFrom B nodes W.1 l η c.2 (fun _ => f) 0) :
    presigViews B nodes W.1 l d.2.1 d.2.2 = (fun i => (c.2 i).shown B) ∧
    presigSecrets B nodes W.1 l d.2.1 d.2.2 0 =
      secretsOf (k + 1) B (nth l 0).shares (heldFrom nodes W.1 l (fun i => (c.2 i).shown B) 0) (nth l 0).secret (nth l 1).secret
        ⟨f, m.lambda - f * η, m.kl - (nth l 1).secret * f * η, m.xl - (nth l 0).secret * f * η⟩ := by
  obtain ⟨y, hy⟩ : ∃ y : Fin 1 → (Fin M → Fn) × (Fn × Coins k M 0), y = fun i => (e.2 i, f, (c.2 i).lambda) := ⟨_, rfl⟩
  obtain ⟨pr, hpr⟩ : ∃ pr : Fin 1 → Coins k Q 0 × Coins k Q 0, pr = fun i => ((c.2 i).kl, (c.2 i).xl) := ⟨_, rfl⟩
  have hu : orderEquiv k M Q 1 ((fun _ => f, c.2), e.2) = (y, pr) := by rw [hy, hpr]; rfl
  have hc : coinsOf y pr = c.2 := by rw [hy, hpr]; rfl
  have hf : (fun i => (y i).2.1) = fun _ => f := by rw [hy]
  have hfi : ∀ i, (y i).2.2.first B = (c.2 i).lambda.first B := fun i => by rw [hy]
  have hd2 : d.2 = drawEquiv hB hpos hl hη nodes W.1 (withNonce keyNodes B o W.1 c.1) ((fun _ => f, c.2), e.2) := by rw [hd, presigEmbed]
  rw [drawEquiv_apply, hu] at hd2
  dsimp only at hd2
  have hlam : toLambdas B η (fun v => W.1.adds v ((withNonce keyNodes B o W.1 c.1 v).map Outcome.view)) y =
      toLambdas B η (fun v => W.1.adds v (l.map Outcome.view)) y := by
    funext i
    simp only [toLambdas, hfi, hl']
  rw [hlam] at hd2
  simp only [hfi] at hd2
  rw [← hl'] at hd2
  have h1 := presigViews_eq hB hpos hl hη nodes W.1 l y pr
  have h2 := presigSecrets_eq hB hpos hl hη nodes W.1 l W.2 y pr 0
  dsimp only at h1 h2
  rw [hc] at h1 h2
  rw [hf] at h2
  rw [hd2, hm]
  refine ⟨h1, h2.trans ?_⟩
  rw [blindsEquiv, Equiv.coe_fn_mk]
  rfl

theorem session_machines (o : Outcome M R) {α : Type} (p : List (Nat × Request) × α → Prop)
    (s : Session (Proper k M R Q B nodes) (PresigView M R Q) Request (NodeIndex → Res SigShare) α) (n : Nat) :
    chance (realMachine B keyNodes nodes P o) p s n [] [] =
      chance (oracleMachine B keyNodes nodes P η (o.secret • G) (fun tweak nonce δ e => ecdsaSign (o.secret + tweak) (nonce + δ) e) o) p s n [] [] := by
  have hshare := fun (W : Proper k M R Q B nodes) (c : (Fn × Coins k M R) × (Fin 1 → PresigCoins k M Q)) (q : Request) =>
    let l := withNonce keyNodes B o W.1 c.1 fun i => (c.2 i).lambda.first B
    let m := madeFrom B nodes W.1 l η c.2 (fun _ => 0) 0
    shares_eq (t := k + 1) hB hpos (by omega) P q o.shares (heldFrom nodes W.1 l (fun i => (c.2 i).shown B) 0) η o.secret c.1.1
      m.lambda m.kl m.xl
  choose b hb hshare using hshare
  refine session_same (E := (Fin M → Fn) × (Fin 1 → Fin M → Fn)) _ _ (presigEmbed hB hpos hl hη keyNodes nodes o)
    (fun W c => (oracleMachine B keyNodes nodes P η (o.secret • G)
      (fun tweak nonce δ e => ecdsaSign (o.secret + tweak) (nonce + δ) e) o).view W (0, c))
    (fun W c q => Equiv.mulLeft₀ (b W c q) (hb W c q)) (presig_split hB hpos hl hη keyNodes nodes o) ?_ ?_ ?_ p s n [] []
  · intro W f c e
    obtain ⟨h1, h2⟩ := secrets_eq hB hpos hl hη keyNodes nodes o W f c e _ rfl _ rfl _ rfl
    simp only [realMachine]
    rw [generations_eq hB hpos hl hη keyNodes nodes o W f c e _ rfl, h1, h2, presig_eq hη f 0]
    rfl
  · intro W f c
    rfl
  · intro W f c e q
    funext j
    obtain ⟨h1, h2⟩ := secrets_eq hB hpos hl hη keyNodes nodes o W f c e _ rfl _ rfl _ rfl
    simp only [realMachine]
    rw [generations_eq hB hpos hl hη keyNodes nodes o W f c e _ rfl, h2]
    exact hshare W c q f j

variable (E : Reaction k M R) {α : Type} (A : KeyAttacker k M R Q B nodes α)

omit hη in
/-- The generation of the key (C190 for a single generation). -/
theorem share_key (p : Outcome M R → Prop) :
    Oracle.share (fun ω : Drawn k M R => p (ω.outcome B keyNodes E [ω.first B] [])) =
      Oracle.share (fun y : Fn × Coins k M R => p (Coins.outcome B keyNodes E [y.2.first B] [] y)) := by
  have h := C190_generations keyNodes E hB hpos hl 1 fun l => p (nth l 0)
  rw [← Oracle.share_equiv (Equiv.funUnique (Fin 1) (Drawn k M R)), ← Oracle.share_equiv (Equiv.funUnique (Fin 1) (Fn × Coins k M R))]
  exact h

/-- C193: a program attacks with the knowledge of a group one short of the threshold.  A key is generated; then the program decides at every
step, from all it has seen, whether one more presignature is made (at most `N`), and what the group does meanwhile, or what is signed with
which presignature.  Whatever one asks of the public key and of the result, it is so for the same share of all choices of the honest nodes as of
all choices of a key, `N` nonces, and of coins, when the same program is given what is made up from the public points and one ECDSA signature for
each request. -/
theorem C193_same (N : Nat) (p : Pt × List (Nat × Request) × α → Prop) :
    Oracle.share (fun u : Drawn k M R × (Fin N → PresigDrawn k M R Q) => p (liveAttack B keyNodes nodes P E A u.1 (List.ofFn u.2))) =
      Oracle.share (fun u : (Fn × Coins k M R) × (Fin N → PresigMade k M R Q) =>
        p (liveOracle B keyNodes nodes P E A η u.1 (List.ofFn u.2))) := by
  have h1 : ∀ z : Fin N → PresigDrawn k M R Q, _ := fun z => share_key hB hpos hl keyNodes E fun o =>
    p (o.secret • G, (A o.view ((o.poly B k).map fun v : Fn => v • G)).run (realMachine B keyNodes nodes P o) (List.ofFn z) [] [])
  have h2 : ∀ y : Fn × Coins k M R, _ := fun y =>
    session_machines hB hpos hl hη keyNodes nodes P (Coins.outcome B keyNodes E [y.2.first B] [] y) (fun result => p (y.1 • G, result))
      (A (Coins.outcome B keyNodes E [y.2.first B] [] y).view
        (((Coins.outcome B keyNodes E [y.2.first B] [] y).poly B k).map fun v : Fn => v • G)) N
  refine share_both (X := Drawn k M R) (Y := Fn × Coins k M R) (Z := Fin N → PresigDrawn k M R Q) (V := Fin N → PresigMade k M R Q)
    (p := fun ω z => p (liveAttack B keyNodes nodes P E A ω (List.ofFn z)))
    (r := fun y z => p (liveOracle B keyNodes nodes P E A η y (List.ofFn z))) h1 fun y => (h2 y).trans ?_
  simp only [chance, Outcome.poly, map_through, liveOracle]
  rfl

/-- C193, forging: the group forges a signature for the same share of all choices as the program forges one, under a random key and with no
other help than ECDSA signatures with random nonces. -/
theorem C193_forgery (N : Nat) (A : KeyAttacker k M R Q B nodes Forgery) :
    Oracle.share (fun u : Drawn k M R × (Fin N → PresigDrawn k M R Q) =>
      LiveForged P (liveAttack B keyNodes nodes P E A u.1 (List.ofFn u.2))) =
    Oracle.share (fun u : (Fn × Coins k M R) × (Fin N → PresigMade k M R Q) =>
      LiveForged P (liveOracle B keyNodes nodes P E A η u.1 (List.ofFn u.2))) :=
  C193_same hB hpos hl hη keyNodes nodes P E A N (LiveForged P)

end live

/-- The number in the signature share of node 0. -/
def learnt (a : Option (NodeIndex → Res SigShare)) : Fn :=
  match a with
  | none => 0
  | some f => match f 0 with
    | .ok ⟨some (.pedersen v _), _⟩ => v
    | _ => 0

/-- The hypotheses can be met: nodes 0 and 1 are honest, node 3 is not.  A key is generated, one presignature is made and used; then, with what was
learnt from it, another one is made and used. -/
example (P : Prim) (W : Fn → Meddling 1 1 2 1 1) (hW : W = fun a => { echoes with adds := fun f _ i _ => a * ((f i).openings 0 3).1 }) :
    ∃ (ho : ∀ a, ProductsInOrder [3] ![0, 1] (W a)) (η : Fn), G = η • H ∧
    ∀ A : KeyAttacker 1 1 2 1 [3] ![0, 1] Fn, A = (fun _ _ => .make ⟨W 0, ho 0⟩ fun _ => .ask 0 ⟨[], [5], []⟩ fun a =>
      .make ⟨W (learnt a), ho _⟩ fun _ => .ask 1 ⟨[], [6], []⟩ fun _ => .stop (learnt a)) →
    (∀ ω z z', (liveAttack [3] ![0, 1] ![0, 1] P echo A ω [z, z']).2.1 = [(1, ⟨[], [6], []⟩), (0, ⟨[], [5], []⟩)]) ∧
    ∀ v, Oracle.share (fun u : Drawn 1 1 2 × (Fin 2 → PresigDrawn 1 1 2 1) =>
        (liveAttack [3] ![0, 1] ![0, 1] P echo A u.1 (List.ofFn u.2)).2.2 = v) =
      Oracle.share (fun u : (Fn × Coins 1 1 2) × (Fin 2 → PresigMade 1 1 2 1) =>
        (liveOracle [3] ![0, 1] ![0, 1] P echo A η u.1 (List.ofFn u.2)).2.2 = v) := by
  have ho : ∀ a, ProductsInOrder [3] ![0, 1] (W a) := fun a => by
    rw [hW]
    exact ⟨by decide, by decide, by simp [echoes], by simp [echoes]⟩
  obtain ⟨η, hη⟩ := exists_smul_eq H_ne_zero G
  refine ⟨ho, η, hη, fun A hA => ⟨fun ω z z' => ?_, fun v => ?_⟩⟩
  · rw [hA]
    simp [liveAttack, Session.run]
  · exact C193_same (k := 1) (M := 1) (R := 2) (Q := 1) (B := [3]) (by simp) (by simp) rfl hη ![0, 1] ![0, 1] P echo A 2 fun r => r.2.2 = v

end Verif.KeyGen
