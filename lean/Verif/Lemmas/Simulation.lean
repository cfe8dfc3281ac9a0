import Verif.Lemmas.Oracle
import Mathlib.Tactic.Linarith

/-!
Programming an oracle: proofs made with nonces and answers, against proofs made first, with the answers set afterwards.
-/

set_option autoImplicit false

namespace Verif.Oracle

open Function

section

variable {Q A N S R : Type} [DecidableEq Q]

theorem run_update {R : Type} (O : Q → A) (q : Q) (a : A) : ∀ g : Alg Q A R, q ∉ g.asked O →
    g.run (update O q a) = g.run O ∧ g.asked (update O q a) = g.asked O
  | .done _, _ => ⟨rfl, rfl⟩
  | .ask q' next, h => by
    simp only [Alg.asked, List.mem_cons, not_or] at h
    obtain ⟨h1, h2⟩ := run_update O q a (next (O q')) h.2
    simp only [Alg.run, Alg.asked, update_of_ne (Ne.symm h.1)]
    exact ⟨h1, by rw [h2]⟩

theorem share_not {α : Type} [Finite α] [Nonempty α] (p : α → Prop) : share (fun a => ¬ p a) = 1 - share p := by
  have hpos : (0 : ℚ) < Nat.card α := by exact_mod_cast Nat.card_pos
  have h : Nat.card α = Nat.card {a // p a} + Nat.card {a // ¬ p a} := by
    classical
    rw [← Nat.card_sum]
    exact Nat.card_congr (Equiv.sumCompl p).symm
  rw [share, share, eq_sub_iff_add_eq, ← add_div, div_eq_one_iff_eq hpos.ne', h]
  push_cast
  ring

theorem share_or {α : Type} [Finite α] (p p1 p2 : α → Prop) (h : ∀ a, p a → p1 a ∨ p2 a) :
    share p ≤ share p1 + share p2 := by
  rw [share, share, share, ← add_div]
  refine div_le_div_of_nonneg_right ?_ (Nat.cast_nonneg _)
  have : Nat.card {a // p a} ≤ Nat.card {a // p1 a} + Nat.card {a // p2 a} := by
    classical
    rw [← Nat.card_sum]
    refine Nat.card_le_card_of_injective
      (fun a : {a // p a} => if h1 : p1 a.1 then Sum.inl ⟨a.1, h1⟩ else Sum.inr ⟨a.1, (h a.1 a.2).resolve_left h1⟩) ?_
    intro a b hab
    dsimp only at hab
    split_ifs at hab
    · exact Subtype.ext (Subtype.mk.inj (Sum.inl.inj hab))
    · exact Subtype.ext (Subtype.mk.inj (Sum.inr.inj hab))
  exact_mod_cast this

/-- The first stage asked, in the course of its run, the question that belongs to the nonce `r`. -/
def Early (g : Alg Q A S) (qf : S → N → Q) (O : Q → A) (r : N) : Prop := qf (g.run O) r ∈ g.asked O

/-- What a program sees that is given a proof made with a nonce. -/
def realWorld (g : Alg Q A S) (qf : S → N → Q) (e : S → A → N ≃ N) (k : S → A → N → Alg Q A R) (x : N × (Q → A)) : R :=
  let s := g.run x.2
  let c := x.2 (qf s x.1)
  (k s c (e s c x.1)).run x.2

/-- What it sees if response and challenge are made up and the oracle is changed afterwards. -/
def simWorld (g : Alg Q A S) (qf : S → N → Q) (e : S → A → N ≃ N) (k : S → A → N → Alg Q A R) (x : (A × N) × (Q → A)) : R :=
  let s := g.run x.2
  (k s x.1.1 x.1.2).run (update x.2 (qf s ((e s x.1.1).symm x.1.2)) x.1.1)

variable (g : Alg Q A S) (qf : S → N → Q) (e : S → A → N ≃ N) (k : S → A → N → Alg Q A R)

/-- The same runs on both sides. -/
def match_worlds (win : R → Prop) :
    {x : (N × (Q → A)) × A // ¬ Early g qf x.1.2 x.1.1 ∧ win (realWorld g qf e k x.1)} ≃
    {x : (A × N) × (Q → A) // ¬ Early g qf x.2 ((e (g.run x.2) x.1.1).symm x.1.2) ∧ win (simWorld g qf e k x)} where
  toFun x := ⟨((x.1.1.2 (qf (g.run x.1.1.2) x.1.1.1),
      e (g.run x.1.1.2) (x.1.1.2 (qf (g.run x.1.1.2) x.1.1.1)) x.1.1.1),
      update x.1.1.2 (qf (g.run x.1.1.2) x.1.1.1) x.1.2), by
    obtain ⟨⟨⟨r, O⟩, b⟩, h1, h2⟩ := x
    obtain ⟨u1, u2⟩ := run_update O (qf (g.run O) r) b g h1
    dsimp only [Early, realWorld, simWorld] at h1 h2 ⊢
    rw [u1, u2, Equiv.symm_apply_apply, update_idem, update_eq_self]
    exact ⟨h1, h2⟩⟩
  invFun x := ⟨(((e (g.run x.1.2) x.1.1.1).symm x.1.1.2,
      update x.1.2 (qf (g.run x.1.2) ((e (g.run x.1.2) x.1.1.1).symm x.1.1.2)) x.1.1.1),
      x.1.2 (qf (g.run x.1.2) ((e (g.run x.1.2) x.1.1.1).symm x.1.1.2))), by
    obtain ⟨⟨⟨c, z⟩, O⟩, h1, h2⟩ := x
    obtain ⟨u1, u2⟩ := run_update O (qf (g.run O) ((e (g.run O) c).symm z)) c g h1
    dsimp only [Early, realWorld, simWorld] at h1 h2 ⊢
    rw [u1, u2, update_self, Equiv.apply_symm_apply]
    exact ⟨h1, h2⟩⟩
  left_inv x := by
    obtain ⟨⟨⟨r, O⟩, b⟩, h1, h2⟩ := x
    obtain ⟨u1, u2⟩ := run_update O (qf (g.run O) r) b g h1
    apply Subtype.ext
    dsimp only
    rw [u1, Equiv.symm_apply_apply, update_idem, update_eq_self, update_self]
  right_inv x := by
    obtain ⟨⟨⟨c, z⟩, O⟩, h1, h2⟩ := x
    obtain ⟨u1, u2⟩ := run_update O (qf (g.run O) ((e (g.run O) c).symm z)) c g h1
    apply Subtype.ext
    dsimp only
    rw [u1, update_self, Equiv.apply_symm_apply, update_idem, update_eq_self]

variable [Finite Q] [Finite A] [Finite N] [Nonempty A] [Nonempty N]

omit [Finite Q] [Finite N] [Nonempty N] in
theorem share_worlds (win : R → Prop) :
    share (fun x : N × (Q → A) => ¬ Early g qf x.2 x.1 ∧ win (realWorld g qf e k x)) =
      share (fun x : (A × N) × (Q → A) =>
        ¬ Early g qf x.2 ((e (g.run x.2) x.1.1).symm x.1.2) ∧ win (simWorld g qf e k x)) := by
  rw [← share_fst (β := A), share, share, Nat.card_congr (match_worlds g qf e k win)]
  congr 2
  rw [Nat.card_prod, Nat.card_prod, Nat.card_prod, Nat.card_prod]
  ring

theorem share_early (q : Nat) (hq : g.AtMost q) (hinj : ∀ O, Injective (qf (g.run O))) :
    share (fun x : N × (Q → A) => Early g qf x.2 x.1) ≤ (q : ℚ) / Nat.card N := by
  have hN : (0 : ℚ) < Nat.card N := by exact_mod_cast Nat.card_pos
  have hO : (0 : ℚ) < Nat.card (Q → A) := by exact_mod_cast Nat.card_pos
  have h : Nat.card {x : N × (Q → A) // Early g qf x.2 x.1} ≤ q * Nat.card (Q → A) := by
    have e1 : Nat.card (Fin q × (Q → A)) = q * Nat.card (Q → A) := by
      rw [Nat.card_prod, Nat.card_eq_fintype_card, Fintype.card_fin]
    rw [← e1]
    refine Nat.card_le_card_of_injective (fun x : {x : N × (Q → A) // Early g qf x.2 x.1} =>
      ((⟨(g.asked x.1.2).idxOf (qf (g.run x.1.2) x.1.1),
        (List.idxOf_lt_length_iff.2 x.2).trans_le (Alg.asked_le x.1.2 g q hq)⟩ : Fin q), x.1.2)) ?_
    rintro ⟨⟨r, O⟩, h⟩ ⟨⟨r', O'⟩, h'⟩ heq
    simp only [Prod.mk.injEq, Fin.mk.injEq] at heq
    obtain ⟨h1, rfl⟩ := heq
    have : qf (g.run O) r = qf (g.run O) r' := by
      have e1 := List.getElem?_idxOf h
      have e2 := List.getElem?_idxOf h'
      dsimp only at e1 e2
      rw [h1] at e1
      exact Option.some.inj (e1.symm.trans e2)
    exact Subtype.ext (Prod.ext (hinj O this) rfl)
  rw [share, Nat.card_prod, div_le_div_iff₀ (by push_cast; positivity) hN]
  have h' : (Nat.card {x : N × (Q → A) // Early g qf x.2 x.1} : ℚ) ≤ q * Nat.card (Q → A) := by exact_mod_cast h
  push_cast
  nlinarith

/-- The program wins for nearly the same share on both sides, if the first stage rarely asks the question of the nonce. -/
theorem simulation_of_early (δ : ℚ) (hb : share (fun x : N × (Q → A) => Early g qf x.2 x.1) ≤ δ) (win : R → Prop) :
    share (fun x : N × (Q → A) => win (realWorld g qf e k x)) ≤
        share (fun x : (A × N) × (Q → A) => win (simWorld g qf e k x)) + δ ∧
      share (fun x : (A × N) × (Q → A) => win (simWorld g qf e k x)) ≤
        share (fun x : N × (Q → A) => win (realWorld g qf e k x)) + δ := by
  have hw := share_worlds g qf e k win
  have ht := share_worlds g qf e k fun _ => True
  simp only [and_true] at ht
  rw [share_not, share_not] at ht
  constructor
  · have h1 := share_or (fun x : N × (Q → A) => win (realWorld g qf e k x))
      (fun x => ¬ Early g qf x.2 x.1 ∧ win (realWorld g qf e k x)) (fun x => Early g qf x.2 x.1) (by tauto)
    have h2 := share_mono (p := fun x : (A × N) × (Q → A) =>
      ¬ Early g qf x.2 ((e (g.run x.2) x.1.1).symm x.1.2) ∧ win (simWorld g qf e k x))
      (p' := fun x => win (simWorld g qf e k x)) (by tauto)
    linarith
  · have h1 := share_or (fun x : (A × N) × (Q → A) => win (simWorld g qf e k x))
      (fun x => ¬ Early g qf x.2 ((e (g.run x.2) x.1.1).symm x.1.2) ∧ win (simWorld g qf e k x))
      (fun x => Early g qf x.2 ((e (g.run x.2) x.1.1).symm x.1.2)) (by tauto)
    have h2 := share_mono (p := fun x : N × (Q → A) => ¬ Early g qf x.2 x.1 ∧ win (realWorld g qf e k x))
      (p' := fun x => win (realWorld g qf e k x)) (by tauto)
    linarith

/-- Each nonce has its own question. -/
theorem simulation (q : Nat) (hq : g.AtMost q) (hinj : ∀ O, Injective (qf (g.run O))) (win : R → Prop) :
    share (fun x : N × (Q → A) => win (realWorld g qf e k x)) ≤
        share (fun x : (A × N) × (Q → A) => win (simWorld g qf e k x)) + (q : ℚ) / Nat.card N ∧
      share (fun x : (A × N) × (Q → A) => win (simWorld g qf e k x)) ≤
        share (fun x : N × (Q → A) => win (realWorld g qf e k x)) + (q : ℚ) / Nat.card N :=
  simulation_of_early g qf e k _ (share_early g qf q hq hinj) win

end

end Verif.Oracle
