import Verif.Lemmas.Simulation
import Verif.Spec.Simulation
import Mathlib.Algebra.BigOperators.Fin
import Mathlib.Algebra.BigOperators.Field
import Mathlib.Algebra.Order.BigOperators.Ring.Finset
import Mathlib.SetTheory.Cardinal.Finite
import Mathlib.Tactic.Ring

/-!
Programs that are given any number of proofs: the made-up proofs replace the others one by one, from the last.
-/

set_option autoImplicit false

namespace Verif.Oracle

open Function

instance Coins.finite (N : Type) [Finite N] : ∀ k, Finite (Coins N k)
  | 0 => inferInstanceAs (Finite Unit)
  | k + 1 => by
    have := Coins.finite N k
    exact inferInstanceAs (Finite (N × Coins N k))

instance Coins.nonempty (N : Type) [Nonempty N] : ∀ k, Nonempty (Coins N k)
  | 0 => inferInstanceAs (Nonempty Unit)
  | k + 1 => by
    have := Coins.nonempty N k
    exact inferInstanceAs (Nonempty (N × Coins N k))

section

theorem share_sum {X Y : Type} [Fintype X] [Finite Y] (p : X → Y → Prop) :
    share (fun u : X × Y => p u.1 u.2) = (∑ x, share (p x)) / Nat.card X := by
  have e : Nat.card {u : X × Y // p u.1 u.2} = ∑ x, Nat.card {y // p x y} := by
    rw [← Nat.card_sigma]
    exact Nat.card_congr ⟨fun u => ⟨u.1.1, u.1.2, u.2⟩, fun v => ⟨(v.1, v.2.1), v.2.2⟩, fun _ => rfl, fun _ => rfl⟩
  simp only [share]
  rw [e, Nat.card_prod, ← Finset.sum_div]
  push_cast
  rw [div_div, mul_comm (Nat.card Y : ℚ)]

/-- A bound for each choice of `x` is a bound on average. -/
theorem share_average {X Y Z : Type} [Finite X] [Nonempty X] [Finite Y] [Finite Z] (p : X → Y → Prop) (p' : X → Z → Prop) (δ : ℚ)
    (h : ∀ x, share (p x) ≤ share (p' x) + δ) :
    share (fun u : X × Y => p u.1 u.2) ≤ share (fun u : X × Z => p' u.1 u.2) + δ := by
  have := Fintype.ofFinite X
  have hX : (0 : ℚ) < Nat.card X := by exact_mod_cast Nat.card_pos
  rw [share_sum, share_sum, ← sub_le_iff_le_add', ← sub_div, ← Finset.sum_sub_distrib, div_le_iff₀ hX]
  calc ∑ x, (share (p x) - share (p' x)) ≤ ∑ _x : X, δ := Finset.sum_le_sum fun x _ => by linarith [h x]
    _ = δ * Nat.card X := by rw [Finset.sum_const, Finset.card_univ, nsmul_eq_mul, Nat.card_eq_fintype_card, mul_comm]

theorem share_false {X : Type} {p : X → Prop} (h : ∀ x, ¬ p x) : share p = 0 := by
  have : IsEmpty {x // p x} := ⟨fun x => h x.1 x.2⟩
  rw [share, Nat.card_of_isEmpty, Nat.cast_zero, zero_div]

theorem share_mem {X Q : Type} [Finite X] (f : X → Q) (δ : ℚ) (h : ∀ y, share (fun x => f x = y) ≤ δ) :
    ∀ l : List Q, share (fun x => f x ∈ l) ≤ l.length * δ
  | [] => by rw [share_false (by simp)]; simp
  | y :: l => by
    have h1 := share_or (fun x => f x ∈ y :: l) (fun x => f x = y) (fun x => f x ∈ l) (fun x hx => List.mem_cons.1 hx)
    have h2 := share_mem f δ h l
    have h3 := h y
    rw [List.length_cons]
    push_cast
    linarith

end

section

variable {Q A N R : Type}

/-- Programs that ask and are given `k` proofs: a proof has a question for every nonce and, for every answer, a response for every
nonce. -/
inductive Game (Q A N R : Type) : Nat → Type
  | done {k : Nat} (r : R) : Game Q A N R k
  | ask {k : Nat} (q : Q) (f : A → Game Q A N R k) : Game Q A N R k
  | prove {k : Nat} (qf : N → Q) (e : A → N ≃ N) (f : A → N → Game Q A N R k) : Game Q A N R (k + 1)

namespace Game

/-- The proofs are made with nonces. -/
def real : {k : Nat} → Game Q A N R k → Coins N k → (Q → A) → R
  | _, done r, _, _ => r
  | _, ask q f, ρ, O => real (f (O q)) ρ O
  | _, prove qf e f, ρ, O => real (f (O (qf ρ.1)) (e (O (qf ρ.1)) ρ.1)) ρ.2 O

/-- The proofs are made up. -/
def sim [DecidableEq Q] : {k : Nat} → Game Q A N R k → Coins (A × N) k → (Q → A) → R
  | _, done r, _, _ => r
  | _, ask q f, ρ, O => sim (f (O q)) ρ O
  | _, prove qf e f, ρ, O => sim (f ρ.1.1 ρ.1.2) ρ.2 (update O (qf ((e ρ.1.1).symm ρ.1.2)) ρ.1.1)

/-- At most `q` questions are asked. -/
def AtMost : {k : Nat} → Game Q A N R k → Nat → Prop
  | _, done _, _ => True
  | _, ask _ _, 0 => False
  | _, ask _ f, q + 1 => ∀ a, (f a).AtMost q
  | _, prove _ _ f, q => ∀ c z, (f c z).AtMost q

/-- A question belongs to a share of at most `δ` of the nonces. -/
def Good (δ : ℚ) : {k : Nat} → Game Q A N R k → Prop
  | _, done _ => True
  | _, ask _ f => ∀ a, (f a).Good δ
  | _, prove qf _ f => (∀ y, share (fun r => qf r = y) ≤ δ) ∧ ∀ c z, (f c z).Good δ

/-- Induction over programs with at least one proof. -/
theorem succ_rec {P : ∀ k, Game Q A N R (k + 1) → Prop} (h1 : ∀ k r, P k (done r)) (h2 : ∀ k q f, (∀ a, P k (f a)) → P k (ask q f))
    (h3 : ∀ k qf e f, P k (prove qf e f)) {k : Nat} (g : Game Q A N R (k + 1)) : P k g := by
  have h : ∀ (m : Nat) (g : Game Q A N R m), (match m, g with
      | 0, _ => True
      | k + 1, g => P k g) := by
    intro m g
    induction g with
    | @done m r =>
      cases m with
      | zero => trivial
      | succ k => exact h1 k r
    | @ask m q f ih =>
      cases m with
      | zero => trivial
      | succ k => exact h2 k q f ih
    | prove qf e f _ => exact h3 _ qf e f
  exact h (k + 1) g

/-- The first proof is made with the nonce `r`. -/
def fix (r : N) : {k : Nat} → Game Q A N R k → Game Q A N R (k - 1)
  | _, done x => done x
  | _, ask q f => ask q fun a => (f a).fix r
  | _, prove qf e f => ask (qf r) fun c => f c (e c r)

theorem real_fix (r : N) {k : Nat} (g : Game Q A N R (k + 1)) (ρ : Coins N k) (O : Q → A) :
    g.real (r, ρ) O = (g.fix r).real ρ O := by
  revert ρ O
  induction g using succ_rec with
  | h1 k x => intro ρ O; simp only [real, fix]
  | h2 k q f ih => intro ρ O; simp only [real, fix]; exact ih (O q) ρ O
  | h3 k qf e f => intro ρ O; simp only [real, fix]

theorem atMost_fix (r : N) {k : Nat} {g : Game Q A N R (k + 1)} {q : Nat} (h : g.AtMost q) : (g.fix r).AtMost (q + 1) := by
  revert q h
  induction g using succ_rec with
  | h1 k x => intros; trivial
  | h2 k q f ih =>
    intro q h
    cases q with
    | zero => exact h.elim
    | succ q => exact fun a => ih a (h a)
  | h3 k qf e f => exact fun h c => h c (e c r)

theorem good_fix (δ : ℚ) (r : N) {k : Nat} {g : Game Q A N R (k + 1)} (h : g.Good δ) : (g.fix r).Good δ := by
  revert h
  induction g using succ_rec with
  | h1 k x => exact fun _ => trivial
  | h2 k q f ih => exact fun h a => ih a (h a)
  | h3 k qf e f => exact fun h c => h.2 c (e c r)

/-- The questions and responses of the first proof, and the program after it. -/
abbrev First (Q A N R : Type) (k : Nat) := (N → Q) × (A → N ≃ N) × (A → N → Game Q A N R k)

/-- The program up to the first proof; if there is none, a proof that does not matter. -/
def pre (j : N → Q) : {k : Nat} → Game Q A N R k → Alg Q A (First Q A N R (k - 1))
  | _, done x => .done (j, fun _ => Equiv.refl N, fun _ _ => done x)
  | _, ask q f => .ask q fun a => pre j (f a)
  | _, prove qf e f => .done (qf, e, f)

theorem atMost_pre (j : N → Q) {k : Nat} {g : Game Q A N R (k + 1)} {q : Nat} (h : g.AtMost q) : (g.pre j).AtMost q := by
  revert q h
  induction g using succ_rec with
  | h1 k x => intros; trivial
  | h2 k q f ih =>
    intro q h
    cases q with
    | zero => exact h.elim
    | succ q => exact fun a => ih a (h a)
  | h3 k qf e f => exact fun _ => trivial

theorem good_pre (δ : ℚ) (j : N → Q) (hj : ∀ y, share (fun r => j r = y) ≤ δ) (O : Q → A) {k : Nat} {g : Game Q A N R (k + 1)}
    (h : g.Good δ) : ∀ y, share (fun r => ((g.pre j).run O).1 r = y) ≤ δ := by
  revert h
  induction g using succ_rec with
  | h1 k x => exact fun _ => hj
  | h2 k q f ih => exact fun h => ih (O q) (h (O q))
  | h3 k qf e f => exact fun h => h.1

variable [DecidableEq Q]

/-- A program that runs as if the oracle answered `q` by `c`. -/
def override (q : Q) (c : A) : Alg Q A R → Alg Q A R
  | .done r => .done r
  | .ask q' f => if q' = q then override q c (f c) else .ask q' fun a => override q c (f a)

theorem run_override (q : Q) (c : A) (O : Q → A) : ∀ g : Alg Q A R, (override q c g).run O = g.run (update O q c)
  | .done _ => by simp only [override, Alg.run]
  | .ask q' f => by
    by_cases h : q' = q
    · subst h
      simp only [override, if_pos, Alg.run, update_self, run_override]
    · simp only [override, if_neg h, Alg.run, update_of_ne h, run_override]

/-- The program with made-up proofs as a program without proofs. -/
def simAlg : {k : Nat} → Game Q A N R k → Coins (A × N) k → Alg Q A R
  | _, done r, _ => .done r
  | _, ask q f, ρ => .ask q fun a => simAlg (f a) ρ
  | _, prove qf e f, ρ => override (qf ((e ρ.1.1).symm ρ.1.2)) ρ.1.1 (simAlg (f ρ.1.1 ρ.1.2) ρ.2)

theorem run_simAlg : ∀ {k : Nat} (g : Game Q A N R k) (ρ : Coins (A × N) k) (O : Q → A), (g.simAlg ρ).run O = g.sim ρ O
  | _, done _, _, _ => by simp only [simAlg, sim, Alg.run]
  | _, ask q f, ρ, O => by simp only [simAlg, sim, Alg.run, run_simAlg]
  | _, prove qf e f, ρ, O => by simp only [simAlg, sim, run_override, run_simAlg]

theorem sim_fix (j : N → Q) (r : N) {k : Nat} (g : Game Q A N R (k + 1)) (σ : Coins (A × N) k) (O : Q → A) :
    (g.fix r).sim σ O = realWorld (g.pre j) (fun s : First Q A N R k => s.1) (fun s => s.2.1)
      (fun s c z => (s.2.2 c z).simAlg σ) (r, O) := by
  revert σ O
  induction g using succ_rec with
  | h1 k x => intro σ O; simp only [fix, sim, realWorld, pre, Alg.run, simAlg]
  | h2 k q f ih =>
    intro σ O
    have h := ih (O q) σ O
    simp only [fix, sim, realWorld, pre, Alg.run] at h ⊢
    exact h
  | h3 k qf e f => intro σ O; simp only [fix, sim, realWorld, pre, Alg.run, run_simAlg]

theorem sim_succ (j : N → Q) (c : A) (z : N) {k : Nat} (g : Game Q A N R (k + 1)) (σ : Coins (A × N) k) (O : Q → A) :
    g.sim ((c, z), σ) O = simWorld (g.pre j) (fun s : First Q A N R k => s.1) (fun s => s.2.1)
      (fun s c z => (s.2.2 c z).simAlg σ) ((c, z), O) := by
  revert σ O
  induction g using succ_rec with
  | h1 k x => intro σ O; simp only [sim, simWorld, pre, Alg.run, simAlg]
  | h2 k q f ih =>
    intro σ O
    have h := ih (O q) σ O
    simp only [sim, simWorld, pre, Alg.run] at h ⊢
    exact h
  | h3 k qf e f => intro σ O; simp only [sim, simWorld, pre, Alg.run, run_simAlg]

end Game

variable [DecidableEq Q] [Finite Q] [Finite A] [Finite N] [Nonempty A] [Nonempty N]

omit [DecidableEq Q] [Nonempty N] in
theorem share_early_le {S : Type} (g : Alg Q A S) (qf : S → N → Q) (q : Nat) (hq : g.AtMost q) (δ : ℚ) (hδ0 : 0 ≤ δ)
    (hδ : ∀ O y, share (fun r => qf (g.run O) r = y) ≤ δ) :
    share (fun x : N × (Q → A) => Early g qf x.2 x.1) ≤ q * δ := by
  have h := share_average (fun (O : Q → A) (r : N) => Early g qf O r) (fun (_ : Q → A) (_ : Unit) => False) (q * δ) (fun O => by
    rw [share_false (p := fun _ : Unit => False) (by simp), zero_add]
    refine (share_mem (qf (g.run O)) δ (hδ O) (g.asked O)).trans ?_
    exact mul_le_mul_of_nonneg_right (by exact_mod_cast Alg.asked_le O g q hq) hδ0)
  rw [share_false (p := fun _ : (Q → A) × Unit => False) (by simp), zero_add] at h
  rw [← share_equiv (Equiv.prodComm N (Q → A))] at h
  exact h

/-- The bound after `k` proofs. -/
def bound : Nat → Nat → Nat
  | 0, _ => 0
  | k + 1, q => bound k (q + 1) + q

theorem bound_eq : ∀ k q : Nat, (bound k q : ℚ) = k * q + k * (k - 1) / 2
  | 0, _ => by simp [bound]
  | k + 1, q => by
    rw [bound, Nat.cast_add, bound_eq k (q + 1)]
    push_cast
    ring

/-- The two worlds differ by little. -/
def Near (δ : ℚ) (win : R → Prop) {k : Nat} (g : Game Q A N R k) (q : Nat) : Prop :=
  share (fun x : Coins N k × (Q → A) => win (g.real x.1 x.2)) ≤
      share (fun x : Coins (A × N) k × (Q → A) => win (g.sim x.1 x.2)) + bound k q * δ ∧
    share (fun x : Coins (A × N) k × (Q → A) => win (g.sim x.1 x.2)) ≤
      share (fun x : Coins N k × (Q → A) => win (g.real x.1 x.2)) + bound k q * δ

theorem near_arith {x h y b c δ : ℚ} (h1 : x ≤ h + b * δ) (h2 : h ≤ y + c * δ) : x ≤ y + (b + c) * δ := by linarith

omit [Finite Q] [Finite A] [Finite N] [Nonempty A] [Nonempty N] in
theorem near_zero (δ : ℚ) (win : R → Prop) (g : Game Q A N R 0) (q : Nat) : Near δ win g q := by
  have h : ∀ (g : Game Q A N R 0) (ρ : Coins N 0) (σ : Coins (A × N) 0) (O : Q → A), g.real ρ O = g.sim σ O := by
    intro g
    generalize hk : 0 = k at g
    induction g with
    | done r => intro ρ σ O; simp only [Game.real, Game.sim]
    | ask q f ih => intro ρ σ O; simp only [Game.real, Game.sim]; exact ih _ hk ρ σ O
    | prove => omega
  have e : share (fun x : Coins N 0 × (Q → A) => win (g.real x.1 x.2)) =
      share (fun x : Coins (A × N) 0 × (Q → A) => win (g.sim x.1 x.2)) := by
    refine Eq.trans ?_ (share_equiv (Equiv.refl (Unit × (Q → A))) _)
    exact congrArg share (funext fun x => by rw [h g x.1 x.1 x.2]; rfl)
  rw [Near, e, bound]
  simp

theorem near_succ (j : N → Q) (δ : ℚ) (hδ0 : 0 ≤ δ) (hj : ∀ y, share (fun r => j r = y) ≤ δ) (win : R → Prop) (k : Nat)
    (g : Game Q A N R (k + 1)) (q : Nat) (hq : g.AtMost q) (hg : g.Good δ)
    (hr : ∀ r, Near δ win (k := k) (g.fix r) (q + 1)) : Near δ win g q := by
  let w := fun (σ : Coins (A × N) k) (x : (A × N) × (Q → A)) => win (simWorld (g.pre j) (fun s : Game.First Q A N R k => s.1)
    (fun s => s.2.1) (fun s c z => (s.2.2 c z).simAlg σ) x)
  have hs : ∀ σ : Coins (A × N) k,
      share (fun x : N × (Q → A) => win ((g.fix x.1).sim σ x.2)) ≤ share (w σ) + q * δ ∧
      share (w σ) ≤ share (fun x : N × (Q → A) => win ((g.fix x.1).sim σ x.2)) + q * δ := fun σ => by
    have e : (fun x : N × (Q → A) => win ((g.fix x.1).sim σ x.2)) = fun x => win (realWorld (g.pre j)
        (fun s : Game.First Q A N R k => s.1) (fun s => s.2.1) (fun s c z => (s.2.2 c z).simAlg σ) x) :=
      funext fun x => congrArg win (Game.sim_fix j x.1 g σ x.2)
    rw [e]
    exact simulation_of_early (g.pre j) (fun s : Game.First Q A N R k => s.1) (fun s => s.2.1)
      (fun s c z => (s.2.2 c z).simAlg σ) (q * δ)
      (share_early_le (g.pre j) _ q (Game.atMost_pre j hq) δ hδ0 fun O => Game.good_pre δ j hj O hg) win
  have a1 := share_average (fun (r : N) (x : Coins N k × (Q → A)) => win ((g.fix r).real x.1 x.2))
    (fun (r : N) (x : Coins (A × N) k × (Q → A)) => win ((g.fix r).sim x.1 x.2)) (bound k (q + 1) * δ) fun r => (hr r).1
  have a2 := share_average (fun (r : N) (x : Coins (A × N) k × (Q → A)) => win ((g.fix r).sim x.1 x.2))
    (fun (r : N) (x : Coins N k × (Q → A)) => win ((g.fix r).real x.1 x.2)) (bound k (q + 1) * δ) fun r => (hr r).2
  have b1 := share_average (fun (σ : Coins (A × N) k) (x : N × (Q → A)) => win ((g.fix x.1).sim σ x.2)) w (q * δ) fun σ => (hs σ).1
  have b2 := share_average w (fun (σ : Coins (A × N) k) (x : N × (Q → A)) => win ((g.fix x.1).sim σ x.2)) (q * δ) fun σ => (hs σ).2
  have eR : share (fun x : Coins N (k + 1) × (Q → A) => win (g.real x.1 x.2)) =
      share (fun u : N × Coins N k × (Q → A) => win ((g.fix u.1).real u.2.1 u.2.2)) := by
    refine Eq.trans ?_ (share_equiv (Equiv.prodAssoc N (Coins N k) (Q → A)) fun u => win ((g.fix u.1).real u.2.1 u.2.2))
    exact congrArg share (funext fun x => congrArg win (Game.real_fix x.1.1 g x.1.2 x.2))
  have eH : share (fun u : N × Coins (A × N) k × (Q → A) => win ((g.fix u.1).sim u.2.1 u.2.2)) =
      share (fun u : Coins (A × N) k × N × (Q → A) => win ((g.fix u.2.1).sim u.1 u.2.2)) :=
    share_equiv (⟨fun u => (u.2.1, u.1, u.2.2), fun u => (u.2.1, u.1, u.2.2), fun _ => rfl, fun _ => rfl⟩ :
      N × Coins (A × N) k × (Q → A) ≃ Coins (A × N) k × N × (Q → A))
      (fun u : Coins (A × N) k × N × (Q → A) => win ((g.fix u.2.1).sim u.1 u.2.2))
  have eS : share (fun x : Coins (A × N) (k + 1) × (Q → A) => win (g.sim x.1 x.2)) =
      share (fun u : Coins (A × N) k × (A × N) × (Q → A) => w u.1 u.2) := by
    refine Eq.trans ?_ (share_equiv (⟨fun x => (x.1.2, x.1.1, x.2), fun u => ((u.2.1, u.1), u.2.2), fun _ => rfl, fun _ => rfl⟩ :
      ((A × N) × Coins (A × N) k) × (Q → A) ≃ Coins (A × N) k × (A × N) × (Q → A))
      fun u => w u.1 u.2)
    exact congrArg share (funext fun x => congrArg win (Game.sim_succ j x.1.1.1 x.1.1.2 g x.1.2 x.2))
  rw [Near, eR, eS, bound, Nat.cast_add]
  rw [eH] at a1 a2
  exact ⟨near_arith a1 b1, by rw [add_comm (bound k (q + 1) : ℚ)]; exact near_arith b2 a2⟩

theorem hybrid (j : N → Q) (δ : ℚ) (hδ0 : 0 ≤ δ) (hj : ∀ y, share (fun r => j r = y) ≤ δ) (win : R → Prop) (k : Nat)
    (g : Game Q A N R k) (q : Nat) (hq : g.AtMost q) (hg : g.Good δ) : Near δ win g q := by
  induction k generalizing q with
  | zero => exact near_zero δ win g q
  | succ k ih =>
    exact near_succ j δ hδ0 hj win k g q hq hg fun r => ih (g.fix r) (q + 1) (Game.atMost_fix r hq) (Game.good_fix δ r hg)

end

end Verif.Oracle
