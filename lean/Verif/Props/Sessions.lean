import Verif.Lemmas.Hybrid
import Verif.Props.Simulation

/-!
Property C160: any number of proofs is zero-knowledge in the random oracle model.
-/

set_option autoImplicit false

namespace Verif

open Zk Oracle

namespace Oracle

variable {D : Finset Question} {R : Type}

theorem share_inj {X Y : Type} [Finite X] [Nonempty X] (f : X → Y) (hf : Function.Injective f) (y : Y) :
    share (fun x => f x = y) ≤ 1 / Nat.card X := by
  have hX : (0 : ℚ) < Nat.card X := by exact_mod_cast Nat.card_pos
  have : Subsingleton {x // f x = y} := ⟨fun a b => Subtype.ext (hf (a.2.trans b.2.symm))⟩
  have h : (Nat.card {x // f x = y} : ℚ) ≤ 1 := by exact_mod_cast Finite.card_le_one_iff_subsingleton.2 this
  exact div_le_div_of_nonneg_right h hX.le

theorem share_snd {X Y : Type} [Finite X] [Nonempty X] (p : Y → Prop) : share (fun x : X × Y => p x.2) = share p :=
  (share_equiv (Equiv.prodComm X Y) fun x => p x.1).trans (share_fst p)

/-- One nonce of two, or both: a question belongs to a share of at most `1 / n` of them. -/
theorem share_nonce {Y : Type} (f : Fn → Y) (hf : Function.Injective f) (y : Y) :
    share (fun r : Fn × Fn => f r.1 = y) ≤ 1 / n := by
  have h := share_inj f hf y
  rw [card_Fn] at h
  exact (share_fst (β := Fn) fun r => f r = y).trans_le h

theorem share_nonces {Y : Type} (f : Fn × Fn → Y) (hf : Function.Injective f) (y : Y) :
    share (fun r : Fn × Fn => f r = y) ≤ 1 / n := by
  have h := share_inj f hf y
  rw [card_pairs] at h
  have hn : (1 : ℚ) ≤ n := by norm_num [n]
  refine h.trans ?_
  rw [pow_two, ← div_div]
  exact div_le_self (by positivity) hn

/-- The question of a nonce. -/
def at' {N : Type} (asks : N → Ro) (q0 : D) (r : N) : D := (within D (asks r)).getD q0

theorem within_at {N : Type} {asks : N → Ro} (q0 : D) (h : ∀ r, ∃ y, within D (asks r) = some y) (r : N) :
    within D (asks r) = some (at' asks q0 r) := by
  obtain ⟨y, hy⟩ := h r
  rw [at', hy]; rfl

theorem at_inj {N : Type} {asks : N → Ro} (q0 : D) (h : ∀ r, ∃ y, within D (asks r) = some y)
    (hi : ∀ r r' y, within D (asks r) = some y → within D (asks r') = some y → r = r') : Function.Injective (at' asks q0) :=
  fun r r' e => hi r r' _ (within_at q0 h r) (e ▸ within_at q0 h r')

/-- Responses of the three kinds of proofs for a challenge. -/
def dlogResp (t : DlogTask) (c : Fn) : Fn × Fn ≃ Fn × Fn := Equiv.prodCongr (Equiv.addLeft (t.x * c)) (Equiv.refl Fn)

def eqResp (t : EqTask) (c : Fn) : Fn × Fn ≃ Fn × Fn := Equiv.prodCongr (Equiv.addLeft (t.masking * c)) (Equiv.refl Fn)

def productResp (t : ProductTask) (c : Fn) : Fn × Fn ≃ Fn × Fn :=
  Equiv.prodCongr (Equiv.addLeft (t.lhs * c)) (Equiv.addLeft ((t.productMasking - t.lhs * t.rhsMasking) * c))

theorem dlog_symm_asks (t : DlogTask) (c : Fn) (z : Fn × Fn) : (t.claim ⟨c, z.1⟩).asks = t.asks ((dlogResp t c).symm z).1 := by
  have h := dlog_claim_asks t c ((dlogResp t c).symm z).1
  have e : t.x * c + ((dlogResp t c).symm z).1 = z.1 := congrArg Prod.fst ((dlogResp t c).apply_symm_apply z)
  rw [e] at h
  exact h

theorem eq_symm_asks (t : EqTask) (c : Fn) (z : Fn × Fn) : (t.claim ⟨c, z.1⟩).asks = t.asks ((eqResp t c).symm z).1 := by
  have h := eq_claim_asks t c ((eqResp t c).symm z).1
  have e : t.masking * c + ((eqResp t c).symm z).1 = z.1 := congrArg Prod.fst ((eqResp t c).apply_symm_apply z)
  rw [e] at h
  exact h

theorem product_symm_asks (t : ProductTask) (c : Fn) (z : Fn × Fn) :
    (t.claim ⟨c, z.1, z.2⟩).asks = t.asks ((productResp t c).symm z) := by
  have h := product_claim_asks t c ((productResp t c).symm z)
  have e1 : t.lhs * c + ((productResp t c).symm z).1 = z.1 := congrArg Prod.fst ((productResp t c).apply_symm_apply z)
  have e2 : (t.productMasking - t.lhs * t.rhsMasking) * c + ((productResp t c).symm z).2 = z.2 :=
    congrArg Prod.snd ((productResp t c).apply_symm_apply z)
  rw [e1, e2] at h
  exact h

namespace Session

/-- The program with questions and responses made explicit. -/
def game (q0 : D) : {k : Nat} → Session D R k → Game D Fn (Fn × Fn) R k
  | _, done r => .done r
  | _, ask y next => .ask y fun a => game q0 (next a)
  | _, dlog t next => .prove (fun r => at' t.asks q0 r.1) (dlogResp t) fun c z => game q0 (next ⟨c, z.1⟩)
  | _, equalOpenings t next => .prove (fun r => at' t.asks q0 r.1) (eqResp t) fun c z => game q0 (next ⟨c, z.1⟩)
  | _, product t next => .prove (fun r => at' t.asks q0 r) (productResp t) fun c z => game q0 (next ⟨c, z.1, z.2⟩)

theorem game_real (q0 : D) : ∀ {k : Nat} (s : Session D R k), s.Proper → ∀ (ρ : Coins (Fn × Fn) k) (O : D → Fn),
    s.real ρ O = (s.game q0).real ρ O
  | _, done _, _, _, _ => by simp only [real, game, Game.real]
  | _, ask y next, h, ρ, O => by
    simp only [Proper] at h
    simp only [real, game, Game.real]; exact game_real q0 (next (O y)) (h (O y)) ρ O
  | _, dlog t next, h, ρ, O => by
    simp only [Proper] at h
    have e := answer_eq (O := O) (within_at q0 h.2.1 ρ.1.1)
    simp only [real, game, Game.real, DlogTask.proof, e]
    exact game_real q0 (next _) (h.2.2 _) ρ.2 O
  | _, equalOpenings t next, h, ρ, O => by
    simp only [Proper] at h
    have e := answer_eq (O := O) (within_at q0 h.1 ρ.1.1)
    simp only [real, game, Game.real, EqTask.proof, e]
    exact game_real q0 (next _) (h.2 _) ρ.2 O
  | _, product t next, h, ρ, O => by
    simp only [Proper] at h
    have e := answer_eq (O := O) (within_at q0 h.1 ρ.1)
    simp only [real, game, Game.real, ProductTask.proof, e]
    exact game_real q0 (next _) (h.2 _) ρ.2 O

theorem game_sim (q0 : D) : ∀ {k : Nat} (s : Session D R k), s.Proper → ∀ (ρ : Coins (Fn × Fn × Fn) k) (O : D → Fn),
    s.simulated ρ O = (s.game q0).sim ρ O
  | _, done _, _, _, _ => by simp only [simulated, game, Game.sim]
  | _, ask y next, h, ρ, O => by
    simp only [Proper] at h
    simp only [simulated, game, Game.sim]; exact game_sim q0 (next (O y)) (h (O y)) ρ O
  | _, dlog t next, h, ρ, O => by
    simp only [Proper] at h
    simp only [simulated, game, Game.sim, dlog_symm_asks, program_eq (within_at q0 h.2.1 _)]
    exact game_sim q0 (next _) (h.2.2 _) ρ.2 _
  | _, equalOpenings t next, h, ρ, O => by
    simp only [Proper] at h
    simp only [simulated, game, Game.sim, eq_symm_asks, program_eq (within_at q0 h.1 _)]
    exact game_sim q0 (next _) (h.2 _) ρ.2 _
  | _, product t next, h, ρ, O => by
    simp only [Proper] at h
    simp only [simulated, game, Game.sim, product_symm_asks, program_eq (within_at q0 h.1 _)]
    exact game_sim q0 (next _) (h.2 _) ρ.2 _

theorem game_atMost (q0 : D) : ∀ {k : Nat} (s : Session D R k) (q : Nat), s.AtMost q → (s.game q0).AtMost q
  | _, done _, _, _ => trivial
  | _, ask _ _, 0, h => h.elim
  | _, ask _ next, q + 1, h => fun a => game_atMost q0 (next a) q (h a)
  | _, dlog _ next, q, h => fun c z => game_atMost q0 (next ⟨c, z.1⟩) q (h _)
  | _, equalOpenings _ next, q, h => fun c z => game_atMost q0 (next ⟨c, z.1⟩) q (h _)
  | _, product _ next, q, h => fun c z => game_atMost q0 (next ⟨c, z.1, z.2⟩) q (h _)

theorem game_good (q0 : D) : ∀ {k : Nat} (s : Session D R k), s.Proper → (s.game q0).Good (1 / n)
  | _, done _, _ => trivial
  | _, ask _ next, h => fun a => game_good q0 (next a) (h a)
  | _, dlog t next, h => ⟨share_nonce _ (at_inj q0 h.2.1 fun r r' y => dlog_nonce t h.1 r r' y),
      fun c z => game_good q0 (next ⟨c, z.1⟩) (h.2.2 _)⟩
  | _, equalOpenings t next, h => ⟨share_nonce _ (at_inj q0 h.1 fun r r' y => eq_nonce t r r' y),
      fun c z => game_good q0 (next ⟨c, z.1⟩) (h.2 _)⟩
  | _, product t next, h => ⟨share_nonces _ (at_inj q0 h.1 fun r r' y => product_nonce t r r' y),
      fun c z => game_good q0 (next ⟨c, z.1, z.2⟩) (h.2 _)⟩

/-- Either the program can be given a proof, and there are questions enough, or both worlds are the same. -/
theorem some_proof_or_none : ∀ {k : Nat} (s : Session D R k), s.Proper →
    (∃ j : Fn × Fn → D, ∀ y, share (fun r => j r = y) ≤ 1 / n) ∨
      ∀ (ρ : Coins (Fn × Fn) k) (σ : Coins (Fn × Fn × Fn) k) (O : D → Fn), s.real ρ O = s.simulated σ O
  | _, done _, _ => .inr fun _ _ _ => by simp only [real, simulated]
  | _, ask y next, h => by
    by_cases hj : ∃ j : Fn × Fn → D, ∀ y, share (fun r => j r = y) ≤ 1 / n
    · exact .inl hj
    · refine .inr fun ρ σ O => ?_
      simp only [real, simulated]
      exact (some_proof_or_none (next (O y)) (h (O y))).resolve_left hj ρ σ O
  | _, dlog t next, h => by
    obtain ⟨q0, -⟩ := h.2.1 0
    exact .inl ⟨fun r => at' t.asks q0 r.1, share_nonce _ (at_inj q0 h.2.1 fun r r' y => dlog_nonce t h.1 r r' y)⟩
  | _, equalOpenings t next, h => by
    obtain ⟨q0, -⟩ := h.1 0
    exact .inl ⟨fun r => at' t.asks q0 r.1, share_nonce _ (at_inj q0 h.1 fun r r' y => eq_nonce t r r' y)⟩
  | _, product t next, h => by
    obtain ⟨q0, -⟩ := h.1 0
    exact .inl ⟨fun r => at' t.asks q0 r, share_nonces _ (at_inj q0 h.1 fun r r' y => product_nonce t r r' y)⟩

end Session

end Oracle

/-- C160: a program that asks `q` questions and is given `k` proofs, of any of the three kinds and for statements it chooses as it
goes, does the same with proofs of the prover as with proofs made up without the witnesses, except for the share
`(k q + k (k - 1) / 2) / n`. -/
theorem C160_sessions (D : Finset Question) (R : Type) (win : R → Prop) (k q : Nat) (s : Session D R k) (hq : s.AtMost q) (hs : s.Proper) :
    let real := share fun x : Coins (Fn × Fn) k × (D → Fn) => win (s.real x.1 x.2)
    let sim := share fun x : Coins (Fn × Fn × Fn) k × (D → Fn) => win (s.simulated x.1 x.2)
    real ≤ sim + ((k : ℚ) * q + k * (k - 1) / 2) / n ∧ sim ≤ real + ((k : ℚ) * q + k * (k - 1) / 2) / n := by
  intro real sim
  rcases s.some_proof_or_none hs with ⟨j, hj⟩ | he
  · have h := hybrid j (1 / n) (by positivity) hj win k (s.game (j 0)) q (s.game_atMost (j 0) q hq) (s.game_good (j 0) hs)
    have e1 : real = share fun x : Coins (Fn × Fn) k × (D → Fn) => win ((s.game (j 0)).real x.1 x.2) :=
      congrArg share (funext fun x => congrArg win (s.game_real (j 0) hs x.1 x.2))
    have e2 : sim = share fun x : Coins (Fn × Fn × Fn) k × (D → Fn) => win ((s.game (j 0)).sim x.1 x.2) :=
      congrArg share (funext fun x => congrArg win (s.game_sim (j 0) hs x.1 x.2))
    rw [Near, bound_eq, mul_one_div] at h
    rw [e1, e2]
    exact h
  · have e : real = sim := by
      obtain ⟨ρ⟩ : Nonempty (Coins (Fn × Fn) k) := inferInstance
      have e1 : real = share fun x : Coins (Fn × Fn) k × (D → Fn) => win (s.real ρ x.2) :=
        congrArg share (funext fun x => congrArg win ((he x.1 (Classical.arbitrary _) x.2).trans (he ρ _ x.2).symm))
      have e2 : sim = share fun x : Coins (Fn × Fn × Fn) k × (D → Fn) => win (s.real ρ x.2) :=
        congrArg share (funext fun x => congrArg win (he ρ x.1 x.2).symm)
      rw [e1, e2, share_snd fun O => win (s.real ρ O), share_snd fun O => win (s.real ρ O)]
    have hn : (0 : ℚ) ≤ ((k : ℚ) * q + k * (k - 1) / 2) / n := by
      rw [← bound_eq]; positivity
    rw [e]
    exact ⟨by linarith, by linarith⟩

/-- A finite set of questions with room for two proofs. -/
theorem exists_domain (t : DlogTask) (u : ProductTask) :
    ∃ D : Finset Question, (∀ r, ∃ y, within D (t.asks r) = some y) ∧ ∀ r, ∃ y, within D (u.asks r) = some y := by
  have h1 : ∀ r, ∃ y, question (t.asks r) = some y := by
    intro r
    rw [DlogTask.asks, dlog_transcript_eq]
    obtain ⟨m, hm⟩ := Ro.form_ok_of_accepted (ds := dlogDst) (dlog_accepted_ne ⟨t.g, t.h, t.x • t.g, t.x • t.h⟩ (r • t.g) (r • t.h) t.ad)
    exact ⟨_, question_run.2 ⟨m, hm, rfl⟩⟩
  have h2 : ∀ r, ∃ y, question (u.asks r) = some y := by
    intro r
    rw [ProductTask.asks, prod_transcript_eq]
    obtain ⟨m, hm⟩ := Ro.form_ok_of_accepted (ds := equalOpeningsDst) (prod_accepted_ne ⟨G, Point.H, u.lhs • G,
      u.rhs • G + u.rhsMasking • Point.H, (u.lhs * u.rhs) • G + u.productMasking • Point.H⟩ (r.1 • G)
      (r.1 • (u.rhs • G + u.rhsMasking • Point.H) + r.2 • Point.H) u.ad)
    exact ⟨_, question_run.2 ⟨m, hm, rfl⟩⟩
  choose f1 hf1 using h1
  choose f2 hf2 using h2
  refine ⟨(Set.finite_range f1).toFinset ∪ (Set.finite_range f2).toFinset, fun r => ⟨⟨f1 r, by simp⟩, within_eq.2 (hf1 r)⟩,
    fun r => ⟨⟨f2 r, by simp⟩, within_eq.2 (hf2 r)⟩⟩

/-- A program that is given a proof about a discrete logarithm and then, whatever the first proof is, one about a product. -/
example (t : DlogTask) (ht : t.g ≠ 0) (b m p : Fn) (ad : Bytes) (a : Fn) :
    ∃ (D : Finset Question) (s : Session D (Zk.Proof × Zk.Product.Proof) 2), s.AtMost 0 ∧ s.Proper ∧
      ∀ ρ O, ((s.real ρ O).1.response - t.x * (s.real ρ O).1.challenge = ρ.1.1) := by
  obtain ⟨D, h1, h2⟩ := exists_domain t ⟨a, b, m, p, ad⟩
  refine ⟨D, .dlog t fun pf => .product ⟨a, b, m, p, ad⟩ fun pf' => .done (pf, pf'), fun _ _ => trivial,
    ⟨.inl ht, h1, fun _ => ⟨h2, fun _ => trivial⟩⟩, fun ρ O => ?_⟩
  simp only [Session.real, DlogTask.proof]
  ring

end Verif
