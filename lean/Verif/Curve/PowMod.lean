import Mathlib.NumberTheory.LucasPrimality
import Mathlib.Tactic.NormNum.Prime

/-!
Modular exponentiation that the kernel can evaluate, and Lucas/Pratt primality certificates.
Nothing in this file models code of the repository; it is used to *prove* that the two
secp256k1 moduli are prime.
-/

namespace Verif

/-- Right-to-left square and multiply with `fuel` bits of exponent: `acc * b^e % m`. -/
def powModAux (m : Nat) : Nat → Nat → Nat → Nat → Nat
  | 0, _, _, acc => acc
  | fuel + 1, b, e, acc =>
      powModAux m fuel (b * b % m) (e / 2) (if e % 2 = 1 then acc * b % m else acc)

/-- `a ^ e % m` for exponents below `2 ^ 300`. -/
def powMod (a e m : Nat) : Nat := powModAux m 300 (a % m) e (1 % m)

theorem powModAux_eq (m : Nat) :
    ∀ fuel b e acc, e < 2 ^ fuel → acc < m → powModAux m fuel b e acc = acc * b ^ e % m := by
  intro fuel
  induction fuel with
  | zero =>
    intro b e acc he hacc
    have : e = 0 := by simpa using he
    subst this
    simp [powModAux, Nat.mod_eq_of_lt hacc]
  | succ f ih =>
    intro b e acc he hacc
    have hm : 0 < m := lt_of_le_of_lt (Nat.zero_le _) hacc
    have he2 : e / 2 < 2 ^ f := by
      rw [Nat.div_lt_iff_lt_mul (by norm_num)]; rw [pow_succ] at he; exact he
    rw [powModAux, ih _ _ _ he2]
    · have key : b ^ e = (b * b) ^ (e / 2) * b ^ (e % 2) := by
        rw [← pow_two, ← pow_mul, ← pow_add, Nat.div_add_mod]
      rcases Nat.mod_two_eq_zero_or_one e with h | h
      · rw [key, h]
        simp only [pow_zero, mul_one]
        rw [if_neg (by norm_num)]
        conv_lhs => rw [Nat.mul_mod, ← Nat.pow_mod, ← Nat.mul_mod]
      · rw [key, h]
        simp only [pow_one, if_true]
        conv_lhs => rw [Nat.mul_mod, ← Nat.pow_mod, ← Nat.mul_mod]
        conv_lhs => rw [Nat.mul_mod, Nat.mod_mod, ← Nat.mul_mod]
        ring_nf
    · split_ifs
      · exact Nat.mod_lt _ hm
      · exact hacc

theorem powMod_eq (a e m : Nat) (he : e < 2 ^ 300) (hm : 1 < m) : powMod a e m = a ^ e % m := by
  rw [powMod, powModAux_eq m 300 _ _ _ he (Nat.mod_lt _ (by omega)), Nat.mod_eq_of_lt hm, one_mul,
    ← Nat.pow_mod]

theorem zmod_pow_eq_one_iff (a e m : Nat) (he : e < 2 ^ 300) (hm : 1 < m) :
    ((a : ZMod m)) ^ e = 1 ↔ powMod a e m = 1 := by
  rw [powMod_eq a e m he hm]
  have : ((a : ZMod m)) ^ e = ((a ^ e : ℕ) : ZMod m) := by push_cast; rfl
  rw [this, ← Nat.cast_one, ZMod.natCast_eq_natCast_iff, Nat.ModEq, Nat.mod_eq_of_lt hm]

/-- The arithmetic part of a Pratt certificate: `a` has order `m - 1` modulo `m`, where `fs` is the
list of prime factors of `m - 1`. -/
def prattCheck (m a : Nat) (fs : List Nat) : Bool :=
  decide (1 < m) && decide (m < 2 ^ 300) && (fs.foldr (· * ·) 1 == m - 1) && (powMod a (m - 1) m == 1) &&
    fs.all fun q => powMod a ((m - 1) / q) m != 1

theorem prime_of_pratt (m a : Nat) (fs : List Nat) (hp : ∀ q ∈ fs, q.Prime)
    (h : prattCheck m a fs = true) : m.Prime := by
  simp only [prattCheck, Bool.and_eq_true, decide_eq_true_eq, beq_iff_eq, List.all_eq_true,
    bne_iff_ne] at h
  obtain ⟨⟨⟨⟨h1, h2⟩, h3⟩, h4⟩, h5⟩ := h
  refine lucas_primality m (a : ZMod m) ((zmod_pow_eq_one_iff a _ m (by omega) h1).2 h4) ?_
  intro q hq hqd
  rw [← h3] at hqd
  have hmem : q ∈ fs := by
    clear h3 h4 h5
    induction fs with
    | nil => simp at hqd; exact absurd hqd hq.one_lt.ne'
    | cons x xs ih =>
      rw [List.foldr_cons] at hqd
      rcases (Nat.Prime.dvd_mul hq).1 hqd with h | h
      · have := (Nat.prime_dvd_prime_iff_eq hq (hp x (by simp))).1 h
        simp [this]
      · exact List.mem_cons_of_mem _ (ih (fun y hy => hp y (List.mem_cons_of_mem _ hy)) h)
  have := h5 q hmem
  rw [Ne, zmod_pow_eq_one_iff a _ m (lt_of_le_of_lt (Nat.div_le_self _ _) (by omega)) h1]
  exact this

end Verif
