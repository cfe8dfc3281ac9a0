import Verif.Props.Seed
import Verif.Props.Poly
import Verif.Props.Uniform

/-!
C172: rejection sampling spreads key streams evenly over the scalars, also over lists of scalars drawn one after the other.
-/

set_option autoImplicit false

namespace Verif

namespace Sampling

open Scalar

/-- A generator whose key stream begins with the given bytes. -/
def ofBytes (u : Bytes) : Rng := ⟨fun i => u.getD i 0, 0⟩

/-- `u` holds `k` blocks; read into the buffer `buf` one after the other, they give the scalars `ss`. -/
def Drawn : Nat → List Fn → Bytes → Bytes → Prop
  | _, [], _, _ => True
  | 0, _ :: _, _, _ => False
  | k + 1, s :: ss, buf, u =>
    (beVal (List.zipWith (· ^^^ ·) buf (u.take 32)) < n ∧ (beVal (List.zipWith (· ^^^ ·) buf (u.take 32)) : Fn) = s ∧
      Drawn k ss (List.replicate 32 0) (u.drop 32)) ∨
    (n ≤ beVal (List.zipWith (· ^^^ ·) buf (u.take 32)) ∧ Drawn k (s :: ss) (List.zipWith (· ^^^ ·) buf (u.take 32)) (u.drop 32))

/-- The number of strings of `k` blocks that give a certain list of `m` scalars; it is the same for each list (`card_drawn`). -/
def count : Nat → Nat → Nat
  | k, 0 => 256 ^ (32 * k)
  | 0, _ + 1 => 0
  | k + 1, m + 1 => count k m + (256 ^ 32 - n) * count k (m + 1)

theorem finite_of_length (L : Nat) (Q : Bytes → Prop) : Finite {u : Bytes // u.length = L ∧ Q u} :=
  Finite.of_injective (fun u => (⟨beVal u.1, by have := beVal_lt u.1; rwa [u.2.1] at this⟩ : Fin (256 ^ L)))
    fun u v h => Subtype.ext (beVal_inj (by rw [u.2.1, v.2.1]) (Fin.mk.inj h))

theorem card_length (L : Nat) : Nat.card {u : Bytes // u.length = L} = 256 ^ L := by
  have e : {u : Bytes // u.length = L} ≃ Fin (256 ^ L) :=
    { toFun := fun u => ⟨beVal u.1, by have := beVal_lt u.1; rwa [u.2] at this⟩
      invFun := fun x => ⟨toBE L x.1, length_toBE _ _⟩
      left_inv := fun u => Subtype.ext (by
        obtain ⟨u, rfl⟩ := u
        exact toBE_beVal u)
      right_inv := fun x => Fin.ext (beVal_toBE_of_lt x.2) }
  rw [Nat.card_congr e, Nat.card_eq_fintype_card, Fintype.card_fin]

theorem xor_xor {a b : Bytes} (h : a.length = b.length) : List.zipWith (· ^^^ ·) a (List.zipWith (· ^^^ ·) a b) = b := by
  induction a generalizing b with
  | nil => cases b with
    | nil => rfl
    | cons => simp at h
  | cons x a ih =>
    cases b with
    | nil => simp at h
    | cons y b =>
      simp only [List.zipWith_cons_cons, List.cons.injEq]
      refine ⟨by rw [← UInt8.xor_assoc, UInt8.xor_self, UInt8.zero_xor], ih (by simpa using h)⟩

theorem toBE_beVal_of_length {b : Bytes} (h : b.length = 32) : toBE 32 (beVal b) = b := by
  conv_lhs => rw [← h]
  exact toBE_beVal b

/-- Two elements of the second summand agree if their parts do. -/
theorem inr_eq {A : Type} {m : Nat} {P : Fin m → Bytes → Prop} {i j : Fin m} {a : {u // P i u}} {b : {u // P j u}}
    (hi : i = j) (h : a.1 = b.1) : (Sum.inr ⟨i, a⟩ : A ⊕ (Σ x, {u // P x u})) = Sum.inr ⟨j, b⟩ := by
  subst hi
  rw [Subtype.ext h]

/-- The strings that give `s :: ss` either begin with the one block that makes the buffer `s`, or with one of the blocks that make it
a value not below the group order. -/
def splitEquiv (k : Nat) (s : Fn) (ss : List Fn) (buf : Bytes) (hb : buf.length = 32) :
    {u : Bytes // u.length = 32 * (k + 1) ∧ Drawn (k + 1) (s :: ss) buf u} ≃
      {v : Bytes // v.length = 32 * k ∧ Drawn k ss (List.replicate 32 0) v} ⊕
        Σ x : Fin (256 ^ 32 - n), {v : Bytes // v.length = 32 * k ∧ Drawn k (s :: ss) (toBE 32 (n + x.1)) v} where
  toFun u := if h : beVal (List.zipWith (· ^^^ ·) buf (u.1.take 32)) < n then
      .inl ⟨u.1.drop 32, by rw [List.length_drop, u.2.1]; omega, by
        rcases u.2.2 with h' | h'
        · exact h'.2.2
        · omega⟩
    else .inr ⟨⟨beVal (List.zipWith (· ^^^ ·) buf (u.1.take 32)) - n, by
        have h1 := beVal_lt (List.zipWith (· ^^^ ·) buf (u.1.take 32))
        have h2 : (List.zipWith (· ^^^ ·) buf (u.1.take 32)).length = 32 := by
          rw [List.length_zipWith, List.length_take, u.2.1, hb]; omega
        rw [h2] at h1
        omega⟩, ⟨u.1.drop 32, by rw [List.length_drop, u.2.1]; omega, by
        have h2 : (List.zipWith (· ^^^ ·) buf (u.1.take 32)).length = 32 := by
          rw [List.length_zipWith, List.length_take, u.2.1, hb]; omega
        rcases u.2.2 with h' | h'
        · omega
        · have e : toBE 32 (n + (beVal (List.zipWith (· ^^^ ·) buf (u.1.take 32)) - n)) =
              List.zipWith (· ^^^ ·) buf (u.1.take 32) := by
            rw [Nat.add_sub_cancel' h'.1, toBE_beVal_of_length h2]
          rw [e]
          exact h'.2⟩⟩
  invFun y := match y with
    | .inl v => ⟨List.zipWith (· ^^^ ·) buf (toBE 32 s.val) ++ v.1, by
        have h2 : (List.zipWith (· ^^^ ·) buf (toBE 32 s.val)).length = 32 := by
          rw [List.length_zipWith, length_toBE, hb]; rfl
        rw [List.length_append, h2, v.2.1]; omega, by
        have h2 : (List.zipWith (· ^^^ ·) buf (toBE 32 s.val)).length = 32 := by
          rw [List.length_zipWith, length_toBE, hb]; rfl
        have hs : s.val < 256 ^ 32 := lt_trans (ZMod.val_lt s) (by decide +kernel)
        left
        rw [List.take_left' h2, List.drop_left' h2, xor_xor (by rw [hb, length_toBE]), beVal_toBE_of_lt hs]
        exact ⟨ZMod.val_lt s, ZMod.natCast_zmod_val s, v.2.2⟩⟩
    | .inr x => ⟨List.zipWith (· ^^^ ·) buf (toBE 32 (n + x.1.1)) ++ x.2.1, by
        have h2 : (List.zipWith (· ^^^ ·) buf (toBE 32 (n + x.1.1))).length = 32 := by
          rw [List.length_zipWith, length_toBE, hb]; rfl
        rw [List.length_append, h2, x.2.2.1]; omega, by
        have h2 : (List.zipWith (· ^^^ ·) buf (toBE 32 (n + x.1.1))).length = 32 := by
          rw [List.length_zipWith, length_toBE, hb]; rfl
        have hs : n + x.1.1 < 256 ^ 32 := by have := x.1.2; omega
        right
        rw [List.take_left' h2, List.drop_left' h2, xor_xor (by rw [hb, length_toBE]), beVal_toBE_of_lt hs]
        exact ⟨Nat.le_add_right _ _, x.2.2.2⟩⟩
  left_inv u := by
    have h2 : (List.zipWith (· ^^^ ·) buf (u.1.take 32)).length = 32 := by
      rw [List.length_zipWith, List.length_take, u.2.1, hb]; omega
    have h3 : buf.length = (u.1.take 32).length := by rw [List.length_take, u.2.1, hb]; omega
    by_cases h : beVal (List.zipWith (· ^^^ ·) buf (u.1.take 32)) < n
    · have e : toBE 32 s.val = List.zipWith (· ^^^ ·) buf (u.1.take 32) := by
        rcases u.2.2 with h' | h'
        · have hv := congrArg ZMod.val h'.2.1
          rw [ZMod.val_natCast, Nat.mod_eq_of_lt h] at hv
          rw [← hv, toBE_beVal_of_length h2]
        · omega
      refine Subtype.ext ?_
      simp only [dif_pos h]
      rw [e, xor_xor h3, List.take_append_drop]
    · refine Subtype.ext ?_
      simp only [dif_neg h]
      rw [Nat.add_sub_cancel' (not_lt.1 h), toBE_beVal_of_length h2, xor_xor h3, List.take_append_drop]
  right_inv y := by
    rcases y with v | ⟨x, v⟩
    · have h2 : (List.zipWith (· ^^^ ·) buf (toBE 32 s.val)).length = 32 := by
        rw [List.length_zipWith, length_toBE, hb]; rfl
      have hs : s.val < 256 ^ 32 := lt_trans (ZMod.val_lt s) (by decide +kernel)
      have e : beVal (List.zipWith (· ^^^ ·) buf ((List.zipWith (· ^^^ ·) buf (toBE 32 s.val) ++ v.1).take 32)) = s.val := by
        rw [List.take_left' h2, xor_xor (by rw [hb, length_toBE]), beVal_toBE_of_lt hs]
      simp only [e, ZMod.val_lt s, dif_pos]
      congr 1
      exact Subtype.ext (List.drop_left' h2)
    · have h2 : (List.zipWith (· ^^^ ·) buf (toBE 32 (n + x.1))).length = 32 := by
        rw [List.length_zipWith, length_toBE, hb]; rfl
      have hs : n + x.1 < 256 ^ 32 := by have := x.2; omega
      have e : beVal (List.zipWith (· ^^^ ·) buf ((List.zipWith (· ^^^ ·) buf (toBE 32 (n + x.1)) ++ v.1).take 32)) = n + x.1 := by
        rw [List.take_left' h2, xor_xor (by rw [hb, length_toBE]), beVal_toBE_of_lt hs]
      have hn : ¬ n + x.1 < n := by omega
      simp only [e, hn, dif_neg, not_false_eq_true]
      refine inr_eq (P := fun x v => v.length = 32 * k ∧ Drawn k (s :: ss) (toBE 32 (n + x.1)) v) (Fin.ext ?_) ?_
      · rw [Fin.val_mk, e, Nat.add_sub_cancel_left]
      · exact List.drop_left' h2

/-- The number of strings that give a certain list does not depend on the list. -/
theorem card_drawn (k : Nat) (ss : List Fn) (buf : Bytes) (hb : buf.length = 32) :
    Nat.card {u : Bytes // u.length = 32 * k ∧ Drawn k ss buf u} = count k ss.length := by
  induction k generalizing ss buf with
  | zero =>
    cases ss with
    | nil =>
      rw [Nat.card_congr (Equiv.subtypeEquivRight fun u => ⟨fun h => h.1, fun h => ⟨h, trivial⟩⟩), card_length]
      rfl
    | cons s ss =>
      have : IsEmpty {u : Bytes // u.length = 32 * 0 ∧ Drawn 0 (s :: ss) buf u} := ⟨fun u => u.2.2⟩
      rw [Nat.card_of_isEmpty]
      rfl
  | succ k ih =>
    cases ss with
    | nil =>
      rw [Nat.card_congr (Equiv.subtypeEquivRight fun u => ⟨fun h => h.1, fun h => ⟨h, trivial⟩⟩), card_length]
      rfl
    | cons s ss =>
      have f1 := finite_of_length (32 * k) (Drawn k ss (List.replicate 32 0))
      have f2 := fun x : Fin (256 ^ 32 - n) => finite_of_length (32 * k) (Drawn k (s :: ss) (toBE 32 (n + x.1)))
      rw [Nat.card_congr (splitEquiv k s ss buf hb), Nat.card_sum, ih ss _ (by simp), Nat.card_sigma]
      rw [Finset.sum_congr rfl fun x _ => ih (s :: ss) (toBE 32 (n + x.1)) (length_toBE _ _), Finset.sum_const, Finset.card_univ,
        Fintype.card_fin, smul_eq_mul]
      rfl

/-! ### The code draws in this way -/

theorem bufAfter_pos (r : Rng) (buf : Bytes) (hb : buf.length = 32) (k : Nat) :
    (bufAfter r buf k).1.length = 32 ∧ (bufAfter r buf k).2.pos = r.pos + 32 * k := by
  induction k with
  | zero => exact ⟨hb, rfl⟩
  | succ k ih =>
    rw [bufAfter]
    refine ⟨by rw [Rng.length_xorKeyStream]; exact ih.1, ?_⟩
    show (bufAfter r buf k).2.pos + (bufAfter r buf k).1.length = _
    rw [ih.1, ih.2]
    ring

theorem randomLoop_pos {r r' : Rng} {buf : Bytes} {s : Fn} (hb : buf.length = 32) (h : randomLoop r buf = some (s, r')) :
    r.pos + 32 ≤ r'.pos := by
  obtain ⟨k, -, -, rfl⟩ := (randomLoop_iff r buf s r').1 h
  rw [(bufAfter_pos r buf hb _).2]
  omega

theorem randomCoeffs_pos {r r' : Rng} {m : Nat} {ss : List Fn} (h : Poly.randomCoeffs r m = .ok (ss, r')) : r.pos ≤ r'.pos := by
  induction m generalizing r r' ss with
  | zero =>
    rw [Poly.randomCoeffs, Res.ok.injEq, Prod.mk.injEq] at h
    rw [h.2]
  | succ m ih =>
    rw [Poly.randomCoeffs] at h
    obtain ⟨⟨c, r1⟩, h1, h⟩ := Res.bind_eq_ok.1 h
    obtain ⟨⟨cs, r2⟩, h2, h⟩ := Res.bind_eq_ok.1 h
    have h3 := ih h2
    rw [Res.ok.injEq, Prod.mk.injEq] at h
    rw [random] at h1
    split at h1
    · next x e =>
      rw [Res.ok.injEq] at h1
      subst h1
      have := randomLoop_pos (by simp) e
      rw [← h.2]
      omega
    · cases h1

/-- The draws of `ss`, the first of them going on with the buffer `buf`. -/
def Draws (r : Rng) (buf : Bytes) : List Fn → Rng → Prop
  | [], r' => r' = r
  | s :: ss, r' => ∃ r1, randomLoop r buf = some (s, r1) ∧ Poly.randomCoeffs r1 ss.length = .ok (ss, r')

theorem draws_iff (r r' : Rng) (ss : List Fn) :
    Poly.randomCoeffs r ss.length = .ok (ss, r') ↔ Draws r (List.replicate 32 0) ss r' := by
  cases ss with
  | nil =>
    rw [Draws, List.length_nil, Poly.randomCoeffs, Res.ok.injEq, Prod.mk.injEq]
    exact ⟨fun h => h.2.symm, fun h => ⟨rfl, h.symm⟩⟩
  | cons s ss =>
    rw [Draws, List.length_cons, Poly.randomCoeffs]
    constructor
    · intro h
      obtain ⟨⟨c, r1⟩, h1, h⟩ := Res.bind_eq_ok.1 h
      obtain ⟨⟨cs, r2⟩, h2, h⟩ := Res.bind_eq_ok.1 h
      simp only [Res.ok.injEq, Prod.mk.injEq, List.cons.injEq] at h
      obtain ⟨⟨rfl, rfl⟩, rfl⟩ := h
      refine ⟨r1, ?_, h2⟩
      rw [random] at h1
      split at h1
      · next x e =>
        rw [Res.ok.injEq] at h1
        rw [e, h1]
      · cases h1
    · rintro ⟨r1, h1, h2⟩
      rw [random, h1]
      simp only [Res.ok_bind, h2]

theorem peek_take (r : Rng) (k : Nat) : (r.peek (32 * (k + 1))).take 32 = r.peek 32 := by
  rw [Rng.peek, Rng.peek, ← List.map_take, List.take_range, min_eq_left (by omega)]

theorem peek_drop (r : Rng) (k : Nat) : (r.peek (32 * (k + 1))).drop 32 = ({ r with pos := r.pos + 32 } : Rng).peek (32 * k) := by
  rw [Rng.peek, Rng.peek, show 32 * (k + 1) = 32 + 32 * k by ring, List.range_add, List.map_append,
    List.drop_left' (by simp), List.map_map]
  refine List.map_congr_left fun i _ => ?_
  simp only [Function.comp, Nat.add_assoc]

theorem drawn_iff (k : Nat) (ss : List Fn) (r : Rng) (buf : Bytes) (hb : buf.length = 32) :
    (∃ r', Draws r buf ss r' ∧ r'.pos ≤ r.pos + 32 * k) ↔ Drawn k ss buf (r.peek (32 * k)) := by
  induction k generalizing ss r buf with
  | zero =>
    cases ss with
    | nil => exact ⟨fun _ => trivial, fun _ => ⟨r, rfl, by omega⟩⟩
    | cons s ss =>
      refine ⟨fun ⟨r', ⟨r1, h1, h2⟩, hp⟩ => ?_, fun h => h.elim⟩
      have h3 := randomLoop_pos hb h1
      have h4 := randomCoeffs_pos h2
      omega
  | succ k ih =>
    cases ss with
    | nil => exact ⟨fun _ => trivial, fun _ => ⟨r, rfl, by omega⟩⟩
    | cons s ss =>
      have hx : r.xorKeyStream buf = (List.zipWith (· ^^^ ·) buf (r.peek 32), { r with pos := r.pos + 32 }) := by
        rw [Rng.xorKeyStream, hb]
      have hlen : (List.zipWith (· ^^^ ·) buf (r.peek 32)).length = 32 := by
        rw [List.length_zipWith, Rng.length_peek, hb]; rfl
      have hd : deserialize K256 (List.zipWith (· ^^^ ·) buf (r.peek 32)) =
          if beVal (List.zipWith (· ^^^ ·) buf (r.peek 32)) < n then
            .ok (some (beVal (List.zipWith (· ^^^ ·) buf (r.peek 32)) : Fn)) else .err "invalid byte sequence" := by
        simp only [deserialize, k256Deserialize_eq, hlen]
        by_cases h : beVal (List.zipWith (· ^^^ ·) buf (r.peek 32)) < n <;> simp [h]
      rw [Drawn, peek_take, peek_drop]
      by_cases h : beVal (List.zipWith (· ^^^ ·) buf (r.peek 32)) < n
      · have hl : randomLoop r buf = some ((beVal (List.zipWith (· ^^^ ·) buf (r.peek 32)) : Fn), { r with pos := r.pos + 32 }) := by
          rw [randomLoop, hx]
          simp only [hd, if_pos h]
        have := ih ss { r with pos := r.pos + 32 } (List.replicate 32 0) (by simp)
        rw [← this]
        constructor
        · rintro ⟨r', ⟨r1, h1, h2⟩, hp⟩
          rw [hl, Option.some.injEq, Prod.mk.injEq] at h1
          obtain ⟨h1, rfl⟩ := h1
          exact .inl ⟨h, h1, r', (draws_iff _ _ _).1 h2, by simp only; omega⟩
        · rintro (⟨-, h1, r', h2, hp⟩ | ⟨h', -⟩)
          · simp only at hp
            exact ⟨r', ⟨_, by rw [hl, h1], (draws_iff _ _ _).2 h2⟩, by omega⟩
          · omega
      · have hl : randomLoop r buf =
            randomLoop { r with pos := r.pos + 32 } (List.zipWith (· ^^^ ·) buf (r.peek 32)) := by
          rw [randomLoop, hx]
          simp only [hd, if_neg h]
        have := ih (s :: ss) { r with pos := r.pos + 32 } _ hlen
        rw [← this]
        constructor
        · rintro ⟨r', ⟨r1, h1, h2⟩, hp⟩
          rw [hl] at h1
          exact .inr ⟨not_lt.1 h, r', ⟨r1, h1, h2⟩, by simp only; omega⟩
        · rintro (⟨h', -⟩ | ⟨-, r', ⟨r1, h1, h2⟩, hp⟩)
          · exact absurd h' h
          · simp only at hp
            exact ⟨r', ⟨r1, by rw [hl]; exact h1, h2⟩, by omega⟩

theorem peek_ofBytes {u : Bytes} {L : Nat} (h : u.length = L) : (ofBytes u).peek L = u := by
  subst h
  refine List.ext_getElem (by simp [Rng.peek]) fun i h1 h2 => ?_
  simp [Rng.peek, ofBytes, h2]

/-- `count k 1 * n` and the number of strings of `k` blocks that give no scalar add up to all strings of `k` blocks. -/
theorem count_one (k : Nat) : count k 1 * n + (256 ^ 32 - n) ^ k = 256 ^ (32 * k) := by
  have hn : n ≤ 256 ^ 32 := by decide +kernel
  have key : ∀ N d : Nat, N = n + d → ∀ k, (∀ k, count (k + 1) 1 = N ^ k + d * count k 1) → count k 1 * n + d ^ k = N ^ k := by
    intro N d hN k hc
    induction k with
    | zero => simp [count]
    | succ k ih =>
      rw [hc, pow_succ, pow_succ, Nat.add_mul, Nat.mul_assoc, Nat.mul_comm (d ^ k) d, Nat.add_assoc, ← Nat.mul_add, ih, hN]
      ring
  rw [Nat.pow_mul]
  refine key _ _ (Nat.add_sub_cancel' hn).symm k fun k => ?_
  rw [count, count, Nat.pow_mul]

end Sampling

open Sampling

/-- C172: of the key streams of `k` blocks, every list of `m` scalars is what `m` draws give on the same number of streams, so that
scalars drawn from an evenly distributed stream are evenly distributed and independent. -/
theorem C172_even (k : Nat) (ss : List Fn) :
    Nat.card {u : Bytes // u.length = 32 * k ∧
      ∃ r', Poly.random ss.length (ofBytes u) = .ok (ss, r') ∧ r'.pos ≤ 32 * k} = count k ss.length := by
  rw [← card_drawn k ss (List.replicate 32 0) (by simp)]
  refine Nat.card_congr (Equiv.subtypeEquivRight fun u => and_congr_right fun hu => ?_)
  have h := drawn_iff k ss (ofBytes u) (List.replicate 32 0) (by simp)
  rw [peek_ofBytes hu] at h
  rw [← h]
  have hr : Poly.random ss.length (ofBytes u) = Poly.randomCoeffs (ofBytes u) ss.length := by
    rw [Poly.random, if_neg (by omega), Int.toNat_natCast]
  rw [hr]
  refine exists_congr fun r' => and_congr (draws_iff _ _ _) ?_
  show _ ↔ r'.pos ≤ 0 + 32 * k
  rw [Nat.zero_add]

/-- C172: on exactly `(2^256 - n)^k` of the streams of `k` blocks no scalar is drawn, a share of less than `2^(-127 k)`. -/
theorem C172_ends (k : Nat) :
    Nat.card {u : Bytes // u.length = 32 * k ∧ ¬ ∃ s r', Scalar.random (ofBytes u) = .ok (s, r') ∧ r'.pos ≤ 32 * k} =
      (256 ^ 32 - n) ^ k ∧ ((256 ^ 32 - n) ^ k : Nat) * 2 ^ (127 * k) ≤ 256 ^ (32 * k) := by
  have hone : ∀ (r : Rng) (s : Fn) (r' : Rng), Poly.random (1 : Nat) r = .ok ([s], r') ↔ Scalar.random r = .ok (s, r') := by
    intro r s r'
    rw [Poly.random, if_neg (by omega), Int.toNat_natCast]
    constructor
    · intro h
      rw [Poly.randomCoeffs] at h
      obtain ⟨⟨c, r1⟩, h1, h⟩ := Res.bind_eq_ok.1 h
      simp only [Poly.randomCoeffs, Res.ok_bind, Res.ok.injEq, Prod.mk.injEq, List.cons.injEq, and_true] at h
      rw [h1, h.1, h.2]
    · intro h
      simp only [Poly.randomCoeffs, h, Res.ok_bind]
  constructor
  · have hsum : Nat.card {u : Bytes // u.length = 32 * k} =
        n * count k 1 + Nat.card {u : Bytes // u.length = 32 * k ∧
          ¬ ∃ s r', Scalar.random (ofBytes u) = .ok (s, r') ∧ r'.pos ≤ 32 * k} := by
      have f1 := fun s : Fn => finite_of_length (32 * k)
        fun u => ∃ r', Scalar.random (ofBytes u) = .ok (s, r') ∧ r'.pos ≤ 32 * k
      have f2 := finite_of_length (32 * k) fun u => ¬ ∃ s r', Scalar.random (ofBytes u) = .ok (s, r') ∧ r'.pos ≤ 32 * k
      have hc : ∀ s : Fn, Nat.card {u : Bytes // u.length = 32 * k ∧
          ∃ r', Scalar.random (ofBytes u) = .ok (s, r') ∧ r'.pos ≤ 32 * k} = count k 1 := by
        intro s
        refine Eq.trans ?_ (C172_even k [s])
        refine Nat.card_congr (Equiv.subtypeEquivRight fun u => and_congr_right fun _ => exists_congr fun r' => ?_)
        rw [← hone (ofBytes u) s r']
        rfl
      have e : {u : Bytes // u.length = 32 * k} ≃
          (Σ s : Fn, {u : Bytes // u.length = 32 * k ∧ ∃ r', Scalar.random (ofBytes u) = .ok (s, r') ∧ r'.pos ≤ 32 * k}) ⊕
          {u : Bytes // u.length = 32 * k ∧ ¬ ∃ s r', Scalar.random (ofBytes u) = .ok (s, r') ∧ r'.pos ≤ 32 * k} := by
        refine (Equiv.ofBijective (fun x => match x with
          | .inl y => ⟨y.2.1, y.2.2.1⟩
          | .inr y => ⟨y.1, y.2.1⟩) ⟨?_, ?_⟩).symm
        · rintro (⟨s, u, hu⟩ | ⟨u, hu⟩) (⟨s', u', hu'⟩ | ⟨u', hu'⟩) h
          · obtain rfl : u = u' := congrArg Subtype.val h
            obtain ⟨-, r1, h1, -⟩ := hu
            obtain ⟨-, r2, h2, -⟩ := id hu'
            rw [h1, Res.ok.injEq, Prod.mk.injEq] at h2
            obtain ⟨rfl, -⟩ := h2
            rfl
          · obtain rfl : u = u' := congrArg Subtype.val h
            exact absurd ⟨s, hu.2⟩ hu'.2
          · obtain rfl : u = u' := congrArg Subtype.val h
            exact absurd ⟨s', hu'.2⟩ hu.2
          · obtain rfl : u = u' := congrArg Subtype.val h
            rfl
        · rintro ⟨u, hu⟩
          by_cases h : ∃ s r', Scalar.random (ofBytes u) = .ok (s, r') ∧ r'.pos ≤ 32 * k
          · obtain ⟨s, h⟩ := h
            exact ⟨.inl ⟨s, u, hu, h⟩, rfl⟩
          · exact ⟨.inr ⟨u, hu, h⟩, rfl⟩
      rw [Nat.card_congr e, Nat.card_sum, Nat.card_sigma, Finset.sum_congr rfl fun s _ => hc s, Finset.sum_const,
        Finset.card_univ, ZMod.card, smul_eq_mul]
    rw [card_length, ← count_one k, Nat.mul_comm n] at hsum
    omega
  · rw [Nat.pow_mul, Nat.pow_mul, ← Nat.mul_pow]
    exact Nat.pow_le_pow_left (by decide +kernel) k

/-- The first block of the stream is the scalar 5; the stream counts for the list `[5]`. -/
example : ∃ r', Poly.random (([5] : List Fn).length) (ofBytes (toBE 32 5)) = .ok ([5], r') ∧ r'.pos ≤ 32 * 1 := by
  have h := drawn_iff 1 [5] (ofBytes (toBE 32 5)) (List.replicate 32 0) (by simp)
  obtain ⟨r', h1, h2⟩ := h.2 (by
    rw [peek_ofBytes (by simp)]
    exact .inl ⟨by decide +kernel, by decide +kernel, trivial⟩)
  exact ⟨r', (draws_iff _ _ _).2 h1, by simpa [ofBytes] using h2⟩

/-- There are such streams: for one scalar and one block exactly one, for two blocks one for each second block and one for each first
block that is rejected. -/
example : count 1 1 = 1 ∧ count 2 1 = 256 ^ 32 + (256 ^ 32 - n) ∧ count 1 2 = 0 ∧ count 2 2 = 1 := by
  decide +kernel

end Verif
