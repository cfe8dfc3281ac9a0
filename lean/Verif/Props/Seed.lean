import Verif.Lemmas.Random

/-!
Properties C19–C22: `ExpandMessageXmd`, seeds, random scalars.  `Rfc9380` is the transcription of the RFC in
`Verif.Spec.Rfc9380`.
-/

namespace Verif

open Scalar

/-! ### C19, C20 -/

/-- C19: for every hash function the result is the RFC's, has the requested length, and larger requests fail in both;
negative requests panic. -/
theorem C19_expand_message_xmd_rfc (P : Prim) (msg dst : Bytes) :
    (∀ len : Nat, len ≤ 8160 → ∃ out, Xmd.expandMessageXmd P msg dst len = .ok out ∧ out.length = len ∧
      Rfc9380.expandMessageXmd P.sha256 msg dst len = some out) ∧
    (∀ len : Int, 8160 < len → (Xmd.expandMessageXmd P msg dst len).isErr = true) ∧
    (∀ len : Nat, 8160 < len → Rfc9380.expandMessageXmd P.sha256 msg dst len = none) ∧
    (∀ len : Int, len < 0 → (Xmd.expandMessageXmd P msg dst len).isPanic = true) := by
  refine ⟨fun len h => ⟨_, expand_eq P msg dst len h, length_expand h (expand_eq P msg dst len h), ?_⟩,
    fun len h => ?_, fun len h => ?_, fun len h => ?_⟩
  · rw [Rfc9380.expandMessageXmd, if_neg]
    rw [Rfc9380.ell]; omega
  · simp [Xmd.expandMessageXmd, h]
  · rw [Rfc9380.expandMessageXmd, if_pos]
    rw [Rfc9380.ell]; omega
  · rw [Xmd.expandMessageXmd, if_neg (by omega)]
    dsimp only
    split_ifs <;> first | rfl | omega

example : ∃ out, Xmd.expandMessageXmd (Prim.ofHash (fun _ => List.replicate 32 7) (by simp)) [1] [2] 40 = .ok out ∧
    out.length = 40 := by
  obtain ⟨out, h1, h2, -⟩ :=
    (C19_expand_message_xmd_rfc (Prim.ofHash (fun _ => List.replicate 32 7) (by simp)) [1] [2]).1 40 (by norm_num)
  exact ⟨out, h1, h2⟩

/-- C20: with separators below 256 bytes the string hashed first determines message and separator. -/
theorem C20_first_preimage_injective (msg msg' dst dst' : Bytes) (len : Nat) (hd : dst.length < 256)
    (hd' : dst'.length < 256) (h : Rfc9380.msgPrime msg dst len = Rfc9380.msgPrime msg' dst' len) :
    msg = msg' ∧ dst = dst' := msgPrime_inj hd hd' h

/-- C20, observable form, for separators of any length: no two different (message, separator) pairs are confused,
i.e. some hash function gives them different outputs. -/
theorem C20_domain_separation (msg dst msg' dst' : Bytes) (len : Nat) (h0 : 0 < len) (hlen : len ≤ 8160)
    (hne : (msg, dst) ≠ (msg', dst')) :
    ∃ P : Prim, Xmd.expandMessageXmd P msg dst len ≠ Xmd.expandMessageXmd P msg' dst' len :=
  exists_prim_expand_ne msg dst msg' dst' len h0 hlen hne

/-- Moving a byte between message and separator is such a pair. -/
example : (([1, 2], [3]) : Bytes × Bytes) ≠ ([1], [2, 3]) := by decide

/-! ### C22 -/

/-- C22: every constructor returns a 32-byte seed (never an error or a panic) which is a function of its arguments;
deriving from different (seed, label) pairs is told apart by some hash function. -/
theorem C22_seed_derivation :
    (∀ (P : Prim) (input dst : Bytes), ∃ s, Seed.new P input dst = .ok s ∧ s.value.length = 32 ∧
      Rfc9380.expandMessageXmd P.sha256 input dst 32 = some s.value) ∧
    (∀ (P : Prim) (b : Bytes), ∃ s, Seed.fromBytes P b = .ok s ∧ s.value.length = 32) ∧
    (∀ (P : Prim) (s : Seed) (l : Bytes), ∃ s', Seed.derive P s l = .ok s' ∧ s'.value.length = 32) ∧
    (∀ (P : Prim) (r : Rng), ∃ s, Seed.fromRng P r = .ok (s, { r with pos := r.pos + 32 }) ∧ s.value.length = 32) ∧
    (∀ (P : Prim) (r : Rng), ∃ s, Seed.fromRandomness P r = .ok (s, { r with pos := r.pos + 32 }) ∧
      s.value.length = 32) ∧
    (∀ (s s' : Seed) (l l' : Bytes), (s, l) ≠ (s', l') → ∃ P : Prim, Seed.derive P s l ≠ Seed.derive P s' l') := by
  have hnew : ∀ (P : Prim) (input dst : Bytes), ∃ s, Seed.new P input dst = .ok s ∧ s.value.length = 32 ∧
      Xmd.expandMessageXmd P input dst 32 = .ok s.value ∧
      Rfc9380.expandMessageXmd P.sha256 input dst 32 = some s.value := by
    intro P input dst
    obtain ⟨out, h1, h2, h3⟩ := (C19_expand_message_xmd_rfc P input dst).1 32 (by norm_num)
    have h1' : Xmd.expandMessageXmd P input dst 32 = .ok out := h1
    have hc : copyInto 32 out = out := by simp [copyInto, ← h2]
    refine ⟨⟨out⟩, ?_, h2, h1', h3⟩
    rw [Seed.new, h1']
    simp only [hc]
  refine ⟨fun P i d => ?_, fun P b => ?_, fun P s l => ?_, fun P r => ?_, fun P r => ?_, fun s s' l l' hne => ?_⟩
  · obtain ⟨s, h1, h2, -, h3⟩ := hnew P i d; exact ⟨s, h1, h2, h3⟩
  · obtain ⟨s, h1, h2, -⟩ := hnew P b (ascii "ic-crypto-seed-from-bytes"); exact ⟨s, h1, h2⟩
  · obtain ⟨s, h1, h2, -⟩ := hnew P s.value l; exact ⟨s, h1, h2⟩
  · obtain ⟨s, h1, h2, -⟩ := hnew P (r.xorKeyStream (List.replicate 32 0)).1 (ascii "ic-crypto-seed-from-rng")
    refine ⟨s, ?_, h2⟩
    simp only [Seed.fromRng, h1, Res.ok_bind]
    simp [Rng.xorKeyStream]
  · obtain ⟨s, h1, h2, -⟩ := hnew P (r.xorKeyStream (List.replicate 32 0)).1 (ascii "ic-crypto-seed-from-randomness")
    refine ⟨s, ?_, h2⟩
    simp only [Seed.fromRandomness, h1, Res.ok_bind]
    simp [Rng.xorKeyStream]
  · obtain ⟨P, hP⟩ := exists_prim_expand_ne s.value l s'.value l' 32 (by norm_num) (by norm_num) (by
      intro h
      apply hne
      simp only [Prod.mk.injEq] at h
      cases s; cases s'
      simp only at h
      rw [h.1, h.2])
    refine ⟨P, fun heq => hP ?_⟩
    obtain ⟨a, h1, -, h2, -⟩ := hnew P s.value l
    obtain ⟨b, h1', -, h2', -⟩ := hnew P s'.value l'
    have e1 : Seed.derive P s l = .ok a := h1
    have e2 : Seed.derive P s' l' = .ok b := h1'
    rw [e1, e2] at heq
    simp only [Res.ok.injEq] at heq
    rw [show ((32 : Nat) : Int) = 32 from rfl, h2, h2', heq]

example : (((⟨List.replicate 32 1⟩ : Seed), ascii "label1")) ≠ (⟨List.replicate 32 1⟩, ascii "label2") := by
  decide +kernel

/-! ### C21 -/

/-- Block `j` of 32 bytes of a generator's stream. -/
def Rng.block (r : Rng) (j : Nat) : Bytes := (List.range 32).map fun i => r.stream (r.pos + 32 * j + i)

/-- The candidates of the rejection sampling: the XOR of the first `k+1` blocks (the buffer is not cleared between
attempts). -/
def Rng.candidate (r : Rng) : Nat → Bytes
  | 0 => r.block 0
  | k + 1 => List.zipWith (· ^^^ ·) (r.candidate k) (r.block (k + 1))

theorem zipWith_zero_xor (b : Bytes) (k : Nat) (h : b.length = k) :
    List.zipWith (· ^^^ ·) (List.replicate k 0) b = b := by
  induction b generalizing k with
  | nil => subst h; rfl
  | cons x xs ih =>
    subst h
    simp [List.replicate_succ, ih]

theorem bufAfter_eq (r : Rng) (k : Nat) :
    bufAfter r (List.replicate 32 0) (k + 1) = (r.candidate k, { r with pos := r.pos + 32 * (k + 1) }) := by
  have hlen : ∀ k, (r.candidate k).length = 32 := by
    intro k
    induction k with
    | zero => simp [Rng.candidate, Rng.block]
    | succ k ih => simp [Rng.candidate, Rng.block, ih]
  induction k with
  | zero =>
    simp only [bufAfter, Rng.xorKeyStream, List.length_replicate]
    rw [zipWith_zero_xor _ _ (Rng.length_peek _ _)]
    simp [Rng.candidate, Rng.block, Rng.peek]
  | succ k ih =>
    rw [bufAfter, ih]
    simp only [Rng.xorKeyStream, hlen, Rng.candidate]
    refine Prod.ext ?_ ?_
    · simp only [Rng.peek, Rng.block]
    · simp only [Rng.mk.injEq, true_and]; ring

/-- C21: `Random` returns exactly when some candidate is below the group order, and then returns the first such
candidate, having consumed exactly the candidates up to it; otherwise it loops for ever; it never fails or panics. -/
theorem C21_random_scalar (r : Rng) :
    (∀ s r', random r = .ok (s, r') ↔ ∃ k, (∀ j < k, n ≤ beVal (r.candidate j)) ∧
      beVal (r.candidate k) = s.val ∧ r' = { r with pos := r.pos + 32 * (k + 1) }) ∧
    (random r = .diverge ↔ ∀ k, n ≤ beVal (r.candidate k)) ∧
    (random r).isErr = false ∧ (random r).isPanic = false := by
  have hlen : ∀ k, (r.candidate k).length = 32 := by
    intro k
    induction k with
    | zero => simp [Rng.candidate, Rng.block]
    | succ k ih => simp [Rng.candidate, Rng.block, ih]
  have hdes : ∀ k s, deserialize K256 (r.candidate k) = .ok (some s) ↔ beVal (r.candidate k) = s.val := by
    intro k s
    have hk := hlen k
    have hd : deserialize K256 (r.candidate k) = if beVal (r.candidate k) < n then
        .ok (some (beVal (r.candidate k) : Fn)) else .err "invalid byte sequence" := by
      simp only [deserialize, k256Deserialize_eq, hk]
      by_cases h : beVal (r.candidate k) < n <;> simp [h]
    rw [hd]
    by_cases h : beVal (r.candidate k) < n
    · simp only [h, if_true, Res.ok.injEq, Option.some.injEq]
      constructor
      · intro e; rw [← e, val_natCast_of_lt h]
      · intro e; rw [e, ZMod.natCast_val, ZMod.cast_id]
    · simp only [h, if_false, reduceCtorEq, false_iff]
      intro e; rw [e] at h; exact h (ZMod.val_lt s)
  have hfail : ∀ k, (∀ t, deserialize K256 (r.candidate k) ≠ .ok (some t)) ↔ n ≤ beVal (r.candidate k) := by
    intro k
    constructor
    · intro h
      by_contra hlt
      push Not at hlt
      exact h _ ((hdes k (beVal (r.candidate k) : Fn)).2 (val_natCast_of_lt hlt).symm)
    · intro h t ht
      rw [hdes] at ht
      have := ZMod.val_lt t
      omega
  have hloop : ∀ s r', randomLoop r (List.replicate 32 0) = some (s, r') ↔
      ∃ k, (∀ j < k, n ≤ beVal (r.candidate j)) ∧
      beVal (r.candidate k) = s.val ∧ r' = { r with pos := r.pos + 32 * (k + 1) } := by
    intro s r'
    rw [randomLoop_iff]
    simp only [bufAfter_eq, hdes, hfail]
  refine ⟨fun s r' => ?_, ?_, ?_, ?_⟩
  · rw [← hloop, random]
    cases h : randomLoop r (List.replicate 32 0) <;> simp
  · rw [random]
    cases h : randomLoop r (List.replicate 32 0) with
    | none =>
      simp only [true_iff]
      by_contra hex
      push Not at hex
      obtain ⟨k, hk, hmin⟩ : ∃ k, beVal (r.candidate k) < n ∧ ∀ j < k, n ≤ beVal (r.candidate j) := by
        obtain ⟨k0, hk0⟩ := hex
        induction k0 using Nat.strong_induction_on with
        | _ k0 ih =>
          by_cases hall : ∀ j < k0, n ≤ beVal (r.candidate j)
          · exact ⟨k0, hk0, hall⟩
          · push Not at hall
            obtain ⟨j, hj, hlt⟩ := hall
            exact ih j hj hlt
      have := (hloop (beVal (r.candidate k) : Fn) _).2 ⟨k, hmin, (val_natCast_of_lt hk).symm, rfl⟩
      rw [h] at this; cases this
    | some x =>
      obtain ⟨s, r'⟩ := x
      obtain ⟨k, -, h2, -⟩ := (hloop s r').1 h
      simp only [reduceCtorEq, false_iff]
      intro hall
      have := hall k
      rw [h2] at this
      have := ZMod.val_lt s
      omega
  · rw [random]; split <;> rfl
  · rw [random]; split <;> rfl

/-- A stream whose first candidate is rejected and second accepted, and one that is rejected for ever. -/
example : (∃ s r', random ⟨fun i => if i < 64 then 255 else 0, 0⟩ = .ok (s, r')) ∧
    random ⟨fun i => if i < 32 then 255 else 0, 0⟩ = .diverge := by
  constructor
  · refine ⟨0, _, ((C21_random_scalar _).1 0 _).2 ⟨1, ?_, ?_, rfl⟩⟩
    · intro j hj
      obtain rfl : j = 0 := by omega
      decide +kernel
    · decide +kernel
  · rw [(C21_random_scalar _).2.1]
    have h0 : ∀ k, (Rng.mk (fun i => if i < 32 then 255 else 0) 0).candidate k = List.replicate 32 255 := by
      intro k
      induction k with
      | zero => decide +kernel
      | succ k ih =>
        rw [Rng.candidate, ih]
        have : (Rng.mk (fun i => if i < 32 then 255 else 0) 0).block (k + 1) = List.replicate 32 0 := by
          rw [List.eq_replicate_iff]
          refine ⟨by simp [Rng.block], ?_⟩
          intro b hb
          simp only [Rng.block, List.mem_map] at hb
          obtain ⟨i, -, rfl⟩ := hb
          rw [if_neg (by omega)]
        rw [this]; decide +kernel
    intro k
    rw [h0]; decide +kernel

end Verif
