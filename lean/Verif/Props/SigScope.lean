import Verif.Props.Sign

/-!
C182: for which derived keys and message hashes a signature is valid.
-/

set_option autoImplicit false

namespace Verif

open Dealings Sign

/-- The points a signature with this `r` may have been made with. -/
def NoncePoints (r : Fn) : Set Pt := {R | ∃ (x y : Fp) (h : OnCurve x y), R = Pt.mk x y h ∧ r = (x.val : Fn)}

theorem mem_noncePoints {r : Fn} {R : Pt} : R ∈ NoncePoints r ↔ R ≠ 0 ∧ r = ((Point.affineX R).val : Fn) := by
  constructor
  · rintro ⟨x, y, h, rfl, hr⟩
    exact ⟨by simp [Pt.mk], hr⟩
  · rintro ⟨h0, hr⟩
    induction R using Point.pt_cases with
    | h0 => exact absurd rfl h0
    | h1 x y h => exact ⟨x, y, h, rfl, hr⟩

theorem ecdsaValid_iff {Q : Pt} {e r s : Fn} :
    EcdsaValid Q e r s ↔ r ≠ 0 ∧ s ≠ 0 ∧ (e / s) • G + (r / s) • Q ∈ NoncePoints r := Iff.rfl

/-- The points with a given x coordinate. -/
theorem card_same_x (x : Fp) : {R : Pt | R ≠ 0 ∧ Point.affineX R = x}.ncard ≤ 2 := by
  rcases Set.eq_empty_or_nonempty {R : Pt | R ≠ 0 ∧ Point.affineX R = x} with h | ⟨R, hR0, hRx⟩
  · rw [h, Set.ncard_empty]
    exact Nat.zero_le _
  · refine (Set.ncard_le_ncard (t := {R, -R}) ?_ (Set.toFinite _)).trans ((Set.ncard_insert_le R {-R}).trans ?_)
    · rintro Q ⟨hQ0, hQx⟩
      rcases (affineX_eq_iff hQ0 hR0).1 (hQx.trans hRx.symm) with h | h
      · exact .inl h
      · exact .inr h
    · rw [Set.ncard_singleton]

theorem p_lt_two_n : p < 2 * n := by decide +kernel

theorem val_cases {x : Fp} {r : Fn} (h : r = (x.val : Fn)) :
    x = ((r.val : Nat) : Fp) ∨ (r.val + n < p ∧ x = ((r.val + n : Nat) : Fp)) := by
  have hx : x.val < p := ZMod.val_lt x
  have h2 := p_lt_two_n
  have hr : r.val = x.val % n := by rw [h, ZMod.val_natCast]
  have hd := Nat.div_add_mod x.val n
  have hq : x.val / n < 2 := Nat.div_lt_of_lt_mul (by rw [Nat.mul_comm]; omega)
  have h01 : ∀ q : Nat, q < 2 → q = 0 ∨ q = 1 := by omega
  rcases h01 _ hq with h0 | h1
  · left
    rw [h0, Nat.mul_zero, Nat.zero_add] at hd
    rw [hr, hd, ZMod.natCast_val, ZMod.cast_id]
  · right
    rw [h1, Nat.mul_one] at hd
    have e : r.val + n = x.val := by rw [hr, Nat.add_comm]; exact hd
    rw [e]
    exact ⟨hx, by rw [ZMod.natCast_val, ZMod.cast_id]⟩

/-- There are at most four such points, and at most two unless `r` is very small. -/
theorem card_noncePoints (r : Fn) : (NoncePoints r).ncard ≤ 4 ∧ (p ≤ r.val + n → (NoncePoints r).ncard ≤ 2) := by
  have h1 := card_same_x ((r.val : Nat) : Fp)
  have h2 := card_same_x ((r.val + n : Nat) : Fp)
  constructor
  · have hsub : NoncePoints r ⊆ {R : Pt | R ≠ 0 ∧ Point.affineX R = ((r.val : Nat) : Fp)} ∪
        {R : Pt | R ≠ 0 ∧ Point.affineX R = ((r.val + n : Nat) : Fp)} := by
      intro R hR
      obtain ⟨h0, hr⟩ := mem_noncePoints.1 hR
      rcases val_cases hr with h | ⟨-, h⟩
      · exact .inl ⟨h0, h⟩
      · exact .inr ⟨h0, h⟩
    have := (Set.ncard_le_ncard hsub (Set.toFinite _)).trans (Set.ncard_union_le _ _)
    omega
  · intro hp
    refine (Set.ncard_le_ncard ?_ (Set.toFinite _)).trans h1
    intro R hR
    obtain ⟨h0, hr⟩ := mem_noncePoints.1 hR
    rcases val_cases hr with h | ⟨h, -⟩
    · exact ⟨h0, h⟩
    · omega

/-- A signature is valid under two tweaked keys for hashes that differ by `r` times the difference of the tweaks. -/
theorem ecdsaValid_shift {pk : Pt} {t t' e r s : Fn} :
    EcdsaValid (t • G + pk) e r s ↔ EcdsaValid (t' • G + pk) (e + r * (t - t')) r s := by
  rw [ecdsaValid_iff, ecdsaValid_iff]
  have : (e / s) • G + (r / s) • (t • G + pk) = ((e + r * (t - t')) / s) • G + (r / s) • (t' • G + pk) := by
    simp only [div_eq_mul_inv]
    module
  rw [this]

/-- A derived key is the tweaked one. -/
theorem derivePublicKey_inv {P : Prim} {pk : Pt} {path : List Key.Index} {Q c : Bytes} (hd : derivePublicKey P (Point.serialize pk) path = .ok (Q, c)) :
    ∃ t, Key.deriveTweak P path pk = .ok (t, c) ∧ Q = Point.serialize (t • G + pk) := by
  rcases C30_no_failure P path pk with ⟨t, c1, ht⟩ | ht
  · rw [derivePublicKey_serialize ht] at hd
    cases hd
    exact ⟨t, ht, rfl⟩
  · simp only [derivePublicKey, Point.deserialize_serialize, Res.ok_bind, Point.ofRaw?_raw, ht, Res.diverge_bind] at hd
    cases hd

/-- C182 is false: a signature that `Verify` accepts is, under the public key of every other path, an ECDSA signature on some hash of
32 bytes, and this hash can be computed from the signature, the paths and the public key alone. -/
theorem C182_false (P : Prim) (path path' : List Key.Index) (hashedMsg randomness : Bytes) (keyT presigT : Option Com) (sig : Signature)
    (h : sig.verify P path hashedMsg randomness keyT presigT = .ok ()) (pk : Pt) (hpk : constantTerm keyT = .ok pk) (Q' c' : Bytes)
    (h' : derivePublicKey P (Point.serialize pk) path' = .ok (Q', c')) :
    ∃ (t t' : Fn) (c : Bytes) (other : Bytes), Key.deriveTweak P path pk = .ok (t, c) ∧ Key.deriveTweak P path' pk = .ok (t', c') ∧
      Q' = Point.serialize (t' • G + pk) ∧
      other = Scalar.serialize ((beVal hashedMsg : Fn) + sig.r * (t - t')) ∧ EcdsaValid (t' • G + pk) (hashNumber other) sig.r sig.s := by
  obtain ⟨pk1, Q, c, hpk1, hd, hv, -⟩ := C73_only_ecdsa P path hashedMsg randomness keyT presigT sig h
  rw [hpk] at hpk1
  obtain rfl := Res.ok.inj hpk1
  obtain ⟨t, ht, hQ⟩ := derivePublicKey_inv hd
  obtain ⟨t', ht', hQ'⟩ := derivePublicKey_inv h'
  refine ⟨t, t', c, _, ht, ht', hQ', rfl, ?_⟩
  rw [hashNumber, List.take_of_length_le (le_of_eq (Scalar.length_serialize _)), Scalar.beVal_serialize, ZMod.natCast_val, ZMod.cast_id,
    ← ecdsaValid_shift, ← Point.serialize_injective hQ]
  exact hv

/-- C182, the part that holds: under one key, a signature is valid for at most four hash values modulo the order of the group; on one
hash, it is valid under at most four keys, which are those that can be recovered from the signature; in both cases at most two unless
`r` is smaller than the difference of the two primes.  Between derived keys, the hashes correspond as in C182_false and in no other way. -/
theorem C182_scope_partial (r s : Fn) :
    (∀ Q : Pt, {e : Fn | EcdsaValid Q e r s}.ncard ≤ 4 ∧ (p ≤ r.val + n → {e : Fn | EcdsaValid Q e r s}.ncard ≤ 2)) ∧
    (∀ e : Fn, {Q : Pt | EcdsaValid Q e r s}.ncard ≤ 4 ∧ (p ≤ r.val + n → {Q : Pt | EcdsaValid Q e r s}.ncard ≤ 2)) ∧
    (∀ (Q : Pt) (e : Fn), EcdsaValid Q e r s ↔ r ≠ 0 ∧ s ≠ 0 ∧ ∃ R ∈ NoncePoints r, Q = (s / r) • R - (e / r) • G) ∧
    ∀ (pk : Pt) (t t' e : Fn), EcdsaValid (t • G + pk) e r s ↔ EcdsaValid (t' • G + pk) (e + r * (t - t')) r s := by
  have hc := card_noncePoints r
  have hash : ∀ Q : Pt, {e : Fn | EcdsaValid Q e r s}.ncard ≤ (NoncePoints r).ncard := by
    intro Q
    refine Set.ncard_le_ncard_of_injOn (fun e : Fn => (e / s) • G + (r / s) • Q) (fun e he => he.2.2) ?_ (Set.toFinite _)
    intro a ha b _ hab
    have hs : s ≠ 0 := ha.2.1
    have h1 : (a / s) • G = (b / s) • G := add_right_cancel hab
    exact (div_left_inj' hs).1 ((smul_left_inj G_ne_zero).1 h1)
  have pub : ∀ e : Fn, {Q : Pt | EcdsaValid Q e r s}.ncard ≤ (NoncePoints r).ncard := by
    intro e
    refine Set.ncard_le_ncard_of_injOn (fun Q : Pt => (e / s) • G + (r / s) • Q) (fun Q hQ => hQ.2.2) ?_ (Set.toFinite _)
    intro A hA B _ hAB
    have h1 : (r / s) • A = (r / s) • B := add_left_cancel hAB
    exact smul_right_injective Pt (div_ne_zero hA.1 hA.2.1) h1
  refine ⟨fun Q => ⟨(hash Q).trans hc.1, fun h => (hash Q).trans (hc.2 h)⟩, fun e => ⟨(pub e).trans hc.1, fun h => (pub e).trans (hc.2 h)⟩,
    fun Q e => ?_, fun pk t t' e => ecdsaValid_shift⟩
  rw [ecdsaValid_iff]
  refine and_congr_right fun hr => and_congr_right fun hs => ⟨fun h => ⟨_, h, ?_⟩, ?_⟩
  · have e1 : (s / r) * (r / s) = 1 := by field_simp
    have e2 : (s / r) * (e / s) = e / r := by field_simp
    rw [smul_add, smul_smul, smul_smul, e1, e2, one_smul, add_sub_cancel_left]
  · rintro ⟨R, hR, rfl⟩
    have e1 : (r / s) * (s / r) = 1 := by field_simp
    have e2 : (r / s) * (e / r) = e / s := by field_simp
    rw [smul_sub, smul_smul, smul_smul, e1, e2, one_smul, add_sub_cancel]
    exact hR

/-- A signature with nonce 1 under the key 1 on the number 1, and the number for which it is valid under the key 1 + 5. -/
example : EcdsaValid G 1 (Gx : Fn) (1 + (Gx : Fn)) ∧ EcdsaValid ((5 : Fn) • G + G) (1 - 5 * (Gx : Fn)) (Gx : Fn) (1 + (Gx : Fn)) := by
  have hr : (Gx : Fn) ≠ 0 := by decide +kernel
  have hs : 1 + (Gx : Fn) ≠ 0 := by decide +kernel
  have h : EcdsaValid G 1 (Gx : Fn) (1 + (Gx : Fn)) := by
    refine ⟨hr, hs, (Gx : Fp), (Gy : Fp), onCurve_of_nat G_onCurve_nat, ?_, ?_⟩
    · rw [← add_smul, ← add_div, div_self hs, one_smul]
      rfl
    · rw [ZMod.val_natCast_of_lt Gx_lt]
  refine ⟨h, ?_⟩
  have h0 : (0 : Fn) • G + G = G := by module
  have := (ecdsaValid_shift (pk := G) (t := 0) (t' := 5) (e := 1) (r := (Gx : Fn)) (s := 1 + (Gx : Fn))).1 (by rw [h0]; exact h)
  convert this using 1
  ring

/-- C192: the private keys of two paths under one master key differ by the difference of two numbers that everyone can compute from the public
master key: who knows one of them knows all, and with the empty path the master key. -/
theorem C192_one_for_all (P : Prim) (pk : Pt) (path path' : List Key.Index) (Q c Q' c' : Bytes)
    (h : derivePublicKey P (Point.serialize pk) path = .ok (Q, c)) (h' : derivePublicKey P (Point.serialize pk) path' = .ok (Q', c')) :
    ∃ t t', Key.deriveTweak P path pk = .ok (t, c) ∧ Key.deriveTweak P path' pk = .ok (t', c') ∧
      ∀ s : Fn, Point.serialize (s • G) = Q ↔ Point.serialize ((s - t + t') • G) = Q' := by
  obtain ⟨t, ht, rfl⟩ := derivePublicKey_inv h
  obtain ⟨t', ht', rfl⟩ := derivePublicKey_inv h'
  refine ⟨t, t', ht, ht', fun s => ?_⟩
  rw [Point.serialize_injective.eq_iff, Point.serialize_injective.eq_iff, add_smul, sub_smul, ← sub_eq_iff_eq_add', ← sub_eq_iff_eq_add' (b := t' • G),
    add_sub_cancel_right]

/-- C192, the master key: with the private key of any path one has the private key of the master key. -/
theorem C192_master (P : Prim) (pk : Pt) (path : List Key.Index) (Q c : Bytes) (h : derivePublicKey P (Point.serialize pk) path = .ok (Q, c)) :
    ∃ t, Key.deriveTweak P path pk = .ok (t, c) ∧ ∀ s : Fn, Point.serialize (s • G) = Q ↔ (s - t) • G = pk := by
  obtain ⟨t, ht, rfl⟩ := derivePublicKey_inv h
  refine ⟨t, ht, fun s => ?_⟩
  rw [Point.serialize_injective.eq_iff, sub_smul, sub_eq_iff_eq_add']

/-- If the hash is always 1, the private key of the path `[0], [1]` under the private key 1 is 3, and 1 is found again from it. -/
example : ∃ c t, derivePublicKey (constPrim (toBE 64 (2 ^ 256)) (by simp)) (Point.serialize G) [[0], [1]] =
      .ok (Point.serialize ((3 : Fn) • G), c) ∧
    Key.deriveTweak (constPrim (toBE 64 (2 ^ 256)) (by simp)) [[0], [1]] G = .ok (t, c) ∧ (3 - t) • G = G := by
  obtain ⟨t, ht, hK⟩ := C29_refines_bip32 _ _ _ _ _ derive_const
  have h3 : (3 : Fn) • G = t • G + G := by
    have e : (3 : Fn) • G = (3 : ℕ) • G := by rw [← Nat.cast_smul_eq_nsmul Fn]; norm_num
    rw [e, hK, add_comm]
    rfl
  have hd : derivePublicKey (constPrim (toBE 64 (2 ^ 256)) (by simp)) (Point.serialize G) [[0], [1]] =
      .ok (Point.serialize ((3 : Fn) • G), List.replicate 32 0) := by
    rw [derivePublicKey_serialize ht, h3]
  obtain ⟨t', ht', hs⟩ := C192_master _ _ _ _ _ hd
  exact ⟨_, t', hd, ht', (hs 3).1 rfl⟩

end Verif
