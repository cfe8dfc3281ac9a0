import Verif.Spec.Exact
import Verif.Props.Point
import Verif.Props.Commitment
import Verif.Props.Zk
import Verif.Props.Mega
import Verif.Props.Dealings
import Verif.Props.Sign

/-!
Additions to C05, C08, C09, C40, C46, C47, C80, C86 and C101: the result on every input, including those that the theorems
of the other files leave open.
-/

set_option autoImplicit false

namespace Verif

open Point in
/-- The decompression of the code is the specified one. -/
theorem decompressed_of (b : Bytes) (par : Nat) (hp : par = 0 ∨ par = 1) :
    Decompressed (beVal b : Fp) par (decompress b par) := by
  obtain ⟨h1, h2, -⟩ := decompress_spec b par
  by_cases hex : ∃ y, OnCurve (beVal b : Fp) y
  swap
  · push Not at hex
    exact Or.inr ⟨hex, h2 hex⟩
  obtain ⟨y, hy⟩ := hex
  have hy' : OnCurve (beVal b : Fp) (-y) := by rw [OnCurve, neg_sq]; exact hy
  have hpar := val_neg_parity (y_ne_zero hy)
  by_cases he : y.val % 2 = par
  · exact Or.inl ⟨y, hy, he, h1 y hy he⟩
  · have he' : (-y).val % 2 = par := by omega
    exact Or.inl ⟨-y, hy', he', h1 _ hy' he'⟩

/-- At most one point is the decompression of an abscissa and a parity. -/
theorem Decompressed.unique {x : Fp} {par : Nat} {r r' : RawPt} (h : Decompressed x par r) (h' : Decompressed x par r') :
    r = r' := by
  rcases h with ⟨y, hy, hp, rfl⟩ | ⟨hn, rfl⟩
  · rcases h' with ⟨y', hy', hp', rfl⟩ | ⟨hn', rfl⟩
    · rw [y_eq_of_parity hy hy' (hp.trans hp'.symm)]
    · exact absurd hy (hn' y)
  · rcases h' with ⟨y', hy', hp', rfl⟩ | ⟨hn', rfl⟩
    · exact absurd hy' (hn y')
    · rfl

namespace Point

/-! ### C05 -/

/-- C05, what `Deserialize` gives for every string: the identity for 33 zero bytes, the point with the encoded abscissa (modulo
`p`) and parity for 33 bytes beginning with 2 or 3 — the identity if there is none — and an error for every other string. -/
theorem C05_every_string_partial (b : Bytes) :
    (b = List.replicate 33 0 → deserialize K256 b = .ok (some .inf)) ∧
    (∀ t xb, b = t :: xb → xb.length = 32 → t = 2 ∨ t = 3 →
      ∃ r, deserialize K256 b = .ok (some r) ∧ Decompressed (beVal xb : Fp) (t.toNat % 2) r) ∧
    (¬ (b = List.replicate 33 0 ∨ ∃ t xb, b = t :: xb ∧ xb.length = 32 ∧ (t = 2 ∨ t = 3)) →
      (deserialize K256 b).isErr = true) := by
  have hp : pointBytes K256 = 33 := rfl
  refine ⟨fun h => by rw [h]; rfl, ?_, fun h => ?_⟩
  · rintro t xb rfl hl ht
    refine ⟨_, ?_, decompressed_of xb (t.toNat % 2) (by omega)⟩
    have hz : ¬ ((t :: xb).all (· == 0) = true) := by
      rw [List.all_cons]
      rcases ht with rfl | rfl <;> simp
    rw [deserialize, if_neg (by simp [hp, hl]), if_neg hz, if_neg]
    · simp only [deserializeAnyFormat, if_true, k256Deserialize_compressed t ht xb hl]
    · rcases ht with rfl | rfl <;> simp
  · rw [not_or] at h
    rw [deserialize]
    split
    · rfl
    rename_i hl
    rw [hp, ne_eq, not_not] at hl
    split
    · rename_i hz
      refine absurd ?_ h.1
      rw [List.eq_replicate_iff]
      exact ⟨hl, fun x hx => by simpa using (List.all_eq_true.1 hz) x hx⟩
    · rw [if_pos]
      · rfl
      · cases b with
        | nil => simp at hl
        | cons t xb =>
          have : ¬ (t = 2 ∨ t = 3) := fun ht => h.2 ⟨t, xb, rfl, by simpa using hl, ht⟩
          simpa [not_or] using this

/-- The first and third case, and both outcomes of the second, occur. -/
example : deserialize K256 (List.replicate 33 0) = .ok (some .inf) ∧ (deserialize K256 (4 :: toBE 32 1)).isErr = true ∧
    deserialize K256 (2 :: toBE 32 5) = .ok (some .inf) ∧ deserialize K256 (2 :: toBE 32 1) ≠ .ok (some .inf) := by
  decide +kernel

/-! ### C08, C09 -/

/-- C08, what the any-format decoder gives for every string that the property lists: the decompressed point for tags 2 and 3,
the point with an even ordinate for tag 5, unchecked coordinates for tag 4, and an error for every other string of at least
two bytes.  Missing: strings of at most one byte (`C08_any_format_partial`), and the check of tag 4. -/
theorem C08_every_string_partial (t : UInt8) (xs : Bytes) :
    (t = 2 ∨ t = 3 → xs.length = 32 →
      ∃ r, deserializeAnyFormat K256 (t :: xs) = .ok (some r) ∧ Decompressed (beVal xs : Fp) (t.toNat % 2) r) ∧
    (t = 5 → xs.length = 32 →
      ∃ r, deserializeAnyFormat K256 (t :: xs) = .ok (some r) ∧ Decompressed (beVal xs : Fp) 0 r) ∧
    (t = 4 → xs.length = 64 →
      deserializeAnyFormat K256 (t :: xs) = .ok (some (.aff (beVal (xs.take 32) : Fp) (beVal (xs.drop 32) : Fp)))) ∧
    (xs ≠ [] → ¬ ((t = 2 ∨ t = 3 ∨ t = 5) ∧ xs.length = 32) → ¬ (t = 4 ∧ xs.length = 64) →
      (deserializeAnyFormat K256 (t :: xs)).isErr = true) ∧
    (xs = [] → t = 2 ∨ t = 3 ∨ t = 4 ∨ t = 5 → (deserializeAnyFormat K256 (t :: xs)).isErr = true) := by
  have hd : ∀ b, deserializeAnyFormat K256 b = k256Deserialize b := fun b => rfl
  simp only [hd]
  refine ⟨fun ht hl => ⟨_, k256Deserialize_compressed t ht xs hl, decompressed_of xs _ (by omega)⟩, ?_, ?_, ?_, ?_⟩
  · rintro rfl hl
    exact ⟨_, k256Deserialize_compact xs hl, decompressed_of xs 0 (Or.inl rfl)⟩
  · rintro rfl hl
    have h := k256Deserialize_uncompressed (xs.take 32) (xs.drop 32) (by simp [hl]) (by simp [hl])
    rwa [List.take_append_drop] at h
  · intro hne h1 h4
    have hm : (t :: xs).length ≠ Encode.messageLen t := by
      rw [Encode.messageLen, List.length_cons]
      have := List.length_pos_of_ne_nil hne
      split_ifs with a b c
      · exact fun e => h1 ⟨by rcases a with a | a <;> simp [a], by omega⟩
      · exact fun e => h4 ⟨b, by omega⟩
      · exact fun e => h1 ⟨by simp [c], by omega⟩
      · omega
    simp only [k256Deserialize, Encode.fromBytes, hm, if_true, ne_eq, not_false_eq_true]
    rfl
  · rintro rfl ht
    rcases ht with rfl | rfl | rfl | rfl <;> rfl

/-- C09: what the CBOR decoder does with the bytes it has been given: the first one is dropped unseen, the rest is decoded in any
format, and the identity makes it panic. -/
theorem C09_every_string_partial :
    (unmarshalTagged []).isPanic = true ∧
    ∀ (t : UInt8) (rest : Bytes),
      (∀ r, unmarshalTagged (t :: rest) = .ok r ↔ deserializeAnyFormat K256 rest = .ok (some r)) ∧
      ((unmarshalTagged (t :: rest)).isErr = true ↔ (deserializeAnyFormat K256 rest).isErr = true) ∧
      ((unmarshalTagged (t :: rest)).isPanic = true ↔ rest = [0] ∨ (deserializeAnyFormat K256 rest).isPanic = true) := by
  refine ⟨rfl, fun t rest => ?_⟩
  have hn := (C08_any_format_partial rest).2.1
  have hd : deserializeAnyFormat K256 rest = k256Deserialize rest := rfl
  rw [← hn, hd, unmarshalTagged]
  rcases k256Deserialize rest with (_ | r) | e | e | _ <;> simp [Res.isErr, Res.isPanic]

end Point

/-! ### C40 -/

open Point in
/-- C40 for Pedersen commitments: what a returned commitment commits to is the first `num` coefficients of both. -/
theorem C40_pedersen_prefix_partial (values masking : List Fn) (num : Int) (c : Commitment)
    (h : Commitment.createPedersen values masking num = .ok c) (hnum : 1 ≤ num) (i : NodeIndex) :
    c.evaluateAt i = .ok (Poly.evaluateAt (values.take num.toNat) (Scalar.fromNodeIndex i) • G +
      Poly.evaluateAt (masking.take num.toNat) (Scalar.fromNodeIndex i) • H) := by
  have hc := Commitment.createPedersen_eq_ok h
  have ht : ∀ poly : List Fn, toPoly ((List.range num.toNat).map (Poly.coeff poly)) = toPoly (poly.take num.toNat) := by
    intro poly
    rw [show (List.range num.toNat).map (Poly.coeff poly) = truncate poly num.toNat from rfl, toPoly_eq_iff]
    intro j
    rw [coeff_truncate, Poly.coeff_eq_getD, Poly.coeff_eq_getD]
    by_cases hj : j < num.toNat <;> simp [hj]
  rw [hc, Commitment.evaluateAt_eq (by simp; omega), Commitment.evalLoop_pedersen]
  simp only [List.map_map, Function.comp_def, Poly.evaluateAt_eq, ht, Commitment.pedersen_eq]

/-- C40: without coefficients there is nothing to evaluate: a commitment made with `num ≤ 0` (for zero polynomials) panics. -/
theorem C40_no_coefficients_partial (values masking : List Fn) (num : Int) (hnum : num ≤ 0) (i : NodeIndex) :
    (∀ c, Commitment.createSimple values num = .ok c → (c.evaluateAt i).isPanic = true) ∧
    ∀ c, Commitment.createPedersen values masking num = .ok c → (c.evaluateAt i).isPanic = true := by
  have h0 : num.toNat = 0 := by omega
  refine ⟨fun c h => ?_, fun c h => ?_⟩
  · exact Commitment.evaluateAt_nil (by rw [Commitment.createSimple_eq_ok h, h0]; rfl) i
  · exact Commitment.evaluateAt_nil (by rw [Commitment.createPedersen_eq_ok h, h0]; rfl) i

example : ∃ c, Commitment.createPedersen [1, 2] [3] 2 = .ok c := by
  rw [Commitment.createPedersen, if_neg (by decide +kernel)]
  exact ⟨_, rfl⟩

example : ∃ c, Commitment.createSimple [0] 0 = .ok c := by
  rw [Commitment.createSimple, if_neg (by decide +kernel)]
  exact ⟨_, rfl⟩

/-! ### C46, C47 -/

namespace Zk

/-- C46: `Create` never fails; it returns exactly when its generator does. -/
theorem C46_create_total (P : Prim) (seed : Seed) (s m : Fn) (ad : Bytes) :
    (EqOpen.create P seed s m ad).isErr = false ∧ (EqOpen.create P seed s m ad).isPanic = false ∧
    (EqOpen.create P seed s m ad = .diverge ↔ Scalar.random (seed.rng P) = .diverge) := by
  have h0 := C21_random_scalar (seed.rng P)
  rcases hr : Scalar.random (seed.rng P) with ⟨r, r'⟩ | e | e | _
  · obtain ⟨pf, hpf⟩ := (C46_equal_openings_completeness P seed s m ad).2 r r' hr
    rw [hpf]
    simp [Res.isErr, Res.isPanic]
  · rw [hr] at h0; simp [Res.isErr] at h0
  · rw [hr] at h0; simp [Res.isPanic] at h0
  · simp [EqOpen.create, hr, Res.isErr, Res.isPanic]

/-- C47: `Create` never fails; it returns if the generator gives two scalars, and only then. -/
theorem C47_create_total (P : Prim) (seed : Seed) (l r rm pr pm : Fn) (ad : Bytes) :
    (Product.create P seed l r rm pr pm ad).isErr = false ∧ (Product.create P seed l r rm pr pm ad).isPanic = false ∧
    ((∃ pf, Product.create P seed l r rm pr pm ad = .ok pf) ↔
      ∃ x y g1 g2, Scalar.random (seed.rng P) = .ok (x, g1) ∧ Scalar.random g1 = .ok (y, g2)) := by
  refine ⟨?_, ?_, fun ⟨pf, h⟩ => ?_, fun ⟨x, y, g1, g2, h1, h2⟩ => ?_⟩
  · rcases product_create_cases P seed l r rm pr pm ad with ⟨pf, h⟩ | h <;> rw [h] <;> rfl
  · rcases product_create_cases P seed l r rm pr pm ad with ⟨pf, h⟩ | h <;> rw [h] <;> rfl
  · rw [Product.create] at h
    dsimp only at h
    obtain ⟨⟨x, g1⟩, h1, h⟩ := Res.bind_eq_ok.1 h
    obtain ⟨⟨y, g2⟩, h2, h⟩ := Res.bind_eq_ok.1 h
    exact ⟨x, y, g1, g2, h1, h2⟩
  · obtain ⟨c, hc⟩ := prod_challenge_ok P (Product.fromWitness l r rm pr pm)
      (Point.scalarMul (Product.fromWitness l r rm pr pm).g x)
      (Point.mulPoints (Product.fromWitness l r rm pr pm).rhsCom x (Product.fromWitness l r rm pr pm).h y) ad
    simp only [Product.create, h1, h2, Res.ok_bind, hc]
    exact ⟨_, rfl⟩

end Zk

/-! ### C80 -/

/-- C80: in all other cases `VerifyIs` returns an error. -/
theorem C80_otherwise_error (t : Mega.CType) (curve : CurveType) :
    (∀ ct : Mega.Ciphertext Fn, ¬ (t = .single ∧ curve = K256) → (Mega.Single.verifyIs ct t curve).isErr = true) ∧
    (∀ ct : Mega.Ciphertext (Fn × Fn), ¬ (t = .pairs ∧ curve = K256) → (Mega.Pair.verifyIs ct t curve).isErr = true) := by
  constructor <;> intro ct h
  · rw [Mega.Single.verifyIs]
    split_ifs with h1 h2
    · rfl
    · rfl
    · exact absurd ⟨(not_not.1 h2).symm, (not_not.1 h1).symm⟩ h
  · rw [Mega.Pair.verifyIs]
    split_ifs with h1 h2
    · rfl
    · rfl
    · exact absurd ⟨(not_not.1 h2).symm, (not_not.1 h1).symm⟩ h

/-! ### C86 -/

namespace Dealings

/-- C86, `Secret.From` on every combination: shares only for a pointer to an opening that is alone or, if it is a simple one,
beside a pointer to a Pedersen opening; nil without an error when the first argument is nil or not a pointer; an error in all
other cases.  It never panics. -/
theorem C86_every_combination_partial (a b : Option OpeningBytes) :
    (secretFrom a b = .ok .nil ↔ (∀ v, a ≠ some (.simplePtr v)) ∧ ∀ v m, a ≠ some (.pedersenPtr v m)) ∧
    (∀ s, secretFrom a b = .ok (.ptr s) ↔
      (∃ v m, a = some (.pedersenPtr v m) ∧ b = none ∧ s = .reshareMasked v m) ∨
      ∃ l v m, a = some (.simplePtr l) ∧ b = some (.pedersenPtr v m) ∧ s = .unmaskedTimesMasked l v m) ∧
    (∀ v, secretFrom a b = .ok (.reshareUnmaskedVal v) ↔ a = some (.simplePtr v) ∧ b = none) ∧
    ((secretFrom a b).isErr = true ↔
      (∃ l o, a = some (.simplePtr l) ∧ b = some o ∧ ∀ v m, o ≠ .pedersenPtr v m) ∨
      ∃ v m o, a = some (.pedersenPtr v m) ∧ b = some o) ∧
    (secretFrom a b).isPanic = false := by
  rcases a with _ | (_ | _ | _ | _) <;> rcases b with _ | (_ | _ | _ | _) <;>
    simp [secretFrom, Res.isErr, Res.isPanic, eq_comm]

end Dealings

/-! ### C101 -/

namespace Sign

open Dealings

/-- C101: a negative threshold makes the combination panic, whatever the shares. -/
theorem C101_negative_threshold_false (P : Prim) (path : List Key.Index) (hashedMsg randomness : Bytes) (keyT presigT : Option Com)
    (d : Derived) (hd : deriveRho P hashedMsg randomness path keyT presigT = .ok d) (t : Int) (ht : t < 0) (shares : ShareMap) :
    (combine P path hashedMsg randomness keyT presigT t shares).isPanic = true := by
  rw [combine, if_neg (by omega), hd, Res.ok_bind, if_pos ht]
  rfl

/-- C101: the making of a share from a hash of at most 64 bytes returns exactly when the opening of the inverse mask is a
Pedersen opening or neither product opening is one; in the other cases it panics. -/
theorem C101_share_partial (P : Prim) (path : List Key.Index) (hashedMsg randomness : Bytes) (keyT presigT : Option Com)
    (d : Derived) (hd : deriveRho P hashedMsg randomness path keyT presigT = .ok d) (hm : hashedMsg.length ≤ 64)
    (l k x : Option Opening) :
    ((∃ v m, l = some (.pedersen v m)) ∨ ((∀ v m, k ≠ some (.pedersen v m)) ∧ ∀ v m, x ≠ some (.pedersen v m)) →
      ∃ sh, SigShare.new P path hashedMsg randomness keyT presigT l k x = .ok sh) ∧
    (¬ ((∃ v m, l = some (.pedersen v m)) ∨ ((∀ v m, k ≠ some (.pedersen v m)) ∧ ∀ v m, x ≠ some (.pedersen v m))) →
      (SigShare.new P path hashedMsg randomness keyT presigT l k x).isPanic = true) := by
  rw [SigShare.new, hd, Res.ok_bind, convertHash_eq hm, Res.ok_bind]
  rcases l with _ | (_ | _ | _ | _) <;> rcases k with _ | (_ | _ | _ | _) <;> rcases x with _ | (_ | _ | _ | _) <;>
    simp [nuOf, muOf, pedersenValue, Res.isPanic]

end Sign

end Verif
