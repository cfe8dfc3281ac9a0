import Verif.Props.Sign

/-!
C146: what two signatures made from one presignature reveal.
-/

set_option autoImplicit false

namespace Verif

open Dealings Mega Zk Complaints Sign

namespace Sign

/-- The solution for `x` of `k + δ₁ = ε₁ (e₁ + r₁ (τ₁ + x)) / s₁` and `k + δ₂ = ε₂ (e₂ + r₂ (τ₂ + x)) / s₂`. -/
def candidate (ε₁ ε₂ : Fn) (sig₁ sig₂ : Signature) (e₁ e₂ : Fn) (d₁ d₂ : Derived) : Fn :=
  (ε₂ * (e₂ + sig₂.r * d₂.keyTweak) / sig₂.s - d₂.randomizer - ε₁ * (e₁ + sig₁.r * d₁.keyTweak) / sig₁.s + d₁.randomizer) /
    (ε₁ * sig₁.r / sig₁.s - ε₂ * sig₂.r / sig₂.s)

/-- The master key from public values: two signatures, the numbers of the messages, and the results of `DeriveRho`.  The four
choices of signs are tried against the public key. -/
def recoverKey (pk : Pt) (sig₁ sig₂ : Signature) (e₁ e₂ : Fn) (d₁ d₂ : Derived) : Option Fn :=
  [candidate 1 1 sig₁ sig₂ e₁ e₂ d₁ d₂, candidate 1 (-1) sig₁ sig₂ e₁ e₂ d₁ d₂, candidate (-1) 1 sig₁ sig₂ e₁ e₂ d₁ d₂,
    candidate (-1) (-1) sig₁ sig₂ e₁ e₂ d₁ d₂].find? fun x => x • G = pk

/-- The equation of an accepted signature, up to sign. -/
theorem nonce_equation {P : Prim} {sig : Signature} {path : List Key.Index} {m rn : Bytes} {keyT presigT : Option Com} {x k : Fn}
    (hx : constantTerm keyT = .ok (x • G)) (hk : preSigOf presigT = .ok (k • G))
    (h : sig.verify P path m rn keyT presigT = .ok ()) : ∃ d ε, deriveRho P m rn path keyT presigT = .ok d ∧ (ε = 1 ∨ ε = -1) ∧
      sig.r ≠ 0 ∧ sig.s ≠ 0 ∧ k + d.randomizer = ε * ((beVal m : Fn) + sig.r * (d.keyTweak + x)) / sig.s := by
  obtain ⟨hr, hs, hm, d, pk, hd, hpk, hrho, hlow, hne, hX⟩ := (verify_iff ..).1 h
  rw [hx] at hpk
  obtain rfl := Res.ok.inj hpk
  obtain ⟨pre, pk', c, h1, h2, h3, h4, h5, h6⟩ := deriveRho_ok hd
  rw [hk] at h1
  obtain rfl := Res.ok.inj h1
  have hR : d.randomizedPresig ≠ 0 := by
    intro h0
    apply hr
    rw [hrho, h6, h0]
    decide +kernel
  have eL : ((beVal m : Fn) / sig.s) • G + (sig.r / sig.s) • (d.keyTweak • G + x • G) =
      (((beVal m : Fn) + sig.r * (d.keyTweak + x)) / sig.s) • G := by
    rw [← add_smul, smul_smul, ← add_smul]
    congr 1
    ring
  have eR : d.randomizedPresig = (k + d.randomizer) • G := by rw [h5, add_smul]
  rw [eL] at hX hne
  rcases (affineX_eq_iff hne hR).1 hX with h7 | h7
  · refine ⟨d, 1, hd, Or.inl rfl, hr, hs, ?_⟩
    rw [eR] at h7
    rw [one_mul, (smul_left_inj G_ne_zero).1 h7]
  · refine ⟨d, -1, hd, Or.inr rfl, hr, hs, ?_⟩
    rw [eR, ← neg_smul] at h7
    have := (smul_left_inj G_ne_zero).1 h7
    rw [neg_one_mul, neg_div, this, neg_neg]

end Sign

/-- C146: two signatures accepted for the same key and the same presignature, whatever the messages, random values and derivation
paths, give the master key away, unless the ratios `r/s` agree up to sign. -/
theorem C146_presignature_reuse (P : Prim) (keyT presigT : Option Com) (x : Fn) (hx : constantTerm keyT = .ok (x • G))
    (path₁ path₂ : List Key.Index) (m₁ m₂ rn₁ rn₂ : Bytes) (sig₁ sig₂ : Signature)
    (h₁ : sig₁.verify P path₁ m₁ rn₁ keyT presigT = .ok ()) (h₂ : sig₂.verify P path₂ m₂ rn₂ keyT presigT = .ok ())
    (hne : sig₁.r / sig₁.s ≠ sig₂.r / sig₂.s) (hne' : sig₁.r / sig₁.s ≠ -(sig₂.r / sig₂.s)) :
    ∃ d₁ d₂, deriveRho P m₁ rn₁ path₁ keyT presigT = .ok d₁ ∧ deriveRho P m₂ rn₂ path₂ keyT presigT = .ok d₂ ∧
      recoverKey (x • G) sig₁ sig₂ (beVal m₁ : Fn) (beVal m₂ : Fn) d₁ d₂ = some x := by
  obtain ⟨k, hk⟩ : ∃ k : Fn, preSigOf presigT = .ok (k • G) := by
    obtain ⟨-, -, -, d, -, hd, -⟩ := (verify_iff ..).1 h₁
    obtain ⟨pre, -, -, hp, -⟩ := deriveRho_ok hd
    obtain ⟨k, rfl⟩ := exists_smul_eq G_ne_zero pre
    exact ⟨k, hp⟩
  obtain ⟨d₁, ε₁, hd₁, hε₁, hr₁, hs₁, e₁⟩ := nonce_equation hx hk h₁
  obtain ⟨d₂, ε₂, hd₂, hε₂, hr₂, hs₂, e₂⟩ := nonce_equation hx hk h₂
  refine ⟨d₁, d₂, hd₁, hd₂, ?_⟩
  have hden : ε₁ * sig₁.r / sig₁.s - ε₂ * sig₂.r / sig₂.s ≠ 0 := by
    rw [mul_div_assoc, mul_div_assoc, sub_ne_zero]
    rcases hε₁ with rfl | rfl <;> rcases hε₂ with rfl | rfl
    · simpa using hne
    · simpa using hne'
    · intro h; apply hne'; rw [← neg_eq_iff_eq_neg]; simpa using h
    · simpa using hne
  have hc : candidate ε₁ ε₂ sig₁ sig₂ (beVal m₁ : Fn) (beVal m₂ : Fn) d₁ d₂ = x := by
    rw [candidate, div_eq_iff hden]
    have e : ε₁ * ((beVal m₁ : Fn) + sig₁.r * (d₁.keyTweak + x)) / sig₁.s - d₁.randomizer =
        ε₂ * ((beVal m₂ : Fn) + sig₂.r * (d₂.keyTweak + x)) / sig₂.s - d₂.randomizer := by
      rw [← e₁, ← e₂]; ring
    linear_combination -e
  have huniq : ∀ y : Fn, y • G = x • G ↔ y = x := fun y => smul_left_inj G_ne_zero
  have hfind : ∀ l : List Fn, x ∈ l → (l.find? fun y => y • G = x • G) = some x := by
    intro l hl
    cases hf : l.find? fun y => decide (y • G = x • G) with
    | none => exact absurd (List.find?_eq_none.1 hf x hl) (by simp)
    | some y => rw [(huniq y).1 (by simpa using List.find?_some hf)]
  refine hfind _ ?_
  rcases hε₁ with rfl | rfl <;> rcases hε₂ with rfl | rfl <;> simp [hc]

/-- The signature that three nodes make on a hash, with the shared secrets of `exSecrets` (key 6). -/
theorem Sign.exSignature (m : Bytes) (hm : m.length ≤ 64) (h0 : (beVal m : Fn) + Gx * 6 ≠ 0) : ∃ sh,
    HonestShares zeroPrim [] m [] exSecrets [0, 2, 7] sh ∧
    combine zeroPrim [] m [] (unmasked exSecrets.x) (unmasked exSecrets.kappa) 2 ([0, 2, 7].map fun i => (i, sh i)) =
      .ok ⟨Gx, lowOf ((beVal m : Fn) + Gx * 6)⟩ ∧
    (⟨Gx, lowOf ((beVal m : Fn) + Gx * 6)⟩ : Signature).verify zeroPrim [] m [] (unmasked exSecrets.x) (unmasked exSecrets.kappa) =
      .ok () := by
  obtain ⟨sh, hsh⟩ := honest_exist exSecrets rfl rfl m [] hm [0, 2, 7]
  obtain ⟨⟨r, s⟩, tw, rnd, c, h1, -, h3, h4, -, h5⟩ := C68_threshold_signature zeroPrim [] m [] exSecrets 2 6 1 1
    exSecrets_consistent [0, 2, 7] (by omega) (by simp) (by decide) sh hsh
  rw [zeroPrim_deriveRho m [] rfl rfl] at h3
  obtain ⟨e1, e2, e3, -⟩ := Derived.mk.inj (Res.ok.inj h3)
  rw [← e2, ← e3] at h4
  dsimp only at e1 h4 h5
  rw [← e1] at h1 h4 h5
  have hs := h4 (by simp)
  rw [add_zero, add_zero, div_one] at hs
  rw [hs] at h1 h5
  exact ⟨sh, hsh, h1, (h5 (by decide +kernel) (lowOf_ne_zero.2 h0)).1⟩

/-- From the signatures on the hashes 5 and 9, made with the same presignature, the key 6 is found. -/
example : ∃ d : Derived, deriveRho zeroPrim [5] [] [] (unmasked exSecrets.x) (unmasked exSecrets.kappa) = .ok d ∧
    recoverKey ((6 : Fn) • G) ⟨Gx, lowOf (5 + Gx * 6)⟩ ⟨Gx, lowOf (9 + Gx * 6)⟩ 5 9 d d = some 6 := by
  have b5 : ((beVal [5] : Nat) : Fn) = 5 := by decide +kernel
  have b9 : ((beVal [9] : Nat) : Fn) = 9 := by decide +kernel
  obtain ⟨-, -, -, h1⟩ := exSignature [5] (by simp) (by decide +kernel)
  obtain ⟨-, -, -, h2⟩ := exSignature [9] (by simp) (by decide +kernel)
  obtain ⟨d1, d2, e1, e2, h⟩ := C146_presignature_reuse zeroPrim _ _ 6
    (constantTerm_unmasked (show exSecrets.x.head? = some 6 from rfl)).1 [] [] [5] [9] [] [] _ _ h1 h2
    (by decide +kernel) (by decide +kernel)
  rw [zeroPrim_deriveRho _ _ rfl rfl] at e1 e2
  rw [← Res.ok.inj e1, ← Res.ok.inj e2, b5, b9] at h
  exact ⟨_, zeroPrim_deriveRho _ _ rfl rfl, h⟩

end Verif
