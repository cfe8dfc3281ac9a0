import Verif.Spec.Randomness
import Verif.Props.Mega
import Verif.Lemmas.Dealings

/-! Generators that give prescribed scalars. -/

set_option autoImplicit false

namespace Verif

open Mega

/-- A key stream from which the given scalars are sampled, one after the other. -/
def streamOf (l : List Fn) (i : Nat) : UInt8 := (Scalar.serialize (l.getD (i / 32) 0)).getD (i % 32) 0

theorem random_streamOf (l : List Fn) (k : Nat) :
    Scalar.random ⟨streamOf l, 32 * k⟩ = .ok (l.getD k 0, ⟨streamOf l, 32 * (k + 1)⟩) := by
  refine ((C21_random_scalar _).1 _ _).2 ⟨0, by simp, ?_, by simp [Nat.mul_add]⟩
  rw [← Scalar.beVal_serialize]
  congr 1
  refine List.ext_getElem (by simp [Rng.candidate, Rng.block, Scalar.length_serialize]) fun i h1 h2 => ?_
  have hi : i < 32 := by simpa [Rng.candidate, Rng.block] using h1
  simp only [Rng.candidate, Rng.block, List.getElem_map, List.getElem_range, streamOf, Nat.mul_zero, Nat.add_zero]
  rw [show (32 * k + i) / 32 = k by omega, show (32 * k + i) % 32 = i by omega, List.getD_eq_getElem?_getD,
    List.getElem?_eq_getElem h2, Option.getD_some]

theorem randomCoeffs_streamOf (a cs b : List Fn) :
    Poly.randomCoeffs ⟨streamOf (a ++ (cs ++ b)), 32 * a.length⟩ cs.length =
      .ok (cs, ⟨streamOf (a ++ (cs ++ b)), 32 * (a.length + cs.length)⟩) := by
  induction cs generalizing a with
  | nil => rfl
  | cons c cs ih =>
    rw [List.length_cons, Poly.randomCoeffs, random_streamOf, Res.ok_bind]
    have h := ih (a ++ [c])
    have e : a ++ [c] ++ (cs ++ b) = a ++ (c :: cs ++ b) := by simp
    rw [e, List.length_append, List.length_singleton] at h
    simp only
    rw [h, Res.ok_bind]
    have hc : (a ++ (c :: cs ++ b)).getD a.length 0 = c := by
      rw [List.getD_eq_getElem?_getD, List.getElem?_append_right (le_refl _)]
      simp
    rw [hc, show a.length + 1 + cs.length = a.length + (cs.length + 1) by omega]

theorem poly_random_streamOf (a cs b : List Fn) {t : Int} (h : (cs.length : Int) = t) :
    Poly.random t ⟨streamOf (a ++ (cs ++ b)), 32 * a.length⟩ =
      .ok (cs, ⟨streamOf (a ++ (cs ++ b)), 32 * (a.length + cs.length)⟩) := by
  rw [Poly.random, if_neg (by omega), ← randomCoeffs_streamOf, show t.toNat = cs.length by omega]

theorem randomWithConstant_streamOf (s : Fn) (a cs b : List Fn) {t : Int} (h : ((s :: cs).length : Int) = t) :
    Poly.randomWithConstant s t ⟨streamOf (a ++ (cs ++ b)), 32 * a.length⟩ =
      .ok (s :: cs, ⟨streamOf (a ++ (cs ++ b)), 32 * (a.length + cs.length)⟩) := by
  rw [List.length_cons] at h
  rw [Poly.randomWithConstant, if_neg (by omega), if_neg (by omega), show t.toNat - 1 = cs.length by omega,
    randomCoeffs_streamOf, Res.ok_bind]

namespace Mega

/-- The ephemeral key and its proof, from the two samples. -/
theorem computeEphKeyAndPop_eq {P : Prim} {t : CType} {seed s s' : Seed} (ad : Bytes) (d : NodeIndex)
    (hs : seed.derive P t.ephemeralKeyDst = .ok s) (hs' : seed.derive P t.popProofDst = .ok s') {x y : Fn} {r r' : Rng}
    (hx : Scalar.random (s.rng P) = .ok (x, r)) (hy : Scalar.random (s'.rng P) = .ok (y, r')) :
    ∃ pub c, computeEphKeyAndPop P t seed ad d = .ok (x, x • G, pub, ⟨c, x * c + y⟩) := by
  obtain ⟨B, hB⟩ := computePopBase_ok P t ad d (Point.mulByG x)
  obtain ⟨c, hc⟩ := Zk.dlog_challenge_ok P (Zk.Dlog.fromWitness G B x) (Point.scalarMul G y) (Point.scalarMul B y) ad
  refine ⟨Point.scalarMul B x, c, ?_⟩
  simp only [computeEphKeyAndPop, hs, Res.ok_bind, Scalar.fromSeed, hx, hB, hs', Zk.Dlog.create, hy, hc]
  rfl

theorem single_encrypt_eq {P : Prim} {seed s s' : Seed} {pks : List Pt} {ms : List Fn} (d : NodeIndex) (ad : Bytes)
    (hne : pks ≠ []) (hl : ms.length = pks.length)
    (hs : seed.derive P CType.single.ephemeralKeyDst = .ok s) (hs' : seed.derive P CType.single.popProofDst = .ok s')
    {x y : Fn} {r r' : Rng} (hx : Scalar.random (s.rng P) = .ok (x, r)) (hy : Scalar.random (s'.rng P) = .ok (y, r')) :
    ∃ pub c cs, Single.encrypt P seed ms pks d ad = .ok ⟨x • G, pub, ⟨c, x * c + y⟩, cs⟩ := by
  have hc : checkPlaintexts ms pks = .ok () :=
    (checkPlaintexts_ok_iff _ _).2 ⟨hl, fun e => hne (List.length_eq_zero_iff.1 (by rw [← hl, e]; rfl))⟩
  obtain ⟨pub, c, hz⟩ := computeEphKeyAndPop_eq ad d hs hs' hx hy
  obtain ⟨cs, hcs, -⟩ := Single.encryptLoop_spec P d ad x (x • G) 0 pks ms hl
  exact ⟨pub, c, cs, by simp only [Single.encrypt, hc, Res.ok_bind, hz, hcs]⟩

theorem pair_encrypt_eq {P : Prim} {seed s s' : Seed} {pks : List Pt} {ms : List (Fn × Fn)} (d : NodeIndex) (ad : Bytes)
    (hne : pks ≠ []) (hl : ms.length = pks.length)
    (hs : seed.derive P CType.pairs.ephemeralKeyDst = .ok s) (hs' : seed.derive P CType.pairs.popProofDst = .ok s')
    {x y : Fn} {r r' : Rng} (hx : Scalar.random (s.rng P) = .ok (x, r)) (hy : Scalar.random (s'.rng P) = .ok (y, r')) :
    ∃ pub c cs, Pair.encrypt P seed ms pks d ad = .ok ⟨x • G, pub, ⟨c, x * c + y⟩, cs⟩ := by
  have hc : checkPlaintexts ms pks = .ok () :=
    (checkPlaintexts_ok_iff _ _).2 ⟨hl, fun e => hne (List.length_eq_zero_iff.1 (by rw [← hl, e]; rfl))⟩
  obtain ⟨pub, c, hz⟩ := computeEphKeyAndPop_eq ad d hs hs' hx hy
  obtain ⟨cs, hcs, -⟩ := Pair.encryptLoop_spec P d ad x (x • G) 0 pks ms hl
  exact ⟨pub, c, cs, by simp only [Pair.encrypt, hc, Res.ok_bind, hz, hcs]⟩

end Mega

/-- Deriving a seed is expansion with the label as separator. -/
theorem derive_key (P : Prim) (s : Seed) (l : Bytes) :
    ∃ s', s.derive P l = .ok s' ∧ Rfc9380.expandMessageXmd P.sha256 s.value l 32 = some s'.value := by
  obtain ⟨s', h1, -, h2⟩ := C22_seed_derivation.1 P s.value l
  exact ⟨s', h1, h2⟩

/-- Deriving a seed does not involve the key streams. -/
theorem derive_chacha (P : Prim) (st : Bytes → Nat → UInt8) (s : Seed) (l : Bytes) :
    s.derive { P with chacha20 := st } l = s.derive P l := by
  obtain ⟨a, h1, h2⟩ := derive_key { P with chacha20 := st } s l
  obtain ⟨b, h3, h4⟩ := derive_key P s l
  rw [h1, h3]
  have e : some a.value = some b.value := h2.symm.trans h4
  cases a
  cases b
  simp only [Option.some.injEq] at e
  rw [e]

end Verif
