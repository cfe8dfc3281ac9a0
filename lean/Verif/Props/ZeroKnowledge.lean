import Verif.Props.Zk
import Verif.Lemmas.Randomness
import Verif.Spec.ZeroKnowledge

/-!
Property C128: proofs show nothing but that they are accepted.  For a true statement, each accepted proof is made by `Create`
from each witness, with exactly one choice of nonces; so with uniform nonces the proof that comes out does not depend on the
witness, and given the challenge it is uniform among the accepted ones.
-/

set_option autoImplicit false

namespace Verif

open Zk

/-- Every scalar can be drawn, whatever the seed. -/
theorem exists_draws (P : Prim) (seed : Seed) (r1 r2 : Fn) :
    ∃ streams, Draws (P.withStreams streams) seed r1 ∧ Draws2 (P.withStreams streams) seed r1 r2 := by
  have h1 := random_streamOf [r1, r2] 0
  have h2 := random_streamOf [r1, r2] 1
  exact ⟨fun _ => streamOf [r1, r2], ⟨_, h1⟩, _, _, h1, h2⟩

/-- C128, dlog equivalence: for every accepted proof of a true statement there is exactly one nonce for which `Create` makes
this proof (and `Create` makes it whenever this nonce is drawn). -/
theorem C128_dlog (P : Prim) (x : Fn) (g h : Pt) (ad : Bytes) (pf : Proof)
    (hv : Dlog.verify P pf g h (x • g) (x • h) ad = .ok ()) :
    ∃ r : Fn, ∀ (streams : Bytes → Nat → UInt8) (seed : Seed),
      Dlog.create (P.withStreams streams) seed x g h ad = .ok pf ↔ Draws (P.withStreams streams) seed r := by
  have hc := ((C48_verification_exact P ad).1 pf g h (x • g) (x • h)).1 hv
  obtain ⟨c, z⟩ := pf
  dsimp only at hc
  have e : ∀ k : Pt, z • k - c • x • k = (z - x * c) • k := fun k => by module
  rw [e, e] at hc
  refine ⟨z - x * c, fun streams seed => ⟨fun hcr => ?_, ?_⟩⟩
  · obtain ⟨⟨r, rng⟩, hr, hcr⟩ := Res.bind_eq_ok.1 hcr
    obtain ⟨c', hc'⟩ := dlog_challenge_ok (P.withStreams streams) (Dlog.fromWitness g h x) (Point.scalarMul g r)
      (Point.scalarMul h r) ad
    simp only [hc', Res.ok.injEq, Proof.mk.injEq] at hcr
    obtain ⟨rfl, rfl⟩ := hcr
    rw [add_sub_cancel_left]
    exact ⟨rng, hr⟩
  · rintro ⟨rng, hr⟩
    have hc' : Dlog.hashToChallenge (P.withStreams streams) (Dlog.fromWitness g h x) (Point.scalarMul g (z - x * c))
      (Point.scalarMul h (z - x * c)) ad = .ok c := hc
    simp only [Dlog.create, hr, Res.ok_bind, hc', Res.ok.injEq, Proof.mk.injEq, true_and]
    ring

/-- C128, equal openings. -/
theorem C128_equal_openings (P : Prim) (s m : Fn) (ad : Bytes) (pf : Proof)
    (hv : EqOpen.verify P pf (s • G + m • Point.H) (s • G) ad = .ok ()) :
    ∃ r : Fn, ∀ (streams : Bytes → Nat → UInt8) (seed : Seed),
      EqOpen.create (P.withStreams streams) seed s m ad = .ok pf ↔ Draws (P.withStreams streams) seed r := by
  have hc := ((C48_verification_exact P ad).2.1 pf _ _).1 hv
  obtain ⟨c, z⟩ := pf
  dsimp only at hc
  have e : z • Point.H - c • (s • G + m • Point.H - s • G) = (z - m * c) • Point.H := by module
  rw [e] at hc
  refine ⟨z - m * c, fun streams seed => ⟨fun hcr => ?_, ?_⟩⟩
  · obtain ⟨⟨r, rng⟩, hr, hcr⟩ := Res.bind_eq_ok.1 hcr
    obtain ⟨c', hc'⟩ := eq_challenge_ok (P.withStreams streams) (EqOpen.fromWitness s m)
      (Point.scalarMul (EqOpen.fromWitness s m).h r) ad
    simp only [hc', Res.ok_bind, Res.ok.injEq, Proof.mk.injEq] at hcr
    obtain ⟨rfl, rfl⟩ := hcr
    rw [add_sub_cancel_left]
    exact ⟨rng, hr⟩
  · rintro ⟨rng, hr⟩
    have hc' : EqOpen.hashToChallenge (P.withStreams streams) (EqOpen.fromWitness s m)
      (Point.scalarMul (EqOpen.fromWitness s m).h (z - m * c)) ad = .ok c := hc
    simp only [EqOpen.create, hr, Res.ok_bind, hc', Res.ok.injEq, Proof.mk.injEq, true_and]
    ring

/-- C128, products: here a statement has many witnesses (one for every second factor), and an accepted proof is made from
each of them, with exactly one pair of nonces. -/
theorem C128_product (P : Prim) (l r rm pm : Fn) (ad : Bytes) (pf : Product.Proof)
    (hv : Product.verify P pf (l • G) (r • G + rm • Point.H) ((l * r) • G + pm • Point.H) ad = .ok ()) :
    ∃ r1 r2 : Fn, ∀ (streams : Bytes → Nat → UInt8) (seed : Seed),
      Product.create (P.withStreams streams) seed l r rm (l * r) pm ad = .ok pf ↔
        Draws2 (P.withStreams streams) seed r1 r2 := by
  have hc := ((C48_verification_exact P ad).2.2 pf _ _ _).1 hv
  obtain ⟨c, z1, z2⟩ := pf
  dsimp only at hc
  have e1 : z1 • G - c • l • G = (z1 - l * c) • G := by module
  have e2 : z1 • (r • G + rm • Point.H) + z2 • Point.H - c • ((l * r) • G + pm • Point.H) =
      (z1 - l * c) • (r • G + rm • Point.H) + (z2 - (pm - l * rm) * c) • Point.H := by module
  rw [e1, e2] at hc
  refine ⟨z1 - l * c, z2 - (pm - l * rm) * c, fun streams seed => ⟨fun hcr => ?_, ?_⟩⟩
  · obtain ⟨⟨r1, rng⟩, hr, hcr⟩ := Res.bind_eq_ok.1 hcr
    obtain ⟨⟨r2, rng'⟩, hr2, hcr⟩ := Res.bind_eq_ok.1 hcr
    obtain ⟨c', hc', hcr⟩ := Res.bind_eq_ok.1 hcr
    simp only [Res.ok.injEq, Product.Proof.mk.injEq] at hcr
    obtain ⟨rfl, rfl, rfl⟩ := hcr
    rw [add_sub_cancel_left, add_sub_cancel_left]
    exact ⟨rng, rng', hr, hr2⟩
  · rintro ⟨rng, rng', hr, hr2⟩
    have hc' : Product.hashToChallenge (P.withStreams streams) (Product.fromWitness l r rm (l * r) pm)
      (Point.scalarMul (Product.fromWitness l r rm (l * r) pm).g (z1 - l * c))
      (Point.mulPoints (Product.fromWitness l r rm (l * r) pm).rhsCom (z1 - l * c)
        (Product.fromWitness l r rm (l * r) pm).h (z2 - (pm - l * rm) * c)) ad = .ok c := hc
    simp only [Product.create, hr, hr2, Res.ok_bind, hc', Res.ok.injEq, Product.Proof.mk.injEq, true_and]
    constructor <;> ring

/-- C128: what `Create` can return for a statement is the same for all witnesses of the statement, whatever the seed. -/
theorem C128_witness_independent (P : Prim) (seed : Seed) (l r rm pm l' r' rm' pm' : Fn) (ad : Bytes) (pf : Product.Proof)
    (hl : l • G = l' • G) (hr : r • G + rm • Point.H = r' • G + rm' • Point.H)
    (hp : (l * r) • G + pm • Point.H = (l' * r') • G + pm' • Point.H) :
    (∃ streams, Product.create (P.withStreams streams) seed l r rm (l * r) pm ad = .ok pf) ↔
      ∃ streams, Product.create (P.withStreams streams) seed l' r' rm' (l' * r') pm' ad = .ok pf := by
  have one : ∀ l r rm pm l' r' rm' pm' : Fn, l • G = l' • G → r • G + rm • Point.H = r' • G + rm' • Point.H →
      (l * r) • G + pm • Point.H = (l' * r') • G + pm' • Point.H →
      (∃ streams, Product.create (P.withStreams streams) seed l r rm (l * r) pm ad = .ok pf) →
      ∃ streams, Product.create (P.withStreams streams) seed l' r' rm' (l' * r') pm' ad = .ok pf := by
    intro l r rm pm l' r' rm' pm' hl hr hp ⟨streams, h⟩
    have hv : Product.verify P pf (l • G) (r • G + rm • Point.H) ((l * r) • G + pm • Point.H) ad = .ok () :=
      (C47_product_completeness _ _ _ _ _ _ _ _ _ h).1 rfl
    rw [hl, hr, hp] at hv
    obtain ⟨r1, r2, hn⟩ := C128_product P l' r' rm' pm' ad pf hv
    obtain ⟨streams', -, hd⟩ := exists_draws P seed r1 r2
    exact ⟨streams', (hn _ _).2 hd⟩
  exact ⟨one _ _ _ _ _ _ _ _ hl hr hp, one _ _ _ _ _ _ _ _ hl.symm hr.symm hp.symm⟩

/-- Two different witnesses of one statement, for every second factor. -/
example (l r rm pm r' : Fn) : ∃ rm' pm' : Fn, r • G + rm • Point.H = r' • G + rm' • Point.H ∧
    (l * r) • G + pm • Point.H = (l * r') • G + pm' • Point.H := by
  obtain ⟨rm', h1, -⟩ := C15_pedersen_hiding (r • G + rm • Point.H) r'
  obtain ⟨pm', h2, -⟩ := C15_pedersen_hiding ((l * r) • G + pm • Point.H) (l * r')
  exact ⟨rm', pm', h1.symm, h2.symm⟩

/-- Accepted proofs of all three kinds exist, for every true statement. -/
example (x l r rm pm : Fn) (g h : Pt) (ad : Bytes) : ∃ P : Prim,
    (∃ pf, Dlog.verify P pf g h (x • g) (x • h) ad = .ok ()) ∧
    (∃ pf, EqOpen.verify P pf (x • G + l • Point.H) (x • G) ad = .ok ()) ∧
    (∃ pf, Product.verify P pf (l • G) (r • G + rm • Point.H) ((l * r) • G + pm • Point.H) ad = .ok ()) := by
  obtain ⟨P, seed, ⟨p1, h1⟩, ⟨p2, h2⟩, p3, h3⟩ := create_nonvacuous x g h ad l r rm (l * r) pm
  exact ⟨P, ⟨p1, (C45_dlog_completeness P seed x g h ad).1 _ h1⟩, ⟨p2, (C46_equal_openings_completeness P seed x l ad).1 _ h2⟩,
    p3, (C47_product_completeness P seed l r rm (l * r) pm ad _ h3).1 rfl⟩

end Verif
