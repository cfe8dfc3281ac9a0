import Verif.Kat.Vectors

/-!
The model run on the known-answer tests of poly/lagrange_test.go (tests, not proofs of anything general).
-/

namespace Verif

namespace Kat

/-! ### poly/lagrange_test.go `TestSimpleCommitmentStableRepresentationIsStable`,
`TestPedersenCommitmentStableRepresentationIsStable` -/

def g1 : Nat := 0x73481d06d01187a77fe0752b5d8ddffda57f1bbda3bd455b25a661290beafa49
def g2 : Nat := 0x215d3d253ef94d38e48466da7365aabe9ef86d21c66ca56308416338f1fa1571
def h1 : Nat := 0xd203a0884253543b196280b13389948cab2790fe25282aa9327ce0f9ed221922
def h2 : Nat := 0x6d8c583b1af8df2f1051e6d50c6006cbd38aed1eab9f10743d9abf91831b07d2
def h3 : Nat := 0x0c7bb6e53dc31d85fdcbf039748e82402844ad0c61d6ab517e52aaac2e522c46
def h4 : Nat := 0x2f1de094797dff25fc95e204a80287c1ed4770e4d7cab09b51da49b4251c9a9e

theorem seedH_block1 : chachaBlock seedH.value 1 = toBE 64
    0x0c7bb6e53dc31d85fdcbf039748e82402844ad0c61d6ab517e52aaac2e522c462f1de094797dff25fc95e204a80287c1ed4770e4d7cab09b51da49b4251c9a9e := by
  decide +kernel

theorem g1_eq : Scalar.random ⟨chacha20 seedG.value, 0⟩ = .ok ((g1 : Fn), ⟨chacha20 seedG.value, 32⟩) :=
  random_of_block (by norm_num) seedG_block (by decide +kernel)
theorem g2_eq : Scalar.random ⟨chacha20 seedG.value, 32⟩ = .ok ((g2 : Fn), ⟨chacha20 seedG.value, 64⟩) :=
  random_of_block (by norm_num) seedG_block (by decide +kernel)
theorem h1_eq : Scalar.random ⟨chacha20 seedH.value, 0⟩ = .ok ((h1 : Fn), ⟨chacha20 seedH.value, 32⟩) :=
  random_of_block (by norm_num) seedH_block (by decide +kernel)
theorem h2_eq : Scalar.random ⟨chacha20 seedH.value, 32⟩ = .ok ((h2 : Fn), ⟨chacha20 seedH.value, 64⟩) :=
  random_of_block (by norm_num) seedH_block (by decide +kernel)
theorem h3_eq : Scalar.random ⟨chacha20 seedH.value, 64⟩ = .ok ((h3 : Fn), ⟨chacha20 seedH.value, 96⟩) :=
  random_of_block (by norm_num) seedH_block1 (by decide +kernel)
theorem h4_eq : Scalar.random ⟨chacha20 seedH.value, 96⟩ = .ok ((h4 : Fn), ⟨chacha20 seedH.value, 128⟩) :=
  random_of_block (by norm_num) seedH_block1 (by decide +kernel)

theorem poly_random_one {r r' : Rng} {a : Fn} (h : Scalar.random r = .ok (a, r')) :
    Poly.random 1 r = .ok ([a], r') := by
  change Poly.randomCoeffs r 1 = _
  rw [Poly.randomCoeffs, h]
  rfl

theorem poly_random_two {r r' r'' : Rng} {a b : Fn} (h : Scalar.random r = .ok (a, r'))
    (h' : Scalar.random r' = .ok (b, r'')) : Poly.random 2 r = .ok ([a, b], r'') := by
  change Poly.randomCoeffs r 2 = _
  rw [Poly.randomCoeffs, h, Res.ok_bind]
  simp only [Poly.randomCoeffs, h', Res.ok_bind]

def pt_g1 : Pt := Pt.mk
  ((0x69a513d6375661fb245a5b66206a85671568178e0608b4585bee50542be4999a : Nat) : Fp)
  ((0x41dbb1479ebab08f677db96b31994a87b361166f2cc44c46bb28266c43128fe2 : Nat) : Fp)
  (onCurve_of_nat (by decide +kernel))

theorem pt_g1_eq : Point.mulByG (g1 : Fn) = pt_g1 := mulByG_eq (by decide +kernel) (by decide +kernel) _

def pt_h1 : Pt := Pt.mk
  ((0x4af5f78220f96e265d9c93af4463b7b91a2dc1ef1db105913cb85024c697f79c : Nat) : Fp)
  ((0x19a31b70caea77a8614df4817e7da39d087c65fa46c3e48776d234fec4f6ddb1 : Nat) : Fp)
  (onCurve_of_nat (by decide +kernel))

theorem pt_h1_eq : Point.mulByG (h1 : Fn) = pt_h1 := mulByG_eq (by decide +kernel) (by decide +kernel) _

def pt_h2 : Pt := Pt.mk
  ((0x6ac66cf30781414b2cb7e4e5ee13885e3d6c8049f2cf623f2d24f37de1d08432 : Nat) : Fp)
  ((0x85791131873c62aa1575a930183ffa96778bf91d5d78dcd929571fc34cd544dd : Nat) : Fp)
  (onCurve_of_nat (by decide +kernel))

theorem pt_h2_eq : Point.mulByG (h2 : Fn) = pt_h2 := mulByG_eq (by decide +kernel) (by decide +kernel) _

def pt_g12 : Pt := Pt.mk
  ((0xe4febce7716f1f46b4c3ce26332c71ac013d901bf214bcf04a02c331ac9df8fb : Nat) : Fp)
  ((0x869e5b8a0f6988aed2477283d19722ac57bbe69e53b359de3a00f5af66c2a1c1 : Nat) : Fp)
  (onCurve_of_nat (by decide +kernel))

theorem pt_g12_eq : Point.pedersen (g1 : Fn) (g2 : Fn) = pt_g12 := pedersen_eq (by decide +kernel) (by decide +kernel) (by decide +kernel) _

def pt_h13 : Pt := Pt.mk
  ((0xdcd8d3bf27056abab419a773e1eb8f066968a427af43148595b105d2875b8804 : Nat) : Fp)
  ((0x37daa942061030d6ab170442013979eb990672c545b73808b2e1f881cf468bb9 : Nat) : Fp)
  (onCurve_of_nat (by decide +kernel))

theorem pt_h13_eq : Point.pedersen (h1 : Fn) (h3 : Fn) = pt_h13 := pedersen_eq (by decide +kernel) (by decide +kernel) (by decide +kernel) _

def pt_h24 : Pt := Pt.mk
  ((0x6bcc68f6a1547bdc684a95e8dde462891e130fd35bf79911e0f503a6469cb08f : Nat) : Fp)
  ((0xdefb627ef132e3be2ef5b56bd93aafb9881bfd9e6d4d2ffe0b26497c6f037cd5 : Nat) : Fp)
  (onCurve_of_nat (by decide +kernel))

theorem pt_h24_eq : Point.pedersen (h2 : Fn) (h4 : Fn) = pt_h24 := pedersen_eq (by decide +kernel) (by decide +kernel) (by decide +kernel) _


/-- The body of `simpleCommitmentBytes` after the seed. -/
def simpleBytes (seed : Seed) (sz : Int) : Res Bytes := do
  let (polynomial, _) ← Poly.random sz (seed.rng prim)
  let c ← Commitment.createSimple polynomial sz
  c.stableRepresentation

/-- The body of `pedersenCommitmentBytes` after the seed. -/
def pedersenBytes (seed : Seed) (sz : Int) : Res Bytes := do
  let (polynomial, rng) ← Poly.random sz (seed.rng prim)
  let (mask, _) ← Poly.random sz rng
  let c ← Commitment.createPedersen polynomial mask sz
  c.stableRepresentation

theorem createSimple_one {a : Fn} : Commitment.createSimple [a] 1 = .ok ⟨.simple, [Point.mulByG a]⟩ := by
  rw [Commitment.createSimple, if_neg]
  · rfl
  · have : Poly.nonZeroCoefficients [a] ≤ 1 := Nat.sub_le _ _
    omega

theorem createSimple_two {a b : Fn} : Commitment.createSimple [a, b] 2 = .ok ⟨.simple, [Point.mulByG a, Point.mulByG b]⟩ := by
  rw [Commitment.createSimple, if_neg]
  · rfl
  · have : Poly.nonZeroCoefficients [a, b] ≤ 2 := Nat.sub_le _ _
    omega

theorem createPedersen_one {a c : Fn} : Commitment.createPedersen [a] [c] 1 = .ok ⟨.pedersen, [Point.pedersen a c]⟩ := by
  rw [Commitment.createPedersen, if_neg]
  · rfl
  · have : Poly.nonZeroCoefficients [a] ≤ 1 := Nat.sub_le _ _
    have : Poly.nonZeroCoefficients [c] ≤ 1 := Nat.sub_le _ _
    omega

theorem createPedersen_two {a b c d : Fn} : Commitment.createPedersen [a, b] [c, d] 2 =
    .ok ⟨.pedersen, [Point.pedersen a c, Point.pedersen b d]⟩ := by
  rw [Commitment.createPedersen, if_neg]
  · rfl
  · have : Poly.nonZeroCoefficients [a, b] ≤ 2 := Nat.sub_le _ _
    have : Poly.nonZeroCoefficients [c, d] ≤ 2 := Nat.sub_le _ _
    omega

example : simpleBytes seedG 1 = .ok (toBE 35
    0x53010269a513d6375661fb245a5b66206a85671568178e0608b4585bee50542be4999a) := by
  rw [simpleBytes, Seed.rng, show prim.chacha20 = chacha20 from rfl, poly_random_one g1_eq, Res.ok_bind]
  simp only [createSimple_one, Res.ok_bind, pt_g1_eq]
  decide +kernel

example : simpleBytes seedH 2 = .ok (toBE 68
    0x5301034af5f78220f96e265d9c93af4463b7b91a2dc1ef1db105913cb85024c697f79c036ac66cf30781414b2cb7e4e5ee13885e3d6c8049f2cf623f2d24f37de1d08432) := by
  rw [simpleBytes, Seed.rng, show prim.chacha20 = chacha20 from rfl, poly_random_two h1_eq h2_eq, Res.ok_bind]
  simp only [createSimple_two, Res.ok_bind, pt_h1_eq, pt_h2_eq]
  decide +kernel

example : pedersenBytes seedG 1 = .ok (toBE 35
    0x500103e4febce7716f1f46b4c3ce26332c71ac013d901bf214bcf04a02c331ac9df8fb) := by
  rw [pedersenBytes, Seed.rng, show prim.chacha20 = chacha20 from rfl, poly_random_one g1_eq, Res.ok_bind]
  simp only [poly_random_one g2_eq, createPedersen_one, Res.ok_bind, pt_g12_eq]
  decide +kernel

example : pedersenBytes seedH 2 = .ok (toBE 68
    0x500103dcd8d3bf27056abab419a773e1eb8f066968a427af43148595b105d2875b8804036bcc68f6a1547bdc684a95e8dde462891e130fd35bf79911e0f503a6469cb08f) := by
  rw [pedersenBytes, Seed.rng, show prim.chacha20 = chacha20 from rfl, poly_random_two h1_eq h2_eq, Res.ok_bind]
  simp only [poly_random_two h3_eq h4_eq, createPedersen_two, Res.ok_bind, pt_h13_eq, pt_h24_eq]
  decide +kernel

end Kat

end Verif
