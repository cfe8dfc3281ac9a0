import Verif.Kat.Concrete
import Verif.Model.Mega
import Verif.Lemmas.Random

/-!
The model run by the kernel on the known-answer tests of the repository.  These are tests, not proofs of anything
general: they check the model against values the Go code is known to produce.
-/

namespace Verif

namespace Kat

theorem force_eq {α : Type} (x : Nat) (f : Nat → α) : force x f = f x := by cases x <;> rfl

theorem length_quarter (s : List Nat) (a b c d : Nat) : (quarter s a b c d).length = s.length := by
  simp [quarter, force_eq]

theorem length_doubleRound (s : List Nat) : (doubleRound s).length = s.length := by
  simp [doubleRound, length_quarter]

theorem length_iterate (k : Nat) (s : List Nat) : (doubleRound^[k] s).length = s.length := by
  induction k generalizing s with
  | zero => rfl
  | succ k ih => rw [Function.iterate_succ_apply, ih, length_doubleRound]

theorem length_finish (init : List Nat) (k : Nat) (h : init.length = 16) :
    ((List.zipWith (fun x y => (x + y) % 2 ^ 32) init (doubleRound^[k] init)).flatMap fun x => toLE 4 x).length = 64 := by
  rw [List.length_flatMap]
  simp only [length_toLE, List.map_const', List.sum_replicate, List.length_zipWith, length_iterate, h]
  simp

theorem length_chachaBlock (key : Bytes) (c : Nat) : (chachaBlock key c).length = 64 := by
  unfold chachaBlock
  exact length_finish _ 10 (by simp only [List.length_append, List.length_map, List.length_range, List.length_cons,
    List.length_nil])

theorem getElem_peek (r : Rng) (k i : Nat) (h : i < (r.peek k).length) : (r.peek k)[i] = r.stream (r.pos + i) := by
  simp only [Rng.peek, List.getElem_map, List.getElem_range]

/-- Bytes of the generator inside one block. -/
theorem peek_block (key : Bytes) (pos k : Nat) (h : pos % 64 + k ≤ 64) :
    (⟨chacha20 key, pos⟩ : Rng).peek k = ((chachaBlock key (pos / 64)).drop (pos % 64)).take k := by
  have hl := length_chachaBlock key
  apply List.ext_getElem
  · rw [Rng.length_peek, List.length_take, List.length_drop, hl]; omega
  · intro i h1 h2
    have hi : i < k := by rw [Rng.length_peek] at h1; exact h1
    have e1 : (pos + i) / 64 = pos / 64 := by omega
    have e2 : (pos + i) % 64 = pos % 64 + i := by omega
    rw [getElem_peek]
    change chacha20 key (pos + i) = _
    rw [List.getElem_take, List.getElem_drop, chacha20, e1, e2, List.getD_eq_getElem?_getD,
      List.getElem?_eq_getElem (by rw [hl]; omega), Option.getD_some]

theorem xor_zero (r : Rng) (k : Nat) : r.xorKeyStream (List.replicate k 0) = (r.peek k, { r with pos := r.pos + k }) := by
  have : List.zipWith (· ^^^ ·) (List.replicate k (0 : UInt8)) (r.peek k) = r.peek k := by
    apply List.ext_getElem
    · simp [Rng.length_peek]
    · intro i h1 h2
      simp
  simp [Rng.xorKeyStream, this]

/-! ### Reading points of the group through the evaluator -/

theorem mulByG_eq {k x y : Nat} (hk : k < 2 ^ 256) (h : smulN 256 k (some (Gx, Gy)) none = some (x, y))
    (ho : OnCurve x y) : Point.mulByG (k : Fn) = Pt.mk x y ho := by
  have := RepN_smulN 256 k _ none G 0 hk RepN_G rfl
  rw [h, zero_add] at this
  obtain ⟨_, _, _, e⟩ := this
  rw [Point.mulByG, Nat.cast_smul_eq_nsmul, e]

theorem pedersen_eq {k m x y : Nat} (hk : k < 2 ^ 256) (hm : m < 2 ^ 256)
    (h : smulN 256 m (some (Point.Hx, Point.Hy)) (smulN 256 k (some (Gx, Gy)) none) = some (x, y))
    (ho : OnCurve x y) : Point.pedersen (k : Fn) (m : Fn) = Pt.mk x y ho := by
  have h1 := RepN_smulN 256 k _ none G 0 hk RepN_G rfl
  have hH : RepN (some (Point.Hx, Point.Hy)) Point.H :=
    ⟨by decide +kernel, by decide +kernel, onCurve_of_nat Point.H_onCurve_nat, rfl⟩
  have h2 := RepN_smulN 256 m _ _ Point.H _ hm hH h1
  rw [h, zero_add] at h2
  obtain ⟨_, _, _, e⟩ := h2
  rw [Point.pedersen, Point.mulPoints, Nat.cast_smul_eq_nsmul, Nat.cast_smul_eq_nsmul, e]

theorem addRaw_eq {x₀ y₀ x₁ y₁ x y : Nat} (hx₀ : x₀ < p) (hy₀ : y₀ < p) (hx₁ : x₁ < p) (hy₁ : y₁ < p)
    (h₀ : y₀ ^ 2 % p = (x₀ ^ 3 + 7) % p) (h₁ : y₁ ^ 2 % p = (x₁ ^ 3 + 7) % p)
    (h : addN (some (x₀, y₀)) (some (x₁, y₁)) = some (x, y)) :
    H2C.addRaw (some (.aff x₀ y₀)) (some (.aff x₁ y₁)) = .ok (.aff x y) := by
  have o₀ := onCurve_of_nat h₀
  have o₁ := onCurve_of_nat h₁
  have := RepN_addN (a := some (x₀, y₀)) (b := some (x₁, y₁)) (P := Pt.mk x₀ y₀ o₀) (Q := Pt.mk x₁ y₁ o₁)
    ⟨hx₀, hy₀, o₀, rfl⟩ ⟨hx₁, hy₁, o₁, rfl⟩
  rw [h] at this
  obtain ⟨_, _, _, e⟩ := this
  rw [H2C.addRaw]
  simp only [Point.ofRaw?, o₀, o₁, dif_pos]
  rw [e]
  rfl

theorem random_of_block {key b : Bytes} {pos : Nat} {s : Fn} (h : pos % 64 + 32 ≤ 64)
    (hb : chachaBlock key (pos / 64) = b)
    (hs : Scalar.deserialize K256 ((b.drop (pos % 64)).take 32) = .ok (some s)) :
    Scalar.random ⟨chacha20 key, pos⟩ = .ok (s, ⟨chacha20 key, pos + 32⟩) := by
  have : Scalar.randomLoop ⟨chacha20 key, pos⟩ (List.replicate 32 0) = some (s, ⟨chacha20 key, pos + 32⟩) := by
    rw [Scalar.randomLoop, xor_zero, peek_block _ _ _ h, hb]
    simp only [hs]
  rw [Scalar.random, this]

/-! ### seed/seed_test.go:16-27 `TestSeedOutput` -/

def seedA : Seed := ⟨toBE 32 0xa902d07fe3a50496e843d5ece53f09a83e3873a911e87c8f5bc24fdd889a4027⟩

theorem seedA_eq : Seed.fromBytes prim (List.replicate 32 42) = .ok seedA := by decide +kernel

theorem seedA_block : chachaBlock seedA.value 0 = toBE 64
    0x21b03e2c906a3c20d8159b65a459991238fd3bfb8a36c0af904cd1b12a109853ea49b0fc5f5dba072d00d19aab34dd10ff00540522792e822486617227c4f890 := by
  decide +kernel

def seedB : Seed := ⟨toBE 32 0x034a4b7c2a37dd70489f6fad6d50ca307dd7d6237744e6c7cdc27768f651e678⟩

theorem seedB_eq : seedA.derive prim (ascii "label1") = .ok seedB := by decide +kernel

theorem seedB_block : chachaBlock seedB.value 0 = toBE 64
    0x6f3377835641b9ea865e077ae3d09806fa7cd77af4ad7a6674400d8e0683517ad0b4efcefd81d2cdc2281563c04d72f66a974b1d3ea29240c118fddd817bba1b := by
  decide +kernel

def seedC : Seed := ⟨toBE 32 0x7894484544b3d663ddf8f5c2b1f6a512e327dc1571d8f9083683abc19550a27b⟩

theorem seedC_eq : seedB.derive prim (ascii "label2") = .ok seedC := by decide +kernel

theorem seedC_block : chachaBlock seedC.value 0 = toBE 64
    0x545e10f21a984c7f33a03ffb1be596ae967f7b397fd086d76ccf71b3f2a43ef34c8a910e33aa23707dd7e26e14a5d1f46dbc141687c29f229c3ce4569af4e0b9 := by
  decide +kernel

def seedD : Seed := ⟨toBE 32 0x839c9c932b85a738b012cd38d1ef7723df591d7d0e58ead48fdad02abd945dc5⟩

theorem seedD_block : chachaBlock seedD.value 0 = toBE 64
    0x2e7af894bb91c48e2b72be9627dbc960d7800ef7569c8f6f0f3d9873c7337c9a7fb7f1aaac8dbf758476952d4b37b4b61ef9771f6e34f8a51d5a858af00178dc := by
  decide +kernel

def seedE : Seed := ⟨toBE 32 0x454025af13bc95fd478ce02011a59a696674fd7af293ba7ae80b08423ae5fa79⟩

theorem seedE_block : chachaBlock seedE.value 0 = toBE 64
    0x2bb9a6469fff531083abd8f85c3d7ffa78090f725546a9633a35c0c4582c9b5c0d51b3aef749fac30611a98d829a3bad09107fc3e68c83cffe6e7205b076987e := by
  decide +kernel

def seedF : Seed := ⟨toBE 32 0x241c277c5cd6add727a6c1f5e8b8f8eb7b016e739706f2d948c6565cbf1030f6⟩

theorem seedF_eq : Seed.fromBytes prim (List.replicate 32 0x42) = .ok seedF := by decide +kernel

theorem seedF_block : chachaBlock seedF.value 0 = toBE 64
    0x078af152fb1edc2488a6d414ac13e76de66904648c585dc5f5032b3c022716cdda961ef9aa9dfb7270e39cb5fb3531cf8a9b30c3853a85c8a2fde7c14bcddddd := by
  decide +kernel

def seedG : Seed := ⟨toBE 32 0x732c40ef4c814e5589be920b3fedfb80e6a6e68a8aee990740a913d6908ac4bf⟩

theorem seedG_eq : Seed.fromBytes prim (List.replicate 1 42) = .ok seedG := by decide +kernel

theorem seedG_block : chachaBlock seedG.value 0 = toBE 64
    0x73481d06d01187a77fe0752b5d8ddffda57f1bbda3bd455b25a661290beafa49215d3d253ef94d38e48466da7365aabe9ef86d21c66ca56308416338f1fa1571 := by
  decide +kernel

def seedH : Seed := ⟨toBE 32 0xfd3ccbb116e8910a57108a73c9880be2ffea78aa0d5faeda6b4fa64a2ef92c62⟩

theorem seedH_eq : Seed.fromBytes prim (List.replicate 2 42) = .ok seedH := by decide +kernel

theorem seedH_block : chachaBlock seedH.value 0 = toBE 64
    0xd203a0884253543b196280b13389948cab2790fe25282aa9327ce0f9ed2219226d8c583b1af8df2f1051e6d50c6006cbd38aed1eab9f10743d9abf91831b07d2 := by
  decide +kernel

theorem fromRng_of_block {key b : Bytes} {pos : Nat} {s : Seed} (h : pos % 64 + 32 ≤ 64)
    (hb : chachaBlock key (pos / 64) = b)
    (hs : Seed.new prim ((b.drop (pos % 64)).take 32) (ascii "ic-crypto-seed-from-rng") = .ok s) :
    Seed.fromRng prim ⟨chacha20 key, pos⟩ = .ok (s, ⟨chacha20 key, pos + 32⟩) := by
  rw [Seed.fromRng, xor_zero]
  simp only
  rw [peek_block _ _ _ h, hb, hs]
  rfl

theorem seedD_eq : Seed.fromRng prim (seedA.rng prim) = .ok (seedD, ⟨chacha20 seedA.value, 32⟩) :=
  fromRng_of_block (pos := 0) (by norm_num) seedA_block (by decide +kernel)

theorem seedE_eq : Seed.fromRng prim ⟨chacha20 seedA.value, 32⟩ = .ok (seedE, ⟨chacha20 seedA.value, 64⟩) :=
  fromRng_of_block (pos := 32) (by norm_num) seedA_block (by decide +kernel)

theorem first_output {s : Seed} {b : Bytes} (hb : chachaBlock s.value 0 = b) :
    ((s.rng prim).xorKeyStream (List.replicate 32 0)).1 = b.take 32 := by
  rw [xor_zero, ← hb]
  exact peek_block s.value 0 32 (by norm_num)

example : ((seedA.rng prim).xorKeyStream (List.replicate 32 0)).1 =
    toBE 32 0x21b03e2c906a3c20d8159b65a459991238fd3bfb8a36c0af904cd1b12a109853 := by
  rw [first_output seedA_block]; decide +kernel

example : ((seedB.rng prim).xorKeyStream (List.replicate 32 0)).1 =
    toBE 32 0x6f3377835641b9ea865e077ae3d09806fa7cd77af4ad7a6674400d8e0683517a := by
  rw [first_output seedB_block]; decide +kernel

example : ((seedC.rng prim).xorKeyStream (List.replicate 32 0)).1 =
    toBE 32 0x545e10f21a984c7f33a03ffb1be596ae967f7b397fd086d76ccf71b3f2a43ef3 := by
  rw [first_output seedC_block]; decide +kernel

example : ((seedD.rng prim).xorKeyStream (List.replicate 32 0)).1 =
    toBE 32 0x2e7af894bb91c48e2b72be9627dbc960d7800ef7569c8f6f0f3d9873c7337c9a := by
  rw [first_output seedD_block]; decide +kernel

example : ((seedE.rng prim).xorKeyStream (List.replicate 32 0)).1 =
    toBE 32 0x2bb9a6469fff531083abd8f85c3d7ffa78090f725546a9633a35c0c4582c9b5c := by
  rw [first_output seedE_block]; decide +kernel

/-! ### curve/hash_to_curve_test.go:16-30 `TestExpandMessageXmd` -/

example : Xmd.expandMessageXmd prim (ascii "")
    (ascii "QUUX-V01-CS02-with-expander-SHA256-128") 32 =
    .ok (toBE 32 0x68a985b87eb6b46952128911f2a4412bbc302a9d759667f87f7a21d803f07235) := by decide +kernel

example : Xmd.expandMessageXmd prim (ascii "abc")
    (ascii "QUUX-V01-CS02-with-expander-SHA256-128") 32 =
    .ok (toBE 32 0xd8ccab23b5985ccea865c6c97b6e5b8350e794e603b4b97902f53a8a0d605615) := by decide +kernel

example : Xmd.expandMessageXmd prim (ascii "")
    (ascii "QUUX-V01-CS02-with-expander-SHA256-128-long-DST-" ++ List.replicate 208 49) 32 =
    .ok (toBE 32 0xe8dc0c8b686b7ef2074086fbdd2f30e3f8bfbd3bdf177f73f04b97ce618a3ed3) := by decide +kernel

example : Xmd.expandMessageXmd prim (ascii "abc")
    (ascii "QUUX-V01-CS02-with-expander-SHA256-128-long-DST-" ++ List.replicate 208 49) 32 =
    .ok (toBE 32 0x52dbf4f36cf560fca57dedec2ad924ee9c266341d8f3d6afe5171733b16bbb12) := by decide +kernel

/-! ### curve/hash_to_curve_test.go:32-48 `TestHash2CurveKatK256` and curve/point_test.go `TestGeneratorHHasExpectedValue` -/

theorem hashToCurve_of {input dst : Bytes} {u₀ u₁ : Fp} {x₀ y₀ x₁ y₁ x y : Nat}
    (hu : H2C.hashToField prim 2 input dst = .ok [u₀, u₁])
    (hm₀ : H2C.mapToCurve u₀ = .ok (some (.aff x₀ y₀))) (hm₁ : H2C.mapToCurve u₁ = .ok (some (.aff x₁ y₁)))
    (hx₀ : x₀ < p) (hy₀ : y₀ < p) (hx₁ : x₁ < p) (hy₁ : y₁ < p)
    (h₀ : y₀ ^ 2 % p = (x₀ ^ 3 + 7) % p) (h₁ : y₁ ^ 2 % p = (x₁ ^ 3 + 7) % p)
    (h : addN (some (x₀, y₀)) (some (x₁, y₁)) = some (x, y)) :
    H2C.hashToCurve prim input dst = .ok (.aff x y) := by
  have hr := addRaw_eq hx₀ hy₀ hx₁ hy₁ h₀ h₁ h
  rw [H2C.hashToCurve, hu, Res.ok_bind]
  simp only
  rw [hm₀, Res.ok_bind, hm₁, Res.ok_bind, hr]

example : H2C.hashToCurve prim (ascii "")
    (ascii "QUUX-V01-CS02-with-secp256k1_XMD:SHA-256_SSWU_RO_") = .ok (.aff
      ((0xc1cae290e291aee617ebaef1be6d73861479c48b841eaba9b7b5852ddfeb1346 : Nat) : Fp)
      ((0x64fa678e07ae116126f08b022a94af6de15985c996c3a91b64c406a960e51067 : Nat) : Fp)) := hashToCurve_of
    (u₀ := ((0x6b0f9910dd2ba71c78f2ee9f04d73b5f4c5f7fc773a701abea1e573cab002fb3 : Nat) : Fp))
    (u₁ := ((0x1ae6c212e08fe1a5937f6202f929a2cc8ef4ee5b9782db68b0d5799fd8f09e16 : Nat) : Fp))
    (x₀ := 0x74519ef88b32b425a095e4ebcc84d81b64e9e2c2675340a720bb1a1857b99f1e)
    (y₀ := 0xc174fa322ab7c192e11748beed45b508e9fdb1ce046dee9c2cd3a2a86b410936)
    (x₁ := 0x44548adb1b399263ded3510554d28b4bead34b8cf9a37b4bd0bd2ba4db87ae63)
    (y₁ := 0x96eb8e2faf05e368efe5957c6167001760233e6dd2487516b46ae725c4cce0c6)
    (by decide +kernel) (by decide +kernel) (by decide +kernel) (by decide +kernel) (by decide +kernel)
    (by decide +kernel) (by decide +kernel) (by decide +kernel) (by decide +kernel) (by decide +kernel)

example : H2C.hashToCurve prim (ascii "abc")
    (ascii "QUUX-V01-CS02-with-secp256k1_XMD:SHA-256_SSWU_RO_") = .ok (.aff
      ((0x3377e01eab42db296b512293120c6cee72b6ecf9f9205760bd9ff11fb3cb2c4b : Nat) : Fp)
      ((0x7f95890f33efebd1044d382a01b1bee0900fb6116f94688d487c6c7b9c8371f6 : Nat) : Fp)) := hashToCurve_of
    (u₀ := ((0x128aab5d3679a1f7601e3bdf94ced1f43e491f544767e18a4873f397b08a2b61 : Nat) : Fp))
    (u₁ := ((0x5897b65da3b595a813d0fdcc75c895dc531be76a03518b044daaa0f2e4689e00 : Nat) : Fp))
    (x₀ := 0x7dd9432d426845fb19857d1b3a91722436604ccbbbadad8523b8fc38a5322d7)
    (y₀ := 0x604588ef5138cffe3277bbd590b8550bcbe0e523bbaf1bed4014a467122eb33f)
    (x₁ := 0xe9ef9794d15d4e77dde751e06c182782046b8dac05f8491eb88764fc65321f78)
    (y₁ := 0xcb07ce53670d5314bf236ee2c871455c562dd76314aa41f012919fe8e7f717b3)
    (by decide +kernel) (by decide +kernel) (by decide +kernel) (by decide +kernel) (by decide +kernel)
    (by decide +kernel) (by decide +kernel) (by decide +kernel) (by decide +kernel) (by decide +kernel)

example : H2C.hashToCurve prim (ascii "abcdef0123456789")
    (ascii "QUUX-V01-CS02-with-secp256k1_XMD:SHA-256_SSWU_RO_") = .ok (.aff
      ((0xbac54083f293f1fe08e4a70137260aa90783a5cb84d3f35848b324d0674b0e3a : Nat) : Fp)
      ((0x4436476085d4c3c4508b60fcf4389c40176adce756b398bdee27bca19758d828 : Nat) : Fp)) := hashToCurve_of
    (u₀ := ((0xea67a7c02f2cd5d8b87715c169d055a22520f74daeb080e6180958380e2f98b9 : Nat) : Fp))
    (u₁ := ((0x7434d0d1a500d38380d1f9615c021857ac8d546925f5f2355319d823a478da18 : Nat) : Fp))
    (x₀ := 0x576d43ab0260275adf11af990d130a5752704f79478628761720808862544b5d)
    (y₀ := 0x643c4a7fb68ae6cff55edd66b809087434bbaff0c07f3f9ec4d49bb3c16623c3)
    (x₁ := 0xf89d6d261a5e00fe5cf45e827b507643e67c2a947a20fd9ad71039f8b0e29ff8)
    (y₁ := 0xb33855e0cc34a9176ead91c6c3acb1aacb1ce936d563bc1cee1dcffc806caf57)
    (by decide +kernel) (by decide +kernel) (by decide +kernel) (by decide +kernel) (by decide +kernel)
    (by decide +kernel) (by decide +kernel) (by decide +kernel) (by decide +kernel) (by decide +kernel)

/-- With the real SHA-256, the second generator is the hash of `"h"` to the curve. -/
theorem generatorH_eq : H2C.hashToCurve prim (ascii "h")
    (ascii "ic-crypto-tecdsa-secp256k1-generator-h") = .ok (Point.raw Point.H) := hashToCurve_of
    (u₀ := ((0x808e715a89e11b4a41a894263a4e6200b7ad24e5505ac34f45d055def86ba036 : Nat) : Fp))
    (u₁ := ((0xf8ceedd7a5d76aed44ede6868ec3dc6b785e02248b6b0ac3be4b1be8f7c9d0b9 : Nat) : Fp))
    (x₀ := 0xb36d90d2d50b5e56c8941a3d25788623ca7680d68d34fb8e78e0cc485149b5ca)
    (y₀ := 0x3a06f476624eb0df1805b6f965b4408cf8c40a2408295ca6067dd3dae532e9ee)
    (x₁ := 0x968f36a16771d05bdb5779e3868c550ee0c9844b1413f85b8f52aca407201a08)
    (y₁ := 0xbd07b14b52842b0d64d6f413c6a76d0969a01cc36589efd5a67e4d3e90ba3aee)
    (by decide +kernel) (by decide +kernel) (by decide +kernel) (by decide +kernel) (by decide +kernel)
    (by decide +kernel) (by decide +kernel) (by decide +kernel) (by decide +kernel) (by decide +kernel)

/-! ### curve/point_test.go `TestHashToScalarK256HasFixedOutput`, `TestK256WideReduceScalarExpectedValue` -/

example : (do let l ← H2C.hashToScalar prim 1 (ascii "known answer test input") (ascii "domain sep")
              Res.ok (l.map Scalar.serialize)) =
    .ok [toBE 32 0x3670f931a6cbff777594bf1488812b63895dfe5df9814584dfd231f69a66541a] := by decide +kernel

example : (do let s ← Scalar.fromBytesWide (toBE 62
    0x5465872a72824a73539f16e825035c403a2596407116900d47141fca8cbfd9a638af75a71310b08fe6351dd302b820c86b15e71ea73c78c876c1f88338a0)
              Res.ok (Scalar.serialize s)) =
    .ok (toBE 32 0x5bc912d1f858a44805b5bcf9809751eb7ca8cd5efe9b9bef62374b55a857ba1b) := by decide +kernel

/-! ### mega/key_test.go:29-36 `TestGenKeypair` -/

def skF : Nat := 0x078af152fb1edc2488a6d414ac13e76de66904648c585dc5f5032b3c022716cd

theorem skF_eq : Scalar.random (seedF.rng prim) = .ok ((skF : Fn), ⟨chacha20 seedF.value, 32⟩) :=
  random_of_block (pos := 0) (by norm_num) seedF_block (by decide +kernel)

def pkF : Pt := Pt.mk
  ((0x7e4c1145be85c1d62c24be6ff81f837a1c63d4051071233569b55fb410da4ebd : Nat) : Fp)
  ((8820178599967893334962771051418572481849487651287754216048002662758891397748 : Nat) : Fp)
  (onCurve_of_nat (by decide +kernel))

theorem pkF_eq : Point.mulByG (skF : Fn) = pkF := mulByG_eq (by decide +kernel) (by decide +kernel) _

example : ∃ pk sk, Mega.genKeypair prim seedF = .ok (pk, sk) ∧
    Scalar.serialize sk = toBE 32 0x078af152fb1edc2488a6d414ac13e76de66904648c585dc5f5032b3c022716cd ∧
    Point.serialize pk = toBE 33 0x027e4c1145be85c1d62c24be6ff81f837a1c63d4051071233569b55fb410da4ebd := by
  refine ⟨pkF, skF, ?_, by decide +kernel, by decide +kernel⟩
  rw [Mega.genKeypair, skF_eq, Res.ok_bind]
  simp only
  rw [pkF_eq]

/-! ### ro/ro_test.go:11-50 `TestRandomOracleStability` -/

/-- Lines 20-33; the second `AddPoint` (line 24) is refused. -/
def ro1 : Ro :=
  let ro := Ro.new (ascii "ic-test-domain-sep")
  let ro := (ro.addPoint (ascii "pt1") pkF).2
  let ro := (ro.addPoint (ascii "pt1") pkF).2
  let ro := (ro.addUint64 (ascii "i1") 42).2
  let ro := (ro.addBytesString (ascii "v1") (List.replicate 42 42)).2
  let ro := (ro.addScalar (ascii "s1") (skF : Fn)).2
  (ro.addUint64 (ascii "round") 1).2

example : (((Ro.new (ascii "ic-test-domain-sep")).addPoint (ascii "pt1") pkF).2.addPoint (ascii "pt1") pkF).1.isSome := by
  decide +kernel

def roC1 : Fn := ((0xd46b5ef6fafdaf2a1e50f7b979f1fd31e058e9c2ab69115c4f2c15077ae94969 : Nat) : Fn)

example : ro1.outputScalars prim 2 =
    .ok [((0xe1cc3546518665d7321cd5b5aa7cbae2ae9d8bad3a2f28b495ac3d3af139b460 : Nat) : Fn), roC1] := by decide +kernel

def ro2 : Ro :=
  let ro := ((Ro.new (ascii "ic-test-domain-sep-2")).addScalar (ascii "c1") roC1).2
  (ro.addUint64 (ascii "round") 2).2

def roC2 : Fn := ((0xf35e7f0a649f8c8e92084d04d40cd13cb82e9e2ebc3aabb5bd88c04ce2f5ebe9 : Nat) : Fn)

example : ro2.outputScalar prim = .ok roC2 := by decide +kernel

def ro3 : Ro :=
  let ro := ((Ro.new (ascii "ic-test-domain-sep-3")).addScalar (ascii "c2") roC2).2
  (ro.addUint64 (ascii "round") 3).2

example : ro3.outputByteString prim 42 =
    .ok (toBE 42 0xc569bf3e900df5d5e61fdf3b9d798d3089bf9dfd875e8735cb99aef2e5a865f2eb44fb6f363730a4b2dc) := by
  decide +kernel

end Kat

end Verif
