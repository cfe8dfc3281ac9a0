import Verif.Curve.PowMod

/-! Pratt certificates for the two secp256k1 primes (generated; checked by the kernel). -/

namespace Verif

/-- The field prime of secp256k1, `2^256 - 2^32 - 977` (curve/k256_fe.go, kryptology `k256` `fp`). -/
def p : Nat := 0xFFFFFFFFFFFFFFFFFFFFFFFFFFFFFFFFFFFFFFFFFFFFFFFFFFFFFFFEFFFFFC2F

/-- The group order, curve/k256_scalar.go:13 `GroupOrder`. -/
def n : Nat := 0xFFFFFFFFFFFFFFFFFFFFFFFFFFFFFFFEBAAEDCE6AF48A03BBFD25E8CD0364141

theorem prime_13331831 : Nat.Prime 13331831 := by
  refine prime_of_pratt 13331831 13 [2, 5, 971, 1373] ?_ (by decide +kernel)
  simp only [List.mem_cons, List.not_mem_nil, or_false, forall_eq_or_imp, forall_eq]
  exact ⟨by norm_num, by norm_num, by norm_num, by norm_num⟩

theorem prime_173378833005251801 : Nat.Prime 173378833005251801 := by
  refine prime_of_pratt 173378833005251801 6 [2, 2, 2, 5, 5, 2621, 24809, 13331831] ?_ (by decide +kernel)
  simp only [List.mem_cons, List.not_mem_nil, or_false, forall_eq_or_imp, forall_eq]
  exact ⟨by norm_num, by norm_num, by norm_num, by norm_num, by norm_num, by norm_num, by norm_num, prime_13331831⟩

theorem prime_22149492674086928081353 : Nat.Prime 22149492674086928081353 := by
  refine prime_of_pratt 22149492674086928081353 5 [2, 2, 2, 3, 5323, 173378833005251801] ?_ (by decide +kernel)
  simp only [List.mem_cons, List.not_mem_nil, or_false, forall_eq_or_imp, forall_eq]
  exact ⟨by norm_num, by norm_num, by norm_num, by norm_num, by norm_num, prime_173378833005251801⟩

theorem prime_132896956044521568488119 : Nat.Prime 132896956044521568488119 := by
  refine prime_of_pratt 132896956044521568488119 6 [2, 3, 22149492674086928081353] ?_ (by decide +kernel)
  simp only [List.mem_cons, List.not_mem_nil, or_false, forall_eq_or_imp, forall_eq]
  exact ⟨by norm_num, by norm_num, prime_22149492674086928081353⟩

theorem prime_1206781 : Nat.Prime 1206781 := by
  refine prime_of_pratt 1206781 10 [2, 2, 3, 5, 20113] ?_ (by decide +kernel)
  simp only [List.mem_cons, List.not_mem_nil, or_false, forall_eq_or_imp, forall_eq]
  exact ⟨by norm_num, by norm_num, by norm_num, by norm_num, by norm_num⟩

theorem prime_7240687 : Nat.Prime 7240687 := by
  refine prime_of_pratt 7240687 3 [2, 3, 1206781] ?_ (by decide +kernel)
  simp only [List.mem_cons, List.not_mem_nil, or_false, forall_eq_or_imp, forall_eq]
  exact ⟨by norm_num, by norm_num, prime_1206781⟩

theorem prime_107590001 : Nat.Prime 107590001 := by
  refine prime_of_pratt 107590001 3 [2, 2, 2, 2, 5, 5, 5, 5, 7, 29, 53] ?_ (by decide +kernel)
  simp only [List.mem_cons, List.not_mem_nil, or_false, forall_eq_or_imp, forall_eq]
  exact ⟨by norm_num, by norm_num, by norm_num, by norm_num, by norm_num, by norm_num, by norm_num, by norm_num, by norm_num, by norm_num, by norm_num⟩

theorem prime_255515944373312847190720520512484175977 : Nat.Prime 255515944373312847190720520512484175977 := by
  refine prime_of_pratt 255515944373312847190720520512484175977 3 [2, 2, 2, 7, 7, 11, 1627, 2657, 4423, 41201, 96557, 7240687, 107590001] ?_ (by decide +kernel)
  simp only [List.mem_cons, List.not_mem_nil, or_false, forall_eq_or_imp, forall_eq]
  exact ⟨by norm_num, by norm_num, by norm_num, by norm_num, by norm_num, by norm_num, by norm_num, by norm_num, by norm_num, by norm_num, by norm_num, prime_7240687, prime_107590001⟩

theorem prime_205115282021455665897114700593932402728804164701536103180137503955397371 : Nat.Prime 205115282021455665897114700593932402728804164701536103180137503955397371 := by
  refine prime_of_pratt 205115282021455665897114700593932402728804164701536103180137503955397371 10 [2, 3, 5, 29, 29, 31, 7723, 132896956044521568488119, 255515944373312847190720520512484175977] ?_ (by decide +kernel)
  simp only [List.mem_cons, List.not_mem_nil, or_false, forall_eq_or_imp, forall_eq]
  exact ⟨by norm_num, by norm_num, by norm_num, by norm_num, by norm_num, by norm_num, by norm_num, prime_132896956044521568488119, prime_255515944373312847190720520512484175977⟩

theorem prime_p : Nat.Prime p := by
  refine prime_of_pratt p 3 [2, 3, 7, 13441, 205115282021455665897114700593932402728804164701536103180137503955397371] ?_ (by decide +kernel)
  simp only [List.mem_cons, List.not_mem_nil, or_false, forall_eq_or_imp, forall_eq]
  exact ⟨by norm_num, by norm_num, by norm_num, by norm_num, prime_205115282021455665897114700593932402728804164701536103180137503955397371⟩

theorem prime_4681609 : Nat.Prime 4681609 := by
  refine prime_of_pratt 4681609 23 [2, 2, 2, 3, 97, 2011] ?_ (by decide +kernel)
  simp only [List.mem_cons, List.not_mem_nil, or_false, forall_eq_or_imp, forall_eq]
  exact ⟨by norm_num, by norm_num, by norm_num, by norm_num, by norm_num, by norm_num⟩

theorem prime_107361793816595537 : Nat.Prime 107361793816595537 := by
  refine prime_of_pratt 107361793816595537 3 [2, 2, 2, 2, 16699, 85831, 4681609] ?_ (by decide +kernel)
  simp only [List.mem_cons, List.not_mem_nil, or_false, forall_eq_or_imp, forall_eq]
  exact ⟨by norm_num, by norm_num, by norm_num, by norm_num, by norm_num, by norm_num, prime_4681609⟩

theorem prime_120233 : Nat.Prime 120233 := by
  refine prime_of_pratt 120233 3 [2, 2, 2, 7, 19, 113] ?_ (by decide +kernel)
  simp only [List.mem_cons, List.not_mem_nil, or_false, forall_eq_or_imp, forall_eq]
  exact ⟨by norm_num, by norm_num, by norm_num, by norm_num, by norm_num, by norm_num⟩

theorem prime_44706919 : Nat.Prime 44706919 := by
  refine prime_of_pratt 44706919 6 [2, 3, 797, 9349] ?_ (by decide +kernel)
  simp only [List.mem_cons, List.not_mem_nil, or_false, forall_eq_or_imp, forall_eq]
  exact ⟨by norm_num, by norm_num, by norm_num, by norm_num⟩

theorem prime_174723607534414371449 : Nat.Prime 174723607534414371449 := by
  refine prime_of_pratt 174723607534414371449 3 [2, 2, 2, 17, 59, 4051, 120233, 44706919] ?_ (by decide +kernel)
  simp only [List.mem_cons, List.not_mem_nil, or_false, forall_eq_or_imp, forall_eq]
  exact ⟨by norm_num, by norm_num, by norm_num, by norm_num, by norm_num, by norm_num, prime_120233, prime_44706919⟩

theorem prime_305873 : Nat.Prime 305873 := by
  refine prime_of_pratt 305873 3 [2, 2, 2, 2, 7, 2731] ?_ (by decide +kernel)
  simp only [List.mem_cons, List.not_mem_nil, or_false, forall_eq_or_imp, forall_eq]
  exact ⟨by norm_num, by norm_num, by norm_num, by norm_num, by norm_num, by norm_num⟩

theorem prime_545358713 : Nat.Prime 545358713 := by
  refine prime_of_pratt 545358713 5 [2, 2, 2, 41, 59, 28181] ?_ (by decide +kernel)
  simp only [List.mem_cons, List.not_mem_nil, or_false, forall_eq_or_imp, forall_eq]
  exact ⟨by norm_num, by norm_num, by norm_num, by norm_num, by norm_num, by norm_num⟩

theorem prime_1627771 : Nat.Prime 1627771 := by
  refine prime_of_pratt 1627771 3 [2, 3, 5, 29, 1871] ?_ (by decide +kernel)
  simp only [List.mem_cons, List.not_mem_nil, or_false, forall_eq_or_imp, forall_eq]
  exact ⟨by norm_num, by norm_num, by norm_num, by norm_num, by norm_num⟩

theorem prime_297159362677 : Nat.Prime 297159362677 := by
  refine prime_of_pratt 297159362677 2 [2, 2, 3, 3, 11, 461, 1627771] ?_ (by decide +kernel)
  simp only [List.mem_cons, List.not_mem_nil, or_false, forall_eq_or_imp, forall_eq]
  exact ⟨by norm_num, by norm_num, by norm_num, by norm_num, by norm_num, by norm_num, prime_1627771⟩

theorem prime_29047611873442575647497758179 : Nat.Prime 29047611873442575647497758179 := by
  refine prime_of_pratt 29047611873442575647497758179 2 [2, 293, 305873, 545358713, 297159362677] ?_ (by decide +kernel)
  simp only [List.mem_cons, List.not_mem_nil, or_false, forall_eq_or_imp, forall_eq]
  exact ⟨by norm_num, by norm_num, prime_305873, prime_545358713, prime_297159362677⟩

theorem prime_341948486974166000522343609283189 : Nat.Prime 341948486974166000522343609283189 := by
  refine prime_of_pratt 341948486974166000522343609283189 2 [2, 2, 3, 3, 3, 109, 29047611873442575647497758179] ?_ (by decide +kernel)
  simp only [List.mem_cons, List.not_mem_nil, or_false, forall_eq_or_imp, forall_eq]
  exact ⟨by norm_num, by norm_num, by norm_num, by norm_num, by norm_num, by norm_num, prime_29047611873442575647497758179⟩

theorem prime_n : Nat.Prime n := by
  refine prime_of_pratt n 7 [2, 2, 2, 2, 2, 2, 3, 149, 631, 107361793816595537, 174723607534414371449, 341948486974166000522343609283189] ?_ (by decide +kernel)
  simp only [List.mem_cons, List.not_mem_nil, or_false, forall_eq_or_imp, forall_eq]
  exact ⟨by norm_num, by norm_num, by norm_num, by norm_num, by norm_num, by norm_num, by norm_num, by norm_num, by norm_num, prime_107361793816595537, prime_174723607534414371449, prime_341948486974166000522343609283189⟩

instance : Fact (Nat.Prime p) := ⟨prime_p⟩
instance : Fact (Nat.Prime n) := ⟨prime_n⟩

end Verif
