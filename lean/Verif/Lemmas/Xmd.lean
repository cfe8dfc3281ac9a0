import Mathlib.Tactic.Ring
import Mathlib.Tactic.Linarith
import Mathlib.Tactic.Push
import Verif.Model.Seed
import Verif.Spec.Rfc9380

/-! Helper lemmas: the code's XMD equals the RFC's; separation of inputs. -/

namespace Verif

open Rfc9380

theorem i2osp_one (v : Nat) : i2osp v 1 = [UInt8.ofNat v] := by
  have : UInt8.ofNat (v % 256) = UInt8.ofNat v := by
    apply UInt8.toNat_inj.1; simp [UInt8.toNat_ofNat']
  simp [i2osp, toBE, toLE, this]

theorem i2osp_two (v : Nat) : i2osp v 2 = [UInt8.ofNat (v / 256), UInt8.ofNat v] := by
  have : ∀ v, UInt8.ofNat (v % 256) = UInt8.ofNat v := by
    intro v; apply UInt8.toNat_inj.1; simp [UInt8.toNat_ofNat']
  simp [i2osp, toBE, toLE, this]

theorem toLE_zero (k : Nat) : toLE k 0 = List.replicate k 0 := by
  induction k with
  | zero => rfl
  | succ k ih => simp [toLE, ih, List.replicate_succ]

theorem i2osp_zero (k : Nat) : i2osp 0 k = List.replicate k 0 := by
  simp [i2osp, toBE, toLE_zero]

theorem length_block (P : Prim) (b0 d : Bytes) (i : Nat) : (block P.sha256 b0 d i).length = 32 := by
  cases i <;> exact P.sha256_length _

theorem length_blocks (P : Prim) (b0 d : Bytes) (k : Nat) :
    ((List.range k).flatMap (block P.sha256 b0 d)).length = 32 * k := by
  induction k with
  | zero => rfl
  | succ k ih =>
    rw [List.range_succ, List.flatMap_append, List.length_append, ih]
    simp [length_block]; ring

theorem xmd_loop_eq (P : Prim) (b0 d : Bytes) (m k : Nat) :
    Xmd.loop P b0 d m (k + 2) ((List.range (k + 1)).flatMap (block P.sha256 b0 d)) =
      (List.range (k + 1 + m)).flatMap (block P.sha256 b0 d) := by
  induction m generalizing k with
  | zero => rfl
  | succ m ih =>
    have hlast : ((List.range (k + 1)).flatMap (block P.sha256 b0 d)).drop
        (((List.range (k + 1)).flatMap (block P.sha256 b0 d)).length - 32) = block P.sha256 b0 d k := by
      rw [length_blocks, List.range_succ, List.flatMap_append]
      rw [List.drop_append_of_le_length (by rw [length_blocks]; omega),
        List.drop_of_length_le (by rw [length_blocks]; omega)]
      simp
    have hnext : P.sha256 (List.zipWith (· ^^^ ·) b0 (block P.sha256 b0 d k) ++ [UInt8.ofNat (k + 2)] ++ d ++
        [UInt8.ofNat d.length]) = block P.sha256 b0 d (k + 1) := by
      rw [block, strxor, dstPrime, i2osp_one, i2osp_one, ← List.append_assoc]
    rw [Xmd.loop, hlast, hnext]
    have hr : (List.range (k + 1)).flatMap (block P.sha256 b0 d) ++ block P.sha256 b0 d (k + 1) =
        (List.range (k + 1 + 1)).flatMap (block P.sha256 b0 d) := by
      rw [List.range_succ (n := k + 1), List.flatMap_append]; simp
    rw [hr, ih (k + 1)]
    congr 2
    ring

/-- The closure `xmd` of the code for a length within range. -/
theorem xmd_eq (P : Prim) (msg d : Bytes) (len : Nat) :
    Xmd.xmd P msg len (((len : Int) - 1).tdiv 32 + 1) d =
      (List.range (max 1 (ell len))).flatMap (block P.sha256 (P.sha256 (msgPrime msg d len)) d) := by
  have hb0 : P.sha256 (List.replicate 64 0 ++ msg ++
      [Xmd.byteOfInt ((len : Int).tdiv 256), Xmd.byteOfInt ((len : Int).tmod 256), 0] ++ d ++
      [UInt8.ofNat d.length]) = P.sha256 (msgPrime msg d len) := by
    have e1 : Xmd.byteOfInt ((len : Int).tdiv 256) = UInt8.ofNat (len / 256) := by
      apply UInt8.toNat_inj.1
      rw [Xmd.byteOfInt, Int.tdiv_eq_ediv_of_nonneg (by omega)]
      simp only [UInt8.toNat_ofNat']
      omega
    have e2 : Xmd.byteOfInt ((len : Int).tmod 256) = UInt8.ofNat len := by
      apply UInt8.toNat_inj.1
      rw [Xmd.byteOfInt, Int.tmod_eq_emod_of_nonneg (by omega)]
      simp only [UInt8.toNat_ofNat']
      omega
    rw [e1, e2, msgPrime, i2osp_zero, i2osp_two, i2osp_zero, dstPrime, i2osp_one]
    simp
  have hell : ((((len : Int) - 1).tdiv 32 + 1) - 1).toNat = max 1 (ell len) - 1 := by
    rw [ell]
    rcases Nat.eq_zero_or_pos len with rfl | h
    · decide
    · rw [Int.tdiv_eq_ediv_of_nonneg (by omega)]
      omega
  rw [Xmd.xmd]
  simp only [hb0, hell]
  have h1 : P.sha256 (P.sha256 (msgPrime msg d len) ++ [1] ++ d ++ [UInt8.ofNat d.length]) =
      (List.range (0 + 1)).flatMap (block P.sha256 (P.sha256 (msgPrime msg d len)) d) := by
    simp [block, i2osp_one, dstPrime]
  rw [h1, xmd_loop_eq]
  congr 2
  omega

/-- Within range the code returns the RFC value. -/
theorem expand_eq (P : Prim) (msg dst : Bytes) (len : Nat) (h : len ≤ 8160) :
    Xmd.expandMessageXmd P msg dst len =
      .ok (((List.range (ell len)).flatMap (block P.sha256
        (P.sha256 (msgPrime msg (effectiveDst P.sha256 dst) len)) (effectiveDst P.sha256 dst))).take len) := by
  have hsel : (if 256 ≤ dst.length then
        Xmd.xmd P msg len (((len : Int) - 1).tdiv 32 + 1) (P.sha256 (ascii "H2C-OVERSIZE-DST-" ++ dst))
      else Xmd.xmd P msg len (((len : Int) - 1).tdiv 32 + 1) dst) =
      Xmd.xmd P msg len (((len : Int) - 1).tdiv 32 + 1) (effectiveDst P.sha256 dst) := by
    rw [effectiveDst]
    by_cases hd : 256 ≤ dst.length
    · rw [if_pos hd, if_pos (by omega)]
    · rw [if_neg hd, if_neg (by omega)]
  have hpos : ¬ ((((len : Int) - 1).tdiv 32 + 1) * 32 < 0) := by
    rcases Nat.eq_zero_or_pos len with rfl | h
    · decide
    · rw [Int.tdiv_eq_ediv_of_nonneg (by omega)]; omega
  rw [Xmd.expandMessageXmd, if_neg (by omega)]
  simp only [hpos, if_false, hsel]
  simp only [xmd_eq, length_blocks]
  have hel : len ≤ 32 * ell len := by rw [ell]; omega
  by_cases h0 : len = 0
  · subst h0
    simp [ell]
  · have he : max 1 (ell len) = ell len := by rw [ell]; omega
    rw [he]
    split
    · rw [if_neg (by omega)]; simp
    · rw [List.take_of_length_le]
      rw [length_blocks]; omega

theorem length_expand {P : Prim} {msg dst : Bytes} {len : Nat} {out : Bytes} (h : len ≤ 8160)
    (ho : Xmd.expandMessageXmd P msg dst len = .ok out) : out.length = len := by
  rw [expand_eq P msg dst len h] at ho
  simp only [Res.ok.injEq] at ho
  rw [← ho, List.length_take, length_blocks, ell]
  omega

theorem append_inj_of_length_right {a b c d : Bytes} (h : a ++ b = c ++ d) (hl : b.length = d.length) :
    a = c ∧ b = d := List.append_inj' h hl

theorem msgPrime_inj {msg msg' d d' : Bytes} {len : Nat} (hd : d.length < 256) (hd' : d'.length < 256)
    (h : msgPrime msg d len = msgPrime msg' d' len) : msg = msg' ∧ d = d' := by
  simp only [msgPrime, dstPrime, i2osp_one, ← List.append_assoc] at h
  obtain ⟨h, hlast⟩ := List.append_inj' h (by simp)
  have hlen : d.length = d'.length := by
    simp only [List.cons.injEq, and_true] at hlast
    have := congrArg UInt8.toNat hlast
    simp only [UInt8.toNat_ofNat'] at this
    omega
  obtain ⟨h, hdd⟩ := List.append_inj' h hlen
  obtain ⟨h, -⟩ := List.append_inj' h rfl
  obtain ⟨h, -⟩ := List.append_inj' h rfl
  obtain ⟨-, h⟩ := List.append_inj h rfl
  exact ⟨h, hdd⟩

/-- A primitive record with the given hash function, other components trivial. -/
def Prim.ofHash (H : Bytes → Bytes) (hH : ∀ m, (H m).length = 32) : Prim where
  sha256 := H
  sha256_length := hH
  hmacSha512 := fun _ _ => List.replicate 64 0
  hmacSha512_length := fun _ _ => by simp
  chacha20 := fun k i => k.getD (i % 32) 0

theorem head?_msgPrime (msg d : Bytes) (len : Nat) : (msgPrime msg d len).head? = some 0 := by
  simp [msgPrime, i2osp_zero, List.replicate_succ]

/-- For different (message, separator) pairs and any 32-byte value there is a hash function under which the first pair
expands to that value followed by zeros and the second to zeros only. -/
theorem exists_prim_expand_aux (msg dst msg' dst' : Bytes) (len : Nat) (hlen : len ≤ 8160)
    (hne : (msg, dst) ≠ (msg', dst')) (hov : 256 ≤ dst.length ∨ dst'.length < 256) (V : Bytes) (hV : V.length = 32) :
    ∃ P : Prim, Xmd.expandMessageXmd P msg dst len = .ok ((V ++ List.replicate len 0).take len) ∧
      Xmd.expandMessageXmd P msg' dst' len = .ok (List.replicate len 0) := by
  -- the value given to an oversize `dst`
  obtain ⟨W, hWl, hW⟩ : ∃ W : Bytes, W.length = 32 ∧ W ≠ dst' ∧ W.head? ≠ some 0 := by
    by_cases h : List.replicate 32 (3 : UInt8) = dst'
    · refine ⟨List.replicate 32 4, by simp, ?_, by simp [List.replicate_succ]⟩
      rw [← h]; decide
    · exact ⟨List.replicate 32 3, by simp, h, by simp [List.replicate_succ]⟩
  let O : Bytes := ascii "H2C-OVERSIZE-DST-" ++ dst
  let D : Bytes := if dst.length > 255 then W else dst
  let M : Bytes := msgPrime msg D len
  let F : Bytes := List.replicate 32 1 ++ [1] ++ D ++ [UInt8.ofNat D.length]
  let H : Bytes → Bytes := fun x =>
    if x = O ∧ dst.length > 255 then W
    else if x = M then List.replicate 32 1
    else if x = F then V
    else List.replicate 32 0
  have hH : ∀ m, (H m).length = 32 := by
    intro m; simp only [H]; split
    · exact hWl
    split
    · simp
    split
    · exact hV
    · simp
  have hOh : ∀ d : Bytes, (ascii "H2C-OVERSIZE-DST-" ++ d).head? = some 72 := by
    intro d
    have : ascii "H2C-OVERSIZE-DST-" = 72 :: (ascii "H2C-OVERSIZE-DST-").tail := by decide +kernel
    rw [this]; rfl
  have hMh : M.head? = some 0 := head?_msgPrime _ _ _
  have hFh : F.head? = some 1 := by simp [F, List.replicate_succ]
  refine ⟨Prim.ofHash H hH, ?_⟩
  have hHe : (Prim.ofHash H hH).sha256 = H := rfl
  have hD : effectiveDst H dst = D := by
    simp only [effectiveDst, D]
    by_cases hd : dst.length > 255
    · rw [if_pos hd, if_pos hd]
      simp only [H]
      rw [if_pos ⟨rfl, hd⟩]
    · rw [if_neg hd, if_neg hd]
  have hDl : D.length < 256 := by
    simp only [D]
    by_cases hd : dst.length > 255
    · rw [if_pos hd]; omega
    · rw [if_neg hd]; omega
  -- the other effective separator
  have hD'l : (effectiveDst H dst').length < 256 := by
    simp only [effectiveDst]
    by_cases hd : dst'.length > 255
    · rw [if_pos hd, hH]; omega
    · rw [if_neg hd]; omega
  have hM : msgPrime msg' (effectiveDst H dst') len ≠ M := by
    intro h
    obtain ⟨hm, hd⟩ := msgPrime_inj hD'l hDl h
    by_cases hdd : dst = dst'
    · subst hdd
      exact hne (by rw [hm])
    simp only [effectiveDst] at hd
    by_cases hd' : dst'.length > 255
    · rw [if_pos hd'] at hd
      have hlong : dst.length > 255 := by
        rcases hov with h | h
        · omega
        · omega
      have hO : ascii "H2C-OVERSIZE-DST-" ++ dst' ≠ O := by
        intro h
        exact hdd (List.append_cancel_left h).symm
      have hv : H (ascii "H2C-OVERSIZE-DST-" ++ dst') = List.replicate 32 0 := by
        simp only [H]
        rw [if_neg (by simp [hO]), if_neg, if_neg]
        · intro h; rw [← h, hOh] at hFh; simp at hFh
        · intro h; rw [← h, hOh] at hMh; simp at hMh
      rw [hv] at hd
      simp only [D, if_pos hlong] at hd
      apply hW.2
      rw [← hd]; simp [List.replicate_succ]
    · rw [if_neg hd'] at hd
      simp only [D] at hd
      split at hd
      · exact hW.1 hd.symm
      · exact hdd hd.symm
  have hHM : H M = List.replicate 32 1 := by
    simp only [H]
    rw [if_neg, if_pos trivial]
    rintro ⟨h, -⟩
    rw [h] at hMh; simp only [O, hOh] at hMh; simp at hMh
  have hHM' : H (msgPrime msg' (effectiveDst H dst') len) = List.replicate 32 0 := by
    simp only [H]
    rw [if_neg, if_neg hM, if_neg]
    · intro h; rw [← h, head?_msgPrime] at hFh; simp at hFh
    · rintro ⟨h, -⟩
      have := head?_msgPrime msg' (effectiveDst H dst') len
      rw [h] at this; simp only [O, hOh] at this; simp at this
  -- a block preimage: 32 bytes, a counter in 1..255, a separator
  have hblk : ∀ (b e : Bytes) (c : Nat), b.length = 32 → 0 < c → c < 256 → (b ≠ List.replicate 32 1 ∨ c ≠ 1) →
      (b ++ [UInt8.ofNat c] ++ e ≠ O ∨ ¬ dst.length > 255) → H (b ++ [UInt8.ofNat c] ++ e) = List.replicate 32 0 := by
    intro b e c hb hc0 hc hbc h72
    have ht : (b ++ [UInt8.ofNat c] ++ e).take 32 = b := by
      rw [List.append_assoc, List.take_append_of_le_length (by omega), List.take_of_length_le (by omega)]
    have hc32 : (b ++ [UInt8.ofNat c] ++ e)[32]? = some (UInt8.ofNat c) := by
      rw [List.append_assoc, List.getElem?_append_right (by omega), hb]; rfl
    simp only [H]
    rw [if_neg, if_neg, if_neg]
    · intro h
      have h1 := congrArg (List.take 32) h
      rw [ht] at h1
      have h1' : b = List.replicate 32 1 := by
        rw [h1]; simp only [F, List.append_assoc]
        rw [List.take_append_of_le_length (by simp), List.take_of_length_le (by simp)]
      have h2 := congrArg (fun l : Bytes => l[32]?) h
      simp only [hc32, F] at h2
      rw [List.append_assoc, List.append_assoc, List.getElem?_append_right (by simp)] at h2
      simp only [List.length_replicate, Nat.sub_self, List.singleton_append, List.getElem?_cons_zero,
        Option.some.injEq] at h2
      have h3 := congrArg UInt8.toNat h2
      simp only [UInt8.toNat_ofNat', UInt8.reduceToNat] at h3
      rcases hbc with hbc | hbc
      · exact hbc h1'
      · omega
    · intro h
      have h2 := congrArg (fun l : Bytes => l[32]?) h
      simp only [hc32] at h2
      simp only [M, msgPrime, i2osp_zero, List.append_assoc] at h2
      rw [List.getElem?_append_left (by simp)] at h2
      simp only [List.getElem?_replicate, Nat.reduceLT, if_true, Option.some.injEq] at h2
      have h3 := congrArg UInt8.toNat h2
      simp only [UInt8.toNat_ofNat', UInt8.reduceToNat] at h3
      omega
    · rintro ⟨h, h'⟩
      rcases h72 with h72 | h72
      · exact h72 h
      · exact h72 h'
  have hxorz : ∀ (c : UInt8) , List.zipWith (· ^^^ ·) (List.replicate 32 c) (List.replicate 32 0) =
      List.replicate 32 c := by
    intro c; simp
  -- blocks of the first pair
  have hb1 : block H (H M) D 0 = V := by
    rw [block, hHM, i2osp_one, dstPrime, i2osp_one]
    have : List.replicate 32 1 ++ [UInt8.ofNat 1] ++ (D ++ [UInt8.ofNat D.length]) = F := by
      simp [F]
    rw [this]
    simp only [H]
    rw [if_neg, if_neg, if_pos trivial]
    · intro h; rw [h, hMh] at hFh; simp at hFh
    · rintro ⟨h, -⟩
      rw [h] at hFh; simp only [O, hOh] at hFh; simp at hFh
  have hbl : ∀ i, (block H (H M) D i).length = 32 := by intro i; cases i <;> exact hH _
  have hbs : ∀ i < 254, block H (H M) D (i + 1) = List.replicate 32 0 := by
    intro i hi
    rw [block, i2osp_one]
    apply hblk
    · rw [strxor, List.length_zipWith, hH, hbl]; rfl
    · omega
    · omega
    · right; omega
    · by_cases hd : dst.length > 255
      · left
        intro h
        have := congrArg List.length h
        simp only [List.length_append, strxor, List.length_zipWith, hH, dstPrime, i2osp_one, O, D,
          if_pos hd, hWl, List.length_singleton] at this
        omega
      · right; exact hd
  -- blocks of the second pair
  have hbs' : ∀ i < 255, block H (H (msgPrime msg' (effectiveDst H dst') len)) (effectiveDst H dst') i =
      List.replicate 32 0 := by
    have hnO : ∀ (b r : Bytes), b.head? = some 0 → b ++ r ≠ O := by
      intro b r hb h
      have := congrArg List.head? h
      simp only [O, hOh] at this
      cases b with
      | nil => simp at hb
      | cons x xs => simp at this hb; rw [hb] at this; exact absurd this (by decide)
    have hz1 : List.replicate 32 (0 : UInt8) ≠ List.replicate 32 1 := by decide
    intro i
    induction i with
    | zero =>
      intro _
      rw [block, hHM', i2osp_one]
      apply hblk _ _ _ (by simp) (by omega) (by omega) (Or.inl hz1)
      left
      rw [List.append_assoc]
      exact hnO _ _ (by simp [List.replicate_succ])
    | succ i ih =>
      intro hi
      rw [block, ih (by omega), hHM', i2osp_one, strxor, hxorz]
      apply hblk _ _ _ (by simp) (by omega) (by omega) (Or.inl hz1)
      left
      rw [List.append_assoc]
      exact hnO _ _ (by simp [List.replicate_succ])
  have hflat : ∀ (g : Nat → Bytes) (k : Nat), (∀ i < k, g i = List.replicate 32 0) →
      (List.range k).flatMap g = List.replicate (32 * k) 0 := by
    intro g k
    induction k with
    | zero => intro _; rfl
    | succ k ih =>
      intro h
      rw [List.range_succ, List.flatMap_append, ih fun i hi => h i (by omega)]
      simp only [List.flatMap_cons, List.flatMap_nil, List.append_nil, h k (by omega), List.replicate_append_replicate]
      congr 1
  have hell : ell len ≤ 255 := by rw [ell]; omega
  have hell' : len ≤ 32 * ell len := by rw [ell]; omega
  constructor
  · rw [expand_eq _ _ _ _ hlen, hHe, hD]
    congr 1
    rcases Nat.eq_zero_or_pos len with h0 | h0
    · rw [h0]; rfl
    · have he : ell len = (ell len - 1) + 1 := by rw [ell]; omega
      rw [he, List.range_succ_eq_map, List.flatMap_cons, List.flatMap_map, hflat]
      · change (block H (H M) D 0 ++ _).take len = _
        rw [hb1, List.take_append, List.take_append, hV]
        simp only [List.take_replicate]
        congr 2
        omega
      · intro i hi; exact hbs i (by omega)
  · rw [expand_eq _ _ _ _ hlen, hHe]
    congr 1
    rw [hflat _ _ fun i hi => hbs' i (by omega), List.take_replicate]
    congr 1
    omega

/-- Different (message, separator) pairs are separated by some hash function: for every 32-byte value there is one
for which one of the pairs expands to that value followed by zeros and the other to zeros. -/
theorem exists_prim_expand (msg dst msg' dst' : Bytes) (len : Nat) (hlen : len ≤ 8160)
    (hne : (msg, dst) ≠ (msg', dst')) (V : Bytes) (hV : V.length = 32) :
    ∃ P : Prim, ((Xmd.expandMessageXmd P msg dst len = .ok ((V ++ List.replicate len 0).take len) ∧
      Xmd.expandMessageXmd P msg' dst' len = .ok (List.replicate len 0)) ∨
      (Xmd.expandMessageXmd P msg' dst' len = .ok ((V ++ List.replicate len 0).take len) ∧
      Xmd.expandMessageXmd P msg dst len = .ok (List.replicate len 0))) := by
  by_cases hov : 256 ≤ dst.length ∨ dst'.length < 256
  · obtain ⟨P, hP⟩ := exists_prim_expand_aux msg dst msg' dst' len hlen hne hov V hV
    exact ⟨P, Or.inl hP⟩
  · obtain ⟨P, hP⟩ := exists_prim_expand_aux msg' dst' msg dst len hlen (Ne.symm hne) (by omega) V hV
    exact ⟨P, Or.inr hP⟩

theorem exists_prim_expand_ne (msg dst msg' dst' : Bytes) (len : Nat) (h0 : 0 < len) (hlen : len ≤ 8160)
    (hne : (msg, dst) ≠ (msg', dst')) :
    ∃ P : Prim, Xmd.expandMessageXmd P msg dst len ≠ Xmd.expandMessageXmd P msg' dst' len := by
  obtain ⟨P, hP⟩ := exists_prim_expand msg dst msg' dst' len hlen hne (List.replicate 32 2) (by simp)
  refine ⟨P, fun h => ?_⟩
  have hd : (List.replicate 32 (2 : UInt8) ++ List.replicate len 0).take len ≠ List.replicate len 0 := by
    intro h
    have := congrArg List.head? h
    cases len with
    | zero => omega
    | succ k => simp [List.replicate_succ] at this
  rcases hP with ⟨h1, h2⟩ | ⟨h1, h2⟩
  · rw [h1, h2] at h; simp only [Res.ok.injEq] at h; exact hd h
  · rw [h1, h2] at h; simp only [Res.ok.injEq] at h; exact hd h.symm

end Verif
