import Verif.Lemmas.Key

/-!
Properties C28–C31: key derivation.  `Bip32.ckdPub`, `Bip32.derive` are the specification (BIP32); `none` means an
invalid child key.
-/

namespace Verif

open Key

/-- C28: `Next` adds one to the big-endian value; the length is kept unless every byte is 255. -/
theorem C28_index_next (d : Index) :
    beVal d.next = beVal d + 1 ∧
    d.next.length = if ∀ x ∈ d, x = 255 then d.length + 1 else d.length := by
  obtain ⟨h1, h2, h3, h4⟩ := nextLoop_spec (reverseBytes d) 1 (Or.inr rfl)
  have hb : leVal (reverseBytes d) = beVal d := (beVal_eq_leVal_reverse d).symm
  have hl : (reverseBytes d).length = d.length := List.length_reverse
  have ha : (∀ x ∈ reverseBytes d, x = 255) ↔ ∀ x ∈ d, x = 255 := by simp [reverseBytes]
  rw [ha] at h4
  rw [hb] at h3
  simp only [Index.next]
  rcases h2 with h2 | h2
  · have hna : ¬ ∀ x ∈ d, x = 255 := fun h => by
      have := h4.2 ⟨rfl, h⟩; rw [h2] at this; exact absurd this (by decide)
    rw [h2] at h3
    simp only [h2, ne_eq, not_true_eq_false, if_false, if_neg hna]
    refine ⟨?_, ?_⟩
    · rw [beVal_eq_leVal_reverse, reverseBytes, List.reverse_reverse]
      simpa using h3
    · rw [reverseBytes, List.length_reverse, h1, hl]
  · have hna := (h4.1 h2).2
    rw [h2] at h3
    have h10 : (1 : UInt8) ≠ 0 := by decide
    simp only [h2, ne_eq, h10, not_false_eq_true, if_true, if_pos hna]
    refine ⟨?_, ?_⟩
    · rw [beVal_eq_leVal_reverse, reverseBytes, List.reverse_reverse, leVal_append, h1]
      simpa using h3
    · rw [reverseBytes, List.length_reverse, List.length_append, h1, hl]; rfl

/-- `Next` is injective on indices of one length (but `[] ` and `[0]` have the same successor). -/
theorem C28_next_injective (a b : Index) (hl : a.length = b.length) (h : a.next = b.next) : a = b := by
  refine beVal_inj hl ?_
  have ha := (C28_index_next a).1
  have hb := (C28_index_next b).1
  rw [h] at ha
  omega

/-- The vectors of key_derivation_test.go `TestIndexNextBehavior`. -/
example : Index.next [] = [1] ∧ Index.next [1] = [2] ∧ Index.next [0xff] = [1, 0] ∧
    Index.next [0, 0, 0, 5] = [0, 0, 0, 6] ∧ Index.next [0x7f, 0xff, 0xff, 0xff] = [0x80, 0, 0, 0] := by
  decide +kernel

/-- C29: whenever the tweak and the chain code are returned, they belong to the key obtained by running the derivation
steps on the public key: the derived key is `master + tweak•G`. -/
theorem C29_derived_key_is_tweaked (P : Prim) (path : List Index) (pk : Pt) (t : Fn) (c : Bytes)
    (h : deriveTweak P path pk = .ok (t, c)) :
    path.foldl (Bip32.step P) (pk, List.replicate 32 0) = (pk + Point.mulByG t, c) := by
  have := deriveLoop_step P path pk _ 0 t c h
  rwa [sub_zero] at this

/-- C29 against BIP32: on a path without invalid children derivation succeeds and gives BIP32's key and chain code. -/
theorem C29_refines_bip32 (P : Prim) (path : List Index) (pk K : Pt) (c : Bytes)
    (h : Bip32.derive P (pk, List.replicate 32 0) path = some (K, c)) :
    ∃ t, deriveTweak P path pk = .ok (t, c) ∧ K = pk + Point.mulByG t := by
  have key : ∀ (path : List Index) (K0 : Pt) (c0 : Bytes) (o : Fn),
      Bip32.derive P (K0, c0) path = some (K, c) → ∃ t, deriveLoop P K0 c0 o path = .ok (t, c) := by
    intro path
    induction path with
    | nil =>
      intro K0 c0 o h
      simp only [Bip32.derive, Option.some.injEq, Prod.mk.injEq] at h
      exact ⟨o, by rw [deriveLoop, h.2]⟩
    | cons i path ih =>
      intro K0 c0 o h
      rw [Bip32.derive] at h
      cases hk : Bip32.ckdPub P (K0, c0) i with
      | none => rw [hk] at h; cases h
      | some Kc =>
        rw [hk] at h
        obtain ⟨t, ht⟩ := ih Kc.1 Kc.2 (o + (Bip32.il P K0 c0 i : Fn)) h
        refine ⟨t, ?_⟩
        rw [deriveLoop, ckdpub_valid P K0 c0 i hk]
        exact ht
  obtain ⟨t, ht⟩ := key path pk _ 0 h
  refine ⟨t, ht, ?_⟩
  have h1 := C29_derived_key_is_tweaked P path pk t c ht
  have h2 : ∀ (path : List Index) (K0 : Pt × Bytes), Bip32.derive P K0 path = some (K, c) →
      path.foldl (Bip32.step P) K0 = (K, c) := by
    intro path
    induction path with
    | nil => intro K0 h; exact Option.some.inj h
    | cons i path ih =>
      intro K0 h
      rw [Bip32.derive] at h
      cases hk : Bip32.ckdPub P K0 i with
      | none => rw [hk] at h; cases h
      | some Kc =>
        rw [hk] at h
        have hs : Bip32.step P K0 i = Kc := by
          rw [Bip32.ckdPub] at hk
          split_ifs at hk
          exact Option.some.inj hk
        rw [List.foldl_cons, hs]
        exact ih Kc h
  rw [h2 path _ h] at h1
  exact congrArg Prod.fst h1

/-- An HMAC with a fixed 64-byte output. -/
def constPrim (out : Bytes) (h : out.length = 64) : Prim :=
  { sha256 := fun _ => List.replicate 32 0
    sha256_length := by simp
    hmacSha512 := fun _ _ => out
    hmacSha512_length := fun _ _ => h
    chacha20 := fun _ _ => 0 }

/-- Paths without invalid children exist: two steps from `G` with `I_L = 1`. -/
theorem derive_const : Bip32.derive (constPrim (toBE 64 (2 ^ 256)) (by simp)) (G, List.replicate 32 0) [[0], [1]] =
    some (3 • G, List.replicate 32 0) := by
  have hil : ∀ K c i, Bip32.il (constPrim (toBE 64 (2 ^ 256)) (by simp)) K c i = 1 := by
    intro K c i
    show beVal ((toBE 64 (2 ^ 256)).take 32) = 1
    decide +kernel
  have hir : ∀ K c i, Bip32.ir (constPrim (toBE 64 (2 ^ 256)) (by simp)) K c i = List.replicate 32 0 := by
    intro K c i
    show (toBE 64 (2 ^ 256)).drop 32 = _
    decide +kernel
  have h2 : (2 : ℕ) • G ≠ 0 := nsmul_G_ne_zero (by norm_num) (by decide +kernel)
  have h3 : (3 : ℕ) • G ≠ 0 := nsmul_G_ne_zero (by norm_num) (by decide +kernel)
  have hn : ¬ (1 ≥ n) := by decide +kernel
  have e2 : (1 : ℕ) • G + G = (2 : ℕ) • G := by rw [one_nsmul, two_nsmul]
  have e3 : (1 : ℕ) • G + (2 : ℕ) • G = (3 : ℕ) • G := by rw [← add_nsmul]
  simp only [Bip32.derive, Bip32.ckdPub, hil, hir, e2, h2, or_false, hn, if_false, Option.bind_some, e3, h3]

/-- C30: the empty path gives tweak zero and the initial chain code; deriving along `p1 ++ p2` is deriving along `p1`
and then along `p2` from the derived key and chain code, and the tweaks add up. -/
theorem C30_path_composition (P : Prim) (p1 p2 : List Index) (pk : Pt) :
    deriveTweak P [] pk = .ok (0, List.replicate 32 0) ∧
    deriveTweak P (p1 ++ p2) pk =
      (deriveTweak P p1 pk >>= fun r1 =>
        deriveLoop P (pk + Point.mulByG r1.1) r1.2 0 p2 >>= fun r2 => .ok (r1.1 + r2.1, r2.2)) := by
  refine ⟨rfl, ?_⟩
  rw [deriveTweak, deriveLoop_append]
  show _ = (deriveLoop P pk _ 0 p1 >>= _)
  congr 1
  funext r
  rw [sub_zero, deriveLoop_offset]
  rfl

/-- Derivation never fails or panics: it returns, or (only when from some key on the path every index from the given
one upwards is invalid) does not terminate. -/
theorem C30_no_failure (P : Prim) (path : List Index) (pk : Pt) :
    (∃ t c, deriveTweak P path pk = .ok (t, c)) ∨ deriveTweak P path pk = .diverge := by
  have key : ∀ (path : List Index) (K0 : Pt) (c0 : Bytes) (o : Fn),
      (∃ t c, deriveLoop P K0 c0 o path = .ok (t, c)) ∨ deriveLoop P K0 c0 o path = .diverge := by
    intro path
    induction path with
    | nil => intro K0 c0 o; exact Or.inl ⟨_, _, rfl⟩
    | cons i path ih =>
      intro K0 c0 o
      rw [deriveLoop]
      rcases ckdpub_cases P K0 c0 i with h | h
      · rw [h]; exact ih _ _ _
      · rw [h]; exact Or.inr rfl
  exact key path pk _ 0

/-- C31 does not hold: at an invalid index the code recurses to the next one but throws the result away, and returns the
tweak and chain code of the *invalid* child.  Stated for every hash function, key and index for which the index is invalid and
the next one is valid. -/
theorem C31_false (P : Prim) (pk : Pt) (i : Index) (Kc : Pt × Bytes)
    (hi : Bip32.ckdPub P (pk, List.replicate 32 0) i = none)
    (hn : Bip32.ckdPub P (pk, List.replicate 32 0) i.next = some Kc) :
    deriveTweak P [i] pk =
      .ok ((Bip32.il P pk (List.replicate 32 0) i : Fn), Bip32.ir P pk (List.replicate 32 0) i) ∧
    deriveTweak P [i.next] pk = .ok ((Bip32.il P pk (List.replicate 32 0) i.next : Fn), Kc.2) := by
  constructor
  · have h1 : ckdpubLoop P pk (List.replicate 32 0) i ≠ none :=
      (ckdpubLoop_isSome_iff P pk _ i).2 ⟨1, by rw [iterNext_succ, iterNext, hn]; simp⟩
    rcases ckdpub_cases P pk (List.replicate 32 0) i with h | h
    · rw [deriveTweak, deriveLoop, h]
      simp only [Res.ok_bind, deriveLoop, zero_add]
      rfl
    · exfalso
      obtain ⟨r, hr⟩ := Option.ne_none_iff_exists'.1 h1
      rw [ckdpubLoop_eq, if_pos hi] at hr
      rw [ckdpub, ckdpubLoop_eq, if_pos hi] at h
      cases hc : ckdpubLoop P pk (List.replicate 32 0) i.next with
      | none => rw [hc] at hr; cases hr
      | some r' => rw [hc] at h; cases h
  · rw [deriveTweak, deriveLoop, ckdpub_valid P pk _ _ hn]
    simp only [Res.ok_bind, deriveLoop, zero_add]

/-- HMAC for the counterexample: all ones for messages ending in a zero byte, `I_L = 1` otherwise. -/
def skipPrim : Prim :=
  { sha256 := fun _ => List.replicate 32 0
    sha256_length := by simp
    hmacSha512 := fun _ m => if m.getLast? = some 0 then List.replicate 64 255 else toBE 64 (2 ^ 256)
    hmacSha512_length := by intro k m; split_ifs <;> simp
    chacha20 := fun _ _ => 0 }

/-- The hypotheses of `C31_false` are met, and the two results do differ. -/
theorem C31_false_witness : ∃ (P : Prim) (pk : Pt) (i : Index) (Kc : Pt × Bytes),
    Bip32.ckdPub P (pk, List.replicate 32 0) i = none ∧
    Bip32.ckdPub P (pk, List.replicate 32 0) i.next = some Kc ∧
    deriveTweak P [i] pk ≠ deriveTweak P [i.next] pk := by
  have hnext : Index.next [0] = [1] := by decide +kernel
  have h0 : Bip32.il skipPrim G (List.replicate 32 0) [0] = 2 ^ 256 - 1 := by
    have : skipPrim.hmacSha512 (List.replicate 32 0) (Point.serialize G ++ [0]) = List.replicate 64 255 := by
      simp [skipPrim]
    rw [Bip32.il, this]
    decide +kernel
  have hh1 : skipPrim.hmacSha512 (List.replicate 32 0) (Point.serialize G ++ [1]) = toBE 64 (2 ^ 256) := by
    simp [skipPrim]
  have h1 : Bip32.il skipPrim G (List.replicate 32 0) [1] = 1 := by
    rw [Bip32.il, hh1]
    decide +kernel
  have hv : Bip32.ckdPub skipPrim (G, List.replicate 32 0) [0] = none := by
    rw [Bip32.ckdPub, if_pos (Or.inl ?_)]
    rw [h0]; decide +kernel
  have h2 : (2 : ℕ) • G ≠ 0 := nsmul_G_ne_zero (by norm_num) (by decide +kernel)
  have hw : Bip32.ckdPub skipPrim (G, List.replicate 32 0) (Index.next [0]) =
      some (2 • G, Bip32.ir skipPrim G (List.replicate 32 0) [1]) := by
    rw [hnext, Bip32.ckdPub]
    simp only [h1]
    have e2 : (1 : ℕ) • G + G = (2 : ℕ) • G := by rw [one_nsmul, two_nsmul]
    have hn : ¬ (1 ≥ n) := by decide +kernel
    rw [e2, if_neg (by simp [hn, h2])]
  refine ⟨skipPrim, G, [0], _, hv, hw, ?_⟩
  obtain ⟨e1, e2⟩ := C31_false skipPrim G [0] _ hv hw
  rw [e1, e2, hnext, h0, h1]
  intro h
  have := congrArg Prod.fst (Res.ok.inj h)
  revert this
  decide +kernel

/-- Worse: if every index is invalid the recursion never ends; with an HMAC that returns all ones, derivation along any
non-empty path does not return. -/
theorem C31_false_diverges (i : Index) (path : List Index) (pk : Pt) :
    deriveTweak (constPrim (List.replicate 64 255) (by simp)) (i :: path) pk = .diverge := by
  have hinv : ∀ K c j, Bip32.ckdPub (constPrim (List.replicate 64 255) (by simp)) (K, c) j = none := by
    intro K c j
    rw [Bip32.ckdPub, if_pos (Or.inl ?_)]
    show beVal ((List.replicate 64 255).take 32) ≥ n
    decide +kernel
  have hloop : ckdpubLoop (constPrim (List.replicate 64 255) (by simp)) pk (List.replicate 32 0) i = none := by
    by_contra h
    obtain ⟨k, hk⟩ := (ckdpubLoop_isSome_iff _ _ _ _).1 h
    exact hk (hinv _ _ _)
  rw [deriveTweak, deriveLoop, ckdpub, hloop]
  rfl

/-- C31, the part that holds: at a valid index the code does not skip, and returns that index's child. -/
theorem C31_valid_child_partial (P : Prim) (pk : Pt) (i : Index) (Kc : Pt × Bytes)
    (h : Bip32.ckdPub P (pk, List.replicate 32 0) i = some Kc) :
    ∃ t, deriveTweak P [i] pk = .ok (t, Kc.2) ∧ Kc.1 = pk + Point.mulByG t ∧
      t.val = Bip32.il P pk (List.replicate 32 0) i := by
  have hlt : Bip32.il P pk (List.replicate 32 0) i < n := by
    rw [Bip32.ckdPub] at h
    split_ifs at h with hc
    push Not at hc
    exact hc.1
  have hd : deriveTweak P [i] pk = .ok ((Bip32.il P pk (List.replicate 32 0) i : Fn), Kc.2) := by
    rw [deriveTweak, deriveLoop, ckdpub_valid P pk _ _ h]
    simp only [Res.ok_bind, deriveLoop, zero_add]
  refine ⟨_, hd, ?_, Scalar.val_natCast_of_lt hlt⟩
  have h1 := C29_derived_key_is_tweaked P [i] pk _ _ hd
  have hs : Bip32.step P (pk, List.replicate 32 0) i = Kc := by
    rw [Bip32.ckdPub] at h
    split_ifs at h
    exact Option.some.inj h
  rw [List.foldl_cons, List.foldl_nil, hs] at h1
  exact congrArg Prod.fst h1

end Verif
