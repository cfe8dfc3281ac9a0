import Verif.Model.Key
import Verif.Spec.Bip32
import Verif.Lemmas.Scalar
import Verif.Lemmas.Point

/-! Lemmas about key derivation. -/

namespace Verif

theorem nsmul_G_ne_zero {k : Nat} (h0 : k ≠ 0) (hk : k < n) : k • G ≠ 0 := by
  rw [nsmul_eq_smul_Fn, Ne, smul_eq_zero_iff', not_or]
  refine ⟨fun h => h0 ?_, G_ne_zero⟩
  have := congrArg ZMod.val h
  rwa [Scalar.val_natCast_of_lt hk, ZMod.val_zero] at this

end Verif

namespace Verif.Key

theorem nextLoop_spec (d : Bytes) (c : UInt8) (hc : c = 0 ∨ c = 1) :
    (nextLoop d c).1.length = d.length ∧ ((nextLoop d c).2 = 0 ∨ (nextLoop d c).2 = 1) ∧
    leVal (nextLoop d c).1 + 256 ^ d.length * (nextLoop d c).2.toNat = leVal d + c.toNat ∧
    ((nextLoop d c).2 = 1 ↔ c = 1 ∧ ∀ x ∈ d, x = 255) := by
  induction d generalizing c with
  | nil => simp [nextLoop, hc]
  | cons w ws ih =>
    have hct : c.toNat ≤ 1 := by rcases hc with rfl | rfl <;> simp
    have hw : w.toNat < 256 := w.toNat_lt
    have hw255 : w = 255 ↔ w.toNat = 255 := by
      rw [← UInt8.toNat_inj]; rfl
    have hc1 : c = 1 ↔ c.toNat = 1 := by
      rw [← UInt8.toNat_inj]; rfl
    by_cases ho : w.toNat + c.toNat > 255
    · obtain ⟨h1, h2, h3, h4⟩ := ih 1 (Or.inr rfl)
      have e : nextLoop (w :: ws) c = (0 :: (nextLoop ws 1).1, (nextLoop ws 1).2) := by
        simp [nextLoop, add, ho]
      rw [e]
      refine ⟨by simp [h1], h2, ?_, ?_⟩
      · simp only [leVal_cons, List.length_cons, pow_succ]
        have : (1 : UInt8).toNat = 1 := rfl
        have h0 : (0 : UInt8).toNat = 0 := rfl
        rw [this] at h3
        rw [h0]
        nlinarith
      · rw [h4]
        simp only [List.mem_cons, forall_eq_or_imp, hw255, hc1]
        have : (1 : UInt8).toNat = 1 := rfl
        constructor
        · rintro ⟨-, h⟩; exact ⟨by omega, by omega, h⟩
        · rintro ⟨-, -, h⟩; exact ⟨trivial, h⟩
    · obtain ⟨h1, h2, h3, h4⟩ := ih 0 (Or.inl rfl)
      have e : nextLoop (w :: ws) c = (UInt8.ofNat (w.toNat + c.toNat) :: (nextLoop ws 0).1, (nextLoop ws 0).2) := by
        simp [nextLoop, add, ho]
      rw [e]
      refine ⟨by simp [h1], h2, ?_, ?_⟩
      · simp only [leVal_cons, List.length_cons, pow_succ]
        have h0 : (0 : UInt8).toNat = 0 := rfl
        have hv : (UInt8.ofNat (w.toNat + c.toNat)).toNat = w.toNat + c.toNat := by
          rw [UInt8.toNat_ofNat']; omega
        rw [h0] at h3
        rw [hv]
        nlinarith
      · rw [h4]
        simp only [List.mem_cons, forall_eq_or_imp, hw255, hc1]
        have : (0 : UInt8).toNat = 0 := rfl
        constructor
        · rintro ⟨h, -⟩; exact absurd h (by decide)
        · rintro ⟨h, h', -⟩; omega

theorem offset_eq (P : Prim) (k m : Bytes) :
    Scalar.fromBytesWide ((P.hmacSha512 k m).take 32) = .ok (beVal ((P.hmacSha512 k m).take 32) : Fn) := by
  have hl : ((P.hmacSha512 k m).take 32).length = 32 := by simp [P.hmacSha512_length]
  rw [Scalar.fromBytesWide, Scalar.fromWideBytes, if_neg (by omega), reverseBytes, leVal_copyInto,
    List.take_of_length_le (by simp [hl]), ← beVal_eq_leVal_reverse]

/-- The validity test of line 86 is BIP32's. -/
theorem serialize_offset_iff {b : Bytes} (h : b.length = 32) :
    Scalar.serialize (beVal b : Fn) = b ↔ beVal b < n := by
  rw [Scalar.serialize_eq]
  constructor
  · intro e
    have := congrArg beVal e
    rw [beVal_toBE_of_lt (Scalar.val_lt_pow _)] at this
    rw [← this]; exact ZMod.val_lt _
  · intro hlt
    rw [Scalar.val_natCast_of_lt hlt, ← h, toBE_beVal]

theorem computeHMAC_eq (P : Prim) (c : Bytes) (pk : Pt) (i : Bytes) :
    computeHMAC P c [Point.serialize pk, i] = P.hmacSha512 c (Point.serialize pk ++ i) := by
  simp [computeHMAC]

theorem ckdpubLoop_eq (P : Prim) (pk : Pt) (c : Bytes) (i : Index) :
    ckdpubLoop P pk c i =
      if Bip32.ckdPub P (pk, c) i = none then
        (ckdpubLoop P pk c i.next).bind fun _ =>
          some (.ok ((Bip32.step P (pk, c) i).1, (Bip32.step P (pk, c) i).2, (Bip32.il P pk c i : Fn)))
      else some (.ok ((Bip32.step P (pk, c) i).1, (Bip32.step P (pk, c) i).2, (Bip32.il P pk c i : Fn))) := by
  have hl : ((P.hmacSha512 c (Point.serialize pk ++ i)).take 32).length = 32 := by simp [P.hmacSha512_length]
  have hkey : pk + Point.mulByG (Bip32.il P pk c i : Fn) = (Bip32.step P (pk, c) i).1 := by
    show pk + (Bip32.il P pk c i : Fn) • G = Bip32.il P pk c i • G + pk
    rw [add_comm, nsmul_eq_smul_Fn]
  have hnone : Bip32.ckdPub P (pk, c) i = none ↔
      (Scalar.serialize (Bip32.il P pk c i : Fn) ≠ (P.hmacSha512 c (Point.serialize pk ++ i)).take 32 ∨
        (Bip32.step P (pk, c) i).1 = 0) := by
    rw [Bip32.ckdPub, Ne, Bip32.il, serialize_offset_iff hl, not_lt]
    split_ifs with h
    · exact ⟨fun _ => h, fun _ => rfl⟩
    · constructor
      · intro h'; cases h'
      · intro h'; exact absurd h' h
  rw [ckdpubLoop, computeHMAC_eq]
  simp only [offset_eq]
  simp only [show beVal ((P.hmacSha512 c (Point.serialize pk ++ i)).take 32) = Bip32.il P pk c i from rfl, hkey, hnone]
  by_cases hb : (Scalar.serialize (Bip32.il P pk c i : Fn) ≠ (P.hmacSha512 c (Point.serialize pk ++ i)).take 32 ∨
        (Bip32.step P (pk, c) i).1 = 0)
  · rw [if_pos hb, if_pos hb]
    cases ckdpubLoop P pk c i.next <;> rfl
  · rw [if_neg hb, if_neg hb]
    rfl

/-- When `ckdpub` returns, it returns the unchecked BIP32 step. -/
theorem ckdpub_cases (P : Prim) (pk : Pt) (c : Bytes) (i : Index) :
    ckdpub P pk c i = .ok ((Bip32.step P (pk, c) i).1, (Bip32.step P (pk, c) i).2, (Bip32.il P pk c i : Fn)) ∨
    ckdpub P pk c i = .diverge := by
  rw [ckdpub, ckdpubLoop_eq]
  split_ifs with h
  · cases ckdpubLoop P pk c i.next
    · right; rfl
    · left; rfl
  · left; rfl

theorem ckdpub_valid (P : Prim) (pk : Pt) (c : Bytes) (i : Index) {Kc : Pt × Bytes}
    (h : Bip32.ckdPub P (pk, c) i = some Kc) :
    ckdpub P pk c i = .ok (Kc.1, Kc.2, (Bip32.il P pk c i : Fn)) := by
  have hs : Bip32.step P (pk, c) i = Kc := by
    rw [Bip32.ckdPub] at h
    split_ifs at h
    exact Option.some.inj h
  rw [ckdpub, ckdpubLoop_eq, if_neg (by rw [h]; simp), hs]

theorem step_fst (P : Prim) (pk : Pt) (c : Bytes) (i : Index) :
    (Bip32.step P (pk, c) i).1 = pk + (Bip32.il P pk c i : Fn) • G := by
  show Bip32.il P pk c i • G + pk = _
  rw [add_comm, nsmul_eq_smul_Fn]

/-- Iterates of `Next`. -/
def iterNext (i : Index) : Nat → Index
  | 0 => i
  | k + 1 => (iterNext i k).next

theorem iterNext_succ (i : Index) (k : Nat) : iterNext i (k + 1) = iterNext i.next k := by
  induction k with
  | zero => rfl
  | succ k ih => rw [iterNext, ih, iterNext]

/-- `ckdpub` returns iff some iterate of the index is valid. -/
theorem ckdpubLoop_isSome_iff (P : Prim) (pk : Pt) (c : Bytes) (i : Index) :
    ckdpubLoop P pk c i ≠ none ↔ ∃ k, Bip32.ckdPub P (pk, c) (iterNext i k) ≠ none := by
  constructor
  · intro h
    obtain ⟨r, hr⟩ := Option.ne_none_iff_exists'.1 h
    -- fixpoint induction: the set of indices from which a valid one is reached
    have key : ∀ (i : Index) (r : Res (Pt × Bytes × Fn)), ckdpubLoop P pk c i = some r →
        ∃ k, Bip32.ckdPub P (pk, c) (iterNext i k) ≠ none := by
      intro i r hr
      have := ckdpubLoop.partial_correctness P pk c
        (motive := fun i' _ => ∃ k, Bip32.ckdPub P (pk, c) (iterNext i' k) ≠ none) ?_ i r hr
      · exact this
      · intro f ih i r hr
        by_cases hv : Bip32.ckdPub P (pk, c) i = none
        · have hl : ((P.hmacSha512 c (Point.serialize pk ++ i)).take 32).length = 32 := by
            simp [P.hmacSha512_length]
          rw [computeHMAC_eq] at hr
          simp only [offset_eq] at hr
          split_ifs at hr with hb
          · cases hf : f i.next with
            | none => rw [hf] at hr; cases hr
            | some r' =>
              obtain ⟨k, hk⟩ := ih _ _ hf
              exact ⟨k + 1, by rwa [iterNext_succ]⟩
          · exfalso
            push Not at hb
            rw [Bip32.ckdPub] at hv
            split_ifs at hv with hc
            rcases hc with hc | hc
            · exact absurd ((serialize_offset_iff hl).1 hb.1) (not_lt.2 hc)
            · apply hb.2
              rw [← hc, add_comm]
              show _ = Bip32.il P pk c i • G + _
              rw [nsmul_eq_smul_Fn]
              rfl
        · exact ⟨0, hv⟩
    exact key i r hr
  · rintro ⟨k, hk⟩
    induction k generalizing i with
    | zero =>
      have hk' : ¬ Bip32.ckdPub P (pk, c) i = none := hk
      rw [ckdpubLoop_eq, if_neg hk']; simp
    | succ k ih =>
      rw [iterNext_succ] at hk
      obtain ⟨r, hr⟩ := Option.ne_none_iff_exists'.1 (ih _ hk)
      rw [ckdpubLoop_eq, hr]
      split_ifs <;> simp

theorem deriveLoop_offset (P : Prim) (path : List Index) (K : Pt) (c : Bytes) (o : Fn) :
    deriveLoop P K c o path = (deriveLoop P K c 0 path >>= fun r => .ok (o + r.1, r.2)) := by
  induction path generalizing K c o with
  | nil => simp [deriveLoop]
  | cons i path ih =>
    simp only [deriveLoop]
    rcases ckdpub_cases P K c i with h | h
    · rw [h]
      simp only [Res.ok_bind]
      rw [ih, ih _ _ (0 + _), bind_assoc]
      congr 1
      funext r
      simp [add_assoc]
    · rw [h]; rfl

theorem deriveLoop_append (P : Prim) (p1 p2 : List Index) (K : Pt) (c : Bytes) (o : Fn) :
    deriveLoop P K c o (p1 ++ p2) =
      (deriveLoop P K c o p1 >>= fun r => deriveLoop P (K + (r.1 - o) • G) r.2 r.1 p2) := by
  induction p1 generalizing K c o with
  | nil =>
    have h0 : (o - o) • G = 0 := by rw [sub_self]; exact zero_smul Fn G
    simp [deriveLoop, h0, -sub_self]
  | cons i path ih =>
    simp only [List.cons_append, deriveLoop]
    rcases ckdpub_cases P K c i with h | h
    · rw [h]
      simp only [Res.ok_bind]
      rw [ih]
      congr 1
      funext r
      congr 1
      rw [step_fst]
      module
    · rw [h]; rfl

theorem deriveLoop_step (P : Prim) (path : List Index) (K : Pt) (c : Bytes) (o t : Fn) (c' : Bytes)
    (h : deriveLoop P K c o path = .ok (t, c')) :
    path.foldl (Bip32.step P) (K, c) = (K + (t - o) • G, c') := by
  induction path generalizing K c o with
  | nil =>
    simp only [deriveLoop, Res.ok.injEq, Prod.mk.injEq] at h
    have h0 : (o - o) • G = 0 := by rw [sub_self]; exact zero_smul Fn G
    rw [← h.1, ← h.2, h0, add_zero]
    rfl
  | cons i path ih =>
    simp only [deriveLoop] at h
    rcases ckdpub_cases P K c i with hc | hc
    · rw [hc] at h
      simp only [Res.ok_bind] at h
      rw [List.foldl_cons]
      have := ih _ _ _ h
      rw [show ((Bip32.step P (K, c) i).1, (Bip32.step P (K, c) i).2) = Bip32.step P (K, c) i from rfl] at this
      rw [this, step_fst]
      congr 1
      module
    · rw [hc] at h; cases h

end Verif.Key
