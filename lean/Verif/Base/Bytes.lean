import Mathlib.Data.Nat.Init
import Mathlib.Tactic.Ring
import Mathlib.Tactic.Linarith
import Mathlib.Data.List.Basic

/-!
Byte strings and their numeric values.
-/

namespace Verif

/-- A Go `[]byte`. -/
abbrev Bytes := List UInt8

/-- Big-endian value of a byte string (specification vocabulary). -/
def beVal (b : Bytes) : Nat := b.foldl (fun acc x => acc * 256 + x.toNat) 0

/-- Little-endian value of a byte string. -/
def leVal : Bytes → Nat
  | [] => 0
  | x :: xs => x.toNat + 256 * leVal xs

/-- The `k` low-order bytes of `v`, little-endian. -/
def toLE : Nat → Nat → Bytes
  | 0, _ => []
  | k + 1, v => UInt8.ofNat (v % 256) :: toLE k (v / 256)

/-- The `k` low-order bytes of `v`, big-endian. -/
def toBE (k v : Nat) : Bytes := (toLE k v).reverse

/-- common/utils.go:3-11 `ReverseBytes`: a fresh slice filled by the two-index loop. -/
def reverseBytes (b : Bytes) : Bytes := b.reverse

/-- Go `copy(dst[:], src)` where `dst` is a zeroed array of `k` bytes: the first `min k (len src)` bytes are
overwritten, the rest stays zero. -/
def copyInto (k : Nat) (src : Bytes) : Bytes := src.take k ++ List.replicate (k - src.length) 0

@[simp] theorem leVal_nil : leVal [] = 0 := rfl
@[simp] theorem leVal_cons (x : UInt8) (xs : Bytes) : leVal (x :: xs) = x.toNat + 256 * leVal xs := rfl

theorem leVal_append (a b : Bytes) : leVal (a ++ b) = leVal a + 256 ^ a.length * leVal b := by
  induction a with
  | nil => simp
  | cons x xs ih => simp [ih, pow_succ]; ring

theorem leVal_replicate_zero (k : Nat) : leVal (List.replicate k 0) = 0 := by
  induction k with
  | zero => rfl
  | succ k ih => simp [List.replicate_succ, ih]

theorem leVal_lt (b : Bytes) : leVal b < 256 ^ b.length := by
  induction b with
  | nil => simp
  | cons x xs ih =>
    have := x.toNat_lt
    simp only [leVal_cons, List.length_cons, pow_succ]
    omega

@[simp] theorem length_toLE (k v : Nat) : (toLE k v).length = k := by
  induction k generalizing v with
  | zero => rfl
  | succ k ih => simp [toLE, ih]

@[simp] theorem length_toBE (k v : Nat) : (toBE k v).length = k := by simp [toBE]

theorem leVal_toLE (k v : Nat) : leVal (toLE k v) = v % 256 ^ k := by
  induction k generalizing v with
  | zero => simp [toLE, Nat.mod_one]
  | succ k ih =>
    simp only [toLE, leVal_cons, ih]
    have h1 : (UInt8.ofNat (v % 256)).toNat = v % 256 := by
      simp [UInt8.toNat_ofNat']
    rw [h1, pow_succ, mul_comm (256 ^ k) 256, Nat.mod_mul]

theorem leVal_toLE_of_lt {k v : Nat} (h : v < 256 ^ k) : leVal (toLE k v) = v := by
  rw [leVal_toLE, Nat.mod_eq_of_lt h]

theorem toLE_leVal (b : Bytes) : toLE b.length (leVal b) = b := by
  induction b with
  | nil => rfl
  | cons x xs ih =>
    have hx := x.toNat_lt
    simp only [List.length_cons, toLE, leVal_cons]
    have h1 : (x.toNat + 256 * leVal xs) % 256 = x.toNat := by omega
    have h2 : (x.toNat + 256 * leVal xs) / 256 = leVal xs := by omega
    rw [h1, h2, ih]
    simp

theorem leVal_inj {a b : Bytes} (hl : a.length = b.length) (h : leVal a = leVal b) : a = b := by
  rw [← toLE_leVal a, ← toLE_leVal b, hl, h]

theorem beVal_foldl (b : Bytes) (acc : Nat) :
    b.foldl (fun acc x => acc * 256 + x.toNat) acc = acc * 256 ^ b.length + beVal b := by
  induction b generalizing acc with
  | nil => simp [beVal]
  | cons x xs ih =>
    simp only [beVal, List.foldl_cons, List.length_cons]
    rw [ih, ih (0 * 256 + x.toNat), pow_succ]
    ring

@[simp] theorem beVal_nil : beVal [] = 0 := rfl

theorem beVal_cons (x : UInt8) (xs : Bytes) : beVal (x :: xs) = x.toNat * 256 ^ xs.length + beVal xs := by
  rw [beVal, List.foldl_cons, beVal_foldl]; ring

theorem beVal_append (a b : Bytes) : beVal (a ++ b) = beVal a * 256 ^ b.length + beVal b := by
  rw [beVal, List.foldl_append, beVal_foldl]
  rfl

theorem beVal_eq_leVal_reverse (b : Bytes) : beVal b = leVal b.reverse := by
  induction b with
  | nil => rfl
  | cons x xs ih =>
    rw [beVal_cons, List.reverse_cons, leVal_append, ← ih]
    simp; ring

theorem leVal_eq_beVal_reverse (b : Bytes) : leVal b = beVal b.reverse := by
  rw [beVal_eq_leVal_reverse, List.reverse_reverse]

theorem beVal_lt (b : Bytes) : beVal b < 256 ^ b.length := by
  rw [beVal_eq_leVal_reverse]; simpa using leVal_lt b.reverse

theorem beVal_toBE (k v : Nat) : beVal (toBE k v) = v % 256 ^ k := by
  rw [toBE, beVal_eq_leVal_reverse, List.reverse_reverse, leVal_toLE]

theorem beVal_toBE_of_lt {k v : Nat} (h : v < 256 ^ k) : beVal (toBE k v) = v := by
  rw [beVal_toBE, Nat.mod_eq_of_lt h]

theorem toBE_beVal (b : Bytes) : toBE b.length (beVal b) = b := by
  have := toLE_leVal b.reverse
  rw [List.length_reverse] at this
  rw [toBE, beVal_eq_leVal_reverse, this, List.reverse_reverse]

theorem beVal_inj {a b : Bytes} (hl : a.length = b.length) (h : beVal a = beVal b) : a = b := by
  rw [← toBE_beVal a, ← toBE_beVal b, hl, h]

theorem toBE_inj {k v w : Nat} (hv : v < 256 ^ k) (hw : w < 256 ^ k) (h : toBE k v = toBE k w) : v = w := by
  rw [← beVal_toBE_of_lt hv, ← beVal_toBE_of_lt hw, h]

@[simp] theorem length_copyInto (k : Nat) (b : Bytes) : (copyInto k b).length = k := by
  simp [copyInto]; omega

theorem leVal_copyInto (k : Nat) (b : Bytes) : leVal (copyInto k b) = leVal (b.take k) := by
  rw [copyInto, leVal_append, leVal_replicate_zero]; simp

/-- The value read from a `k`-byte little-endian buffer filled from the reversed string: the big-endian value
of the last `k` bytes. -/
theorem leVal_copyInto_reverse (k : Nat) (b : Bytes) :
    leVal (copyInto k (reverseBytes b)) = beVal (b.drop (b.length - k)) := by
  rw [leVal_copyInto, leVal_eq_beVal_reverse, reverseBytes, List.take_reverse, List.reverse_reverse]

end Verif
