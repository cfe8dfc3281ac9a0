import Verif.Lemmas.Scalar
import Verif.Lemmas.Xmd

/-! Helper lemmas about the rejection-sampling loop. -/

namespace Verif

open Scalar

theorem Rng.length_peek (r : Rng) (k : Nat) : (r.peek k).length = k := by simp [Rng.peek]

theorem Rng.length_xorKeyStream (r : Rng) (b : Bytes) : (r.xorKeyStream b).1.length = b.length := by
  simp [Rng.xorKeyStream, Rng.length_peek]

/-- The buffer after `k` fills. -/
def bufAfter (r : Rng) (buf : Bytes) : Nat → Bytes × Rng
  | 0 => (buf, r)
  | k + 1 => let (b, r') := bufAfter r buf k; r'.xorKeyStream b

theorem bufAfter_succ' (r : Rng) (buf : Bytes) (k : Nat) :
    bufAfter r buf (k + 1) = bufAfter (r.xorKeyStream buf).2 (r.xorKeyStream buf).1 k := by
  induction k with
  | zero => rfl
  | succ k ih => rw [bufAfter, ih]; rfl

/-- The loop returns at attempt `k` iff attempts before it fail and attempt `k` succeeds. -/
theorem randomLoop_iff (r : Rng) (buf : Bytes) (s : Fn) (r' : Rng) :
    randomLoop r buf = some (s, r') ↔
      ∃ k, (∀ j < k, ∀ t, deserialize K256 (bufAfter r buf (j + 1)).1 ≠ .ok (some t)) ∧
        deserialize K256 (bufAfter r buf (k + 1)).1 = .ok (some s) ∧ r' = (bufAfter r buf (k + 1)).2 := by
  constructor
  · intro h
    refine randomLoop.partial_correctness
      (fun r buf x => ∃ k, (∀ j < k, ∀ t, deserialize K256 (bufAfter r buf (j + 1)).1 ≠ .ok (some t)) ∧
        deserialize K256 (bufAfter r buf (k + 1)).1 = .ok (some x.1) ∧ x.2 = (bufAfter r buf (k + 1)).2)
      ?_ r buf (s, r') h
    intro loop ih r buf x hx
    simp only at hx
    split at hx
    · rename_i heq
      refine ⟨0, by simp, ?_, ?_⟩
      · simp only [Option.some.injEq] at hx
        rw [← hx]; exact heq
      · simp only [Option.some.injEq] at hx
        rw [← hx]; rfl
    · rename_i hne
      obtain ⟨k, h1, h2, h3⟩ := ih _ _ _ hx
      refine ⟨k + 1, ?_, ?_, ?_⟩
      · intro j hj t
        rw [bufAfter_succ']
        cases j with
        | zero => exact fun h => hne t h
        | succ j => exact h1 j (by omega) t
      · rw [bufAfter_succ']; exact h2
      · rw [bufAfter_succ']; exact h3
  · rintro ⟨k, h1, h2, h3⟩
    induction k generalizing r buf with
    | zero =>
      rw [randomLoop]
      have : deserialize K256 (r.xorKeyStream buf).1 = .ok (some s) := h2
      simp only [this]
      rw [h3]; rfl
    | succ k ih =>
      rw [randomLoop]
      have hne : ∀ t, deserialize K256 (r.xorKeyStream buf).1 ≠ .ok (some t) := h1 0 (by omega)
      have := ih (r.xorKeyStream buf).2 (r.xorKeyStream buf).1
        (fun j hj t => by rw [← bufAfter_succ']; exact h1 (j + 1) (by omega) t)
        (by rw [← bufAfter_succ']; exact h2) (by rw [← bufAfter_succ']; exact h3)
      simp only
      exact this

end Verif
