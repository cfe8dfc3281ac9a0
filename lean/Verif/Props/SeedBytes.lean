import Verif.Spec.SeedBytes
import Verif.Props.Seed

/-!
C22, to the byte: which label each way of making a seed uses, which bytes it takes from a generator, and where it leaves the generator.
-/

set_option autoImplicit false

namespace Verif

open SeedBytes

/-- C22, exactly: the value of the seed that each constructor returns, with the literal labels of seed/seed.go:26, 32 and 38; and the generator
of a seed starts at the beginning of the key stream of its value. -/
theorem C22_exact (P : Prim) :
    (∀ b : Bytes, ∃ s, Seed.fromBytes P b = .ok s ∧ Made P.sha256 b "ic-crypto-seed-from-bytes" s.value) ∧
    (∀ r : Rng, ∃ s, Seed.fromRandomness P r = .ok (s, ⟨r.stream, r.pos + 32⟩) ∧
      Made P.sha256 (next r.stream r.pos) "ic-crypto-seed-from-randomness" s.value) ∧
    (∀ r : Rng, ∃ s, Seed.fromRng P r = .ok (s, ⟨r.stream, r.pos + 32⟩) ∧
      Made P.sha256 (next r.stream r.pos) "ic-crypto-seed-from-rng" s.value) ∧
    (∀ (s : Seed) (label : String), ∃ s', Seed.derive P s (ascii label) = .ok s' ∧ Made P.sha256 s.value label s'.value) ∧
    ∀ s : Seed, s.rng P = ⟨P.chacha20 s.value, 0⟩ := by
  have hx : ∀ r : Rng, r.xorKeyStream (List.replicate 32 0) = (next r.stream r.pos, ⟨r.stream, r.pos + 32⟩) := by
    intro r
    rw [Rng.xorKeyStream, List.length_replicate, zipWith_zero_xor _ 32 (by simp [Rng.peek])]
    rfl
  have hn := C22_seed_derivation.1 P
  refine ⟨fun b => ?_, fun r => ?_, fun r => ?_, fun s l => ?_, fun s => rfl⟩
  · obtain ⟨s, h, -, e⟩ := hn b (ascii "ic-crypto-seed-from-bytes")
    exact ⟨s, h, e⟩
  · obtain ⟨s, h, -, e⟩ := hn (next r.stream r.pos) (ascii "ic-crypto-seed-from-randomness")
    refine ⟨s, ?_, e⟩
    rw [Seed.fromRandomness, hx]
    simp only [h, Res.ok_bind]
  · obtain ⟨s, h, -, e⟩ := hn (next r.stream r.pos) (ascii "ic-crypto-seed-from-rng")
    refine ⟨s, ?_, e⟩
    rw [Seed.fromRng, hx]
    simp only [h, Res.ok_bind]
  · obtain ⟨s', h, -, e⟩ := hn s.value (ascii l)
    exact ⟨s', h, e⟩

/-- The three labels are different, so the three constructors give different preimages for the same 32 bytes. -/
example : ["ic-crypto-seed-from-bytes", "ic-crypto-seed-from-randomness", "ic-crypto-seed-from-rng"].Nodup := by decide +kernel

/-- The bytes taken from a generator in the middle of its stream. -/
example : (next (fun i => UInt8.ofNat i) 5).take 3 = [5, 6, 7] := by decide +kernel

end Verif
