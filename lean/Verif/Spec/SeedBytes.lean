import Verif.Spec.Rfc9380
import Verif.Model.Seed

/-!
What seeds and scalars are made of, in terms of RFC 9380 and of the bytes of a stream only (used by C22).
-/

namespace Verif.SeedBytes

/-- The next 32 bytes of a stream. -/
def next (stream : Nat → UInt8) (pos : Nat) : Bytes := (List.range 32).map fun i => stream (pos + i)

/-- `seed` is the 32-byte expansion of `input` under the label `label`. -/
def Made (sha256 : Bytes → Bytes) (input : Bytes) (label : String) (seed : Bytes) : Prop :=
  Rfc9380.expandMessageXmd sha256 input (label.toUTF8.toList) 32 = some seed

end Verif.SeedBytes
