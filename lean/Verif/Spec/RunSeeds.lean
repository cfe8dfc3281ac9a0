import Verif.Spec.SeedBytes
import Verif.Spec.Numeral
import Verif.Spec.ComplaintLeak
import Verif.Model.Protocol

/-!
Runs of the protocol driver, and the seeds that its dealers are supposed to have.
-/

set_option autoImplicit false

namespace Verif.RunSeeds

open Protocol Dealings SeedBytes

/-- Something that is done with a setup: a round, or a change of its nodes or threshold. -/
inductive Step (P : Prim) (cbor : Commitment → Res Bytes) : Setup → Option Round → Setup → Prop
  | random {s s' : Setup} {R : Round} (dealers corrupted : Nat) (h : Round.random P cbor s dealers corrupted = .ok (R, s')) :
      Step P cbor s (some R) s'
  | reshareOfMasked {s s' : Setup} {R : Round} (old : Round) (dealers corrupted : Nat)
      (h : Round.reshareOfMasked P cbor s old dealers corrupted = .ok (R, s')) : Step P cbor s (some R) s'
  | reshareOfUnmasked {s s' : Setup} {R : Round} (old : Round) (dealers corrupted : Nat)
      (h : Round.reshareOfUnmasked P cbor s old dealers corrupted = .ok (R, s')) : Step P cbor s (some R) s'
  | multiply {s s' : Setup} {R : Round} (masked unmasked : Round) (dealers corrupted : Nat)
      (h : Round.multiply P cbor s masked unmasked dealers corrupted = .ok (R, s')) : Step P cbor s (some R) s'
  | removeNodes {s s' : Setup} (k : Nat) (h : s.removeNodes k = .ok s') : Step P cbor s none s'
  | modifyThreshold {s : Setup} (t : Int) : Step P cbor s none (s.modifyThreshold t)

/-- A run, with its rounds in order. -/
inductive Run (P : Prim) (cbor : Commitment → Res Bytes) : Setup → List Round → Setup → Prop
  | done (s : Setup) : Run P cbor s [] s
  | step {s s1 s' : Setup} {R : Option Round} {Rs : List Round} (h : Step P cbor s R s1) (rest : Run P cbor s1 Rs s') :
      Run P cbor s (R.toList ++ Rs) s'

/-- The seed of dealer number `dealer` in round number `round`: the seed of the round is expanded from the root under a label with the number of
the round; the dealers have the blocks of its key stream, expanded once more. -/
def DealerSeed (P : Prim) (root : Bytes) (round dealer : Nat) (seed : Bytes) : Prop :=
  ∃ digits roundSeed, Numeral digits round ∧
    Rfc9380.expandMessageXmd P.sha256 root (ascii "ic-crypto-tecdsa-round-" ++ digits) 32 = some roundSeed ∧
    Made P.sha256 (next (P.chacha20 roundSeed) (32 * dealer)) "ic-crypto-seed-from-rng" seed

/-- Dealer number `i` has made a dealing with this seed, for the data `ad`.  (The entries of the ciphertext may have been damaged
since.) -/
def DealtWith (P : Prim) (seed : Bytes) (ad : Bytes) (i : NodeIndex) (d : Dealing) : Prop :=
  ∃ (share : Shares) (threshold : Int) (pks : List Pt) (d0 : Dealing),
    Dealings.new P share ⟨seed⟩ threshold pks i ad = .ok d0 ∧ d.emptied = d0.emptied

end Verif.RunSeeds
