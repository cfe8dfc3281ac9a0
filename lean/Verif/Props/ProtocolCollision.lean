import Verif.Props.ProtocolDriver
import Verif.Props.Context

/-! C137: when the further checks of the driver fail. -/

set_option autoImplicit false

namespace Verif

open Protocol Dealings Mega

theorem Protocol.low_succ (i : NodeIndex) : low i ≠ low (i + 1) := by
  rw [low, low, BitVec.toNat_add, Nat.mod_mod_of_dvd _ (by norm_num : 2 ^ 32 ∣ 2 ^ 64)]
  have : BitVec.toNat (1 : NodeIndex) = 1 := rfl
  omega

/-- C137: a dealing that is accepted for its dealer but does not pass the checks of the driver, whoever made it, shows a collision of the
hash function: base or challenge of its proof of possession come from two different inputs. -/
theorem C137_collision (P : Prim) (s : Setup) (d : Dealing) (op : Op) (dealer : NodeIndex)
    (hok : publiclyVerify P d K256 op s.threshold dealer s.sk.length s.ad = .ok ())
    (h : testPublicDealingVerification P s d op dealer ≠ .ok ()) :
    ∃ c, d.ciphertext = some c ∧ (c.SameBase P dealer (dealer + 1) s.ad s.ad ∨ c.SameChallenge P dealer (dealer + 1) s.ad s.ad) := by
  have hn : publiclyVerify P d K256 op s.threshold (dealer + 1) s.sk.length s.ad = .ok () := by
    by_contra hc
    exact h ((C137_checks P s d op dealer).1.2 ⟨hok, hc⟩)
  exact C197_bound_partial P d dealer (dealer + 1) s.ad s.ad (.inl ⟨_, _, _, _, hok⟩) (.inl ⟨_, _, _, _, hn⟩)
    fun hh => low_succ dealer hh.1

/-- C137: with all its checks, `CreateDealings` does what it does without them, or it panics and one of the dealings that it makes shows such
a collision. -/
theorem C137_driver_collision (P : Prim) (s : Setup) (shares : List Shares) (numberOfDealers corrupted : Nat) (op : Op) (seed : Seed) :
    createDealingsChecked P s shares numberOfDealers corrupted op seed =
      createDealings P s shares numberOfDealers corrupted op seed ∨
    (createDealingsChecked P s shares numberOfDealers corrupted op seed).isPanic = true ∧
      ∃ (i : Nat) (share : Shares) (sd : Seed) (d : Dealing) (c : Cipher), shares[i]? = some share ∧
        Dealings.new P share sd s.threshold s.pk (node i) s.ad = .ok d ∧ d.ciphertext = some c ∧
        (c.SameBase P (node i) (node i + 1) s.ad s.ad ∨
          c.SameChallenge P (node i) (node i + 1) s.ad s.ad) := by
  rcases C137_driver P s shares numberOfDealers corrupted op seed with h | ⟨hp, i, share, sd, d, hi, hd, h1, h2⟩
  · exact .inl h
  · rw [Nat.zero_add] at hd h1 h2
    obtain ⟨c, hc, hcol⟩ := C197_bound_partial P d (node i) (node i + 1) s.ad s.ad (.inl ⟨_, _, _, _, h1⟩) (.inl ⟨_, _, _, _, h2⟩)
      fun hh => low_succ _ hh.1
    exact .inr ⟨hp, i, share, sd, d, c, hi, hd, hc, hcol⟩

/-- With a hash function that is constant this happens. -/
example : ∃ (s : Setup) (d : Dealing), publiclyVerify zeroPrim d K256 .random s.threshold 0 s.sk.length s.ad = .ok () ∧
    testPublicDealingVerification zeroPrim s d .random 0 ≠ .ok () := by
  obtain ⟨d, hd⟩ := dealing_exists .random ⟨[]⟩ 1 [Point.mulByG 3] 0 [] (by norm_num) (by simp)
  have h := (C54_honest_dealings_verify zeroPrim .random .random ⟨[]⟩ 1 [3] 0 [] d trivial hd).1
  let s : Setup := { sk := [3], threshold := 1, ad := [], seed := ⟨[]⟩, round := 0 }
  refine ⟨s, d, h, fun hc => ?_⟩
  have := C137_constant_hash s d 0 h
  rw [hc] at this
  cases this

end Verif
