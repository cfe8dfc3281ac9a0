import Verif.Spec.ShareReuse
import Verif.Props.Sign
import Verif.Props.KeyGen

/-! C203: two signature shares of one node and one presignature. -/

set_option autoImplicit false

namespace Verif

open Dealings Mega Zk Sign Polynomial

namespace Sign

theorem partsFrom_eq (q q' : Public) (l k x : Fn) (hrho : q.derived.rho ≠ 0)
    (hne : q.derived.randomizer ≠ q'.derived.randomizer ∨ (q.derived.rho = q'.derived.rho ∧ q.theta ≠ q'.theta)) :
    partsFrom q q' ⟨q.theta * l + q.derived.rho * x, q.derived.randomizer * l + k⟩
      ⟨q'.theta * l + q'.derived.rho * x, q'.derived.randomizer * l + k⟩ = ⟨l, k, x⟩ := by
  have key : ∀ l', l' = l → (⟨l', q.derived.randomizer * l + k - q.derived.randomizer * l',
      (q.theta * l + q.derived.rho * x - q.theta * l') / q.derived.rho⟩ : Parts) = ⟨l, k, x⟩ := by
    rintro _ rfl
    simp only [Parts.mk.injEq, true_and]
    exact ⟨by ring, by field_simp; ring⟩
  refine key _ ?_
  by_cases h : q.derived.randomizer ≠ q'.derived.randomizer
  · have := sub_ne_zero.2 h
    rw [if_pos h]
    field_simp
    ring
  · obtain ⟨hr, ht⟩ := hne.resolve_left h
    have := sub_ne_zero.2 ht
    rw [if_neg h, hr]
    field_simp
    ring

/-- For one presignature, the same randomiser gives the same `r`. -/
theorem rho_of_randomizer {P : Prim} {path path' : List Key.Index} {msg msg' rn rn' : Bytes} {keyT presigT : Option Com} {d d' : Derived}
    (hd : deriveRho P msg rn path keyT presigT = .ok d) (hd' : deriveRho P msg' rn' path' keyT presigT = .ok d')
    (h : d.randomizer = d'.randomizer) : d.rho = d'.rho := by
  obtain ⟨pre, -, -, h1, -, -, -, h2, h3⟩ := deriveRho_ok hd
  obtain ⟨pre', -, -, h1', -, -, -, h2', h3'⟩ := deriveRho_ok hd'
  cases h1.symm.trans h1'
  rw [h3, h3', h2, h2', h]

end Sign

/-- C203: two shares that a node makes with the same openings, for whatever two requests under the same key and presignature, are equal, or
everybody can compute from them and from public numbers all openings that the node holds, values and masks, unless the first `r` is zero. -/
theorem C203_openings (P : Prim) (path path' : List Key.Index) (msg msg' rn rn' : Bytes) (keyT presigT : Option Com)
    (lv lm kv km xv xm : Fn) (sh sh' : SigShare)
    (h : SigShare.new P path msg rn keyT presigT (some (.pedersen lv lm)) (some (.pedersen kv km)) (some (.pedersen xv xm)) = .ok sh)
    (h' : SigShare.new P path' msg' rn' keyT presigT (some (.pedersen lv lm)) (some (.pedersen kv km)) (some (.pedersen xv xm)) =
      .ok sh') :
    ∃ d d', deriveRho P msg rn path keyT presigT = .ok d ∧ deriveRho P msg' rn' path' keyT presigT = .ok d' ∧
      (sh ≠ sh' → d.rho ≠ 0 → ∃ v m v' m', sh.Shows v m ∧ sh'.Shows v' m' ∧
        partsFrom ⟨(beVal msg : Fn), d⟩ ⟨(beVal msg' : Fn), d'⟩ v v' = ⟨lv, kv, xv⟩ ∧
        partsFrom ⟨(beVal msg : Fn), d⟩ ⟨(beVal msg' : Fn), d'⟩ m m' = ⟨lm, km, xm⟩) := by
  obtain ⟨hl, d, hd⟩ := new_ok h
  obtain ⟨hl', d', hd'⟩ := new_ok h'
  rw [new_eq hd hl] at h
  rw [new_eq hd' hl'] at h'
  cases h
  cases h'
  refine ⟨d, d', hd, hd', fun hne hrho => ⟨⟨_, _⟩, ⟨_, _⟩, ⟨_, _⟩, ⟨_, _⟩, rfl, rfl, ?_⟩⟩
  have hor : d.randomizer ≠ d'.randomizer ∨
      (d.rho = d'.rho ∧ Public.theta ⟨(beVal msg : Fn), d⟩ ≠ Public.theta ⟨(beVal msg' : Fn), d'⟩) := by
    by_contra hc
    rw [not_or, not_not] at hc
    have hr := rho_of_randomizer hd hd' hc.1
    have ht : Public.theta ⟨(beVal msg : Fn), d⟩ = Public.theta ⟨(beVal msg' : Fn), d'⟩ := by
      by_contra ht
      exact hc.2 ⟨hr, ht⟩
    simp only [Public.theta] at ht
    exact hne (by rw [ht, hr, hc.1])
  exact ⟨partsFrom_eq ⟨(beVal msg : Fn), d⟩ ⟨(beVal msg' : Fn), d'⟩ lv kv xv hrho hor,
    partsFrom_eq ⟨(beVal msg : Fn), d⟩ ⟨(beVal msg' : Fn), d'⟩ lm km xm hrho hor⟩

/-- C203, the key: from the shares that as many signers as the threshold make with one presignature for two requests, everybody can compute the
master key and the nonce, if some node's two shares differ and neither `r` nor the blinding is zero; no signature has to be valid for this. -/
theorem C203_key (P : Prim) (path path' : List Key.Index) (msg msg' rn rn' : Bytes) (S : Secrets) (t : Nat) (x0 k0 l0 : Fn)
    (hS : S.Consistent t x0 k0 l0) (hl0 : l0 ≠ 0) (signers : List NodeIndex) (hc : t ≤ signers.length) (hn : signers.Nodup)
    (sh sh' : NodeIndex → SigShare) (h : HonestShares P path msg rn S signers sh) (h' : HonestShares P path' msg' rn' S signers sh')
    (j : NodeIndex) (hj : j ∈ signers) (hne : sh j ≠ sh' j) :
    ∃ d d', deriveRho P msg rn path (unmasked S.x) (unmasked S.kappa) = .ok d ∧
      deriveRho P msg' rn' path' (unmasked S.x) (unmasked S.kappa) = .ok d' ∧
      (d.rho ≠ 0 → ∃ v v' m m' : NodeIndex → Fraction, (∀ i ∈ signers, (sh i).Shows (v i) (m i) ∧ (sh' i).Shows (v' i) (m' i)) ∧
        let parts i := partsFrom ⟨(beVal msg : Fn), d⟩ ⟨(beVal msg' : Fn), d'⟩ (v i) (v' i)
        secretFrom signers (fun i => (parts i).keyLambda) / secretFrom signers (fun i => (parts i).lambda) = x0 ∧
        secretFrom signers (fun i => (parts i).kappaLambda) / secretFrom signers (fun i => (parts i).lambda) = k0) := by
  obtain ⟨hl, d, hd⟩ := new_ok (h j hj)
  obtain ⟨hl', d', hd'⟩ := new_ok (h' j hj)
  refine ⟨d, d', hd, hd', fun hrho => ?_⟩
  set q : Public := ⟨(beVal msg : Fn), d⟩ with hq
  set q' : Public := ⟨(beVal msg' : Fn), d'⟩ with hq'
  have e : ∀ i ∈ signers, _ := fun i hi => (new_eq hd hl _ _ _ _ _ _).symm.trans (h i hi)
  have e' : ∀ i ∈ signers, _ := fun i hi => (new_eq hd' hl' _ _ _ _ _ _).symm.trans (h' i hi)
  have hor : q.derived.randomizer ≠ q'.derived.randomizer ∨ (q.derived.rho = q'.derived.rho ∧ q.theta ≠ q'.theta) := by
    by_contra hc
    rw [not_or, not_not] at hc
    have hr := rho_of_randomizer hd hd' hc.1
    have ht : q.theta = q'.theta := by
      by_contra ht
      exact hc.2 ⟨hr, ht⟩
    have hrz : d.randomizer = d'.randomizer := hc.1
    simp only [Public.theta, hq, hq'] at ht
    refine hne ?_
    rw [← Res.ok.inj (e j hj), ← Res.ok.inj (e' j hj), ht, hr, hrz]
  let f (g : List Fn) (i : NodeIndex) : Fn := (toPoly g).eval (place i)
  refine ⟨fun i => ⟨q.theta * f S.lambda i + d.rho * f S.xl i, d.randomizer * f S.lambda i + f S.kl i⟩,
    fun i => ⟨q'.theta * f S.lambda i + d'.rho * f S.xl i, d'.randomizer * f S.lambda i + f S.kl i⟩,
    fun i => ⟨q.theta * f S.lambdaMask i + d.rho * f S.xlMask i, d.randomizer * f S.lambdaMask i + f S.klMask i⟩,
    fun i => ⟨q'.theta * f S.lambdaMask i + d'.rho * f S.xlMask i, d'.randomizer * f S.lambdaMask i + f S.klMask i⟩,
    fun i hi => ⟨(Res.ok.inj (e i hi)).symm, (Res.ok.inj (e' i hi)).symm⟩, ?_⟩
  have hp : ∀ i, partsFrom q q' ⟨q.theta * f S.lambda i + d.rho * f S.xl i, d.randomizer * f S.lambda i + f S.kl i⟩
      ⟨q'.theta * f S.lambda i + d'.rho * f S.xl i, d'.randomizer * f S.lambda i + f S.kl i⟩ = ⟨f S.lambda i, f S.kl i, f S.xl i⟩ :=
    fun i => partsFrom_eq q q' _ _ _ hrho hor
  have hs : ∀ (g : List Fn) (a : Fn), g.head? = some a → g.length ≤ t → secretFrom signers (f g) = a := by
    intro g a ha hg
    have hne' : signers ≠ [] := List.ne_nil_of_mem hj
    rw [← eval_zero_toPoly ha]
    exact KeyGen.weights_sum hne' hn ((degree_toPoly_lt g).trans_le (by exact_mod_cast hg.trans hc))
  simp only [hp]
  rw [hs _ _ hS.hxl hS.lenxl, hs _ _ hS.hkl hS.lenkl, hs _ _ hS.hl hS.lenl]
  exact ⟨by field_simp, by field_simp⟩

/-- Signers 0, 2 and 7 sign the hashes 5 and 9 with one presignature; the key 6 and the nonce 1 come out of their shares. -/
example : ∃ (sh sh' : NodeIndex → SigShare) (d d' : Derived) (v v' m m' : NodeIndex → Fraction),
    HonestShares zeroPrim [] [5] [] exSecrets [0, 2, 7] sh ∧ HonestShares zeroPrim [] [9] [] exSecrets [0, 2, 7] sh' ∧
    (∀ i ∈ ([0, 2, 7] : List NodeIndex), (sh i).Shows (v i) (m i) ∧ (sh' i).Shows (v' i) (m' i)) ∧
    let parts i := partsFrom ⟨(beVal [5] : Fn), d⟩ ⟨(beVal [9] : Fn), d'⟩ (v i) (v' i)
    secretFrom [0, 2, 7] (fun i => (parts i).keyLambda) / secretFrom [0, 2, 7] (fun i => (parts i).lambda) = 6 ∧
    secretFrom [0, 2, 7] (fun i => (parts i).kappaLambda) / secretFrom [0, 2, 7] (fun i => (parts i).lambda) = 1 := by
  obtain ⟨sh, h⟩ := honest_exist exSecrets rfl rfl [5] [] (by simp) [0, 2, 7]
  obtain ⟨sh', h'⟩ := honest_exist exSecrets rfl rfl [9] [] (by simp) [0, 2, 7]
  have hz := fun m : Bytes => zeroPrim_deriveRho m [] (show exSecrets.x.head? = some 6 from rfl) (show exSecrets.kappa.head? = some 1 from rfl)
  have hne : sh 0 ≠ sh' 0 := by
    rw [← Res.ok.inj ((new_eq (hz [5]) (by simp) _ _ _ _ _ _).symm.trans (h 0 (by simp))),
      ← Res.ok.inj ((new_eq (hz [9]) (by simp) _ _ _ _ _ _).symm.trans (h' 0 (by simp)))]
    intro hc
    simp only [SigShare.mk.injEq, Option.some.injEq, Opening.pedersen.injEq] at hc
    have h1 := hc.1.1
    have hp : place 0 = 1 := by decide +kernel
    simp only [exSecrets, toPoly_cons, hp] at h1
    revert h1
    simp [toPoly]
    decide +kernel
  obtain ⟨d, d', hd, hd', hk⟩ := C203_key zeroPrim [] [] [5] [9] [] [] exSecrets 2 6 1 1 exSecrets_consistent one_ne_zero [0, 2, 7]
    (by simp) (by decide) sh sh' h h' 0 (by simp) hne
  have hr : d.rho ≠ 0 := by
    cases (hz [5]).symm.trans hd
    decide +kernel
  obtain ⟨v, v', m, m', hs, hk⟩ := hk hr
  exact ⟨sh, sh', d, d', v, v', m, m', h, h', hs, hk⟩

end Verif
