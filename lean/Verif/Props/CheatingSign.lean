import Verif.Props.Cheating
import Verif.Props.Sign

/-!
Property C163: signatures from transcripts of dealers that may cheat.
-/

set_option autoImplicit false

namespace Verif.Dealings

open Mega Polynomial
open Point (H)

/-- The numbers among which is the discrete logarithm of `H`, if dealers cheated with the shares of the product `T` of `L` and `R`:
two from shares of `R` and `T` that lie on no common polynomials, one from a product that is wrong. -/
noncomputable def productLogs (L R T : Com) (dealers : List NodeIndex) (a : NodeIndex → Fn) (nodes : List NodeIndex)
    (oL oR oT : NodeIndex → Opening) : List Fn :=
  (findLog ⟨none, some R.c, none⟩ R.c.points.length oR nodes).toList ++
  (findLog ⟨none, some T.c, none⟩ T.c.points.length oT nodes).toList ++
  [productLog dealers (through L.c.points.length nodes fun i => Opening.val (oL i)) (through R.c.points.length nodes fun i => Opening.val (oR i))
    (through R.c.points.length nodes fun i => Opening.mask (oR i)) (through T.c.points.length nodes fun i => Opening.val (oT i))
    (through T.c.points.length nodes fun i => Opening.mask (oT i)) a]

/-- Shares that open the three transcripts are values of polynomials, those of the product having the right constant term, or one of
the numbers is the logarithm. -/
theorem product_shares {P : Prim} {t receivers : Int} {ad : Bytes} {L R T : Com} {ds : DealingMap} {a : NodeIndex → Fn}
    (h : ProductOf P t receivers ad L R T ds a) (hL : L.c.points ≠ []) (hR : R.c.points ≠ []) {nodes : List NodeIndex} (hn : nodes.Nodup)
    (hl : L.c.points.length ≤ nodes.length) (hr : R.c.points.length ≤ nodes.length) (htl : T.c.points.length ≤ nodes.length)
    {oL oR oT : NodeIndex → Opening} (hoL : ∀ i ∈ nodes, Opens L.c i (oL i)) (hoR : ∀ i ∈ nodes, Opens R.c i (oR i))
    (hoT : ∀ i ∈ nodes, Opens T.c i (oT i)) :
    (∃ l r m f g : List Fn, L.c.points = l.map (fun v : Fn => v • G) ∧
      r = (through R.c.points.length nodes fun i => Opening.val (oR i)) ∧ r.length = R.c.points.length ∧ f.length = T.c.points.length ∧
      (∀ i ∈ nodes, oR i = .pedersen ((toPoly r).eval (place i)) ((toPoly m).eval (place i))) ∧
      (∀ i ∈ nodes, oT i = .pedersen ((toPoly f).eval (place i)) ((toPoly g).eval (place i))) ∧
      Poly.coeff f 0 = Poly.coeff l 0 * Poly.coeff r 0 ∧ T.c.points ≠ [] ∧ L.c.kind = .simple) ∨
    ∃ h ∈ productLogs L R T (ds.map Prod.fst) a nodes oL oR oT, H = h • G := by
  have hn' := OMap.nodup_keys h.sorted
  obtain ⟨cm, hc, hcm⟩ := commits_of_accepted hn' h.accepted
  obtain ⟨w, hs⟩ := newTranscript_shape hc hn' h.made
  obtain ⟨-, hdne, hw, hsum⟩ := hs.interp (by simp)
  obtain ⟨x, hx⟩ := List.exists_mem_of_ne_nil _ hdne
  obtain ⟨h1, b, c0, h2, h3⟩ := hcm x hx
  obtain ⟨-, -, -, -, hkL, hkR, -⟩ := h3
  have ht : 0 < t := by
    cases hp : (cm x.1).points with
    | nil => rw [hp] at h2; cases h2
    | cons a b => rw [hp, List.length_cons] at h1; omega
  have hTp : T.c.points ≠ [] := by
    rw [hs.com]
    refine List.length_pos_iff.1 ?_
    rw [length_linCombPts]
    omega
  have hkT : T.c.kind = .pedersen := by rw [hs.com]; rfl
  obtain ⟨l, hll, hlp, hlo⟩ := C148_simple L.c hkL
  rcases C148_pedersen ⟨none, some R.c, none⟩ R.c rfl hkR hR nodes hn hr oR hoR with ⟨-, r, m, hrl, hml, hrp, hro⟩ | ⟨q, hq, e⟩
  swap
  · exact Or.inr ⟨q, by rw [productLogs, hq]; simp, e⟩
  rcases C148_pedersen ⟨none, some T.c, none⟩ T.c rfl hkT hTp nodes hn htl oT hoT with ⟨-, f, g, hfl, hgl, hfp, hfo⟩ | ⟨q, hq, e⟩
  swap
  · exact Or.inr ⟨q, by rw [productLogs, hq]; simp, e⟩
  have e1 := through_eq hn hl (y := fun i => Opening.val (oL i)) hll fun i hi => by rw [(hlo i _).1 (hoL i hi)]; rfl
  have e2 := through_eq hn hr (y := fun i => Opening.val (oR i)) hrl fun i hi => by rw [hro i hi]; rfl
  have e3 := through_eq hn hr (y := fun i => Opening.mask (oR i)) hml fun i hi => by rw [hro i hi]; rfl
  have e4 := through_eq hn htl (y := fun i => Opening.val (oT i)) hfl fun i hi => by rw [hfo i hi]; rfl
  have e5 := through_eq hn htl (y := fun i => Opening.mask (oT i)) hgl fun i hi => by rw [hfo i hi]; rfl
  rcases C162_product P t ds L R T receivers ad a h l r m f g (fun e => hL (by rw [hlp, e]; rfl))
    (fun e => hR (by rw [hrp, e]; rfl)) (hml.trans hrl.symm) hlp hrp hfp with hc | hc
  · exact Or.inl ⟨l, r, m, f, g, hlp, e2.symm, hrl, hfl, hro, hfo, hc, hTp, hkL⟩
  · refine Or.inr ⟨_, List.mem_append_right _ (List.mem_singleton.2 rfl), ?_⟩
    rw [e1, e2, e3, e4, e5]
    exact hc

end Verif.Dealings

namespace Verif

open Dealings Mega Polynomial Sign
open Point (H)

theorem Dealings.head_of_coeff {l : List Fn} (h : l ≠ []) : l.head? = some (Poly.coeff l 0) := by
  cases l with
  | nil => exact absurd rfl h
  | cons a l => rfl

/-- C163: whoever made the dealings of the two products, if they are publicly verified and the signers have openings of all
transcripts, then the signature shares combine to a signature under the key of the first transcript with the nonce of the second,
or one of six numbers computed from the signers' openings and the dealers' answers is the discrete logarithm of `H`. -/
theorem C163_signature (P : Prim) (path : List Key.Index) (hashedMsg randomness : Bytes) (X K B XL KL : Com)
    (hX : X.wrap = .interpolation) (hK : K.wrap = .interpolation) (hXne : X.c.points ≠ []) (hKne : K.c.points ≠ [])
    (hBne : B.c.points ≠ []) (tx tk nx nk : Int) (adx adk : Bytes) (dsx dsk : DealingMap) (ax ak : NodeIndex → Fn)
    (hxl : ProductOf P tx nx adx X B XL dsx ax) (hkl : ProductOf P tk nk adk K B KL dsk ak)
    (signers : List NodeIndex) (hn : signers.Nodup) (t : Nat) (ht : t ≤ signers.length) (hB : B.c.points.length ≤ t)
    (hXL : XL.c.points.length ≤ t) (hKL : KL.c.points.length ≤ t) (hXs : X.c.points.length ≤ signers.length)
    (hKs : K.c.points.length ≤ signers.length) (oX oK oB oXL oKL : NodeIndex → Opening)
    (ho : ∀ i ∈ signers, Opens X.c i (oX i) ∧ Opens K.c i (oK i) ∧ Opens B.c i (oB i) ∧ Opens XL.c i (oXL i) ∧ Opens KL.c i (oKL i))
    (sh : NodeIndex → SigShare) (hsh : ∀ i ∈ signers, SigShare.new P path hashedMsg randomness (some X) (some K) (some (oB i))
      (some (oKL i)) (some (oXL i)) = .ok (sh i)) :
    (∃ (x0 k0 : Fn) (sig : Signature) (tweak rnd : Fn) (c : Bytes),
      X.c.points.head? = some (x0 • G) ∧ K.c.points.head? = some (k0 • G) ∧
      combine P path hashedMsg randomness (some X) (some K) t (signers.map fun i => (i, sh i)) = .ok sig ∧
      derivePublicKey P (Point.serialize (x0 • G)) path = .ok (Point.serialize ((x0 + tweak) • G), c) ∧
      deriveRho P hashedMsg randomness path (some X) (some K) = .ok ⟨sig.r, tweak, rnd, (k0 + rnd) • G⟩ ∧
      (Poly.coeff (through B.c.points.length signers fun i => Opening.val (oB i)) 0 ≠ 0 →
        sig.s = lowOf (((beVal hashedMsg : Fn) + sig.r * (x0 + tweak)) / (k0 + rnd))) ∧
      sig.r = ((Point.affineX ((k0 + rnd) • G)).val : Fn) ∧
      (sig.r ≠ 0 → sig.s ≠ 0 → sig.verify P path hashedMsg randomness (some X) (some K) = .ok () ∧
        EcdsaValid ((x0 + tweak) • G) (beVal hashedMsg : Fn) sig.r sig.s)) ∨
    ∃ h ∈ productLogs X B XL (dsx.map Prod.fst) ax signers oX oB oXL ++ productLogs K B KL (dsk.map Prod.fst) ak signers oK oB oKL,
      H = h • G := by
  rcases product_shares hxl hXne hBne hn hXs (hB.trans ht) (hXL.trans ht) (fun i hi => (ho i hi).1) (fun i hi => (ho i hi).2.2.1)
    (fun i hi => (ho i hi).2.2.2.1) with h1 | ⟨q, hq, e⟩
  swap
  · exact Or.inr ⟨q, List.mem_append_left _ hq, e⟩
  rcases product_shares hkl hKne hBne hn hKs (hB.trans ht) (hKL.trans ht) (fun i hi => (ho i hi).2.1) (fun i hi => (ho i hi).2.2.1)
    (fun i hi => (ho i hi).2.2.2.2) with h2 | ⟨q, hq, e⟩
  swap
  · exact Or.inr ⟨q, List.mem_append_right _ hq, e⟩
  obtain ⟨x, r, m, f, g, hx, hr, hrl, hfl, hro, hfo, hf0, hfne, hkX⟩ := h1
  obtain ⟨k, r', m', f', g', hk, hr', hrl', hfl', hro', hfo', hf0', hfne', hkK⟩ := h2
  obtain rfl : r = r' := hr.trans hr'.symm
  refine Or.inl ?_
  have hne : ∀ {l : List Fn} {p : List Pt}, l.length = p.length → p ≠ [] → l ≠ [] := by
    rintro l p e hp rfl
    exact hp (List.length_eq_zero_iff.1 e.symm)
  have hxne : x ≠ [] := hne (by rw [hx, List.length_map]) hXne
  have hkne : k ≠ [] := hne (by rw [hk, List.length_map]) hKne
  set S : Secrets := ⟨x, k, r, f', f, m, g', g⟩
  have eX : unmasked S.x = some X := by
    obtain ⟨wr, kd, pts⟩ := X
    obtain rfl : wr = _ := hX
    obtain rfl : kd = _ := hkX
    rw [unmasked, ← hx]
  have eK : unmasked S.kappa = some K := by
    obtain ⟨wr, kd, pts⟩ := K
    obtain rfl : wr = _ := hK
    obtain rfl : kd = _ := hkK
    rw [unmasked, ← hk]
  have hS : S.Consistent t (Poly.coeff x 0) (Poly.coeff k 0) (Poly.coeff r 0) :=
    ⟨head_of_coeff hxne, head_of_coeff hkne, head_of_coeff (hne hrl hBne), by rw [← hf0']; exact head_of_coeff (hne hfl' hfne'),
      by rw [← hf0]; exact head_of_coeff (hne hfl hfne), hrl.le.trans hB, hfl'.le.trans hKL, hfl.le.trans hXL⟩
  have ht0 : 0 < t := lt_of_lt_of_le (List.length_pos_iff.2 hBne) hB
  have hH : HonestShares P path hashedMsg randomness S signers sh := by
    intro i hi
    rw [eX, eK, share, share, share, ← hro i hi, ← hfo i hi, ← hfo' i hi]
    exact hsh i hi
  obtain ⟨sig, tweak, rnd, c, c1, c2, c3, c4, c5, c6⟩ := C68_threshold_signature P path hashedMsg randomness S t _ _ _ hS signers ht0 ht
    hn sh hH
  rw [eX, eK] at c1 c3 c6
  refine ⟨_, _, sig, tweak, rnd, c, ?_, ?_, c1, c2, c3, ?_, c5, c6⟩
  · rw [hx, List.head?_map, head_of_coeff hxne]; rfl
  · rw [hk, List.head?_map, head_of_coeff hkne]; rfl
  · rw [← hr]; exact c4

/-- The hypotheses of C162 and C163 are met: key 6, nonce 1, blinding 5, three dealers and three signers. -/
example : ∃ (X K B XL KL : Com) (dsx dsk : DealingMap) (ax ak : NodeIndex → Fn) (oX oK oB oXL oKL : NodeIndex → Opening)
    (sh : NodeIndex → SigShare), X.wrap = .interpolation ∧ K.wrap = .interpolation ∧ X.c.points.length = 2 ∧ K.c.points.length = 2 ∧
    B.c.points.length = 2 ∧ XL.c.points.length = 2 ∧ KL.c.points.length = 2 ∧
    ProductOf zeroPrim 2 3 [7] X B XL dsx ax ∧ ProductOf zeroPrim 2 3 [7] K B KL dsk ak ∧
    (∀ i : NodeIndex, Opens X.c i (oX i) ∧ Opens K.c i (oK i) ∧ Opens B.c i (oB i) ∧ Opens XL.c i (oXL i) ∧ Opens KL.c i (oKL i)) ∧
    ∀ i ∈ ([0, 2, 7] : List NodeIndex), SigShare.new zeroPrim [] [5] [] (some X) (some K) (some (oB i)) (some (oKL i)) (some (oXL i)) =
      .ok (sh i) := by
  obtain ⟨dsx, ax, f, g, hx, hf, hg⟩ := productOf_exists .interpolation .summation 6 1 5 2 8 9
  obtain ⟨dsk, ak, f', g', hk, hf', hg'⟩ := productOf_exists .interpolation .summation 1 3 5 2 8 9
  obtain ⟨sh, hsh⟩ := honest_exist ⟨[6, 1], [1, 3], [5, 2], f', f, [8, 9], g', g⟩ rfl rfl [5] [] (by simp) [0, 2, 7]
  refine ⟨_, _, _, _, _, dsx, dsk, ax, ak, fun i => .simple ((toPoly [6, 1]).eval (place i)),
    fun i => .simple ((toPoly [1, 3]).eval (place i)),
    fun i => .pedersen ((toPoly [5, 2]).eval (place i)) ((toPoly [8, 9]).eval (place i)),
    fun i => .pedersen ((toPoly f).eval (place i)) ((toPoly g).eval (place i)),
    fun i => .pedersen ((toPoly f').eval (place i)) ((toPoly g').eval (place i)), sh, rfl, rfl, rfl, rfl, rfl, ?_, ?_, hx, hk,
    fun i => ⟨⟨rfl, valueAtNode_exponents _ _⟩, ⟨rfl, valueAtNode_exponents _ _⟩, ⟨rfl, valueAtNode_pairs (v := [5, 2]) (m := [8, 9]) rfl _⟩,
      ⟨rfl, valueAtNode_pairs (hg.trans hf.symm) _⟩, ⟨rfl, valueAtNode_pairs (hg'.trans hf'.symm) _⟩⟩, hsh⟩
  · simp [hf, hg]
  · simp [hf', hg']

end Verif
