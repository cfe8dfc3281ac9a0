import Verif.Spec.CheatingOracle
import Verif.Props.Cheating
import Verif.Props.Oracle

/-!
Property C164: cheating dealers compute the discrete logarithm of the second generator, in the random oracle model.
-/

set_option autoImplicit false

namespace Verif

open Oracle Dealings Polynomial Zk
open Point (H)

namespace Oracle

/-- The bound of the forking lemma as a function of the share of successes. -/
theorem fork_bound_mono {ε ε' s : ℚ} {q : Nat} {N : ℚ} (h0 : 0 ≤ ε) (h : ε ≤ ε') (hs : 0 ≤ s)
    (hb : ε' ^ 2 / (q + 1) - ε' / N ≤ s) : ε ^ 2 / (q + 1) - ε / N ≤ s := by
  have hq : (0 : ℚ) < q + 1 := by positivity
  by_cases hε : ε / (q + 1) ≤ 1 / N
  · refine le_trans ?_ hs
    have : ε ^ 2 / (q + 1) - ε / N = ε * (ε / (q + 1) - 1 / N) := by ring
    rw [this]
    exact mul_nonpos_of_nonneg_of_nonpos h0 (by linarith)
  · push Not at hε
    refine le_trans ?_ hb
    have e : ∀ x : ℚ, x ^ 2 / (q + 1) - x / N = x * (x / (q + 1) - 1 / N) := fun x => by ring
    rw [e, e]
    have h1 : ε / (q + 1) ≤ ε' / (q + 1) := by gcongr
    exact mul_le_mul h (by linarith) (by linarith) (h0.trans h)

theorem share_nonneg {α : Type} (p : α → Prop) : 0 ≤ share p := by
  rw [share]; positivity

/-- If the dealers' values are those of a polynomial then the interpolated value is the polynomial's. -/
theorem interpolated_of_poly {dealers : List NodeIndex} (hn : dealers.Nodup) {y : NodeIndex → Fn} (f : Fn[X])
    (hd : f.degree < dealers.length) (h : ∀ j ∈ dealers, y j = f.eval (place j)) : interpolated dealers y = f.eval 0 := by
  by_cases hne : dealers = []
  · subst hne
    have : f = 0 := by
      by_contra hf
      rw [degree_eq_natDegree hf] at hd
      have : f.natDegree < 0 := by exact_mod_cast hd
      omega
    obtain ⟨e, he⟩ := Lagr.atValue_err 0 [] (Or.inl rfl)
    have he' : Lagr.atZero [] = .err e := he
    rw [this, eval_zero, interpolated, he']
  · obtain ⟨w, hw, hs⟩ := Lagr.weights 0 dealers hne hn
    rw [interpolated_eq hw, ← hs f hd]
    exact congrArg List.sum (List.map_congr_left fun j hj => by rw [h j hj])

theorem degree_mul_toPoly_lt' {l r : List Fn} {k : Nat} (h : l.length + r.length ≤ k + 1) : (toPoly l * toPoly r).degree < k := by
  by_cases hz : toPoly l * toPoly r = 0
  · rw [hz, degree_zero]; exact WithBot.bot_lt_coe _
  · refine degree_mul_toPoly_lt ?_ ?_ h
    · rintro rfl; exact hz (by simp [toPoly])
    · rintro rfl; exact hz (by simp [toPoly])

theorem ProductRun.depends_eq {D : Finset Question} {x : ProductRun} {j : NodeIndex} (h : x.wrongDealer = some j) :
    x.depends D = within D (x.claim j).asks := by
  rw [ProductRun.depends, h, Option.bind_some]

theorem ProductRun.Cheats.depends {D : Finset Question} {O : D → Fn} {x : ProductRun} (h : x.Cheats O) :
    ∃ j q, x.wrongDealer = some j ∧ x.depends D = some q ∧ O q = (x.pf j).challenge := by
  cases hw : x.wrongDealer with
  | none =>
    refine absurd ?_ h.wrong
    have h1 : ∀ j ∈ x.dealers, x.val j = (toPoly x.l * toPoly x.r).eval (place j) := by
      intro j hj
      have := List.find?_eq_none.1 hw j hj
      simpa using this
    rw [interpolated_of_poly h.nodup _ (degree_mul_toPoly_lt' h.enough) h1, eval_mul, coeff_zero_eq, coeff_zero_eq]
  | some j =>
    obtain ⟨q, hq, hO⟩ := h.accepted j (List.mem_of_find?_eq_some hw)
    exact ⟨j, q, rfl, (ProductRun.depends_eq hw).trans hq, hO⟩

theorem ReshareRun.depends_eq {D : Finset Question} {x : ReshareRun} {j : NodeIndex} (h : x.wrongDealer = some j) :
    x.depends D = within D (x.claim j).asks := by
  rw [ReshareRun.depends, h, Option.bind_some]

theorem ReshareRun.Cheats.depends {D : Finset Question} {O : D → Fn} {x : ReshareRun} (h : x.Cheats O) :
    ∃ j q, x.wrongDealer = some j ∧ x.depends D = some q ∧ O q = (x.pf j).challenge := by
  cases hw : x.wrongDealer with
  | none =>
    refine absurd ?_ h.wrong
    have h1 : ∀ j ∈ x.dealers, x.val j = (toPoly x.v).eval (place j) := by
      intro j hj
      have := List.find?_eq_none.1 hw j hj
      simpa using this
    rw [interpolated_of_poly h.nodup _ (lt_of_lt_of_le (degree_toPoly_lt _) (by exact_mod_cast h.enough)) h1, coeff_zero_eq]
  | some j =>
    obtain ⟨q, hq, hO⟩ := h.accepted j (List.mem_of_find?_eq_some hw)
    exact ⟨j, q, rfl, (ReshareRun.depends_eq hw).trans hq, hO⟩

/-- Two answers to one first message, and openings: a wrong product gives the logarithm. -/
theorem product_fork {D : Finset Question} {c c' : ProductClaim} {x : D} (h : within D c.asks = some x) (h' : within D c'.asks = some x)
    (hne : c.pf.challenge ≠ c'.pf.challenge) {l r m v w : Fn} (hl : c.lhs = l • G) (hr : c.rhs = r • G + m • H)
    (hp : c.product = v • G + w • H) (hv : v ≠ l * r) :
    H = ((l * r - v) / (w - (l * m + slope c.pf.response2 c'.pf.response2 c.pf.challenge c'.pf.challenge))) • G := by
  obtain ⟨e1, e2, e3, e4, e5⟩ := product_asks_inj h h'
  rw [← e1] at e4
  rw [← e2, ← e3] at e5
  obtain ⟨k1, -, k3⟩ := (C48_extraction _ _ hne).2.2 _ _ _ _ _ _ _ e4 e5
  rw [hl] at k1
  have k1 := (smul_left_inj G_ne_zero).1 k1
  have k3 := k3 _ _ hr
  rw [← k1, hp] at k3
  exact (log_of_two k3).resolve_left hv

theorem eq_fork {D : Finset Question} {c c' : EqClaim} {x : D} (h : within D c.asks = some x) (h' : within D c'.asks = some x)
    (hne : c.pf.challenge ≠ c'.pf.challenge) {v m s : Fn} (hp : c.pedersen = v • G + m • H) (hs : c.simple = s • G) (hv : s ≠ v) :
    H = ((s - v) / (m - slope c.pf.response c'.pf.response c.pf.challenge c'.pf.challenge)) • G := by
  obtain ⟨e1, e2, e3⟩ := eq_asks_inj h h'
  rw [← e1, ← e2] at e3
  have k := sub_eq_iff_eq_add'.1 ((C48_extraction _ _ hne).2.1 _ _ _ _ e3)
  rw [hp, hs] at k
  exact (log_of_two k).resolve_left hv.symm

end Oracle

/-- C164, products: if dealers that ask at most `q` questions have cheated for a share `ε` of the oracles, then running them twice
gives the discrete logarithm of `H` for a share of `ε² / (q + 1) - ε / n` of the oracles and second answers. -/
theorem C164_product (D : Finset Question) (g : Alg D Fn ProductRun) (q : Nat) (hq : g.AtMost q) (ε : ℚ)
    (hε : ε = share fun O : D → Fn => (g.run O).Cheats O) :
    ε ^ 2 / (q + 1) - ε / n ≤ share fun p : (D → Fn) × Fn =>
      H = ProductRun.log (rewindAt g (ProductRun.depends D) p.1 p.2).1 (rewindAt g (ProductRun.depends D) p.1 p.2).2 • G := by
  set ok : ProductRun → Fn → Prop := fun x a => ∃ j, x.wrongDealer = some j ∧ a = (x.pf j).challenge with hok
  have h := forking g (ProductRun.depends D) ok q hq
  rw [card_Fn] at h
  refine fork_bound_mono (hε ▸ share_nonneg _) ?_ (share_nonneg _) (h.trans (share_mono ?_))
  · rw [hε]
    refine share_mono fun O hO => ?_
    obtain ⟨j, x, h1, h2, h3⟩ := hO.depends
    exact ⟨x, h2, j, h1, h3⟩
  · rintro ⟨O, a⟩ ⟨x, h1, ⟨j, hj, h2⟩, h3, h4, ⟨j', hj', h5⟩⟩
    dsimp only at h1 h2 h3 h4 h5 hj hj'
    simp only [rewindAt, h1]
    set y := g.run O
    set y' := g.run (Function.update O x a)
    rw [ProductRun.depends_eq hj] at h1
    rw [ProductRun.depends_eq hj'] at h4
    have hwr : y.val j ≠ (toPoly y.l).eval (place j) * (toPoly y.r).eval (place j) := by
      simpa using List.find?_some hj
    have e := product_fork h1 h4 (by rw [ProductRun.claim, ProductRun.claim, ← h2, ← h5]; exact h3.symm) rfl rfl rfl hwr
    simp only [ProductRun.log, hj, hj']
    exact e

/-- C164, resharing. -/
theorem C164_reshare (D : Finset Question) (g : Alg D Fn ReshareRun) (q : Nat) (hq : g.AtMost q) (ε : ℚ)
    (hε : ε = share fun O : D → Fn => (g.run O).Cheats O) :
    ε ^ 2 / (q + 1) - ε / n ≤ share fun p : (D → Fn) × Fn =>
      H = ReshareRun.log (rewindAt g (ReshareRun.depends D) p.1 p.2).1 (rewindAt g (ReshareRun.depends D) p.1 p.2).2 • G := by
  set ok : ReshareRun → Fn → Prop := fun x a => ∃ j, x.wrongDealer = some j ∧ a = (x.pf j).challenge with hok
  have h := forking g (ReshareRun.depends D) ok q hq
  rw [card_Fn] at h
  refine fork_bound_mono (hε ▸ share_nonneg _) ?_ (share_nonneg _) (h.trans (share_mono ?_))
  · rw [hε]
    refine share_mono fun O hO => ?_
    obtain ⟨j, x, h1, h2, h3⟩ := hO.depends
    exact ⟨x, h2, j, h1, h3⟩
  · rintro ⟨O, a⟩ ⟨x, h1, ⟨j, hj, h2⟩, h3, h4, ⟨j', hj', h5⟩⟩
    dsimp only at h1 h2 h3 h4 h5 hj hj'
    simp only [rewindAt, h1]
    set y := g.run O
    set y' := g.run (Function.update O x a)
    rw [ReshareRun.depends_eq hj] at h1
    rw [ReshareRun.depends_eq hj'] at h4
    have hwr : y.val j ≠ (toPoly y.v).eval (place j) := by
      simpa using List.find?_some hj
    have e := eq_fork h1 h4 (by rw [ReshareRun.claim, ReshareRun.claim, ← h2, ← h5]; exact h3.symm) rfl rfl hwr
    simp only [ReshareRun.log, hj, hj']
    exact e

/-- C164, the link to the code, products: dealings that `PubliclyVerify` accepts and that have been combined to a transcript are
what such a program ends with, except that the shared value, which the transcript commits to, may be right. -/
theorem C164_code_product (P : Prim) (t : Int) (ds : DealingMap) (L R T : Com) (receivers : Int) (ad : Bytes)
    (hsort : OMap.Sorted BitVec.toInt ds)
    (hacc : ∀ x ∈ ds, publiclyVerify P x.2 K256 (.unmaskedTimesMasked L R) t x.1 receivers ad = .ok ())
    (hT : newTranscript t ds (.unmaskedTimesMasked L R) = .ok (some T))
    (l r m : List Fn) (hm : m.length = r.length) (hL : L.c.points = l.map fun v : Fn => v • G)
    (hR : R.c.points = List.zipWith (fun v m : Fn => v • G + m • H) r m) (val mask : NodeIndex → Fn)
    (ho : ∀ x ∈ ds, ∃ cm, x.2.commitment = some cm ∧ cm.points.head? = some (val x.1 • G + mask x.1 • H)) :
    ∃ pf : NodeIndex → Product.Proof, (∀ x ∈ ds, x.2.productProof = some (pf x.1)) ∧
      T.c.points.head? = some (interpolated (ds.map Prod.fst) val • G + interpolated (ds.map Prod.fst) mask • H) ∧
      ∀ D : Finset Question, (∀ j q, question (ProductRun.claim ⟨l, r, m, ds.map Prod.fst, val, mask, ad, pf⟩ j).asks = some q → q ∈ D) →
        (ProductRun.Cheats (fun q : D => codeOracle P q.1) ⟨l, r, m, ds.map Prod.fst, val, mask, ad, pf⟩ ↔
          interpolated (ds.map Prod.fst) val ≠ Poly.coeff l 0 * Poly.coeff r 0) := by
  have hn := OMap.nodup_keys hsort
  obtain ⟨cm, hc, hcm⟩ := commits_of_accepted hn hacc
  obtain ⟨w, hs⟩ := newTranscript_shape hc hn hT
  obtain ⟨-, hdne, hw, hsum⟩ := hs.interp (by simp)
  have hcount : l.length + r.length ≤ ds.length + 1 := by
    by_contra hlt
    have h := (C61_rejections_partial t ds cm hc).2.2.2.1 L R (Or.inr (Or.inr (by
      rw [hL, hR, List.length_map, List.length_zipWith, hm, min_self]; omega)))
    rw [hT] at h
    cases h
  have ht : 0 < t := by
    obtain ⟨x, hx⟩ := List.exists_mem_of_ne_nil _ hdne
    obtain ⟨h1, -, c0, h2, -⟩ := hcm x hx
    cases hp : (cm x.1).points with
    | nil => rw [hp] at h2; cases h2
    | cons a b => rw [hp, List.length_cons] at h1; omega
  have hex : ∀ j, ∃ pf : Product.Proof, ∀ x ∈ ds, x.1 = j → x.2.proof = some (.product (some pf)) ∧
      Product.verify P pf ((toPoly l).eval (place j) • G) ((toPoly r).eval (place j) • G + (toPoly m).eval (place j) • H)
        (val j • G + mask j • H) ad = .ok () := by
    intro j
    by_cases hj : ∃ x ∈ ds, x.1 = j
    · obtain ⟨x, hx, rfl⟩ := hj
      obtain ⟨-, -, c0, h2, -, -, -, -, -, -, pf, h3, h4⟩ := hcm x hx
      obtain ⟨cm', h5, h6⟩ := ho x hx
      obtain rfl := Option.some.inj ((hc x hx).symm.trans h5)
      obtain rfl := Option.some.inj (h2.symm.trans h6)
      rw [hL, hR, valueAtNode_exponents, valueAtNode_pairs hm] at h4
      refine ⟨pf, fun y hy e => ?_⟩
      obtain rfl : y = x := List.inj_on_of_nodup_map hn hy hx e
      exact ⟨h3, h4⟩
    · exact ⟨⟨0, 0, 0⟩, fun x hx e => absurd ⟨x, hx, e⟩ hj⟩
  choose pf hpf using hex
  refine ⟨pf, fun x hx => by rw [Dealing.productProof, (hpf x.1 x hx rfl).1], ?_, fun D hD => ⟨fun h => h.wrong, fun h => ?_⟩⟩
  · have hhead := head_linCombPts w (ds.map Prod.fst) (fun i => (cm i).points) (t := t.toNat) (by omega)
    rw [hs.com, hhead, interpolated_eq hw, interpolated_eq hw, ← sum_smul_map, ← sum_smul_map, ← sum_add_map]
    refine congrArg some (congrArg List.sum (List.map_congr_left fun i hi => ?_))
    obtain ⟨x, hx, rfl⟩ := List.mem_map.1 hi
    obtain ⟨cm', h5, h6⟩ := ho x hx
    obtain rfl := Option.some.inj ((hc x hx).symm.trans h5)
    rw [getD_zero_head h6]
    module
  · refine ⟨hn, by rw [List.length_map]; exact hcount, fun j hj => ?_, h⟩
    obtain ⟨x, hx, rfl⟩ := List.mem_map.1 hj
    exact ((C150_verify P D).2.2 (ProductRun.claim ⟨l, r, m, ds.map Prod.fst, val, mask, ad, pf⟩ x.1) (hD x.1)).1 (hpf x.1 x hx rfl).2

/-- C164, the link to the code, resharing. -/
theorem C164_code_reshare (P : Prim) (t : Int) (ds : DealingMap) (p1 T : Com) (receivers : Int) (ad : Bytes)
    (hsort : OMap.Sorted BitVec.toInt ds)
    (hacc : ∀ x ∈ ds, publiclyVerify P x.2 K256 (.reshareMasked p1) t x.1 receivers ad = .ok ())
    (hT : newTranscript t ds (.reshareMasked p1) = .ok (some T))
    (v m : List Fn) (hm : m.length = v.length)
    (hp : p1.c.points = List.zipWith (fun v m : Fn => v • G + m • H) v m) (val : NodeIndex → Fn)
    (ho : ∀ x ∈ ds, ∃ cm, x.2.commitment = some cm ∧ cm.points.head? = some (val x.1 • G)) :
    ∃ pf : NodeIndex → Zk.Proof, (∀ x ∈ ds, x.2.eqProof = some (pf x.1)) ∧
      T.c.points.head? = some (interpolated (ds.map Prod.fst) val • G) ∧
      ∀ D : Finset Question, (∀ j q, question (ReshareRun.claim ⟨v, m, ds.map Prod.fst, val, ad, pf⟩ j).asks = some q → q ∈ D) →
        (ReshareRun.Cheats (fun q : D => codeOracle P q.1) ⟨v, m, ds.map Prod.fst, val, ad, pf⟩ ↔
          interpolated (ds.map Prod.fst) val ≠ Poly.coeff v 0) := by
  have hn := OMap.nodup_keys hsort
  obtain ⟨cm, hc, hcm⟩ := commits_of_accepted hn hacc
  obtain ⟨w, hs⟩ := newTranscript_shape hc hn hT
  obtain ⟨-, hdne, hw, hsum⟩ := hs.interp (by simp)
  have hcount : v.length ≤ ds.length := by
    by_contra hlt
    have h := (C61_rejections_partial t ds cm hc).2.1 p1 (Or.inr (by
      rw [hp, List.length_zipWith, hm, min_self]; omega))
    rw [hT] at h
    cases h
  have ht : 0 < t := by
    obtain ⟨x, hx⟩ := List.exists_mem_of_ne_nil _ hdne
    obtain ⟨h1, -, c0, h2, -⟩ := hcm x hx
    cases hp : (cm x.1).points with
    | nil => rw [hp] at h2; cases h2
    | cons a b => rw [hp, List.length_cons] at h1; omega
  have hex : ∀ j, ∃ pf : Zk.Proof, ∀ x ∈ ds, x.1 = j → x.2.proof = some (.masked (some pf)) ∧
      EqOpen.verify P pf ((toPoly v).eval (place j) • G + (toPoly m).eval (place j) • H) (val j • G) ad = .ok () := by
    intro j
    by_cases hj : ∃ x ∈ ds, x.1 = j
    · obtain ⟨x, hx, rfl⟩ := hj
      obtain ⟨-, -, c0, h2, -, -, -, pf, h3, h4⟩ := hcm x hx
      obtain ⟨cm', h5, h6⟩ := ho x hx
      obtain rfl := Option.some.inj ((hc x hx).symm.trans h5)
      obtain rfl := Option.some.inj (h2.symm.trans h6)
      rw [hp, valueAtNode_pairs hm] at h4
      refine ⟨pf, fun y hy e => ?_⟩
      obtain rfl : y = x := List.inj_on_of_nodup_map hn hy hx e
      exact ⟨h3, h4⟩
    · exact ⟨⟨0, 0⟩, fun x hx e => absurd ⟨x, hx, e⟩ hj⟩
  choose pf hpf using hex
  refine ⟨pf, fun x hx => by rw [Dealing.eqProof, (hpf x.1 x hx rfl).1], ?_, fun D hD => ⟨fun h => h.wrong, fun h => ?_⟩⟩
  · have hhead := head_linCombPts w (ds.map Prod.fst) (fun i => (cm i).points) (t := t.toNat) (by omega)
    rw [hs.com, hhead, interpolated_eq hw, ← sum_smul_map]
    refine congrArg some (congrArg List.sum (List.map_congr_left fun i hi => ?_))
    obtain ⟨x, hx, rfl⟩ := List.mem_map.1 hi
    obtain ⟨cm', h5, h6⟩ := ho x hx
    obtain rfl := Option.some.inj ((hc x hx).symm.trans h5)
    rw [getD_zero_head h6, smul_smul]
  · refine ⟨hn, by rw [List.length_map]; exact hcount, fun j hj => ?_, h⟩
    obtain ⟨x, hx, rfl⟩ := List.mem_map.1 hj
    exact ((C150_verify P D).2.1 (ReshareRun.claim ⟨v, m, ds.map Prod.fst, val, ad, pf⟩ x.1) (hD x.1)).1 (hpf x.1 x hx rfl).2

/-- A dealer that knows the logarithm `h` of `H` cheats for all oracles, with one question: the shared product of 1 and 1 is
`1 + h`. -/
example (h : Fn) (hh : H = h • G) (D : Finset Question) (y : D)
    (hy : within D (Product.transcript ⟨G, H, G, G, G + H⟩ 0 0 []) = some y) :
    let dealer : Alg D Fn ProductRun := .ask y fun c => .done ⟨[1], [1], [0], [0], fun _ => 1 + h, fun _ => 0, [], fun _ => ⟨c, c, c⟩⟩
    dealer.AtMost 1 ∧ share (fun O : D → Fn => (dealer.run O).Cheats O) = 1 := by
  have h0 : h ≠ 0 := by
    rintro rfl
    rw [zero_smul Fn G] at hh
    exact H_ne_zero hh
  refine ⟨fun a => trivial, ?_⟩
  rw [share_eq_one]
  intro O
  have e1 : ∀ a : Fn, (toPoly [a]).eval (place 0) = a := fun a => by simp [toPoly]
  refine ⟨by simp [Alg.run], by simp [Alg.run], fun j hj => ?_, ?_⟩
  · obtain rfl : j = 0 := by simpa [Alg.run] using hj
    refine ⟨y, ?_, rfl⟩
    rw [← hy]
    have e2 : (1 + h) • G + (0 : Fn) • H = G + H := by rw [hh]; module
    have e4 : (1 : Fn) • G = G := one_smul _ _
    simp only [Alg.run, ProductRun.claim, ProductClaim.asks, e1, e2, e4]
    congr 2 <;> module
  · have := interpolated_of_poly (dealers := [0]) (y := fun _ => 1 + h) (by simp) (Polynomial.C (1 + h))
      (lt_of_le_of_lt degree_C_le (by simp)) (fun j hj => by simp)
    simp only [Alg.run]
    rw [this, eval_C]
    simpa [Poly.coeff] using h0

end Verif
