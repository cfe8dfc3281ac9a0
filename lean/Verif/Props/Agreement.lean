import Verif.Props.Recovery
import Verif.Props.Point

/-!
Property C148: the shares that nodes accept lie on common polynomials, or they give away the discrete logarithm of the
second generator.
-/

set_option autoImplicit false

namespace Verif.Dealings

open Mega Polynomial
open Point (H)

/-- The number `h` with `H = h • G`, from two openings of one commitment at one node. -/
def logFrom (o o' : Opening) : Fn := (Opening.val o' - Opening.val o) / (Opening.mask o - Opening.mask o')

/-- The search for the number: reconstruct the share of each node from those of the first nodes, as many as the commitment
has coefficients, and compare. -/
def findLog (d : Dealing) (t : Nat) (o : NodeIndex → Opening) (nodes : List NodeIndex) : Option Fn :=
  nodes.findSome? fun i =>
    match reconstructShare d ((nodes.take t).map fun j => (j, o j)) i with
    | .ok o' => if o' = o i then none else some (logFrom (o i) o')
    | _ => none

theorem exists_exponents (pts : List Pt) : ∃ e : List Fn, pts = e.map fun x : Fn => x • G := by
  induction pts with
  | nil => exact ⟨[], rfl⟩
  | cons P l ih =>
    obtain ⟨e, he⟩ := ih
    obtain ⟨s, hs⟩ := exists_smul_eq G_ne_zero P
    exact ⟨s :: e, by rw [List.map_cons, ← hs, ← he]⟩

theorem valueAtNode_exponents (e : List Fn) (i : NodeIndex) :
    valueAtNode (e.map fun x : Fn => x • G) i = (toPoly e).eval (place i) • G := by
  have h := Commitment.evalLoop_mulByG i e
  rw [Commitment.evalLoop_eq, Poly.evaluateAt_eq] at h
  exact h

/-- Two openings of one Pedersen commitment at one node. -/
theorem logFrom_spec {c : Commitment} {i : NodeIndex} {o o' : Opening} (hk : c.kind = .pedersen) (h : Opens c i o)
    (h' : Opens c i o') (hne : o' ≠ o) : H = logFrom o o' • G := by
  obtain ⟨e1, e2⟩ := opens_pedersen h hk
  obtain ⟨e3, e4⟩ := opens_pedersen h' hk
  obtain ⟨η, hη⟩ := exists_smul_eq G_ne_zero H
  have hη0 : η ≠ 0 := by
    rintro rfl
    exact H_ne_zero (hη.trans (zero_smul Fn G))
  have key : Opening.val o + Opening.mask o * η = Opening.val o' + Opening.mask o' * η := by
    have := e2.symm.trans e4
    rw [hη, smul_smul, smul_smul, ← add_smul, ← add_smul] at this
    exact (smul_left_inj G_ne_zero).1 this
  have hm : Opening.mask o - Opening.mask o' ≠ 0 := by
    intro hz
    have hm := sub_eq_zero.1 hz
    rw [hm] at key
    have hv := add_right_cancel key
    exact hne (by rw [e1, e3, hv, hm])
  rw [hη, logFrom]
  congr 1
  rw [eq_div_iff hm]
  linear_combination key

/-- C148 for commitments without mask: there is one polynomial, and the openings are its values. -/
theorem C148_simple (c : Commitment) (hk : c.kind = .simple) :
    ∃ f : List Fn, f.length = c.points.length ∧ c.points = f.map (fun v : Fn => v • G) ∧
      ∀ i o, Opens c i o ↔ o = .simple ((toPoly f).eval (place i)) := by
  obtain ⟨e, he⟩ := exists_exponents c.points
  refine ⟨e, by rw [he, List.length_map], he, fun i o => ⟨fun h => ?_, ?_⟩⟩
  · obtain ⟨e1, e2⟩ := opens_simple h hk
    rw [he, valueAtNode_exponents] at e2
    rw [e1, (smul_left_inj G_ne_zero).1 e2]
  · rintro rfl
    exact ⟨hk, by rw [he, valueAtNode_exponents]⟩

/-- C148 for Pedersen commitments: openings at more nodes than the degree either are the values of one pair of polynomials
that the commitment is to, or the search finds the discrete logarithm of the second generator. -/
theorem C148_pedersen (d : Dealing) (c : Commitment) (hd : d.commitment = some c) (hk : c.kind = .pedersen)
    (hne : c.points ≠ []) (nodes : List NodeIndex) (hn : nodes.Nodup) (hlen : c.points.length ≤ nodes.length)
    (o : NodeIndex → Opening) (ho : ∀ i ∈ nodes, Opens c i (o i)) :
    (findLog d c.points.length o nodes = none ∧
      ∃ f g : List Fn, f.length = c.points.length ∧ g.length = c.points.length ∧
        c.points = List.zipWith (fun v m : Fn => v • G + m • H) f g ∧
        ∀ i ∈ nodes, o i = .pedersen ((toPoly f).eval (place i)) ((toPoly g).eval (place i))) ∨
    ∃ h, findLog d c.points.length o nodes = some h ∧ H = h • G := by
  set t := c.points.length with ht
  set base := nodes.take t with hbase
  have hbl : base.length = t := by rw [hbase, List.length_take, min_eq_left hlen]
  have hbn : base.Nodup := hn.sublist (List.take_sublist _ _)
  have hbo : ∀ j ∈ base, Opens c j (o j) := fun j hj => ho j (List.mem_of_mem_take hj)
  have hrec : ∀ i, ∃ w : NodeIndex → Fn,
      (∀ f : Fn[X], f.degree < base.length → (base.map fun j => w j * f.eval (place j)).sum = f.eval (place i)) ∧
      reconstructShare d (base.map fun j => (j, o j)) i = .ok (.pedersen (base.map fun j => w j * Opening.val (o j)).sum
            (base.map fun j => w j * Opening.mask (o j)).sum) := by
    intro i
    obtain ⟨w, h1, h2⟩ := reconstruct_eq d c hd hne base o hbn (by rw [hbl]) hbo i
    rw [hk] at h2
    exact ⟨w, h1, h2⟩
  cases hf : findLog d t o nodes with
  | some h =>
    refine Or.inr ⟨h, rfl, ?_⟩
    obtain ⟨l1, i, l2, hl, hi, -⟩ := List.findSome?_eq_some_iff.1 hf
    have hmem : i ∈ nodes := by rw [hl]; simp
    obtain ⟨w, -, hr⟩ := hrec i
    have hop := ((C64_reconstruction_sound d c hd _ i).1 _ hr).2
    rw [← hbase, hr] at hi
    dsimp only at hi
    split_ifs at hi with hcmp
    rw [← Option.some.inj hi]
    exact logFrom_spec hk (ho i hmem) hop hcmp
  | none =>
    refine Or.inl ⟨rfl, ?_⟩
    rw [findLog, List.findSome?_eq_none_iff] at hf
    have hpn : (base.map place).Nodup := hbn.map Lagr.fromNodeIndex_injective
    have hinv : ∀ g : NodeIndex → Fn, ∃ q : List Fn, q.length = t ∧ ∀ j ∈ base, (toPoly q).eval (place j) = g j := by
      intro g
      obtain ⟨q, hq, hqe⟩ := exists_poly_through hpn (fun x => g (Function.invFun place x))
      rw [List.length_map, hbl] at hq
      refine ⟨coeffList q t, length_coeffList q t, fun j hj => ?_⟩
      rw [toPoly_coeffList hq, hqe _ (List.mem_map_of_mem hj),
        Function.leftInverse_invFun (f := place) Lagr.fromNodeIndex_injective j]
    obtain ⟨f, hfl, hfe⟩ := hinv fun j => Opening.val (o j)
    obtain ⟨g, hgl, hge⟩ := hinv fun j => Opening.mask (o j)
    have hdf : (toPoly f).degree < base.length := by rw [hbl, ← hfl]; exact degree_toPoly_lt f
    have hdg : (toPoly g).degree < base.length := by rw [hbl, ← hgl]; exact degree_toPoly_lt g
    have hval : ∀ i ∈ nodes, o i = .pedersen ((toPoly f).eval (place i)) ((toPoly g).eval (place i)) := by
      intro i hi
      obtain ⟨w, hw, hr⟩ := hrec i
      have h1 := hf i hi
      rw [← hbase, hr] at h1
      dsimp only at h1
      split_ifs at h1 with hcmp
      rw [← hcmp]
      congr 1
      · rw [← hw _ hdf]
        congr 1
        exact List.map_congr_left fun j hj => by rw [hfe j hj]
      · rw [← hw _ hdg]
        congr 1
        exact List.map_congr_left fun j hj => by rw [hge j hj]
    refine ⟨f, g, hfl, hgl, ?_, hval⟩
    obtain ⟨η, hη⟩ := exists_smul_eq G_ne_zero H
    obtain ⟨e, he⟩ := exists_exponents c.points
    have hel : e.length = t := by rw [ht, he, List.length_map]
    have hde : (toPoly e).degree < (base.map place).length := by
      rw [List.length_map, hbl, ← hel]; exact degree_toPoly_lt e
    have hds : (toPoly f + C η * toPoly g).degree < (base.map place).length := by
      rw [List.length_map]
      refine lt_of_le_of_lt (degree_add_le _ _) (max_lt hdf (lt_of_le_of_lt ?_ hdg))
      rw [degree_mul]
      exact (add_le_add degree_C_le le_rfl).trans (zero_add _).le
    have hpoly : toPoly e = toPoly f + C η * toPoly g := by
      refine Poly.eq_of_agree hpn hde hds fun x hx => ?_
      obtain ⟨j, hj, rfl⟩ := List.mem_map.1 hx
      obtain ⟨e1, e2⟩ := opens_pedersen (hbo j hj) hk
      rw [he, valueAtNode_exponents, hη, smul_smul, ← add_smul] at e2
      rw [(smul_left_inj G_ne_zero).1 e2, eval_add, eval_mul, eval_C, hfe j hj, hge j hj]
      ring
    rw [he]
    refine List.ext_getElem (by simp [hel, hfl, hgl]) fun k h1 h2 => ?_
    have hke : k < e.length := by simpa using h1
    have hkf : k < f.length := by rw [hfl, ← hel]; exact hke
    have hkg : k < g.length := by rw [hgl, ← hel]; exact hke
    have hc := congrArg (fun q : Fn[X] => q.coeff k) hpoly
    simp only [coeff_add, coeff_C_mul, coeff_toPoly, Poly.coeff, dif_pos hke, dif_pos hkf, dif_pos hkg] at hc
    rw [List.getElem_map, List.getElem_zipWith, hc]
    generalize f[k] = a, g[k] = b
    rw [hη, smul_smul, ← add_smul, mul_comm]

/-- C148 for the shares of a transcript: whatever dealings, openings, associated data and keys the nodes used, if each of
them got a share for the same transcript then all shares are values of common polynomials that the transcript's commitment
is to, or the discrete logarithm of the second generator is computed from them. -/
theorem C148_shares (P : Prim) (T : Com) (hne : T.c.points ≠ []) (nodes : List NodeIndex) (hn : nodes.Nodup)
    (hlen : T.c.points.length ≤ nodes.length) (ds : NodeIndex → DealingMap)
    (provided : NodeIndex → List (NodeIndex × OpeningMap)) (ad : NodeIndex → Bytes) (k : NodeIndex → Fn)
    (pk : NodeIndex → Pt) (o : NodeIndex → Opening)
    (ho : ∀ i ∈ nodes, fromDealingsAndOpenings P (ds i) (provided i) (some T) (ad i) i (k i) (pk i) = .ok (o i) ∨
      fromDealings P (ds i) (some T) (ad i) i (k i) (pk i) = .ok (o i)) :
    (T.c.kind = .simple ∧ ∃ f : List Fn, f.length = T.c.points.length ∧ T.c.points = f.map (fun v : Fn => v • G) ∧
      ∀ i ∈ nodes, o i = .simple ((toPoly f).eval (place i))) ∨
    (T.c.kind = .pedersen ∧ ∃ f g : List Fn, f.length = T.c.points.length ∧ g.length = T.c.points.length ∧
      T.c.points = List.zipWith (fun v m : Fn => v • G + m • H) f g ∧
      ∀ i ∈ nodes, o i = .pedersen ((toPoly f).eval (place i)) ((toPoly g).eval (place i))) ∨
    ∃ h, findLog ⟨none, some T.c, none⟩ T.c.points.length o nodes = some h ∧ H = h • G := by
  have hopen : ∀ i ∈ nodes, Opens T.c i (o i) := by
    intro i hi
    have h63 := C63_shares_consistent P (ds i) (provided i) (some T) (ad i) i (k i) (pk i) (o i)
    rcases ho i hi with h | h
    · obtain ⟨c, e, h⟩ := h63.2 h
      rw [Option.some.inj e]; exact h
    · obtain ⟨c, e, h⟩ := h63.1 h
      rw [Option.some.inj e]; exact h
  cases hk : T.c.kind with
  | simple =>
    obtain ⟨f, h1, h2, h3⟩ := C148_simple T.c hk
    exact Or.inl ⟨rfl, f, h1, h2, fun i hi => (h3 i _).1 (hopen i hi)⟩
  | pedersen =>
    rcases C148_pedersen ⟨none, some T.c, none⟩ T.c rfl hk hne nodes hn hlen o hopen with ⟨-, h⟩ | h
    · exact Or.inr (Or.inl ⟨rfl, h⟩)
    · exact Or.inr (Or.inr h)

/-- Both cases occur: for the commitment to `1 + 2X` with mask `3 + 4X`, the values at three nodes agree with each other;
with the value at the third node replaced by another opening, which only who knows the logarithm `h` can make, the search
finds `h`. -/
example (h : Fn) (hH : H = h • G) : ∃ (c : Commitment) (o o' : NodeIndex → Opening), c.points.length = 2 ∧
    (∀ i ∈ [0, 1, 2], Opens c i (o i)) ∧ (∀ i ∈ [0, 1, 2], Opens c i (o' i)) ∧
    findLog ⟨none, some c, none⟩ 2 o [0, 1, 2] = none ∧ findLog ⟨none, some c, none⟩ 2 o' [0, 1, 2] = some h := by
  have hh : h ≠ 0 := by
    rintro rfl
    exact H_ne_zero (hH.trans (zero_smul Fn G))
  set c : Commitment := ⟨.pedersen, List.zipWith (fun v m : Fn => v • G + m • H) [1, 2] [3, 4]⟩ with hc
  set o : NodeIndex → Opening := fun i => .pedersen ((toPoly [1, 2]).eval (place i)) ((toPoly [3, 4]).eval (place i)) with hod
  set o' : NodeIndex → Opening := fun i => if i = 2 then
    .pedersen ((toPoly [1, 2]).eval (place i) + h) ((toPoly [3, 4]).eval (place i) - 1) else o i with hod'
  have hval : ∀ i, valueAtNode c.points i = (toPoly [1, 2]).eval (place i) • G + (toPoly [3, 4]).eval (place i) • H := by
    intro i
    have h1 := Commitment.evaluateAt_pedersen (v := [1, 2]) (m := [3, 4]) (by simp) rfl i
    have h2 := Commitment.evaluateAt_value (c := c) (by simp [hc]) i
    have h3 : c = ⟨.pedersen, List.zipWith Point.pedersen [1, 2] [3, 4]⟩ := by
      rw [hc]; congr 1
    rw [← h3, h2] at h1
    rw [Res.ok.inj h1, Poly.evaluateAt_eq, Poly.evaluateAt_eq, Commitment.pedersen_eq]; rfl
  have hopen : ∀ i, Opens c i (o i) := fun i => ⟨rfl, hval i⟩
  have hopen' : ∀ i, Opens c i (o' i) := by
    intro i
    by_cases hi : i = 2
    · rw [hod']; simp only [if_pos hi]
      refine ⟨rfl, ?_⟩
      rw [hval, hH]; module
    · rw [hod']; simp only [if_neg hi]; exact hopen i
  refine ⟨c, o, o', rfl, fun i _ => hopen i, fun i _ => hopen' i, ?_, ?_⟩
  · rcases C148_pedersen ⟨none, some c, none⟩ c rfl rfl (by simp [hc]) [0, 1, 2] (by decide) (by simp [hc]) o
      (fun i _ => hopen i) with ⟨h1, -⟩ | ⟨h', h1, -⟩
    · exact h1
    · exfalso
      obtain ⟨l1, i, l2, hl, hi, -⟩ := List.findSome?_eq_some_iff.1 h1
      obtain ⟨res, hr, -, -, h3⟩ := C64_reconstruction ⟨none, some c, none⟩ c rfl (by simp [hc]) [0, 1] o (by decide)
        (by simp [hc]) (fun j _ => hopen j) i
      have h4 := h3 [1, 2] [3, 4] rfl rfl (fun j _ => rfl)
      have h5 : ([0, 1, 2] : List NodeIndex).take c.points.length = [0, 1] := rfl
      rw [h5, hr, h4] at hi
      dsimp only at hi
      rw [if_pos rfl] at hi
      cases hi
  · rcases C148_pedersen ⟨none, some c, none⟩ c rfl rfl (by simp [hc]) [0, 1, 2] (by decide) (by simp [hc]) o'
      (fun i _ => hopen' i) with ⟨-, f, g, hf, hg, -, hv⟩ | ⟨h', h1, h2⟩
    · exfalso
      have hf2 : f.length = 2 := hf
      have key : toPoly f = toPoly [1, 2] := by
        refine Poly.eq_of_agree (xs := [place 0, place 1]) (by decide +kernel) ?_ ?_ fun x hx => ?_
        · have := degree_toPoly_lt f; rw [hf2] at this; exact this
        · exact degree_toPoly_lt [1, 2]
        · rcases List.mem_cons.1 hx with rfl | hx
          · have := hv 0 (by simp)
            rw [hod'] at this
            simp only [if_neg (show ¬ (0 : NodeIndex) = 2 by decide), hod] at this
            exact (Opening.pedersen.inj this).1.symm
          · rw [List.mem_singleton] at hx
            rw [hx]
            have := hv 1 (by simp)
            rw [hod'] at this
            simp only [if_neg (show ¬ (1 : NodeIndex) = 2 by decide), hod] at this
            exact (Opening.pedersen.inj this).1.symm
      have := hv 2 (by simp)
      rw [hod'] at this
      simp only [if_true] at this
      have h6 := (Opening.pedersen.inj this).1
      rw [key] at h6
      exact hh (by linear_combination h6)
    · have : h' = h := (smul_left_inj G_ne_zero).1 (h2.symm.trans hH)
      rw [← this]; exact h1

end Verif.Dealings
