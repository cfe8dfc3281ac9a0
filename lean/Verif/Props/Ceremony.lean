import Verif.Props.KeyGen
import Verif.Spec.Ceremony

/-!
Property C190: key generation, presignatures' nonces and signing together give a group one short of the threshold nothing but what an
ECDSA oracle gives.
-/

set_option autoImplicit false

namespace Verif.KeyGen

open Dealings Sign Polynomial
open Point (H)

variable {k M R : Nat} {B : List NodeIndex} (nodes : Fin R → NodeIndex) (E : Reaction k M R)

/-- The choices of the honest nodes in all generations. -/
noncomputable def toAll (B : List NodeIndex) (η : Fn) (all : List (First M)) :
    List (Shown M R) → List ((Fin M → Fn) × (Fn × Coins k M R)) → List (Drawn k M R)
  | _, [] => []
  | e, y :: ys => toDrawn nodes (fun _ => E.adds all e) B η y ::
      toAll B η all (e ++ [y.2.2.made B nodes (fun _ => E.adds all e) (y.2.1 • G)]) ys

/-- The other way. -/
noncomputable def ofAll (B : List NodeIndex) (η : Fn) (all : List (First M)) :
    List (Shown M R) → List (Drawn k M R) → List ((Fin M → Fn) × (Fn × Coins k M R))
  | _, [] => []
  | e, ω :: ωs => ofDrawn nodes (fun _ => E.adds all e) B η ω :: ofAll B η all (e ++ [ω.shown B nodes fun _ => E.adds all e]) ωs

theorem length_toAll {η : Fn} {all : List (First M)} : ∀ (ys : List ((Fin M → Fn) × (Fn × Coins k M R))) (e : List (Shown M R)),
    (toAll nodes E B η all e ys).length = ys.length
  | [], _ => rfl
  | y :: ys, e => by rw [toAll, List.length_cons, List.length_cons, length_toAll ys]

theorem length_ofAll {η : Fn} {all : List (First M)} : ∀ (ωs : List (Drawn k M R)) (e : List (Shown M R)),
    (ofAll nodes E B η all e ωs).length = ωs.length
  | [], _ => rfl
  | ω :: ωs, e => by rw [ofAll, List.length_cons, List.length_cons, length_ofAll ωs]

section

variable (hB : B.Nodup) (hpos : ∀ j ∈ B, 0 ≤ j.toInt) (hl : B.length = k) {η : Fn} (hη : G = η • H) {all : List (First M)}

include hB hpos hl hη

theorem firsts_toAll : ∀ (ys : List ((Fin M → Fn) × (Fn × Coins k M R))) (e : List (Shown M R)),
    (toAll nodes E B η all e ys).map (Drawn.first B) = ys.map fun y => y.2.2.first B
  | [], _ => rfl
  | y :: ys, e => by
    rw [toAll, List.map_cons, List.map_cons, firsts_toAll ys, first_toDrawn nodes _ hB hpos hl hη]

theorem firsts_ofAll : ∀ (ωs : List (Drawn k M R)) (e : List (Shown M R)),
    ((ofAll nodes E B η all e ωs).map fun y => y.2.2.first B) = ωs.map (Drawn.first B)
  | [], _ => rfl
  | ω :: ωs, e => by
    rw [ofAll, List.map_cons, List.map_cons, firsts_ofAll ωs, first_ofDrawn nodes _ hB hpos hl hη]

theorem ofAll_toAll : ∀ (ys : List ((Fin M → Fn) × (Fn × Coins k M R))) (e : List (Shown M R)),
    ofAll nodes E B η all e (toAll nodes E B η all e ys) = ys
  | [], _ => rfl
  | y :: ys, e => by
    rw [toAll, ofAll, shown_toDrawn nodes _ hB hpos hl hη, ofAll_toAll ys]
    congr 1
    exact (drawnEquiv nodes (fun _ => E.adds all e) hB hpos hl hη).left_inv y

theorem toAll_ofAll : ∀ (ωs : List (Drawn k M R)) (e : List (Shown M R)),
    toAll nodes E B η all e (ofAll nodes E B η all e ωs) = ωs
  | [], _ => rfl
  | ω :: ωs, e => by
    have h : toDrawn nodes (fun _ => E.adds all e) B η (ofDrawn nodes (fun _ => E.adds all e) B η ω) = ω :=
      (drawnEquiv nodes (fun _ => E.adds all e) hB hpos hl hη).right_inv ω
    rw [ofAll, toAll, ← shown_toDrawn nodes _ hB hpos hl hη, h, toAll_ofAll ωs]

theorem generateFrom_toAll : ∀ (ys : List ((Fin M → Fn) × (Fn × Coins k M R))) (done : List (Outcome M R)),
    generateFrom B nodes E all done (toAll nodes E B η all (done.map Outcome.view) ys) = makeUpFrom B nodes E all done (ys.map Prod.snd)
  | [], _ => rfl
  | y :: ys, done => by
    have h : (toDrawn nodes (fun _ => E.adds all (done.map Outcome.view)) B η y).outcome B nodes E all (done.map Outcome.view) =
        Coins.outcome B nodes E all (done.map Outcome.view) y.2 := by
      simp only [Drawn.outcome, Coins.outcome]
      rw [shown_toDrawn nodes _ hB hpos hl hη, key_toDrawn nodes _ hB hpos hl hη]
    rw [toAll, generateFrom, h, List.map_cons, makeUpFrom, ← generateFrom_toAll ys, List.map_append]
    rfl

/-- What is drawn for all generations is, one to one, what the other program draws, the keys, and the other values at 0. -/
noncomputable def allEquiv (N : Nat) : List.Vector ((Fin M → Fn) × (Fn × Coins k M R)) N ≃ List.Vector (Drawn k M R) N where
  toFun ys := ⟨toAll nodes E B η (ys.1.map fun y => y.2.2.first B) [] ys.1, by rw [length_toAll]; exact ys.2⟩
  invFun ωs := ⟨ofAll nodes E B η (ωs.1.map (Drawn.first B)) [] ωs.1, by rw [length_ofAll]; exact ωs.2⟩
  left_inv ys := Subtype.ext (by
    simp only
    rw [firsts_toAll nodes E hB hpos hl hη, ofAll_toAll nodes E hB hpos hl hη])
  right_inv ωs := Subtype.ext (by
    simp only
    rw [firsts_ofAll nodes E hB hpos hl hη, toAll_ofAll nodes E hB hpos hl hη])

end

theorem ofFn_vectorEquivFin {α : Type} {N : Nat} (v : List.Vector α N) : List.ofFn (Equiv.vectorEquivFin α N v) = v.1 := by
  have h := (Equiv.vectorEquivFin α N).symm_apply_apply v
  have h2 := congrArg Subtype.val h
  refine Eq.trans ?_ h2
  exact (List.Vector.toList_ofFn _).symm

/-- C190, the generations: whatever one asks of what the group sees of `N` generations, of the shares it has of the secrets, and of the secrets, it is
so for the same share of all the honest nodes' choices as of all choices of `N` secrets and of the coins of the program that makes up the
rest from the public points. -/
theorem C190_generations (hB : B.Nodup) (hpos : ∀ j ∈ B, 0 ≤ j.toInt) (hl : B.length = k) (N : Nat) (p : List (Outcome M R) → Prop) :
    Oracle.share (fun ω : Fin N → Drawn k M R => p (generate B nodes E (List.ofFn ω))) =
      Oracle.share (fun y : Fin N → Fn × Coins k M R => p (makeUp B nodes E (List.ofFn y))) := by
  obtain ⟨η, hη⟩ : ∃ η : Fn, G = η • H := exists_smul_eq H_ne_zero G
  rw [← Oracle.share_equiv (Equiv.vectorEquivFin (Drawn k M R) N), ← Oracle.share_equiv (allEquiv nodes E hB hpos hl hη N),
    ← Oracle.share_equiv (Equiv.vectorEquivFin ((Fin M → Fn) × (Fn × Coins k M R)) N).symm]
  rw [← Oracle.share_fst (β := Fin N → Fin M → Fn) fun y : Fin N → Fn × Coins k M R => p (makeUp B nodes E (List.ofFn y)),
    ← Oracle.share_equiv (Equiv.prodComm (Fin N → Fin M → Fn) (Fin N → Fn × Coins k M R)),
    ← Oracle.share_equiv (Equiv.arrowProdEquivProdArrow (Fin N) (fun _ => Fin M → Fn) (fun _ => Fn × Coins k M R))]
  congr 1
  funext y
  rw [ofFn_vectorEquivFin]
  have e : ((Equiv.vectorEquivFin ((Fin M → Fn) × (Fn × Coins k M R)) N).symm y).1 = List.ofFn y := List.Vector.toList_ofFn _
  have h : (allEquiv nodes E hB hpos hl hη N ((Equiv.vectorEquivFin ((Fin M → Fn) × (Fn × Coins k M R)) N).symm y)).1 =
      toAll nodes E B η ((List.ofFn y).map fun y => y.2.2.first B) [] (List.ofFn y) := by
    rw [← e]; rfl
  rw [h, generate, firsts_toAll nodes E hB hpos hl hη]
  have h2 := generateFrom_toAll nodes E hB hpos hl hη (all := (List.ofFn y).map fun y => y.2.2.first B) (List.ofFn y) []
  rw [List.map_nil] at h2
  rw [h2]
  have h3 : (List.ofFn y).map Prod.snd = List.ofFn fun i => (y i).2 := by rw [List.map_ofFn]; rfl
  have h4 : ((List.ofFn y).map fun y => y.2.2.first B) = ((List.ofFn y).map Prod.snd).map fun z => z.2.first B := by
    rw [List.map_map]; rfl
  rw [h4, h3]
  rfl

theorem secrets_makeUpFrom {all : List (First M)} : ∀ (ys : List (Fn × Coins k M R)) (done : List (Outcome M R)),
    (makeUpFrom B nodes E all done ys).map Outcome.secret = done.map Outcome.secret ++ ys.map Prod.fst
  | [], done => by simp [makeUpFrom]
  | y :: ys, done => by
    rw [makeUpFrom, secrets_makeUpFrom ys, List.map_append, List.append_assoc]
    rfl

/-- The secrets of what is made up are those that were drawn. -/
theorem secret_makeUp {N : Nat} (y : Fin N → Fn × Coins k M R) (i : Fin N) : (nth (makeUp B nodes E (List.ofFn y)) i).secret = (y i).1 := by
  have h := secrets_makeUpFrom (B := B) nodes E (all := (List.ofFn y).map fun y => y.2.first B) (List.ofFn y) []
  have hlen := congrArg List.length h
  simp only [List.length_map, List.length_append, List.length_nil, List.length_ofFn, zero_add] at hlen
  have hi : (i : Nat) < (makeUp B nodes E (List.ofFn y)).length := by rw [makeUp, hlen]; exact i.2
  have h2 : ((makeUp B nodes E (List.ofFn y)).map Outcome.secret)[(i : Nat)]'(by simpa using hi) = (y i).1 := by
    have h' : (makeUp B nodes E (List.ofFn y)).map Outcome.secret = List.ofFn fun i => (y i).1 := by
      rw [makeUp, h, List.map_nil, List.nil_append, List.map_ofFn]; rfl
    simp only [h', List.getElem_ofFn]
  rw [nth, List.getD_eq_getElem?_getD, List.getElem?_eq_getElem hi, Option.getD_some, ← h2, List.getElem_map]

instance : Finite Blinds :=
  Finite.of_injective (fun b => (b.lambda, b.lambdaMask, b.klMask, b.xlMask)) fun a b h => by
    obtain ⟨a1, a2, a3, a4⟩ := a
    obtain ⟨b1, b2, b3, b4⟩ := b
    simp only [Prod.mk.injEq] at h
    obtain ⟨rfl, rfl, rfl, rfl⟩ := h
    rfl

instance : Finite Made :=
  Finite.of_injective (fun b => (b.c, b.lambda, b.kl, b.xl)) fun a b h => by
    obtain ⟨a1, a2, a3, a4⟩ := a
    obtain ⟨b1, b2, b3, b4⟩ := b
    simp only [Prod.mk.injEq] at h
    obtain ⟨rfl, rfl, rfl, rfl⟩ := h
    rfl

theorem share_congr_snd {X Y Z : Type} [Finite X] [Finite Y] [Finite Z] {p : X → Y → Prop} {p' : X → Z → Prop}
    (h : ∀ x, Oracle.share (p x) = Oracle.share (p' x)) :
    Oracle.share (fun u : X × Y => p u.1 u.2) = Oracle.share (fun u : X × Z => p' u.1 u.2) := by
  have := Fintype.ofFinite X
  rw [Oracle.share_sum, Oracle.share_sum, Finset.sum_congr rfl fun x _ => h x]

theorem share_congr_fst {X Y Z : Type} [Finite X] [Finite Y] [Finite Z] {p : X → Z → Prop} {p' : Y → Z → Prop}
    (h : ∀ z, Oracle.share (fun x => p x z) = Oracle.share (fun y => p' y z)) :
    Oracle.share (fun u : X × Z => p u.1 u.2) = Oracle.share (fun u : Y × Z => p' u.1 u.2) := by
  rw [← Oracle.share_equiv (Equiv.prodComm Z X), ← Oracle.share_equiv (Equiv.prodComm Z Y)]
  exact share_congr_snd (p := fun z x => p x z) (p' := fun z y => p' y z) h

variable {N : Nat} {α : Type} (P : Prim) (seen : List (Shown M R) → Fin N → Seen)

/-- C190: a program attacks with the knowledge of the group the generation of a key and of `N` nonces, and then signing.  Whatever one asks of
the public key and of the result, it is so for the same share of all choices of the honest nodes as of all choices of a key, `N` nonces, and of
coins, when the same program is given what is made up from the public points and one ECDSA signature for each request. -/
theorem C190_same (hB : B.Nodup) (hpos : ∀ j ∈ B, 0 ≤ j.toInt) (hl : B.length = k) (η : Fn) (hη : G = η • H)
    (A : List (Shown M R) → List Pt → (Fin N → Presig) → Attack N α) (p : Pt → List (Fin N × Request) × α → Prop) :
    Oracle.share (fun u : (Fin (N + 1) → Drawn k M R) × (Fin N → Blinds) => let l := generate B nodes E (List.ofFn u.1)
      p ((nth l 0).secret • G) (wholeAttack (k := k) B P seen A l u.2)) =
    Oracle.share (fun u : (Fin (N + 1) → Fn × Coins k M R) × (Fin N → Made) =>
      p ((u.1 0).1 • G) (wholeOracle (k := k) B P seen A η (makeUp B nodes E (List.ofFn u.1)) ((u.1 0).1 • G) (fun i => (u.1 i.succ).1 • G)
        (ecdsaOracle (u.1 0).1 fun i => (u.1 i.succ).1) u.2)) := by
  have h1 := share_congr_snd (X := Fin (N + 1) → Drawn k M R)
    (p := fun ω b => let l := generate B nodes E (List.ofFn ω); p ((nth l 0).secret • G) (wholeAttack (k := k) B P seen A l b))
    (p' := fun ω m => let l := generate B nodes E (List.ofFn ω)
      p ((nth l 0).secret • G) (wholeOracle (k := k) B P seen A η l ((nth l 0).secret • G) (fun i => (nth l (i + 1)).secret • G)
        (ecdsaOracle (nth l 0).secret fun i => (nth l (i + 1)).secret) m))
    fun ω => C186_same P (k + 1) B hB hpos (by omega) N α _ _ η hη _ _ _ (p _)
  refine h1.trans ?_
  refine (share_congr_fst fun m => C190_generations nodes E hB hpos hl (N + 1) fun l =>
    p ((nth l 0).secret • G) (wholeOracle (k := k) B P seen A η l ((nth l 0).secret • G) (fun i => (nth l (i + 1)).secret • G)
        (ecdsaOracle (nth l 0).secret fun i => (nth l (i + 1)).secret) m)).trans ?_
  congr 1
  funext u
  have e0 : (nth (makeUp B nodes E (List.ofFn u.1)) 0).secret = (u.1 0).1 := secret_makeUp nodes E u.1 0
  have e1 : ∀ i : Fin N, (nth (makeUp B nodes E (List.ofFn u.1)) (i + 1)).secret = (u.1 i.succ).1 := fun i => secret_makeUp nodes E u.1 i.succ
  rw [e0]
  simp only [e1]

/-- C190, forging: the group forges a signature for the same share of all choices as the program forges one, under a random key and with no
other help than `N` ECDSA signatures with random nonces. -/
theorem C190_forgery (hB : B.Nodup) (hpos : ∀ j ∈ B, 0 ≤ j.toInt) (hl : B.length = k) (η : Fn) (hη : G = η • H)
    (A : List (Shown M R) → List Pt → (Fin N → Presig) → Attack N Forgery) :
    Oracle.share (fun u : (Fin (N + 1) → Drawn k M R) × (Fin N → Blinds) => let l := generate B nodes E (List.ofFn u.1)
      Forged P ((nth l 0).secret • G) (wholeAttack (k := k) B P seen A l u.2)) =
    Oracle.share (fun u : (Fin (N + 1) → Fn × Coins k M R) × (Fin N → Made) =>
      Forged P ((u.1 0).1 • G) (wholeOracle (k := k) B P seen A η (makeUp B nodes E (List.ofFn u.1)) ((u.1 0).1 • G)
        (fun i => (u.1 i.succ).1 • G) (ecdsaOracle (u.1 0).1 fun i => (u.1 i.succ).1) u.2)) :=
  C190_same nodes E P seen hB hpos hl η hη A (Forged P)

/-- C190, what is attacked: in every generation the polynomial of the transcript is the one that signing is attacked with, through the secret and
the shares of the group. -/
theorem C190_polynomials (hB : B.Nodup) (hpos : ∀ j ∈ B, 0 ≤ j.toInt) (hl : B.length = k)
    (ho : ∀ all earlier, InOrder B nodes (E.deals all earlier)) (all : List (First M)) (earlier : List (Shown M R)) (ω : Drawn k M R) :
    ω.keyPoly B nodes (fun _ => E.adds all earlier) (E.deals all earlier) =
      through (k + 1) B (ω.outcome B nodes E all earlier).secret (ω.outcome B nodes E all earlier).shares :=
  C189_key nodes _ _ hB hpos hl (ho all earlier) ω

/-- A reaction: with threshold 2, node 3 adds to the first round what it was sent in the first generation, and deals in the second round with a
coefficient taken from there, too. -/
def echo : Reaction 1 1 2 where
  adds all _ _ := match all with
    | f :: _ => (f.openings 0 3).1
    | [] => 0
  deals _ _ v := [(3, fun _ => v.openings 0 3)]

/-- The hypotheses can be met: nodes 0 and 1 are honest, node 3 is not, key and one nonce are generated, and one signature is made. -/
example (P : Prim) (seen : List (Shown 1 2) → Fin 1 → Seen) : (∀ all earlier, InOrder [3] ![0, 1] (echo.deals all earlier)) ∧ ∃ η : Fn, G = η • H ∧
    ∀ A : List (Shown 1 2) → List Pt → (Fin 1 → Presig) → Attack 1 (Option Fn), A = (fun _ _ _ => .sign 0 ⟨[], [5], []⟩ fun a =>
      .stop (a.bind fun f => match f 0 with | .ok ⟨some (.pedersen v _), _⟩ => some v | _ => none)) →
    (∀ l b, (wholeAttack (k := 1) [3] P seen A l b).1 = [(0, ⟨[], [5], []⟩)]) ∧
    ∀ v, Oracle.share (fun u : (Fin 2 → Drawn 1 1 2) × (Fin 1 → Blinds) =>
        (wholeAttack (k := 1) [3] P seen A (generate [3] ![0, 1] echo (List.ofFn u.1)) u.2).2 = v) =
      Oracle.share (fun u : (Fin 2 → Fn × Coins 1 1 2) × (Fin 1 → Made) =>
        (wholeOracle (k := 1) [3] P seen A η (makeUp [3] ![0, 1] echo (List.ofFn u.1)) ((u.1 0).1 • G) (fun i => (u.1 i.succ).1 • G)
          (ecdsaOracle (u.1 0).1 fun i => (u.1 i.succ).1) u.2).2 = v) := by
  refine ⟨fun all earlier => ⟨by decide, by decide, by simp [echo], by simp [echo], by simp [echo]⟩, ?_⟩
  obtain ⟨η, hη⟩ := exists_smul_eq H_ne_zero G
  refine ⟨η, hη, ?_⟩
  rintro A rfl
  refine ⟨fun l b => ?_, fun v => ?_⟩
  · simp [wholeAttack, attackNodes, Attack.run]
  · exact C190_same (k := 1) (M := 1) (R := 2) (N := 1) (B := [3]) ![0, 1] echo P seen (by simp) (by simp) rfl η hη _ fun _ r => r.2 = v

end Verif.KeyGen
