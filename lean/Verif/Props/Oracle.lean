import Verif.Lemmas.Oracle
import Verif.Props.Zk

/-!
Properties C150 and C151: the zero-knowledge proofs in the random oracle model.  A program asks at most `q` questions of an oracle
and ends with a statement and a proof; all oracles on a finite set of questions are counted.
-/

set_option autoImplicit false

namespace Verif

open Zk RoCall Oracle

namespace Oracle

theorem question_run {ds : Bytes} {cs : List RoCall} {q : Question} :
    question (Ro.run ds cs) = some q ↔ ∃ m, (Ro.run ds cs).formRoInput = .ok m ∧ q = ((Ro.run ds cs).curveDst, m) := by
  unfold question
  split
  · rename_i m hm
    simp only [Option.some.injEq, hm, Res.ok.injEq, exists_eq_left', eq_comm]
  · rename_i hno
    simp only [reduceCtorEq, false_iff]
    rintro ⟨m, hm, -⟩
    exact hno m hm

theorem within_eq {D : Finset Question} {r : Ro} {q : D} : within D r = some q ↔ question r = some q.1 := by
  unfold within
  cases question r with
  | none => simp
  | some x =>
    dsimp only
    split_ifs with h
    · rw [Option.some.injEq, Option.some.injEq, Subtype.ext_iff]
    · simp only [false_iff, Option.some.injEq]
      rintro rfl
      exact h q.2

/-- One question: same calls. -/
theorem perm_of_within {D : Finset Question} {ds ds' : Bytes} {cs cs' : List RoCall} {q : D}
    (h : within D (Ro.run ds cs) = some q) (h' : within D (Ro.run ds' cs') = some q) :
    ds = ds' ∧ (accepted cs).Perm (accepted cs') := by
  obtain ⟨m, hm, e⟩ := question_run.1 (within_eq.1 h)
  obtain ⟨m', hm', e'⟩ := question_run.1 (within_eq.1 h')
  exact C23_transcript_injective ds ds' cs cs' m m' hm hm' (Or.inr (e.symm.trans e'))

/-- Calls with points that are all accepted. -/
theorem points_eq {ad ad' : Bytes} {l l' : List RoCall}
    (e : accepted (adCall ad :: l) = if ad.length ≤ 255 then adCall ad :: l else l)
    (e' : accepted (adCall ad' :: l') = if ad'.length ≤ 255 then adCall ad' :: l' else l')
    (hp : (accepted (adCall ad :: l)).Perm (accepted (adCall ad' :: l'))) (nm : String) (A B : Pt)
    (hA : ptCall nm A ∈ l) (hB : ptCall nm B ∈ l') : A = B := by
  have hn := (accepted_spec (adCall ad' :: l')).2
  refine ptCall_inj (name := nm) (call_eq_of_perm hp hn ?_ ?_ rfl)
  · rw [e]; split_ifs
    · exact List.mem_cons_of_mem _ hA
    · exact hA
  · rw [e']; split_ifs
    · exact List.mem_cons_of_mem _ hB
    · exact hB

theorem dlog_asks_inj {D : Finset Question} {c c' : DlogClaim} {q : D} (h : within D c.asks = some q)
    (h' : within D c'.asks = some q) :
    c.g = c'.g ∧ c.h = c'.h ∧ c.gx = c'.gx ∧ c.hx = c'.hx ∧
      c.pf.response • c.g - c.pf.challenge • c.gx = c'.pf.response • c'.g - c'.pf.challenge • c'.gx ∧
      c.pf.response • c.h - c.pf.challenge • c.hx = c'.pf.response • c'.h - c'.pf.challenge • c'.hx := by
  obtain ⟨-, hp⟩ := perm_of_within (cs := dlogCalls _ _ _ _) (cs' := dlogCalls _ _ _ _) h h'
  have key := points_eq (dlog_accepted _ _ _ _) (dlog_accepted _ _ _ _) hp
  exact ⟨key "instance_g" _ _ (by simp) (by simp), key "instance_h" _ _ (by simp) (by simp),
    key "instance_g_x" _ _ (by simp) (by simp), key "instance_h_x" _ _ (by simp) (by simp),
    key "commitment1" _ _ (by simp) (by simp), key "commitment2" _ _ (by simp) (by simp)⟩

theorem eq_asks_inj {D : Finset Question} {c c' : EqClaim} {q : D} (h : within D c.asks = some q)
    (h' : within D c'.asks = some q) :
    c.pedersen = c'.pedersen ∧ c.simple = c'.simple ∧
      c.pf.response • Point.H - c.pf.challenge • (c.pedersen - c.simple) =
        c'.pf.response • Point.H - c'.pf.challenge • (c'.pedersen - c'.simple) := by
  obtain ⟨-, hp⟩ := perm_of_within (cs := eqCalls _ _ _) (cs' := eqCalls _ _ _) h h'
  have key := points_eq (eq_accepted _ _ _) (eq_accepted _ _ _) hp
  exact ⟨key "instance_a" _ _ (by simp) (by simp), key "instance_b" _ _ (by simp) (by simp),
    key "commitment" _ _ (by simp) (by simp)⟩

theorem product_asks_inj {D : Finset Question} {c c' : ProductClaim} {q : D} (h : within D c.asks = some q)
    (h' : within D c'.asks = some q) :
    c.lhs = c'.lhs ∧ c.rhs = c'.rhs ∧ c.product = c'.product ∧
      c.pf.response1 • G - c.pf.challenge • c.lhs = c'.pf.response1 • G - c'.pf.challenge • c'.lhs ∧
      c.pf.response1 • c.rhs + c.pf.response2 • Point.H - c.pf.challenge • c.product =
        c'.pf.response1 • c'.rhs + c'.pf.response2 • Point.H - c'.pf.challenge • c'.product := by
  obtain ⟨-, hp⟩ := perm_of_within (cs := prodCalls _ _ _ _) (cs' := prodCalls _ _ _ _) h h'
  have key := points_eq (prod_accepted _ _ _ _) (prod_accepted _ _ _ _) hp
  exact ⟨key "instance_lhs" _ _ (by simp) (by simp), key "instance_rhs" _ _ (by simp) (by simp),
    key "instance_product" _ _ (by simp) (by simp), key "commitment1" _ _ (by simp) (by simp),
    key "commitment2" _ _ (by simp) (by simp)⟩

theorem accepted_code (P : Prim) (D : Finset Question) (ds : Bytes) (cs : List RoCall) (h0 : accepted cs ≠ [])
    (hD : ∀ x, question (Ro.run ds cs) = some x → x ∈ D) (c : Fn) :
    (Ro.run ds cs).outputScalar P = .ok c ↔ Accepted (fun q : D => codeOracle P q.1) (Ro.run ds cs) c := by
  obtain ⟨m, hm⟩ := Ro.form_ok_of_accepted (ds := ds) h0
  have hquest : question (Ro.run ds cs) = some ((Ro.run ds cs).curveDst, m) := question_run.2 ⟨m, hm, rfl⟩
  have hw : within D (Ro.run ds cs) = some ⟨_, hD _ hquest⟩ := within_eq.2 hquest
  obtain ⟨out, -, -, e⟩ := hashToScalar_ok P 1 m (Ro.run ds cs).curveDst (by norm_num)
  have e' : H2C.hashToScalar P 1 m (Ro.run ds cs).curveDst = .ok [(beVal (block48 out 0) : Fn)] := e
  have hco : codeOracle P ((Ro.run ds cs).curveDst, m) = (beVal (block48 out 0) : Fn) := by
    simp only [codeOracle, e']
  rw [Ro.outputScalar, Ro.outputScalars, hm]
  simp only [Res.ok_bind, e', Res.ok.injEq]
  constructor
  · rintro rfl
    exact ⟨_, hw, hco⟩
  · rintro ⟨q, hq, rfl⟩
    rw [hw, Option.some.injEq] at hq
    rw [← hq]
    exact hco.symm

theorem card_Fn : Nat.card Fn = n := by
  rw [Nat.card_eq_fintype_card, ZMod.card]

end Oracle

/-- C150, C151, the link to the code: with the code's hash function as oracle, `Accepted` is what `Verify` accepts (`D` any set of
questions with the one that the verification asks). -/
theorem C150_verify (P : Prim) (D : Finset Question) :
    (∀ c : DlogClaim, (∀ x, question c.asks = some x → x ∈ D) →
      (Dlog.verify P c.pf c.g c.h c.gx c.hx c.ad = .ok () ↔
        Accepted (fun q : D => codeOracle P q.1) c.asks c.pf.challenge)) ∧
    (∀ c : EqClaim, (∀ x, question c.asks = some x → x ∈ D) →
      (EqOpen.verify P c.pf c.pedersen c.simple c.ad = .ok () ↔
        Accepted (fun q : D => codeOracle P q.1) c.asks c.pf.challenge)) ∧
    (∀ c : ProductClaim, (∀ x, question c.asks = some x → x ∈ D) →
      (Product.verify P c.pf c.lhs c.rhs c.product c.ad = .ok () ↔
        Accepted (fun q : D => codeOracle P q.1) c.asks c.pf.challenge)) := by
  refine ⟨fun c hc => ?_, fun c hc => ?_, fun c hc => ?_⟩
  · rw [(C48_verification_exact P c.ad).1]
    exact accepted_code P D dlogDst (dlogCalls _ _ _ _) (dlog_accepted_ne _ _ _ _) hc _
  · rw [(C48_verification_exact P c.ad).2.1]
    exact accepted_code P D equalOpeningsDst (eqCalls _ _ _) (eq_accepted_ne _ _ _) hc _
  · rw [(C48_verification_exact P c.ad).2.2]
    exact accepted_code P D equalOpeningsDst (prodCalls _ _ _ _) (prod_accepted_ne _ _ _ _) hc _

/-- C150: a program that asks at most `q` questions ends with an accepted proof of a false statement (equality of discrete
logarithms) for a share of at most `(q + 1) / n` of the oracles. -/
theorem C150_soundness (D : Finset Question) (g : Alg D Fn DlogClaim) (q : Nat) (hq : g.AtMost q) :
    share (fun O : D → Fn => ¬ (g.run O).True ∧ Accepted O (g.run O).asks (g.run O).pf.challenge) ≤ ((q : ℚ) + 1) / n := by
  classical
  have h := share_le g (fun c => if c.True then none else within D c.asks) (fun c a => a = c.pf.challenge) q hq (by
    intro c c' x a a' hc hc' ha ha'
    by_cases ht : c.True
    · rw [if_pos ht] at hc; cases hc
    by_cases ht' : c'.True
    · rw [if_pos ht'] at hc'; cases hc'
    rw [if_neg ht] at hc
    rw [if_neg ht'] at hc'
    obtain ⟨e1, e2, e3, e4, e5, e6⟩ := dlog_asks_inj hc hc'
    rw [ha, ha']
    by_contra hne
    rw [← e1, ← e3] at e5
    rw [← e2, ← e4] at e6
    exact ht ⟨_, (C48_extraction _ _ hne).1 _ _ _ _ _ _ e5 e6⟩)
  rw [card_Fn] at h
  refine (le_of_eq ?_).trans h
  congr 1
  funext O
  simp only [Succeeds, Accepted, eq_iff_iff]
  by_cases ht : (g.run O).True
  · simp [ht]
  · simp [ht]

/-- C151, equality of discrete logarithms: a program that ends with an accepted proof for a share `ε` of the oracles knows the
logarithm: rewinding it gives the logarithm for a share of `ε² / (q + 1) - ε / n` of the oracles and second answers. -/
theorem C151_dlog (D : Finset Question) (g : Alg D Fn DlogClaim) (q : Nat) (hq : g.AtMost q) (ε : ℚ)
    (hε : ε = share fun O : D → Fn => Accepted O (g.run O).asks (g.run O).pf.challenge) :
    ε ^ 2 / (q + 1) - ε / n ≤ share fun p : (D → Fn) × Fn =>
      let (c, c') := rewind g DlogClaim.asks p.1 p.2
      let x := slope c.pf.response c'.pf.response c.pf.challenge c'.pf.challenge
      Accepted p.1 c.asks c.pf.challenge ∧ c.gx = x • c.g ∧ c.hx = x • c.h := by
  have h := forking g (fun c => within D c.asks) (fun c a => a = c.pf.challenge) q hq
  rw [card_Fn] at h
  rw [hε]
  refine h.trans (share_mono ?_)
  rintro ⟨O, a⟩ ⟨x, h1, h2, h3, h4, h5⟩
  dsimp only at h1 h2 h3 h4 h5
  simp only [rewind, h1]
  refine ⟨⟨x, h1, h2⟩, ?_⟩
  obtain ⟨e1, e2, e3, e4, e5, e6⟩ := dlog_asks_inj h1 h4
  rw [← e1, ← e3] at e5
  rw [← e2, ← e4] at e6
  exact (C48_extraction _ _ (by rw [← h2, ← h5]; exact h3.symm)).1 _ _ _ _ _ _ e5 e6

/-- C151, equal openings: rewinding gives the mask. -/
theorem C151_equal_openings (D : Finset Question) (g : Alg D Fn EqClaim) (q : Nat) (hq : g.AtMost q) (ε : ℚ)
    (hε : ε = share fun O : D → Fn => Accepted O (g.run O).asks (g.run O).pf.challenge) :
    ε ^ 2 / (q + 1) - ε / n ≤ share fun p : (D → Fn) × Fn =>
      let (c, c') := rewind g EqClaim.asks p.1 p.2
      let m := slope c.pf.response c'.pf.response c.pf.challenge c'.pf.challenge
      Accepted p.1 c.asks c.pf.challenge ∧ c.pedersen = c.simple + m • Point.H := by
  have h := forking g (fun c => within D c.asks) (fun c a => a = c.pf.challenge) q hq
  rw [card_Fn] at h
  rw [hε]
  refine h.trans (share_mono ?_)
  rintro ⟨O, a⟩ ⟨x, h1, h2, h3, h4, h5⟩
  dsimp only at h1 h2 h3 h4 h5
  simp only [rewind, h1]
  refine ⟨⟨x, h1, h2⟩, ?_⟩
  obtain ⟨e1, e2, e3⟩ := eq_asks_inj h1 h4
  rw [← e1, ← e2] at e3
  rw [← sub_eq_iff_eq_add']
  exact (C48_extraction _ _ (by rw [← h2, ← h5]; exact h3.symm)).2.1 _ _ _ _ e3

/-- C151, products: rewinding gives the first factor and the mask of the difference between product and second factor times the
first; so if the second commitment is opened to `r` then the third is to the product with the first factor. -/
theorem C151_product (D : Finset Question) (g : Alg D Fn ProductClaim) (q : Nat) (hq : g.AtMost q) (ε : ℚ)
    (hε : ε = share fun O : D → Fn => Accepted O (g.run O).asks (g.run O).pf.challenge) :
    ε ^ 2 / (q + 1) - ε / n ≤ share fun p : (D → Fn) × Fn =>
      let (c, c') := rewind g ProductClaim.asks p.1 p.2
      let l := slope c.pf.response1 c'.pf.response1 c.pf.challenge c'.pf.challenge
      let m := slope c.pf.response2 c'.pf.response2 c.pf.challenge c'.pf.challenge
      Accepted p.1 c.asks c.pf.challenge ∧ c.lhs = l • G ∧ c.product = l • c.rhs + m • Point.H ∧
        ∀ r rm : Fn, c.rhs = r • G + rm • Point.H → c.product = (l * r) • G + (l * rm + m) • Point.H := by
  have h := forking g (fun c => within D c.asks) (fun c a => a = c.pf.challenge) q hq
  rw [card_Fn] at h
  rw [hε]
  refine h.trans (share_mono ?_)
  rintro ⟨O, a⟩ ⟨x, h1, h2, h3, h4, h5⟩
  dsimp only at h1 h2 h3 h4 h5
  simp only [rewind, h1]
  refine ⟨⟨x, h1, h2⟩, ?_⟩
  obtain ⟨e1, e2, e3, e4, e5⟩ := product_asks_inj h1 h4
  rw [← e1] at e4
  rw [← e2, ← e3] at e5
  obtain ⟨k1, k2, k3⟩ := (C48_extraction _ _ (by rw [← h2, ← h5]; exact h3.symm)).2.2 _ _ _ _ _ _ _ e4 e5
  exact ⟨k1, k2, k3⟩

/-- An honest prover, as a program with one question, for which the bound of C151 is 1/2 - 1/n. -/
example (g h : Pt) (x r : Fn) (ad : Bytes) (D : Finset Question) (y : D)
    (hy : within D (Dlog.transcript ⟨g, h, x • g, x • h⟩ (r • g) (r • h) ad) = some y) :
    let prover : Alg D Fn DlogClaim := .ask y fun c => .done ⟨g, h, x • g, x • h, ad, ⟨c, x * c + r⟩⟩
    prover.AtMost 1 ∧ share (fun O : D → Fn => Accepted O (prover.run O).asks (prover.run O).pf.challenge) = 1 := by
  refine ⟨fun a => trivial, ?_⟩
  rw [share_eq_one]
  intro O
  refine ⟨y, ?_, rfl⟩
  rw [← hy]
  have e : ∀ k : Pt, (x * O y + r) • k - O y • x • k = r • k := fun k => by module
  simp only [Alg.run, DlogClaim.asks, e]

/-- A guesser of the challenge: without a question, it is accepted for the share `1 / n` of oracles, so the bound of C150 is met
with equality. -/
example (D : Finset Question) (y : D) (c : DlogClaim) (hc : ¬ c.True) (hy : within D c.asks = some y) :
    share (fun O : D → Fn => ¬ c.True ∧ Accepted O c.asks c.pf.challenge) = 1 / n := by
  rw [← card_Fn, ← share_point y c.pf.challenge]
  congr 1
  funext O
  simp only [Accepted, hy, Option.some.injEq, exists_eq_left', hc, not_false_eq_true, true_and]

end Verif
