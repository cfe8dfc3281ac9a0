import Verif.Spec.Oracle
import Mathlib.Algebra.Order.Chebyshev
import Mathlib.Data.Fintype.BigOperators
import Mathlib.Tactic.FieldSimp
import Mathlib.Tactic.Positivity
import Mathlib.Tactic.Linarith

/-! Counting of oracles: one bad answer for each question; the forking lemma. -/

set_option autoImplicit false

namespace Verif.Oracle

open Function

variable {Q A R : Type}

namespace Alg

/-- The program, followed by one more question that depends on its result. -/
def thenAsk (check : R → Option Q) : Alg Q A R → Alg Q A R
  | done r => match check r with
    | none => done r
    | some q => ask q fun _ => done r
  | ask q next => ask q fun a => (next a).thenAsk check

theorem asked_thenAsk (check : R → Option Q) (O : Q → A) : ∀ g : Alg Q A R,
    (g.thenAsk check).asked O = g.asked O ++ (check (g.run O)).toList
  | done r => by
    simp only [thenAsk, asked, run, List.nil_append]
    cases check r <;> rfl
  | ask q next => by
    simp only [thenAsk, asked, run, List.cons_append, asked_thenAsk check O (next (O q))]

theorem asked_le (O : Q → A) : ∀ (g : Alg Q A R) (n : Nat), g.AtMost n → (g.asked O).length ≤ n
  | done _, n, _ => Nat.zero_le n
  | ask _ _, 0, h => h.elim
  | ask q next, n + 1, h => by
    simp only [asked, List.length_cons]
    have := asked_le O (next (O q)) n (h (O q))
    omega

/-- Changing the answer to a question does not change what is asked up to this question. -/
theorem asked_update [DecidableEq Q] (O : Q → A) (q : Q) (a : A) : ∀ (g : Alg Q A R) (i : Nat),
    q ∉ (g.asked O).take i → (g.asked (update O q a)).take (i + 1) = (g.asked O).take (i + 1)
  | done _, _, _ => rfl
  | ask q' next, 0, _ => by simp [asked]
  | ask q' next, i + 1, h => by
    simp only [asked, List.take_succ_cons, List.mem_cons, not_or] at h ⊢
    rw [update_of_ne (Ne.symm h.1)]
    rw [asked_update O q a (next (O q')) i h.2]

/-- The `i`-th question is `q`, asked for the first time. -/
def Fresh (g : Alg Q A R) (O : Q → A) (i : Nat) (q : Q) : Prop := (g.asked O)[i]? = some q ∧ q ∉ (g.asked O).take i

theorem fresh_of_take {g g' : Alg Q A R} {O O' : Q → A} {i : Nat} {q : Q}
    (h : (g.asked O).take (i + 1) = (g'.asked O').take (i + 1)) (hf : g'.Fresh O' i q) : g.Fresh O i q := by
  have e1 : (g.asked O)[i]? = (g'.asked O')[i]? := by
    rw [← List.getElem?_take_of_lt (Nat.lt_succ_self i), h, List.getElem?_take_of_lt (Nat.lt_succ_self i)]
  have e2 : (g.asked O).take i = (g'.asked O').take i := by
    have := congrArg (List.take i) h
    rwa [List.take_take, List.take_take, Nat.min_eq_left (Nat.le_succ i)] at this
  exact ⟨e1.trans hf.1, by rw [e2]; exact hf.2⟩

theorem Fresh.update [DecidableEq Q] {g : Alg Q A R} {O : Q → A} {i : Nat} {q : Q} (h : g.Fresh O i q) (a : A) :
    g.Fresh (update O q a) i q :=
  fresh_of_take (asked_update O q a g i h.2) h

theorem Fresh.unique {g : Alg Q A R} {O : Q → A} {i : Nat} {q q' : Q} (h : g.Fresh O i q) (h' : g.Fresh O i q') : q = q' :=
  Option.some.inj (h.1.symm.trans h'.1)

theorem exists_fresh [DecidableEq Q] (g : Alg Q A R) (O : Q → A) (q : Q) (h : q ∈ g.asked O) :
    ∃ i, i < (g.asked O).length ∧ g.Fresh O i q :=
  ⟨(g.asked O).idxOf q, List.idxOf_lt_length_iff.2 h, List.getElem?_idxOf h,
    fun hm => lt_irrefl _ ((List.mem_take_iff_idxOf_lt h).1 hm)⟩

end Alg

theorem ratio_le (x a n N : Nat) (h : x * a ≤ (n + 1) * N) (ha : 0 < a) (hN : 0 < N) : (x : ℚ) / N ≤ ((n : ℚ) + 1) / a := by
  have ha' : (0 : ℚ) < a := by exact_mod_cast ha
  have hN' : (0 : ℚ) < N := by exact_mod_cast hN
  rw [div_le_div_iff₀ hN' ha']
  exact_mod_cast h

theorem fork_ratio (x f l a n N : Nat) (h1 : x ^ 2 ≤ l * (f + x)) (h2 : l * a ≤ (n + 1) * N) (ha : 0 < a) (hN : 0 < N) :
    ((x : ℚ) / N) ^ 2 / (n + 1) - (x : ℚ) / N / a ≤ (f : ℚ) / ((N * a : ℕ) : ℚ) := by
  have ha' : (0 : ℚ) < a := by exact_mod_cast ha
  have hN' : (0 : ℚ) < N := by exact_mod_cast hN
  have hn' : (0 : ℚ) < (n : ℚ) + 1 := by positivity
  have h3 : x ^ 2 * a ≤ (n + 1) * N * (f + x) := by
    calc x ^ 2 * a ≤ l * (f + x) * a := Nat.mul_le_mul_right _ h1
      _ = l * a * (f + x) := by ring
      _ ≤ _ := Nat.mul_le_mul_right _ h2
  have h4 : (x : ℚ) ^ 2 * a ≤ (n + 1) * N * (f + x) := by exact_mod_cast h3
  rw [sub_le_iff_le_add, Nat.cast_mul, div_div, div_add_div _ _ (by positivity) (by positivity), div_pow, div_div,
    div_le_div_iff₀ (by positivity) (by positivity)]
  nlinarith [mul_le_mul_of_nonneg_left h4 (by positivity : (0 : ℚ) ≤ (N : ℚ) ^ 3 * a)]

theorem share_mono {α : Type} [Finite α] {p p' : α → Prop} (h : ∀ a, p a → p' a) : share p ≤ share p' := by
  rw [share, share]
  refine div_le_div_of_nonneg_right ?_ (Nat.cast_nonneg _)
  exact_mod_cast Nat.card_le_card_of_injective (fun a : {a // p a} => (⟨a.1, h a.1 a.2⟩ : {a // p' a}))
    fun a b e => Subtype.ext (Subtype.mk.inj e)

theorem share_eq_one {α : Type} [Finite α] [Nonempty α] {p : α → Prop} : share p = 1 ↔ ∀ a, p a := by
  have hpos : (0 : ℚ) < Nat.card α := by exact_mod_cast Nat.card_pos
  rw [share, div_eq_one_iff_eq hpos.ne']
  constructor
  · intro h a
    have h' : Nat.card {a // p a} = Nat.card α := by exact_mod_cast h
    have := (Nat.bijective_iff_injective_and_card (Subtype.val : {a // p a} → α)).2 ⟨Subtype.val_injective, h'⟩
    obtain ⟨b, rfl⟩ := this.2 a
    exact b.2
  · intro h
    exact_mod_cast Nat.card_congr (Equiv.subtypeUnivEquiv h)

theorem share_point [DecidableEq Q] [Finite Q] [Finite A] (y : Q) (v : A) :
    share (fun O : Q → A => O y = v) = 1 / Nat.card A := by
  have e : Nat.card {O : Q → A // O y = v} * Nat.card A = Nat.card (Q → A) := by
    rw [← Nat.card_prod]
    refine Nat.card_congr ⟨fun p => update p.1.1 y p.2, fun O => (⟨update O y v, update_self ..⟩, O y), ?_, ?_⟩
    · rintro ⟨⟨O, rfl⟩, a⟩
      simp
    · intro O
      simp
  have hA : (0 : ℚ) < Nat.card A := by exact_mod_cast Nat.card_pos_iff.2 ⟨⟨v⟩, inferInstance⟩
  have hN : (0 : ℚ) < Nat.card (Q → A) := by exact_mod_cast Nat.card_pos_iff.2 ⟨⟨fun _ => v⟩, inferInstance⟩
  rw [share, div_eq_div_iff hN.ne' hA.ne', one_mul, ← Nat.cast_mul, e]

section counting

variable [DecidableEq Q] (g : Alg Q A R) (check : R → Option Q)

/-- Places and oracles for which the question at this place is new and has the answer `a₀`. -/
abbrev Label (n : Nat) (a₀ : A) : Type :=
  {l : Fin (n + 1) × (Q → A) // ∃ q, (g.thenAsk check).Fresh l.2 l.1 q ∧ l.2 q = a₀}

theorem card_label [Finite Q] [Finite A] (n : Nat) (a₀ : A) :
    Nat.card (Label g check n a₀) * Nat.card A ≤ (n + 1) * Nat.card (Q → A) := by
  have e : Nat.card (Fin (n + 1) × (Q → A)) = (n + 1) * Nat.card (Q → A) := by
    rw [Nat.card_prod, Nat.card_eq_fintype_card, Fintype.card_fin]
  rw [← e, ← Nat.card_prod]
  refine Nat.card_le_card_of_injective
    (fun p : Label g check n a₀ × A => (p.1.1.1, update p.1.1.2 (Classical.choose p.1.2) p.2)) ?_
  rintro ⟨⟨⟨i, U⟩, h⟩, a⟩ ⟨⟨⟨i', U'⟩, h'⟩, a'⟩ he
  have hc := Classical.choose_spec h
  have hc' := Classical.choose_spec h'
  simp only [Prod.mk.injEq] at he
  generalize Classical.choose h = q at hc he
  generalize Classical.choose h' = q' at hc' he
  obtain ⟨rfl, he⟩ := he
  obtain ⟨hf, hz⟩ := hc
  obtain ⟨hf', hz'⟩ := hc'
  dsimp only at hf hf' hz hz' he
  have hq : q = q' := (hf.update a).unique (by rw [he]; exact hf'.update a')
  subst hq
  have ha : a = a' := by
    have := congrFun he q
    rwa [update_self, update_self] at this
  subst ha
  have hU : U = U' := by
    funext x
    by_cases hx : x = q
    · rw [hx, hz, hz']
    · have := congrFun he x
      rwa [update_of_ne hx, update_of_ne hx] at this
  subst hU
  rfl

/-- The program ends with a result whose question has an answer that is fine. -/
def Succeeds (ok : R → A → Prop) (O : Q → A) : Prop := ∃ q, check (g.run O) = some q ∧ ok (g.run O) (O q)

theorem exists_label (n : Nat) (hn : g.AtMost n) (a₀ : A) (O : Q → A) (q : Q) (hq : check (g.run O) = some q) :
    ∃ l : Label g check n a₀, (g.thenAsk check).Fresh O l.1.1 q ∧ l.1.2 = update O q a₀ := by
  have hm : q ∈ (g.thenAsk check).asked O := by
    rw [Alg.asked_thenAsk, hq]; simp
  obtain ⟨i, hi, hf⟩ := Alg.exists_fresh _ O q hm
  have hl : i < n + 1 := by
    rw [Alg.asked_thenAsk, hq] at hi
    have := Alg.asked_le O g n hn
    simp only [Option.toList_some, List.length_append, List.length_singleton] at hi
    omega
  exact ⟨⟨(⟨i, hl⟩, update O q a₀), q, hf.update a₀, update_self ..⟩, hf, rfl⟩

/-- The label of an oracle for which the program succeeds. -/
noncomputable def label (ok : R → A → Prop) (n : Nat) (hn : g.AtMost n) (a₀ : A) (O : {O // Succeeds g check ok O}) :
    Label g check n a₀ :=
  Classical.choose (exists_label g check n hn a₀ O.1 _ (Classical.choose_spec O.2).1)

theorem label_spec (ok : R → A → Prop) (n : Nat) (hn : g.AtMost n) (a₀ : A) (O O' : {O // Succeeds g check ok O})
    (h : label g check ok n hn a₀ O = label g check ok n hn a₀ O') :
    ∃ q, check (g.run O.1) = some q ∧ ok (g.run O.1) (O.1 q) ∧ check (g.run O'.1) = some q ∧ ok (g.run O'.1) (O'.1 q) ∧
      O'.1 = update O.1 q (O'.1 q) := by
  obtain ⟨h1, h2⟩ := Classical.choose_spec (exists_label g check n hn a₀ O.1 _ (Classical.choose_spec O.2).1)
  obtain ⟨h1', h2'⟩ := Classical.choose_spec (exists_label g check n hn a₀ O'.1 _ (Classical.choose_spec O'.2).1)
  obtain ⟨k1, k2⟩ := Classical.choose_spec O.2
  obtain ⟨k1', k2'⟩ := Classical.choose_spec O'.2
  rw [label] at h
  rw [label] at h
  rw [← h] at h1' h2'
  generalize Classical.choose (exists_label g check n hn a₀ O.1 _ (Classical.choose_spec O.2).1) = l at h1 h1' h2 h2'
  clear h
  generalize Classical.choose O.2 = q at *
  generalize Classical.choose O'.2 = q' at *
  have hq : q = q' := (h1.update a₀).unique (by rw [← h2, h2']; exact h1'.update a₀)
  subst hq
  refine ⟨q, k1, k2, k1', k2', ?_⟩
  rw [h2] at h2'
  funext x
  by_cases hx : x = q
  · rw [hx, update_self]
  · have := congrFun h2' x
    rw [update_of_ne hx, update_of_ne hx] at this
    rw [update_of_ne hx, this]

variable [Finite Q] [Finite A]

/-- If each question has at most one answer with which the program succeeds, it succeeds for a share of at most `(n + 1) / |A|`
of the oracles. -/
theorem share_le [Nonempty A] (ok : R → A → Prop) (n : Nat) (hn : g.AtMost n)
    (huniq : ∀ r r' q a a', check r = some q → check r' = some q → ok r a → ok r' a' → a = a') :
    share (Succeeds g check ok) ≤ (n + 1) / Nat.card A := by
  obtain ⟨a₀⟩ := ‹Nonempty A›
  have hinj : Injective (label g check ok n hn a₀) := by
    intro O O' h
    obtain ⟨q, k1, k2, k1', k2', e⟩ := label_spec g check ok n hn a₀ O O' h
    have ha := huniq _ _ q _ _ k1 k1' k2 k2'
    apply Subtype.ext
    rw [e, ← ha, update_eq_self]
  have h1 := Nat.card_le_card_of_injective _ hinj
  have h2 := card_label g check n a₀
  have h3 : Nat.card {O // Succeeds g check ok O} * Nat.card A ≤ (n + 1) * Nat.card (Q → A) :=
    (Nat.mul_le_mul_right _ h1).trans h2
  have e1 : share (Succeeds g check ok) = (Nat.card {O // Succeeds g check ok O} : ℚ) / Nat.card (Q → A) := by
    rw [share]
  rw [e1]
  exact ratio_le _ _ _ _ h3 (Nat.card_pos_iff.2 ⟨⟨a₀⟩, inferInstance⟩) (Nat.card_pos_iff.2 ⟨⟨fun _ => a₀⟩, inferInstance⟩)

/-- With the oracle `O` the program succeeds, and it succeeds with the same question when the answer to this question is
changed to `a`. -/
def Forks (ok : R → A → Prop) (p : (Q → A) × A) : Prop :=
  ∃ q, check (g.run p.1) = some q ∧ ok (g.run p.1) (p.1 q) ∧ p.2 ≠ p.1 q ∧
    check (g.run (update p.1 q p.2)) = some q ∧ ok (g.run (update p.1 q p.2)) p.2

/-- The forking lemma. -/
theorem forking [Nonempty A] (ok : R → A → Prop) (n : Nat) (hn : g.AtMost n) :
    share (Succeeds g check ok) ^ 2 / (n + 1) - share (Succeeds g check ok) / Nat.card A ≤
      share (Forks g check ok) := by
  obtain ⟨a₀⟩ := ‹Nonempty A›
  set S := {O // Succeeds g check ok O} with hS
  set F := {p : (Q → A) × A // Forks g check ok p} with hF
  set L := Label g check n a₀ with hL
  set lab : S → L := label g check ok n hn a₀ with hlab
  set s : L → Nat := fun l => Nat.card {O : S // lab O = l} with hs
  have : Fintype L := Fintype.ofFinite L
  have hsum : ∑ l, s l = Nat.card S := by
    rw [← Nat.card_sigma]
    exact Nat.card_congr (Equiv.sigmaFiberEquiv lab)
  have hcs : (∑ l, s l) ^ 2 ≤ Nat.card L * ∑ l, s l ^ 2 := by
    simpa only [Finset.card_univ, ← Nat.card_eq_fintype_card, Nat.cast_id] using sq_sum_le_card_mul_sum_sq (s := (Finset.univ : Finset L)) (f := s)
  have hpairs : ∑ l, s l ^ 2 ≤ Nat.card F + Nat.card S := by
    have e : ∑ l, s l ^ 2 = Nat.card (Σ l, {O : S // lab O = l} × {O : S // lab O = l}) := by
      rw [Nat.card_sigma]
      exact Finset.sum_congr rfl fun l _ => by rw [Nat.card_prod, sq]
    rw [e, ← Nat.card_sum]
    have key : ∀ x : (Σ l, {O : S // lab O = l} × {O : S // lab O = l}), ∃ y : F ⊕ S,
        match y with
        | .inl p => p.1.1 = x.2.1.1.1 ∧ ∃ q, check (g.run x.2.1.1.1) = some q ∧ p.1.2 = x.2.2.1.1 q ∧
            x.2.2.1.1 = update x.2.1.1.1 q p.1.2
        | .inr O => O = x.2.1.1 ∧ O = x.2.2.1 := by
      rintro ⟨l, ⟨O, hO⟩, ⟨O', hO'⟩⟩
      obtain ⟨q, k1, k2, k1', k2', e⟩ := label_spec g check ok n hn a₀ O O' (hO.trans hO'.symm)
      by_cases ha : O'.1 q = O.1 q
      · refine ⟨.inr O, rfl, Subtype.ext ?_⟩
        rw [e, ha, update_eq_self]
      · exact ⟨.inl ⟨(O.1, O'.1 q), q, k1, k2, ha, by rw [← e]; exact k1', by rw [← e]; exact k2'⟩, rfl, q, k1, rfl, e⟩
    choose f hf using key
    refine Nat.card_le_card_of_injective f ?_
    rintro ⟨l, ⟨O, hO⟩, ⟨O', hO'⟩⟩ ⟨l2, ⟨O2, hO2⟩, ⟨O2', hO2'⟩⟩ he
    have h1 := hf ⟨l, ⟨O, hO⟩, ⟨O', hO'⟩⟩
    have h2 := hf ⟨l2, ⟨O2, hO2⟩, ⟨O2', hO2'⟩⟩
    rw [he] at h1
    generalize f ⟨l2, ⟨O2, hO2⟩, ⟨O2', hO2'⟩⟩ = y at h1 h2
    have hh : O = O2 ∧ O' = O2' := by
      cases y with
      | inl p =>
        obtain ⟨a1, q, a2, a3, a4⟩ := h1
        obtain ⟨b1, q2, b2, b3, b4⟩ := h2
        dsimp only at a1 a2 a3 a4 b1 b2 b3 b4
        have hO : O = O2 := Subtype.ext (a1.symm.trans b1)
        subst hO
        have hq : q = q2 := Option.some.inj (a2.symm.trans b2)
        subst hq
        exact ⟨rfl, Subtype.ext (a4.trans b4.symm)⟩
      | inr O =>
        obtain ⟨a1, a2⟩ := h1
        obtain ⟨b1, b2⟩ := h2
        exact ⟨a1.symm.trans b1, a2.symm.trans b2⟩
    obtain ⟨rfl, rfl⟩ := hh
    subst hO
    subst hO2
    rfl
  have hlab2 := card_label g check n a₀
  have e1 : share (Succeeds g check ok) = (Nat.card S : ℚ) / Nat.card (Q → A) := by
    rw [share]
  have e2 : share (Forks g check ok) = (Nat.card F : ℚ) / Nat.card ((Q → A) × A) := by
    rw [share]
  rw [e1, e2, Nat.card_prod]
  rw [hsum] at hcs
  exact fork_ratio _ _ _ _ _ _ (hcs.trans (Nat.mul_le_mul_left _ hpairs)) hlab2 (Nat.card_pos_iff.2 ⟨⟨a₀⟩, inferInstance⟩)
    (Nat.card_pos_iff.2 ⟨⟨fun _ => a₀⟩, inferInstance⟩)

end counting

/-! ### Answers that are not asked for -/

section unasked

variable {ι : Type} (qs : ι → Q)

/-- A program asks one of the questions. -/
def AsksOne (g : Alg Q A R) (O : Q → A) : Prop := ∃ i, qs i ∈ g.asked O

/-- The oracles agree on all other questions. -/
def AgreeOff (O O' : Q → A) : Prop := ∀ x, (∀ i, qs i ≠ x) → O x = O' x

theorem asksOne_congr {O O' : Q → A} (h : AgreeOff qs O O') : ∀ g : Alg Q A R, AsksOne qs g O ↔ AsksOne qs g O'
  | .done _ => Iff.rfl
  | .ask q next => by
    by_cases hq : ∃ i, qs i = q
    · obtain ⟨i, rfl⟩ := hq
      exact ⟨fun _ => ⟨i, List.mem_cons_self ..⟩, fun _ => ⟨i, List.mem_cons_self ..⟩⟩
    · have hq' : ∀ i, qs i ≠ q := fun i e => hq ⟨i, e⟩
      have ih := asksOne_congr h (next (O q))
      simp only [AsksOne, Alg.asked, List.mem_cons] at ih ⊢
      simp only [hq', false_or]
      rw [← h q hq']
      exact ih

theorem run_congr {O O' : Q → A} (h : AgreeOff qs O O') : ∀ g : Alg Q A R, ¬ AsksOne qs g O → g.run O = g.run O'
  | .done _, _ => rfl
  | .ask q next, hn => by
    have hq' : ∀ i, qs i ≠ q := fun i e => hn ⟨i, by rw [e]; exact List.mem_cons_self ..⟩
    have hn' : ¬ AsksOne qs (next (O q)) O := fun ⟨i, hi⟩ => hn ⟨i, List.mem_cons_of_mem _ hi⟩
    have ih := run_congr h (next (O q)) hn'
    simp only [Alg.run]
    rw [← h q hq', ih]

theorem share_equiv {α β : Type} (e : α ≃ β) (p : β → Prop) : share (fun a => p (e a)) = share p := by
  rw [share, share, Nat.card_congr e, Nat.card_congr (e.subtypeEquiv (p := fun a => p (e a)) (q := p) fun _ => Iff.rfl)]

theorem share_fst {α β : Type} [Finite β] [Nonempty β] (p : α → Prop) : share (fun x : α × β => p x.1) = share p := by
  have e : Nat.card {x : α × β // p x.1} = Nat.card {a // p a} * Nat.card β := by
    rw [← Nat.card_prod]
    exact Nat.card_congr ⟨fun x => (⟨x.1.1, x.2⟩, x.1.2), fun y => ⟨(y.1.1, y.2), y.1.2⟩, fun _ => rfl, fun _ => rfl⟩
  have hβ : (Nat.card β : ℚ) ≠ 0 := by exact_mod_cast Nat.card_pos.ne'
  rw [share, share, e, Nat.card_prod, Nat.cast_mul, Nat.cast_mul, mul_div_mul_right _ _ hβ]

/-- The values `O (qs i) + p i` may be replaced by fresh ones in every event that does not depend on the answers to `qs`. -/
theorem fresh_answers [Finite ι] [Finite A] [AddCommGroup A] (hinj : Injective qs) (p : ι → A)
    (E : (Q → A) → (ι → A) → Prop) (hE : ∀ O O' e, AgreeOff qs O O' → (E O e ↔ E O' e)) :
    share (fun O : Q → A => E O fun i => O (qs i) + p i) = share fun x : (Q → A) × (ι → A) => E x.1 x.2 := by
  let Φ : (Q → A) × (ι → A) ≃ (Q → A) × (ι → A) :=
    { toFun := fun x => (extend qs x.2 x.1, fun i => x.1 (qs i) + p i)
      invFun := fun y => (extend qs (fun i => y.2 i - p i) y.1, fun i => y.1 (qs i))
      left_inv := by
        rintro ⟨O, w⟩
        refine Prod.ext (funext fun x => ?_) (funext fun i => by simp [hinj.extend_apply])
        by_cases hx : ∃ i, qs i = x
        · obtain ⟨i, rfl⟩ := hx
          simp [hinj.extend_apply]
        · simp [extend_apply' _ _ _ hx]
      right_inv := by
        rintro ⟨O, w⟩
        refine Prod.ext (funext fun x => ?_) (funext fun i => by simp [hinj.extend_apply])
        by_cases hx : ∃ i, qs i = x
        · obtain ⟨i, rfl⟩ := hx
          simp [hinj.extend_apply]
        · simp [extend_apply' _ _ _ hx] }
  rw [← share_equiv Φ fun x => E x.1 x.2, ← share_fst (β := ι → A)]
  congr 1
  funext x
  refine propext (hE _ _ _ fun y hy => ?_)
  exact (extend_apply' _ _ _ fun ⟨i, hi⟩ => hy i hi).symm

end unasked

end Verif.Oracle
