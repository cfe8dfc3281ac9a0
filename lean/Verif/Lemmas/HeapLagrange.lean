import Verif.Lemmas.Heap

/-!
The functions of poly/lagrange.go and poly/commitment.go on memory.
-/

set_option autoImplicit false

namespace Verif.Heap

variable {E : Mem → Prop}

/-! ### poly/lagrange.go: interpolation -/

theorem interpolatePointLoop_spec (es : List (Addr × Addr)) (res : Addr) (m : Mem) (hr : res < m.next)
    (he : ∀ e ∈ es, e.1 < m.next ∧ e.2 < m.next ∧ e.2 ≠ res) :
    Outcome E (interpolatePointLoop es res) m
      (.ok ((es.map fun e => (m.sc e.1, m.pt e.2)).foldl (fun r cs => r + Point.scalarMul cs.2 cs.1) (m.pt res)))
      (fun v c m' => c = res ∧ Writes {.pt res} m m' ∧ m'.pt res = v) := by
  induction es generalizing m with
  | nil => exact Outcome.pure ⟨rfl, Writes.refl _ _, rfl⟩
  | cons e es ih =>
    obtain ⟨c, y⟩ := e
    obtain ⟨h1, h2, h3⟩ := he (c, y) (by simp)
    simp only at h1 h2 h3
    unfold interpolatePointLoop
    refine Outcome.bind_ok (cloneSc_spec c m h1) ?_
    rintro k m1 ⟨w1, n1, e1⟩
    have l1 := w1.next
    refine Outcome.bind_ok (clonePt_spec y m1) ?_
    rintro p m2 ⟨w2, n2, e2⟩
    have l2 := w2.next
    have k1 := n1.1
    have k2 := n1.2
    have p1 := n2.1
    have p2 := n2.2
    refine Outcome.smulPt (Outcome.addPt ?_)
    have hw : Writes {.pt res} m ((m2.setPt p (m2.sc k • m2.pt p)).setPt res
        ((m2.setPt p (m2.sc k • m2.pt p)).pt res + (m2.setPt p (m2.sc k • m2.pt p)).pt p)) :=
      (((w1.trans_empty w2).mono fun _ _ h => absurd h (Set.notMem_empty _)).setPt (.inr (by omega))).setPt (.inl rfl)
    have hv : ((m2.setPt p (m2.sc k • m2.pt p)).setPt res
        ((m2.setPt p (m2.sc k • m2.pt p)).pt res + (m2.setPt p (m2.sc k • m2.pt p)).pt p)).pt res =
        m.pt res + m.sc c • m.pt y := by
      rw [Mem.setPt_self, Mem.setPt_self, Mem.setPt_ne (by omega), w2.pt0 (by omega), w1.pt0 hr, w2.sc0 k2, e1, e2,
        w1.pt0 h2]
    generalize ((m2.setPt p (m2.sc k • m2.pt p)).setPt res
        ((m2.setPt p (m2.sc k • m2.pt p)).pt res + (m2.setPt p (m2.sc k • m2.pt p)).pt p)) = m3 at hw hv
    have l3 := hw.next
    refine (ih m3 (by omega) fun e' he' => ?_).use ?_ ?_
    · obtain ⟨g1, g2, g3⟩ := he e' (List.mem_cons_of_mem _ he')
      exact ⟨by omega, by omega, g3⟩
    · rw [List.map_cons, List.foldl_cons, hv]
      congr 2
      refine List.map_congr_left fun e' he' => ?_
      obtain ⟨g1, g2, g3⟩ := he e' (List.mem_cons_of_mem _ he')
      rw [hw.sc _ g1 (by rw [Set.mem_singleton_iff]; rintro ⟨⟩),
        hw.pt _ g2 (by rw [Set.mem_singleton_iff]; rintro ⟨⟩; exact g3 rfl)]
    · rintro v c m' ⟨e1, w, e⟩
      exact ⟨e1, hw.again w, e⟩

theorem interpolateScalarLoop_spec (es : List (Addr × Addr)) (res : Addr) (m : Mem) (hr : res < m.next)
    (he : ∀ e ∈ es, (e.1 < m.next ∧ e.1 ≠ res) ∧ e.2 < m.next ∧ e.2 ≠ res) :
    Outcome E (interpolateScalarLoop es res) m
      (.ok ((es.map fun e => (m.sc e.1, m.sc e.2)).foldl (fun r cs => r + cs.2 * cs.1) (m.sc res)))
      (fun v c m' => c = res ∧ Writes {.sc res} m m' ∧ m'.sc res = v) := by
  induction es generalizing m with
  | nil => exact Outcome.pure ⟨rfl, Writes.refl _ _, rfl⟩
  | cons e es ih =>
    obtain ⟨c, y⟩ := e
    obtain ⟨⟨h1, h1'⟩, h2, h3⟩ := he (c, y) (by simp)
    simp only at h1 h1' h2 h3
    unfold interpolateScalarLoop
    refine Outcome.bind_ok (cloneSc_spec c m h1) ?_
    rintro k m1 ⟨w1, n1, e1⟩
    have l1 := w1.next
    refine Outcome.bind_ok (cloneSc_spec y m1 (by omega)) ?_
    rintro p m2 ⟨w2, n2, e2⟩
    have l2 := w2.next
    have k1 := n1.1
    have k2 := n1.2
    have p1 := n2.1
    have p2 := n2.2
    refine Outcome.mulSc (Outcome.addSc ?_)
    have hw : Writes {.sc res} m ((m2.setSc p (m2.sc p * m2.sc k)).setSc res
        ((m2.setSc p (m2.sc p * m2.sc k)).sc res + (m2.setSc p (m2.sc p * m2.sc k)).sc p)) :=
      (((w1.trans_empty w2).mono fun _ _ h => absurd h (Set.notMem_empty _)).setSc (.inr (by omega))).setSc (.inl rfl)
    have hv : ((m2.setSc p (m2.sc p * m2.sc k)).setSc res
        ((m2.setSc p (m2.sc p * m2.sc k)).sc res + (m2.setSc p (m2.sc p * m2.sc k)).sc p)).sc res =
        m.sc res + m.sc y * m.sc c := by
      rw [Mem.setSc_self, Mem.setSc_self, Mem.setSc_ne (by omega), w2.sc0 (by omega), w1.sc0 hr, w2.sc0 k2, e1, e2,
        w1.sc0 h2]
    generalize ((m2.setSc p (m2.sc p * m2.sc k)).setSc res
        ((m2.setSc p (m2.sc p * m2.sc k)).sc res + (m2.setSc p (m2.sc p * m2.sc k)).sc p)) = m3 at hw hv
    have l3 := hw.next
    refine (ih m3 (by omega) fun e' he' => ?_).use ?_ ?_
    · obtain ⟨⟨g1, g1'⟩, g2, g3⟩ := he e' (List.mem_cons_of_mem _ he')
      exact ⟨⟨by omega, g1'⟩, by omega, g3⟩
    · rw [List.map_cons, List.foldl_cons, hv]
      congr 2
      refine List.map_congr_left fun e' he' => ?_
      obtain ⟨⟨g1, g1'⟩, g2, g3⟩ := he e' (List.mem_cons_of_mem _ he')
      rw [hw.sc _ g1 (by rw [Set.mem_singleton_iff]; rintro ⟨⟩; exact g1' rfl),
        hw.sc _ g2 (by rw [Set.mem_singleton_iff]; rintro ⟨⟩; exact g3 rfl)]
    · rintro v c m' ⟨e1, w, e⟩
      exact ⟨e1, hw.again w, e⟩

theorem interpolatePoint_spec (l y : List Addr) (m : Mem) (hl : ∀ a ∈ l, a < m.next) (hy : ∀ a ∈ y, a < m.next) :
    Outcome (Writes ∅ m) (interpolatePoint l y) m (Lagr.interpolatePoint (l.map m.sc) (y.map m.pt)) (RetPt m) := by
  unfold interpolatePoint Lagr.interpolatePoint
  simp only [List.length_map]
  by_cases h1 : y.length ≠ l.length
  · rw [if_pos h1, if_pos h1]; exact Outcome.err (Writes.refl _ _)
  · rw [if_neg h1, if_neg h1]
    by_cases h2 : l.length = 0
    · rw [if_pos h2, if_pos h2]; exact Outcome.panic (Writes.refl _ _)
    · rw [if_neg h2, if_neg h2]
      refine Outcome.newPt ?_
      refine (interpolatePointLoop_spec (l.zip y) m.next _ (by simp) fun e he => ?_).use ?_ ?_
      · obtain ⟨a, b⟩ := e
        have := List.of_mem_zip he
        have g1 := hl _ this.1
        have g2 := hy _ this.2
        simp only [Mem.bump_next, Mem.setPt_next]
        exact ⟨by omega, by omega, by omega⟩
      · simp only [Mem.bump_pt, Mem.setPt_self, Mem.bump_sc, Mem.setPt_sc]
        congr 2
        rw [List.zip_map]
        refine List.map_congr_left fun e he => ?_
        have g2 := hy _ (List.of_mem_zip (show (e.1, e.2) ∈ l.zip y from he)).2
        rw [Mem.setPt_ne (by omega)]
        rfl
      · rintro v c m' ⟨rfl, w, e⟩
        exact ⟨((Writes.refl ∅ m).newPt (le_refl _)).fresh w (by simp [Obj.addr]),
          ⟨le_refl _, lt_of_lt_of_le (by simp) w.next⟩, e⟩

theorem interpolateScalar_spec (l y : List Addr) (m : Mem) (hl : ∀ a ∈ l, a < m.next) (hy : ∀ a ∈ y, a < m.next) :
    Outcome (Writes ∅ m) (interpolateScalar l y) m (Lagr.interpolateScalar (l.map m.sc) (y.map m.sc)) (RetSc m) := by
  unfold interpolateScalar Lagr.interpolateScalar
  simp only [List.length_map]
  by_cases h1 : y.length ≠ l.length
  · rw [if_pos h1, if_pos h1]; exact Outcome.err (Writes.refl _ _)
  · rw [if_neg h1, if_neg h1]
    by_cases h2 : l.length = 0
    · rw [if_pos h2, if_pos h2]; exact Outcome.panic (Writes.refl _ _)
    · rw [if_neg h2, if_neg h2]
      refine Outcome.newSc ?_
      refine (interpolateScalarLoop_spec (l.zip y) m.next _ (by simp) fun e he => ?_).use ?_ ?_
      · obtain ⟨a, b⟩ := e
        have := List.of_mem_zip he
        have g1 := hl _ this.1
        have g2 := hy _ this.2
        simp only [Mem.bump_next, Mem.setSc_next]
        exact ⟨⟨by omega, by omega⟩, by omega, by omega⟩
      · simp only [Mem.bump_sc, Mem.setSc_self]
        congr 2
        rw [List.zip_map]
        refine List.map_congr_left fun e he => ?_
        have g1 := hl _ (List.of_mem_zip (show (e.1, e.2) ∈ l.zip y from he)).1
        have g2 := hy _ (List.of_mem_zip (show (e.1, e.2) ∈ l.zip y from he)).2
        rw [Mem.setSc_ne (by omega), Mem.setSc_ne (by omega)]
        rfl
      · rintro v c m' ⟨rfl, w, e⟩
        exact ⟨((Writes.refl ∅ m).newSc (le_refl _)).fresh w (by simp [Obj.addr]),
          ⟨le_refl _, lt_of_lt_of_le (by simp) w.next⟩, e⟩

/-! ### poly/lagrange.go: the coefficients -/

/-- The values the first loop stores after the first entry. -/
def prefixVals (v : Fn) : Fn → List Fn → List Fn
  | _, [] => []
  | t, x :: xs => t * (x - v) :: prefixVals v (t * (x - v)) xs

theorem prefixVals_eq (v t x : Fn) (xs : List Fn) :
    t :: prefixVals v t (x :: xs).dropLast = Lagr.prefixProds v t (x :: xs) := by
  induction xs generalizing t x with
  | nil => rfl
  | cons y ys ih =>
    rw [List.dropLast_cons_cons, prefixVals, Lagr.prefixProds, ih]

theorem sc_ne_singleton {a b : Addr} (h : a ≠ b) : Obj.sc a ∉ ({.sc b} : Set Obj) := by
  rw [Set.mem_singleton_iff]; rintro ⟨⟩; exact h rfl

/-- The common start of both loops: `x := clone; x -= value; tmp *= x`. -/
theorem subMul_run {γ δ : Type} {value s tmp : Addr} {m : Mem} {r : Res δ} {S : δ → γ → Mem → Prop} {f : Addr → Go γ}
    (hs : s < m.next) (hv : value < m.next) (ht : tmp < m.next)
    (h : ∀ m', Writes {.sc tmp} m m' → m'.next = m.next + 1 → m'.sc tmp = m.sc tmp * (m.sc s - m.sc value) →
      Outcome E (f tmp) m' r S) :
    Outcome E (do
      let x ← cloneSc s
      let x ← subSc x x value
      let tmp ← mulSc tmp tmp x
      f tmp) m r S := by
  refine Outcome.cloneSc hs (Outcome.subSc (Outcome.mulSc (h _ ?_ rfl ?_)))
  · exact (((Writes.refl {.sc tmp} m).newSc (le_refl _)).setSc (.inr (le_refl _))).setSc (.inl rfl)
  · simp [Mem.setSc_sc, show tmp ≠ m.next by omega, show value ≠ m.next by omega]

theorem prefixLoop_spec (value : Addr) (l : List Addr) (tmp : Addr) (m : Mem) (hv : value < m.next ∧ value ≠ tmp)
    (ht : tmp < m.next) (hl : ∀ a ∈ l, a < m.next ∧ a ≠ tmp) :
    Outcome E (prefixLoop value l tmp) m (.ok (prefixVals (m.sc value) (m.sc tmp) (l.map m.sc)))
      (fun vs cs m' => Writes {.sc tmp} m m' ∧ (∀ c ∈ cs, New m m' c) ∧ cs.Nodup ∧ cs.map m'.sc = vs) := by
  induction l generalizing m with
  | nil => exact Outcome.pure ⟨Writes.refl _ _, by simp, by simp, rfl⟩
  | cons s l ih =>
    obtain ⟨h1, h2⟩ := hl s (by simp)
    unfold prefixLoop
    refine subMul_run h1 hv.1 ht ?_
    intro m1 w1 n1 e1
    refine Outcome.bind_ok (cloneSc_spec tmp m1 (by omega)) ?_
    rintro n m2 ⟨w2, n2, e2⟩
    have l2 := w2.next
    have k1 := n2.1
    have k2 := n2.2
    have w12 : Writes {.sc tmp} m m2 := w1.then_empty w2
    have hval : ∀ a, a < m.next → a ≠ tmp → m2.sc a = m.sc a := fun a ha hne => w12.sc a ha (sc_ne_singleton hne)
    have hih := ih m2 ⟨by omega, hv.2⟩ (by omega) fun a ha => by
      obtain ⟨g1, g2⟩ := hl a (List.mem_cons_of_mem _ ha)
      exact ⟨by omega, g2⟩
    rw [hval _ hv.1 hv.2, w2.sc0 (by omega), e1, List.map_congr_left (g := m.sc) fun a ha => by
      obtain ⟨g1, g2⟩ := hl a (List.mem_cons_of_mem _ ha)
      exact hval a g1 g2] at hih
    rw [List.map_cons, prefixVals]
    refine Outcome.bind_ok hih ?_
    rintro cs m3 ⟨w3, n3, nd, e3⟩
    have l3 := w3.next
    refine Outcome.pure ⟨w12.again w3, ?_, ?_, ?_⟩
    · intro c hc
      rcases List.mem_cons.1 hc with rfl | hc
      · exact ⟨by omega, by omega⟩
      · have := (n3 c hc).1
        exact ⟨by omega, (n3 c hc).2⟩
    · refine List.nodup_cons.2 ⟨fun hc => ?_, nd⟩
      have := (n3 n hc).1
      omega
    · rw [List.map_cons, e3, w3.sc n k2 (sc_ne_singleton (by omega)), e2, e1]

/-- The values the second loop stores, last first. -/
def suffixVals (v : Fn) : Fn → List (Fn × Fn) → List Fn
  | _, [] => []
  | t, (x, n) :: rest => n * (t * (x - v)) :: suffixVals v (t * (x - v)) rest

/-- The product at the end of the second loop. -/
def suffixProd (v : Fn) : Fn → List (Fn × Fn) → Fn
  | t, [] => t
  | t, (x, _) :: rest => suffixProd v (t * (x - v)) rest

theorem suffix_append (v t x n : Fn) (l : List (Fn × Fn)) :
    suffixVals v t (l ++ [(x, n)]) = suffixVals v t l ++ [n * (suffixProd v t l * (x - v))] ∧
      suffixProd v t (l ++ [(x, n)]) = suffixProd v t l * (x - v) := by
  induction l generalizing t with
  | nil => exact ⟨rfl, rfl⟩
  | cons e l ih =>
    obtain ⟨y, k⟩ := e
    obtain ⟨h1, h2⟩ := ih (t * (y - v))
    exact ⟨by rw [List.cons_append, suffixVals, h1]; rfl, by rw [List.cons_append, suffixProd, h2]; rfl⟩

theorem suffix_eq (v : Fn) (xs : List Fn) (x : Fn) (ms : List Fn) (hm : ms.length = xs.length + 1) :
    (Lagr.suffixLoop v (x :: xs) ms).1 =
        (suffixVals v 1 (xs.zip ms.dropLast).reverse).reverse ++ [ms.getLast (by intro h; simp [h] at hm)] ∧
      (Lagr.suffixLoop v (x :: xs) ms).2 = suffixProd v 1 (xs.zip ms.dropLast).reverse * (x - v) := by
  induction xs generalizing x ms with
  | nil =>
    obtain ⟨a, rfl⟩ := List.length_eq_one_iff.1 hm
    simp [Lagr.suffixLoop, suffixVals, suffixProd]
  | cons y ys ih =>
    match ms, hm with
    | a :: b :: ms, hm =>
      obtain ⟨h1, h2⟩ := ih y (b :: ms) (by simpa using hm)
      have hz : ((y :: ys).zip (a :: b :: ms).dropLast).reverse = (ys.zip (b :: ms).dropLast).reverse ++ [(y, a)] := by
        rw [List.dropLast_cons_cons, List.zip_cons_cons, List.reverse_cons]
      obtain ⟨g1, g2⟩ := suffix_append v 1 y a (ys.zip (b :: ms).dropLast).reverse
      rcases hE : Lagr.suffixLoop v (y :: ys) (b :: ms) with ⟨p, q⟩
      rw [hE] at h1 h2
      simp only at h1 h2
      rw [hz, g1, g2, Lagr.suffixLoop, hE]
      simp only
      rw [h1, h2]
      simp

theorem suffixLoop_spec (value : Addr) (l : List (Addr × Addr)) (tmp : Addr) (m : Mem)
    (hv : value < m.next ∧ value ≠ tmp ∧ ∀ e ∈ l, value ≠ e.2) (ht : tmp < m.next)
    (hl : ∀ e ∈ l, e.1 < m.next ∧ e.1 ≠ tmp ∧ (∀ e' ∈ l, e.1 ≠ e'.2) ∧ e.2 < m.next ∧ e.2 ≠ tmp)
    (nd : (l.map Prod.snd).Nodup) :
    Outcome E (suffixLoop value l tmp) m
      (.ok (suffixVals (m.sc value) (m.sc tmp) (l.map fun e => (m.sc e.1, m.sc e.2))))
      (fun vs _ m' => Writes ({o | ∃ e ∈ l, o = .sc e.2} ∪ {.sc tmp}) m m' ∧ (l.map Prod.snd).map m'.sc = vs) := by
  induction l generalizing m with
  | nil => exact Outcome.pure ⟨Writes.refl _ _, rfl⟩
  | cons e l ih =>
    obtain ⟨s, n⟩ := e
    obtain ⟨h1, h2, h3, h4, h5⟩ := hl (s, n) (by simp)
    simp only at h1 h2 h3 h4 h5
    have hsn : s ≠ n := h3 (s, n) (by simp)
    have hvn : value ≠ n := hv.2.2 (s, n) (by simp)
    rw [List.map_cons, List.nodup_cons] at nd
    unfold suffixLoop
    refine subMul_run h1 hv.1 ht ?_
    intro m1 w1 n1 e1
    refine Outcome.mulSc ?_
    have w2 : Writes {.sc n} m1 (m1.setSc n (m1.sc n * m1.sc tmp)) := (Writes.refl {.sc n} m1).setSc (.inl rfl)
    have e2 : (m1.setSc n (m1.sc n * m1.sc tmp)).sc n = m.sc n * (m.sc tmp * (m.sc s - m.sc value)) := by
      rw [Mem.setSc_self, e1, w1.sc n h4 (sc_ne_singleton h5)]
    have n2 : (m1.setSc n (m1.sc n * m1.sc tmp)).next = m1.next := rfl
    generalize m1.setSc n (m1.sc n * m1.sc tmp) = m2 at w2 e2 n2
    have hval : ∀ a, a < m.next → a ≠ tmp → a ≠ n → m2.sc a = m.sc a := fun a ha h h' => by
      rw [w2.sc a (by omega) (sc_ne_singleton h'), w1.sc a ha (sc_ne_singleton h)]
    have et : m2.sc tmp = m.sc tmp * (m.sc s - m.sc value) := by
      rw [w2.sc tmp (by omega) (sc_ne_singleton (Ne.symm h5)), e1]
    have hne : ∀ e ∈ l, e.2 ≠ n := fun e he h => nd.1 (List.mem_map.2 ⟨e, he, h⟩)
    have hih := ih m2 ⟨by omega, hv.2.1, fun e he => hv.2.2 e (List.mem_cons_of_mem _ he)⟩ (by omega)
      (fun e he => by
        obtain ⟨g1, g2, g3, g4, g5⟩ := hl e (List.mem_cons_of_mem _ he)
        exact ⟨by omega, g2, fun e' he' => g3 e' (List.mem_cons_of_mem _ he'), by omega, g5⟩) nd.2
    rw [hval _ hv.1 hv.2.1 hvn, et, List.map_congr_left (g := fun e => (m.sc e.1, m.sc e.2)) fun e he => by
      obtain ⟨g1, g2, g3, g4, g5⟩ := hl e (List.mem_cons_of_mem _ he)
      rw [hval _ g1 g2 (g3 (s, n) (by simp)), hval _ g4 g5 (hne e he)]] at hih
    rw [List.map_cons, suffixVals]
    obtain ⟨u, m3, r3, w3, e3⟩ := hih
    refine Outcome.ok r3 ⟨?_, ?_⟩
    · refine ((w1.mono ?_).trans (w2.mono (W' := {o | ∃ e ∈ (s, n) :: l, o = Obj.sc e.2} ∪ {.sc tmp}) ?_) ?_).trans w3 ?_
      · rintro o - h; exact .inr h
      · rintro o - rfl; exact .inl ⟨(s, n), by simp, rfl⟩
      · exact fun _ _ h => h
      · rintro o - (⟨e, he, rfl⟩ | h)
        · exact .inl ⟨e, List.mem_cons_of_mem _ he, rfl⟩
        · exact .inr h
    · rw [List.map_cons, List.map_cons, e3, w3.sc n (by omega), e2]
      rintro (⟨e, he, h⟩ | h)
      · cases h; exact hne e he rfl
      · cases h; exact h5 rfl

theorem denomLoop_spec (xi : Addr) (l : List Addr) (d : Addr) (m : Mem) (hx : xi < m.next ∧ xi ≠ d) (hd : d < m.next)
    (hl : ∀ a ∈ l, a < m.next ∧ a ≠ d) :
    Outcome E (denomLoop xi l d) m
      (.ok ((l.map m.sc).foldl (fun denom xj => if m.sc xi = xj then denom else denom * (xj - m.sc xi)) (m.sc d)))
      (fun v c m' => c = d ∧ Writes {.sc d} m m' ∧ m'.sc d = v) := by
  induction l generalizing m with
  | nil => exact Outcome.pure ⟨rfl, Writes.refl _ _, rfl⟩
  | cons s l ih =>
    obtain ⟨h1, h2⟩ := hl s (by simp)
    unfold denomLoop
    refine Outcome.cloneSc h1 (Outcome.readSc (Outcome.readSc ?_))
    have w1 : Writes ∅ m (m.setSc m.next (m.sc s)).bump := (Writes.refl ∅ m).newSc (le_refl _)
    have ex : (m.setSc m.next (m.sc s)).bump.sc xi = m.sc xi := w1.sc0 hx.1
    have es : (m.setSc m.next (m.sc s)).bump.sc m.next = m.sc s := by simp
    rw [ex, es, List.map_cons, List.foldl_cons]
    by_cases h : m.sc xi = m.sc s
    · rw [if_pos h, if_pos h]
      refine (ih _ ⟨by simp; omega, hx.2⟩ (by simp; omega) fun a ha => ?_).use ?_ ?_
      · obtain ⟨g1, g2⟩ := hl a (List.mem_cons_of_mem _ ha)
        exact ⟨by simp; omega, g2⟩
      · rw [ex, w1.sc0 hd, w1.map_sc fun a ha => ⟨(hl a (List.mem_cons_of_mem _ ha)).1, Set.notMem_empty _⟩]
      · rintro v c m' ⟨e1, w, e⟩
        exact ⟨e1, w1.trans_empty w, e⟩
    · rw [if_neg h, if_neg h]
      refine Outcome.subSc (Outcome.mulSc ?_)
      rw [ex, es]
      have w2 : Writes {.sc d} m (((m.setSc m.next (m.sc s)).bump.setSc m.next (m.sc s - m.sc xi)).setSc d
          (((m.setSc m.next (m.sc s)).bump.setSc m.next (m.sc s - m.sc xi)).sc d *
            ((m.setSc m.next (m.sc s)).bump.setSc m.next (m.sc s - m.sc xi)).sc m.next)) :=
        (((Writes.refl {.sc d} m).newSc (le_refl _)).setSc (.inr (le_refl _))).setSc (.inl rfl)
      have n2 : (((m.setSc m.next (m.sc s)).bump.setSc m.next (m.sc s - m.sc xi)).setSc d
          (((m.setSc m.next (m.sc s)).bump.setSc m.next (m.sc s - m.sc xi)).sc d *
            ((m.setSc m.next (m.sc s)).bump.setSc m.next (m.sc s - m.sc xi)).sc m.next)).next = m.next + 1 := rfl
      have e2 : (((m.setSc m.next (m.sc s)).bump.setSc m.next (m.sc s - m.sc xi)).setSc d
          (((m.setSc m.next (m.sc s)).bump.setSc m.next (m.sc s - m.sc xi)).sc d *
            ((m.setSc m.next (m.sc s)).bump.setSc m.next (m.sc s - m.sc xi)).sc m.next)).sc d =
            m.sc d * (m.sc s - m.sc xi) := by
        simp [Mem.setSc_sc, show d ≠ m.next by omega]
      generalize (((m.setSc m.next (m.sc s)).bump.setSc m.next (m.sc s - m.sc xi)).setSc d
          (((m.setSc m.next (m.sc s)).bump.setSc m.next (m.sc s - m.sc xi)).sc d *
            ((m.setSc m.next (m.sc s)).bump.setSc m.next (m.sc s - m.sc xi)).sc m.next)) = m2 at w2 n2 e2
      refine (ih m2 ⟨by omega, hx.2⟩ (by omega) fun a ha => ?_).use ?_ ?_
      · obtain ⟨g1, g2⟩ := hl a (List.mem_cons_of_mem _ ha)
        exact ⟨by omega, g2⟩
      · rw [w2.sc xi hx.1 (sc_ne_singleton hx.2), e2, w2.map_sc fun a ha =>
          ⟨(hl a (List.mem_cons_of_mem _ ha)).1, sc_ne_singleton (hl a (List.mem_cons_of_mem _ ha)).2⟩]
      · rintro v c m' ⟨e1, w, e⟩
        exact ⟨e1, w2.again w, e⟩

theorem finish_spec (scalars : List Addr) (es : List (Addr × Addr)) (m : Mem) (hs : ∀ a ∈ scalars, a < m.next)
    (he : ∀ e ∈ es, e.1 < m.next ∧ e.2 ∈ scalars ∧ e.1 ∉ scalars) (nd : (es.map Prod.fst).Nodup) :
    Outcome (Writes {o | ∃ e ∈ es, o = .sc e.1} m) (Go.forM' (finishStep scalars) es) m
      (Lagr.finish (scalars.map m.sc) (es.map fun e => (m.sc e.1, m.sc e.2)))
      (fun vs _ m' => Writes {o | ∃ e ∈ es, o = .sc e.1} m m' ∧ (es.map Prod.fst).map m'.sc = vs) := by
  induction es generalizing m with
  | nil => exact Outcome.pure ⟨Writes.refl _ _, rfl⟩
  | cons e es ih =>
    obtain ⟨n, xi⟩ := e
    obtain ⟨h1, h2, h3⟩ := he (n, xi) (by simp)
    simp only at h1 h2 h3
    have hxi := hs xi h2
    rw [List.map_cons, List.nodup_cons] at nd
    unfold Go.forM'
    rw [List.map_cons, Lagr.finish]
    -- one step
    have hstep : Outcome (Writes {.sc n} m) (finishStep scalars (n, xi)) m
        (if (Lagr.denom (m.sc xi) (scalars.map m.sc))⁻¹ = 0 then Res.err "interpolation error"
          else Res.ok (m.sc n * (Lagr.denom (m.sc xi) (scalars.map m.sc))⁻¹))
        (fun v _ m' => Writes {.sc n} m m' ∧ m'.sc n = v) := by
      unfold finishStep
      refine Outcome.newSc ?_
      have w1 : Writes ∅ m (m.setSc m.next 1).bump := (Writes.refl ∅ m).newSc (le_refl _)
      have n1 : (m.setSc m.next 1).bump.next = m.next + 1 := rfl
      have e1 : (m.setSc m.next 1).bump.sc m.next = 1 := by simp
      generalize (m.setSc m.next 1).bump = m1 at w1 n1 e1
      have hd := denomLoop_spec (E := Writes {.sc n} m) xi scalars m.next m1 ⟨by omega, by omega⟩ (by omega) fun a ha => by
        have := hs a ha
        exact ⟨by omega, by omega⟩
      rw [e1, w1.sc0 hxi, w1.map_sc fun a ha => ⟨hs a ha, Set.notMem_empty _⟩] at hd
      refine Outcome.bind_ok hd ?_
      rintro d m2 ⟨rfl, w2, e2⟩
      have l2 := w2.next
      obtain ⟨m3, r3, w3, n3, e3⟩ := invSc_run m.next m2
      refine Outcome.step r3 (Outcome.readSc ?_)
      have einv : m3.sc m.next = (Lagr.denom (m.sc xi) (scalars.map m.sc))⁻¹ := by rw [e3, e2]; rfl
      have w13 : Writes ∅ m m3 := w1.fresh (w2.again w3) (by simp [Obj.addr])
      rw [einv]
      by_cases h0 : (Lagr.denom (m.sc xi) (scalars.map m.sc))⁻¹ = 0
      · rw [if_pos h0, if_pos h0]; exact Outcome.err (w13.mono fun _ _ h => absurd h (Set.notMem_empty _))
      · rw [if_neg h0, if_neg h0]
        refine Outcome.ok rfl ⟨(w13.mono fun _ _ h => absurd h (Set.notMem_empty _)).setSc (.inl rfl), ?_⟩
        rw [Mem.setSc_self, w13.sc0 h1, einv]
    have hfin : (if (Lagr.denom (m.sc xi) (scalars.map m.sc))⁻¹ = 0 then Res.err "interpolation error"
        else do
          let cs ← Lagr.finish (scalars.map m.sc) (es.map fun e => (m.sc e.1, m.sc e.2))
          Res.ok (m.sc n * (Lagr.denom (m.sc xi) (scalars.map m.sc))⁻¹ :: cs)) =
        ((if (Lagr.denom (m.sc xi) (scalars.map m.sc))⁻¹ = 0 then Res.err "interpolation error"
          else Res.ok (m.sc n * (Lagr.denom (m.sc xi) (scalars.map m.sc))⁻¹)) >>= fun c => do
            let cs ← Lagr.finish (scalars.map m.sc) (es.map fun e => (m.sc e.1, m.sc e.2))
            Res.ok (c :: cs)) := by
      split_ifs <;> rfl
    simp only
    rw [hfin]
    have hsub : ∀ {m'}, Writes {.sc n} m m' → Writes {o | ∃ e ∈ (n, xi) :: es, o = .sc e.1} m m' := fun h =>
      h.mono (by rintro o - rfl; exact ⟨(n, xi), by simp, rfl⟩)
    refine Outcome.bind (hstep.errs fun _ h => hsub h) ?_
    rintro v _ m1 ⟨w1, e1⟩
    have l1 := w1.next
    have hval : ∀ a, a < m.next → a ≠ n → m1.sc a = m.sc a := fun a ha h => w1.sc a ha (sc_ne_singleton h)
    have hns : ∀ a ∈ scalars, a ≠ n := fun a ha h => h3 (h ▸ ha)
    have hne : ∀ e ∈ es, e.1 ≠ n := fun e he h => nd.1 (List.mem_map.2 ⟨e, he, h⟩)
    have hih := ih m1 (fun a ha => by have := hs a ha; omega) (fun e he' => by
      obtain ⟨g1, g2, g3⟩ := he e (List.mem_cons_of_mem _ he')
      exact ⟨by omega, g2, g3⟩) nd.2
    rw [w1.map_sc fun a ha => ⟨hs a ha, sc_ne_singleton (hns a ha)⟩,
      List.map_congr_left (g := fun e => (m.sc e.1, m.sc e.2)) fun e he' => by
        obtain ⟨g1, g2, g3⟩ := he e (List.mem_cons_of_mem _ he')
        rw [hval _ g1 (hne e he'), hval _ (hs _ g2) (hns _ g2)]] at hih
    rw [← bind_pure (Go.forM' _ _)]
    have htail : ∀ {m'}, Writes {o | ∃ e ∈ es, o = .sc e.1} m1 m' →
        Writes {o | ∃ e ∈ (n, xi) :: es, o = .sc e.1} m m' := fun h =>
      (hsub w1).trans h (by rintro o - ⟨e, he', rfl⟩; exact ⟨e, List.mem_cons_of_mem _ he', rfl⟩)
    refine Outcome.bind (hih.errs fun _ h => htail h) ?_
    rintro vs _ m2 ⟨w2, e2⟩
    refine Outcome.pure ⟨htail w2, ?_⟩
    · rw [List.map_cons, List.map_cons, e2, w2.sc n (by omega), e1]
      rintro ⟨e, he', h⟩
      cases h; exact hne e he' rfl

theorem atValue_spec (value : Addr) (samples : List NodeIndex) (m : Mem) (hv : value < m.next) :
    Outcome (Writes ∅ m) (atValue value samples) m (Lagr.atValue (m.sc value) samples) (RetScs m) := by
  unfold atValue Lagr.atValue
  by_cases h1 : samples.length = 0
  · rw [if_pos h1, if_pos h1]; exact Outcome.err (Writes.refl _ _)
  rw [if_neg h1, if_neg h1]
  by_cases h2 : samples.length = 1
  · rw [if_pos h2, if_pos h2]
    refine Outcome.newSc (Outcome.pure ⟨(Writes.refl _ _).newSc (le_refl _), ?_, by simp, by simp⟩)
    intro c hc
    rw [List.mem_singleton] at hc
    exact ⟨by omega, by rw [hc]; simp⟩
  rw [if_neg h2, if_neg h2]
  by_cases h3 : Lagr.hasDuplicates [] samples = true
  · rw [if_pos h3, if_pos h3]; exact Outcome.err (Writes.refl _ _)
  rw [if_neg h3, if_neg h3]
  have hsc := mapM'_sc (I := fun _ => True) (f := fun i => newSc (Scalar.fromNodeIndex i))
    (g := fun i => .ok (Scalar.fromNodeIndex i)) (l := samples) (m := m) (fun _ _ _ _ => trivial)
    (fun i _ m' _ => newSc_spec _ m') trivial
  rw [Res.mapM'_ok (g := Scalar.fromNodeIndex) fun _ _ => rfl] at hsc
  refine Outcome.bind_ok hsc ?_
  rintro scs m1 ⟨w1, n1, nd1, e1⟩
  have l1 := w1.next
  have hlen : scs.length = samples.length := by simpa using congrArg List.length e1
  obtain ⟨s0, s1, st, rfl⟩ : ∃ s0 s1 st, scs = s0 :: s1 :: st := by
    match scs, hlen with
    | [], h => simp at h; omega
    | [_], h => simp at h; omega
    | a :: b :: l, _ => exact ⟨a, b, l, rfl⟩
  generalize hss : s0 :: s1 :: st = ss at *
  refine Outcome.bind_ok (newSc_spec 1 m1) ?_
  rintro tmp m2 ⟨w2, n2, e2⟩
  have l2 := w2.next
  have t1 := n2.1
  have t2 := n2.2
  refine Outcome.bind_ok (cloneSc_spec tmp m2 t2) ?_
  rintro n0 m3 ⟨w3, n3, e3⟩
  have l3 := w3.next
  have u1 := n3.1
  have u2 := n3.2
  have hs1 : ∀ a ∈ ss, m.next ≤ a ∧ a < m1.next := n1
  have hpre := prefixLoop_spec (E := Writes ∅ m) value ss.dropLast tmp m3 ⟨by omega, by omega⟩ (by omega) fun a ha => by
    have := hs1 a (List.mem_of_mem_dropLast ha)
    exact ⟨by omega, by omega⟩
  have w13 : Writes ∅ m1 m3 := w2.trans_empty w3
  rw [w3.sc0 t2, e2, w13.map_sc fun a ha => ⟨(hs1 a (List.mem_of_mem_dropLast ha)).2, Set.notMem_empty _⟩,
    w13.sc0 (by omega), w1.sc0 hv, List.map_dropLast, e1] at hpre
  refine Outcome.bind_ok hpre ?_
  rintro ns m4 ⟨w4, n4, nd4, e4⟩
  have l4 := w4.next
  -- the numerators
  have hnum : (n0 :: ns).map m4.sc = Lagr.prefixProds (m.sc value) 1 (samples.map Scalar.fromNodeIndex) := by
    rw [List.map_cons, e4, w4.sc n0 u2 (sc_ne_singleton (by omega)), e3, e2, ← e1, ← hss, List.map_cons,
      prefixVals_eq]
  have hnew : ∀ c ∈ n0 :: ns, m1.next ≤ c ∧ c < m4.next ∧ c ≠ tmp := by
    intro c hc
    rcases List.mem_cons.1 hc with rfl | hc
    · exact ⟨by omega, by omega, by omega⟩
    · have := n4 c hc
      exact ⟨by have := this.1; omega, this.2, by have := this.1; omega⟩
  have hnd : (n0 :: ns).Nodup := List.nodup_cons.2 ⟨fun hc => by have := (n4 n0 hc).1; omega, nd4⟩
  have hnlen : (n0 :: ns).length = ss.length := by
    have := congrArg List.length e4
    rw [List.length_map] at this
    rw [List.length_cons, this, ← e1, ← hss]
    have hp : ∀ (v t : Fn) (l : List Fn), (prefixVals v t l).length = l.length := by
      intro v t l
      induction l generalizing t with
      | nil => rfl
      | cons x xs ih => rw [prefixVals, List.length_cons, ih, List.length_cons]
    rw [hp]
    simp
  simp only
  generalize hnn : n0 :: ns = num at *
  refine Outcome.bind_ok (newSc_spec 1 m4) ?_
  rintro tmp2 m5 ⟨w5, n5, e5⟩
  have l5 := w5.next
  have v1 := n5.1
  have v2 := n5.2
  have htl : ss.tail.length = num.dropLast.length := by simp [hnlen]
  have w14 : Writes {.sc tmp} m1 m4 := (w13.mono fun _ _ h => absurd h (Set.notMem_empty _)).trans w4 fun _ _ h => h
  have hscs : ss.map m5.sc = samples.map Scalar.fromNodeIndex := by
    rw [w5.map_sc fun a ha => ⟨by have := (hs1 a ha).2; omega, Set.notMem_empty _⟩,
      w14.map_sc fun a ha => ⟨(hs1 a ha).2, sc_ne_singleton (by have := (hs1 a ha).2; omega)⟩, e1]
  have hnum5 : num.map m5.sc = Lagr.prefixProds (m.sc value) 1 (samples.map Scalar.fromNodeIndex) := by
    rw [w5.map_sc fun a ha => ⟨(hnew a ha).2.1, Set.notMem_empty _⟩, hnum]
  have hval5 : m5.sc value = m.sc value := by
    rw [w5.sc0 (by omega), w14.sc value (by omega) (sc_ne_singleton (by omega)), w1.sc0 hv]
  have hmem : ∀ e ∈ (ss.tail.zip num.dropLast).reverse, e.1 ∈ ss ∧ e.2 ∈ num := by
    intro e he
    have := List.of_mem_zip (show (e.1, e.2) ∈ ss.tail.zip num.dropLast from List.mem_reverse.1 he)
    exact ⟨List.mem_of_mem_tail this.1, List.mem_of_mem_dropLast this.2⟩
  have hsnd : (ss.tail.zip num.dropLast).reverse.map Prod.snd = num.dropLast.reverse := by
    rw [List.map_reverse, List.map_snd_zip (by omega)]
  have hsuf := suffixLoop_spec (E := Writes ∅ m) value (ss.tail.zip num.dropLast).reverse tmp2 m5
    ⟨by omega, by omega, fun e he => by have := hnew _ (hmem e he).2; omega⟩ (by omega)
    (fun e he => by
      have g1 := hs1 _ (hmem e he).1
      have g2 := hnew _ (hmem e he).2
      refine ⟨by omega, by omega, fun e' he' => ?_, by omega, by omega⟩
      have g3 := hnew _ (hmem e' he').2
      omega)
    (by rw [hsnd]; exact List.nodup_reverse.2 (hnd.sublist (List.dropLast_sublist _)))
  refine Outcome.bind_ok hsuf ?_
  rintro _ m6 ⟨w6, e6⟩
  have l6 := w6.next
  have hsc6 : ∀ a < m1.next, a ≠ tmp2 → m6.sc a = m5.sc a := fun a ha hne => by
    refine w6.sc a (by omega) ?_
    rintro (⟨e, he, h⟩ | h)
    · cases h; have := hnew _ (hmem e he).2; omega
    · cases h; exact hne rfl
  have hnum6 : num.map m6.sc =
      (Lagr.suffixLoop (m.sc value) (samples.map Scalar.fromNodeIndex)
        (Lagr.prefixProds (m.sc value) 1 (samples.map Scalar.fromNodeIndex))).1 := by
    have hne : num ≠ [] := by rw [← hnn]; simp
    have hlast : m6.sc (num.getLast hne) = m5.sc (num.getLast hne) := by
      refine w6.sc _ (by have := hnew _ (List.getLast_mem hne); omega) ?_
      rintro (⟨e, he, h⟩ | h)
      · have h' : num.getLast hne ∈ num.dropLast := by
          have := (List.of_mem_zip (show (e.1, e.2) ∈ ss.tail.zip num.dropLast from List.mem_reverse.1 he)).2
          rw [Obj.sc.injEq] at h
          rw [h]; exact this
        have hnd' := hnd
        rw [← List.dropLast_append_getLast hne, List.nodup_append] at hnd'
        exact hnd'.2.2 _ h' _ (List.mem_singleton.2 rfl) rfl
      · cases h
        have := hnew _ (List.getLast_mem hne)
        omega
    rw [hsnd, e5, hval5] at e6
    have hsplit : num.map m6.sc = (num.dropLast.reverse.map m6.sc).reverse ++ [m6.sc (num.getLast hne)] := by
      rw [List.map_reverse, List.reverse_reverse, ← List.map_singleton, ← List.map_append,
        List.dropLast_append_getLast]
    rw [hsplit, e6, hlast, ← hnum5, ← hscs]
    have hsuf' := (suffix_eq (m.sc value) (ss.tail.map m5.sc) (m5.sc s0) (num.map m5.sc) (by
      rw [List.length_map, List.length_map, hnlen, ← hss]; simp)).1
    have hcons : ss.map m5.sc = m5.sc s0 :: ss.tail.map m5.sc := by rw [← hss]; rfl
    rw [hcons, hsuf', List.getLast_map, ← List.map_dropLast, List.zip_map, ← List.map_reverse]
    rfl
  have hfin := finish_spec ss (num.zip ss) m6 (fun a ha => by have := (hs1 a ha).2; omega)
    (fun e he => by
      have := List.of_mem_zip (show (e.1, e.2) ∈ num.zip ss from he)
      have g := hnew _ this.1
      refine ⟨by omega, this.2, fun hc => ?_⟩
      have := (hs1 _ hc).2
      omega)
    (by rw [List.map_fst_zip (by omega)]; exact hnd)
  have hsc6' : ss.map m6.sc = samples.map Scalar.fromNodeIndex := by
    rw [← hscs]
    refine List.map_congr_left fun a ha => hsc6 a (hs1 a ha).2 ?_
    have := (hs1 a ha).2
    omega
  have hzip : (num.zip ss).map (fun e => (m6.sc e.1, m6.sc e.2)) = (num.map m6.sc).zip (ss.map m6.sc) := by
    rw [List.zip_map]; rfl
  rw [hzip, hnum6, hsc6'] at hfin
  rw [← bind_pure (Lagr.finish _ _)]
  have wall : ∀ {m'}, Writes {o | ∃ e ∈ num.zip ss, o = .sc e.1} m6 m' → Writes ∅ m m' := fun w7 => by
    refine (((w1.fresh w14 ?_).trans_empty w5).fresh w6 ?_).fresh w7 ?_
    · rintro o rfl; simp only [Obj.addr]; omega
    · rintro o (⟨e, he, rfl⟩ | rfl)
      · have := hnew _ (hmem e he).2; simp only [Obj.addr]; omega
      · simp only [Obj.addr]; omega
    · rintro o ⟨e, he, rfl⟩
      have := hnew _ (List.of_mem_zip (show (e.1, e.2) ∈ num.zip ss from he)).1
      simp only [Obj.addr]; omega
  refine Outcome.bind (hfin.errs fun _ h => wall h) ?_
  rintro vs _ m7 ⟨w7, e7⟩
  have l7 := w7.next
  rw [List.map_fst_zip (by omega)] at e7
  refine Outcome.pure ⟨wall w7, fun c hc => ?_, hnd, e7⟩
  · have := hnew c hc
    exact ⟨by omega, by omega⟩

theorem atZero_spec (samples : List NodeIndex) (m : Mem) :
    Outcome (Writes ∅ m) (atZero samples) m (Lagr.atZero samples) (RetScs m) := by
  unfold atZero Lagr.atZero
  refine Outcome.newSc ?_
  have w1 : Writes ∅ m (m.setSc m.next 0).bump := (Writes.refl ∅ m).newSc (le_refl _)
  refine ((atValue_spec m.next samples _ (by simp)).after w1).use (by simp) ?_
  rintro vs cs m' ⟨w, n, nd, e⟩
  exact ⟨w1.trans_empty w, fun c hc => ⟨w1.next.trans (n c hc).1, (n c hc).2⟩, nd, e⟩

/-! ### poly/commitment.go -/

theorem evalPointsLoop_spec (i : NodeIndex) (l : List Addr) (acc b : Addr) (m : Mem) (ha : acc < m.next)
    (hb : b ≤ acc) (hbn : b ≤ m.next) (hl : ∀ a ∈ l, a < m.next) :
    Outcome E (evalPointsLoop i l acc) m
      (.ok ((l.map m.pt).foldl (fun acc pt => Point.mulByNodeIndex acc i + pt) (m.pt acc)))
      (fun v c m' => Writes ∅ m m' ∧ (b ≤ c ∧ c < m'.next) ∧ m'.pt c = v) := by
  induction l generalizing acc m with
  | nil => exact Outcome.pure ⟨Writes.refl _ _, ⟨hb, ha⟩, rfl⟩
  | cons p l ih =>
    have hp := hl p (by simp)
    unfold evalPointsLoop
    refine Outcome.bind_ok (mulByNodeIndex_spec acc i m ha) ?_
    rintro c m1 ⟨w1, n1, e1⟩
    have l1 := w1.next
    have c1 := n1.1
    have c2 := n1.2
    refine Outcome.addPt ?_
    have w2 : Writes ∅ m (m1.setPt c (m1.pt c + m1.pt p)) := w1.setPt (.inr c1)
    have e2 : (m1.setPt c (m1.pt c + m1.pt p)).pt c = Point.mulByNodeIndex (m.pt acc) i + m.pt p := by
      rw [Mem.setPt_self, e1, w1.pt0 hp]
    have n2 : (m1.setPt c (m1.pt c + m1.pt p)).next = m1.next := rfl
    generalize m1.setPt c (m1.pt c + m1.pt p) = m2 at w2 e2 n2
    refine (ih c m2 (by omega) (by omega) (by omega) fun a ha => ?_).use ?_ ?_
    · have := hl a (List.mem_cons_of_mem _ ha); omega
    · rw [List.map_cons, List.foldl_cons, e2,
        w2.map_pt fun a ha => ⟨hl a (List.mem_cons_of_mem _ ha), Set.notMem_empty _⟩]
    · rintro v c' m' ⟨w, n, e⟩
      exact ⟨w2.trans_empty w, n, e⟩

theorem evalLoop_foldl (i : NodeIndex) (l : List Pt) :
    l.reverse.foldl (fun acc pt => Point.mulByNodeIndex acc i + pt) 0 = Commitment.evalLoop i l := by
  rw [List.foldl_reverse]
  induction l with
  | nil => rfl
  | cons p l ih => rw [List.foldr_cons, ih, Commitment.evalLoop]

theorem evaluatePointsAt_spec (points : List Addr) (i : NodeIndex) (kind : Kind) (m : Mem)
    (hp : ∀ a ∈ points, a < m.next) :
    Outcome (Writes ∅ m) (evaluatePointsAt points i) m (Commitment.evaluateAt ⟨kind, points.map m.pt⟩ i) (RetPt m) := by
  cases points with
  | nil => exact ⟨m, rfl, Writes.refl _ _⟩
  | cons p ps =>
    change Outcome _ (newPt 0 >>= evalPointsLoop i (p :: ps).reverse) m
      (.ok (Commitment.evalLoop i ((p :: ps).map m.pt))) (RetPt m)
    refine Outcome.newPt ?_
    have w1 : Writes ∅ m (m.setPt m.next 0).bump := (Writes.refl ∅ m).newPt (le_refl _)
    refine (evalPointsLoop_spec i (p :: ps).reverse m.next m.next (m.setPt m.next 0).bump (by simp) (le_refl _)
      w1.next (fun a ha => ?_)).use ?_ ?_
    · have := hp a (List.mem_reverse.1 ha)
      simp only [Mem.bump_next, Mem.setPt_next]; omega
    · rw [w1.map_pt fun a ha => ⟨hp a (List.mem_reverse.1 ha), Set.notMem_empty _⟩, Mem.bump_pt, Mem.setPt_self,
        List.map_reverse, evalLoop_foldl]
    · rintro v c m' ⟨w, n, e⟩
      exact ⟨w1.trans_empty w, n, e⟩

theorem createSimple_spec (poly : Addr) (num : Int) (m : Mem) (hp : HasPo m poly) :
    Outcome (Writes ∅ m) (createSimple poly num) m (Commitment.createSimple (polyVal m poly) num)
      (fun v cs m' => RetPts m v.points cs m') := by
  unfold createSimple Commitment.createSimple
  refine Outcome.step (m' := m) (a := Poly.nonZeroCoefficients (polyVal m poly)) rfl ?_
  by_cases h : (Poly.nonZeroCoefficients (polyVal m poly) : Int) > num
  · rw [if_pos h, if_pos h]; exact Outcome.err (Writes.refl _ _)
  · rw [if_neg h, if_neg h]
    have hloop := mapM'_pt (I := fun m' => Writes ∅ m m')
      (f := fun i => do
        let c ← coeff poly i
        mulByG c)
      (g := fun i => .ok (Point.mulByG (Poly.coeff (polyVal m poly) i))) (l := List.range num.toNat) (m := m)
      (fun _ _ h h' => h.trans_empty h') (by
        intro i _ m1 w1
        refine Outcome.bind_ok (coeff_spec poly i m1 (hp.keep0 w1)) ?_
        rintro c m2 ⟨w2, n2, e2⟩
        refine (mulByG_spec c m2).use (by rw [e2, polyVal_keep0 hp w1]) ?_
        rintro v d m3 ⟨w3, n3, e3⟩
        exact ⟨w2.trans_empty w3, ⟨w2.next.trans n3.1, n3.2⟩, e3⟩)
      (Writes.refl _ _)
    rw [Res.mapM'_ok (g := fun i => Point.mulByG (Poly.coeff (polyVal m poly) i)) fun _ _ => rfl] at hloop
    obtain ⟨cs, m', r, h⟩ := hloop
    exact Outcome.ok r h

theorem createPedersen_spec (values masking : Addr) (num : Int) (m : Mem) (hv : HasPo m values)
    (hm : HasPo m masking) :
    Outcome (Writes ∅ m) (createPedersen values masking num) m
      (Commitment.createPedersen (polyVal m values) (polyVal m masking) num)
      (fun v cs m' => RetPts m v.points cs m') := by
  unfold createPedersen Commitment.createPedersen
  refine Outcome.step (m' := m) (a := Poly.nonZeroCoefficients (polyVal m values)) rfl ?_
  refine Outcome.step (m' := m) (a := Poly.nonZeroCoefficients (polyVal m masking)) rfl ?_
  by_cases h : (Poly.nonZeroCoefficients (polyVal m values) : Int) > num ∨
      (Poly.nonZeroCoefficients (polyVal m masking) : Int) > num
  · rw [if_pos h, if_pos h]; exact Outcome.err (Writes.refl _ _)
  · rw [if_neg h, if_neg h]
    have hloop := mapM'_pt (I := fun m' => Writes ∅ m m')
      (f := fun i => do
        let c ← coeff values i
        let d ← coeff masking i
        pedersen c d)
      (g := fun i => .ok (Point.pedersen (Poly.coeff (polyVal m values) i) (Poly.coeff (polyVal m masking) i)))
      (l := List.range num.toNat) (m := m)
      (fun _ _ h h' => h.trans_empty h') (by
        intro i _ m1 w1
        refine Outcome.bind_ok (coeff_spec values i m1 (hv.keep0 w1)) ?_
        rintro c m2 ⟨w2, n2, e2⟩
        refine Outcome.bind_ok (coeff_spec masking i m2 (hm.keep0 (w1.trans_empty w2))) ?_
        rintro d m3 ⟨w3, n3, e3⟩
        refine (pedersen_spec c d m3).use
          (by rw [w3.sc0 n2.2, e2, e3, polyVal_keep0 hv w1, polyVal_keep0 hm (w1.trans_empty w2)]) ?_
        rintro v a m4 ⟨w4, n4, e4⟩
        exact ⟨(w2.trans_empty w3).trans_empty w4, ⟨(w2.trans_empty w3).next.trans n4.1, n4.2⟩, e4⟩)
      (Writes.refl _ _)
    rw [Res.mapM'_ok (g := fun i => Point.pedersen (Poly.coeff (polyVal m values) i)
      (Poly.coeff (polyVal m masking) i)) fun _ _ => rfl] at hloop
    obtain ⟨cs, m', r, h⟩ := hloop
    exact Outcome.ok r h

theorem cloneCommitment_spec (points : List Addr) (m : Mem) (hp : ∀ a ∈ points, a < m.next) :
    Outcome E (cloneCommitment points) m (.ok (points.map m.pt)) (RetPts m) := by
  have hloop := mapM'_pt (I := fun m' => Writes ∅ m m') (f := clonePt) (g := fun a => .ok (m.pt a)) (l := points)
    (m := m) (fun _ _ h h' => h.trans_empty h') (by
      intro a ha m1 w1
      exact (clonePt_spec a m1).use (by rw [w1.pt0 (hp a ha)]) fun _ _ _ h => h)
    (Writes.refl _ _)
  rwa [Res.mapM'_ok (g := m.pt) fun _ _ => rfl] at hloop

theorem constantTerm_spec (points : List Addr) (kind : Kind) (m : Mem) :
    Outcome (Writes ∅ m) (constantTerm points) m (Commitment.constantTerm ⟨kind, points.map m.pt⟩) (RetPt m) := by
  cases points with
  | nil => exact ⟨m, rfl, Writes.refl _ _⟩
  | cons p ps => exact clonePt_spec p m

end Verif.Heap
