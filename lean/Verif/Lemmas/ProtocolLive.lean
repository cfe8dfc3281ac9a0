import Verif.Lemmas.Flows

/-! Runs of the protocol driver go through. -/

set_option autoImplicit false

open Polynomial

namespace Verif.Protocol

open Mega Dealings Complaints Sign

/-- No error, and what is returned satisfies `Q`; no return only if `stuck`, a panic only if `bad`. -/
def Goes {α : Type} (stuck bad : Prop) (Q : α → Prop) (r : Res α) : Prop :=
  (∃ a, r = .ok a ∧ Q a) ∨ (stuck ∧ r = .diverge) ∨ (bad ∧ r.isPanic = true)

theorem Goes.ok {α : Type} {stuck bad : Prop} {Q : α → Prop} {a : α} (h : Q a) : Goes stuck bad Q (.ok a) := Or.inl ⟨a, rfl, h⟩

theorem Goes.of_eq {α : Type} {stuck bad : Prop} {Q : α → Prop} {r : Res α} {a : α} (h : r = .ok a) (ha : Q a) :
    Goes stuck bad Q r := Or.inl ⟨a, h, ha⟩

theorem Goes.bind {α β : Type} {stuck bad : Prop} {Q : α → Prop} {R : β → Prop} {r : Res α} {f : α → Res β}
    (h : Goes stuck bad Q r) (hf : ∀ a, Q a → Goes stuck bad R (f a)) : Goes stuck bad R (r >>= f) := by
  rcases h with ⟨a, rfl, ha⟩ | ⟨hs, rfl⟩ | ⟨hb, hp⟩
  · exact hf a ha
  · exact Or.inr (Or.inl ⟨hs, rfl⟩)
  · obtain ⟨e, rfl⟩ := Res.isPanic_iff.1 hp
    exact Or.inr (Or.inr ⟨hb, rfl⟩)

theorem Goes.imp {α : Type} {stuck stuck' bad bad' : Prop} {Q Q' : α → Prop} {r : Res α} (hs : stuck → stuck') (h : bad → bad')
    (hQ : ∀ a, r = .ok a → Q a → Q' a) (hr : Goes stuck bad Q r) : Goes stuck' bad' Q' r := by
  rcases hr with ⟨a, h1, h2⟩ | ⟨h1, h2⟩ | ⟨h1, h2⟩
  · exact Or.inl ⟨a, h1, hQ a h1 h2⟩
  · exact Or.inr (Or.inl ⟨hs h1, h2⟩)
  · exact Or.inr (Or.inr ⟨h h1, h2⟩)

theorem Goes.of_cases {α : Type} {stuck bad : Prop} {r : Res α} (h : (∃ a, r = .ok a) ∨ r = .diverge)
    (hs : ¬ stuck → ∃ a, r = .ok a) : Goes stuck bad (fun a => r = .ok a) r := by
  rcases h with ⟨a, ha⟩ | h
  · exact Or.inl ⟨a, ha, ha⟩
  · by_cases hst : stuck
    · exact Or.inr (Or.inl ⟨hst, h⟩)
    · obtain ⟨a, ha⟩ := hs hst
      exact Or.inl ⟨a, ha, ha⟩

theorem Goes.mapM' {α β : Type} {stuck bad : Prop} {f : α → Res β} {l : List α}
    (h : ∀ a ∈ l, Goes stuck bad (fun _ => True) (f a)) : Goes stuck bad (fun _ => True) (Res.mapM' f l) := by
  induction l with
  | nil => exact Goes.ok trivial
  | cons a l ih =>
    rw [Res.mapM']
    refine (h a (by simp)).bind fun b _ => ?_
    exact (ih fun a ha => h a (List.mem_cons_of_mem _ ha)).bind fun bs _ => Goes.ok trivial

theorem scalar_goes {bad : Prop} {P : Prim} {rng : Rng} (ho : OnStream P rng) :
    Goes (¬ Flows P) bad (fun x => Scalar.random rng = .ok x) (Scalar.random rng) := by
  refine Goes.of_cases ?_ fun h => ?_
  · rw [Scalar.random]
    split
    · exact Or.inl ⟨_, rfl⟩
    · exact Or.inr rfl
  · obtain ⟨x, r', h1, -⟩ := random_flows (not_not.1 h) ho
    exact ⟨_, h1⟩

/-- A dealing that all but at most `threshold` recipients can open, and the others can complain about. -/
structure Live (P : Prim) (s : Setup) (k : Kind) (i : NodeIndex) (d : Dealing) (q r : List Fn) : Prop where
  deals : Deals P s k i d q r
  matched : ∃ ct, Matched d ct (commitTo k q r) ∧ ct.popAccepted P s.ad i ∧ ct.size = s.sk.length
  few : ∃ targets : List NodeIndex, (targets.length : Int) ≤ s.threshold ∧ ∀ x ∈ s.receivers, x.1 ∉ targets →
    openDealing P d s.ad i x.1 x.2 (Point.mulByG x.2) = .ok (valueOf k q r x.1)

/-- A dealing that all can open. -/
structure LiveAll (P : Prim) (s : Setup) (k : Kind) (i : NodeIndex) (d : Dealing) (q r : List Fn) : Prop where
  all : DealsAll P s k i d q r
  matched : ∃ ct, Matched d ct (commitTo k q r) ∧ ct.popAccepted P s.ad i ∧ ct.size = s.sk.length

theorem LiveAll.live {P : Prim} {s : Setup} {k : Kind} {i : NodeIndex} {d : Dealing} {q r : List Fn} (ht : 0 ≤ s.threshold)
    (h : LiveAll P s k i d q r) : Live P s k i d q r :=
  ⟨h.all.deals, h.matched, [], by simpa using ht, fun x hx _ => h.all.all x hx⟩

theorem privateVerify_eq {P : Prim} {d : Dealing} {ct : Cipher} {cm : Commitment} (h : Matched d ct cm) (k : Fn) (pk : Pt)
    (ad : Bytes) (dealer i : NodeIndex) :
    privateVerify P d K256 k pk ad dealer i = (openDealing P d ad dealer i k pk >>= fun _ => .ok ()) := by
  obtain ⟨h1, h2, hne, hk⟩ := h
  have hc0 : ∃ c0, cm.constantTerm = .ok c0 := by
    rw [Commitment.constantTerm]
    cases hp : cm.points with
    | nil => exact absurd hp hne
    | cons a l => exact ⟨a, rfl⟩
  obtain ⟨c0, hc0⟩ := hc0
  rw [privateVerify, openDealing.eq_def, h1, h2]
  simp only [nonNil, Res.ok_bind, hc0, ne_eq, not_true_eq_false, if_false]

theorem checkOpening_opens {cm : Commitment} {i : NodeIndex} {o : Opening} (hne : cm.points ≠ []) (h : Opens cm i o) :
    cm.checkOpening i o = .ok true := by
  have hval := Commitment.evaluateAt_value hne i
  cases o with
  | simple v =>
    simp only [Commitment.checkOpening, h.1, hval, Res.ok_bind]
    exact congrArg Res.ok (decide_eq_true h.2)
  | pedersen v m =>
    simp only [Commitment.checkOpening, h.1, hval, Res.ok_bind]
    exact congrArg Res.ok (decide_eq_true h.2)
  | _ => exact h.elim

/-! ### Creating dealings -/

theorem node_matched {n : Nat} (hn : n ≤ 2 ^ 63) {i : Nat} (hi : i < n) : 0 ≤ (node i).toInt ∧ (node i).toInt < n := by
  rw [toInt_node (by omega)]
  omega

theorem liveAll_new {P : Prim} {s : Setup} {sh : Shares} {op : Op} {sd : Seed} {i : NodeIndex} {d : Dealing}
    (hn : s.sk.length ≤ 2 ^ 63) (hm : Matches i sh op) (h : Dealings.new P sh sd s.threshold s.pk i s.ad = .ok d) :
    ∃ q r, LiveAll P s op.dealingKind i d q r ∧ ∀ a, sh.secret = some a → Poly.coeff q 0 = a := by
  have hs : sh ≠ .other := by rintro rfl; cases op <;> exact hm
  have hh : sh.hidden = decide (op.dealingKind = .pedersen) := by
    cases sh <;> cases op <;> first | rfl | exact hm.elim
  obtain ⟨q, r, hqr, hsec⟩ := dealsAll_new (k := op.dealingKind) hn hs hh h
  obtain ⟨h1, -⟩ := C54_honest_dealings_verify P sh op sd s.threshold s.sk i s.ad d hm h
  obtain ⟨ct, cm, h2, h3, h4⟩ := C65_publicly_verified P d K256 op s.threshold i s.sk.length s.ad h1
  refine ⟨q, r, ⟨hqr, ct, ?_, h3, by exact_mod_cast h4⟩, hsec⟩
  have := h2.2.1
  rw [hqr.com] at this
  cases this
  exact h2

theorem dealLoop_goes {P : Prim} {s : Setup} {op : Op} (ht : 0 < s.threshold) (htn : s.threshold ≤ s.sk.length)
    (hn : s.sk.length ≤ 2 ^ 63) {shares : List Shares} {i : Nat} {rng : Rng} (hlen : i + shares.length ≤ 2 ^ 63)
    (hm : ∀ (j : Nat) (sh : Shares), shares[j]? = some sh → Matches (node (i + j)) sh op) (ho : OnStream P rng) :
    Goes (¬ Flows P) False (fun x => OnStream P x.2 ∧ OMap.Sorted BitVec.toInt x.1 ∧ x.1.length = shares.length ∧
      ∀ y ∈ x.1, ∃ j sh q r, i ≤ j ∧ shares[j - i]? = some sh ∧ y.1 = node j ∧
        LiveAll P s op.dealingKind y.1 y.2 q r ∧ ∀ a, sh.secret = some a → Poly.coeff q 0 = a)
      (dealLoop P s op i shares rng) := by
  have hsk : s.sk ≠ [] := by
    intro e
    rw [e] at htn
    simp at htn
    omega
  induction shares generalizing i rng with
  | nil => exact Goes.ok ⟨ho, OMap.sorted_nil, rfl, by simp⟩
  | cons sh rest ih =>
    have hsh := hm 0 sh rfl
    rw [dealLoop]
    obtain ⟨sd, hsd, -⟩ := C22_seed_derivation.2.2.2.1 P rng
    rw [hsd, Res.ok_bind]
    refine (Goes.of_cases ((C55_threshold_partial P sh sd s.threshold s.pk (node i) s.ad).2.2 ht (by
      simpa [Setup.pk] using htn)) fun hf => new_flows (not_not.1 hf) sh sd s.threshold s.pk (node i) s.ad ht (by
      simpa [Setup.pk] using htn)).bind fun d hd => ?_
    obtain ⟨h1, h2⟩ := C54_honest_dealings_verify P sh op sd s.threshold s.sk (node i) s.ad d hsh hd
    rw [h1]
    refine (Goes.ok (Q := fun _ => True) trivial).bind fun _ _ => ?_
    refine (Goes.mapM' fun x hx => ?_).bind fun _ _ => ?_
    · obtain ⟨h3, h4⟩ := mem_receivers hn hx
      exact Goes.of_eq (h2 x.1 x.2 h3 h4) trivial
    · simp only [List.length_cons] at hlen
      refine (ih (by omega) (fun j sh' hj => ?_) (ho.pos rfl)).bind fun a ha => ?_
      · have := hm (j + 1) sh' (by simpa using hj)
        rwa [show i + 1 + j = i + (j + 1) by omega]
      · obtain ⟨ds', rng'⟩ := a
        obtain ⟨e0, e1, e2, e3⟩ := ha
        simp only at e0 e1 e2 e3
        simp only [if_neg hsk]
        refine Goes.ok ⟨e0, List.pairwise_cons.2 ⟨fun x hx => ?_, e1⟩, by simp [e2], fun x hx => ?_⟩
        · obtain ⟨j, sh', q, r, hj, hj', hxj, -⟩ := e3 x hx
          have hjr : j - (i + 1) < rest.length := by
            by_contra hc
            rw [List.getElem?_eq_none (by omega)] at hj'
            cases hj'
          simp only [hxj]
          rw [toInt_node (by omega), toInt_node (by omega)]
          omega
        · rcases List.mem_cons.1 hx with rfl | hx
          · obtain ⟨q, r, hqr⟩ := liveAll_new hn (hm 0 sh rfl) hd
            exact ⟨i, sh, q, r, le_rfl, by simp, rfl, hqr⟩
          · obtain ⟨j, sh', q, r, hj, hj', hxj, hrest⟩ := e3 x hx
            refine ⟨j, sh', q, r, by omega, ?_, hxj, hrest⟩
            rw [show j - i = (j - (i + 1)) + 1 by omega, List.getElem?_cons_succ]
            exact hj'

theorem thin_goes {V : Type} {bound : Int} (hb : 0 ≤ bound) (n : Nat) (rng : Rng) (m : List (NodeIndex × V)) (hlen : m.length = n) :
    ∃ m' rng', thin bound n rng m = .ok (m', rng') ∧ (bound ≤ n → (m'.length : Int) = bound) ∧ (n ≤ bound → m' = m) := by
  induction n generalizing rng m with
  | zero =>
    refine ⟨m, rng, by rw [thin, if_neg (by omega)], fun h => ?_, fun _ => rfl⟩
    omega
  | succ n ih =>
    rw [thin]
    by_cases h : ((n + 1 : Nat) : Int) > bound
    · rw [if_pos h]
      rcases hu : rng.uint32 with ⟨x, rng1⟩
      simp only
      have hx : x % (n + 1) < m.length := by rw [hlen]; exact Nat.mod_lt _ (by omega)
      obtain ⟨m', rng', h1, h2, -⟩ := ih rng1 (m.eraseIdx (x % (n + 1))) (by rw [List.length_eraseIdx_of_lt hx]; omega)
      exact ⟨m', rng', h1, fun _ => h2 (by omega), fun h' => by omega⟩
    · rw [if_neg h]
      exact ⟨m, rng, rfl, fun h' => by omega, fun _ => rfl⟩

theorem length_set_le {V : Type} (k : NodeIndex) (v : V) (m : List (NodeIndex × V)) :
    (OMap.set BitVec.toInt k v m).length ≤ m.length + 1 := by
  induction m with
  | nil => simp [OMap.set]
  | cons y ys ih =>
    obtain ⟨k', w⟩ := y
    rw [OMap.set]
    split_ifs <;> simp only [List.length_cons] <;> omega

theorem chooseLoop_le {all : List NodeIndex} {count : Nat} {rng rng' : Rng} {c c' : List (NodeIndex × Unit)}
    (h : chooseLoop all count rng c = some (c', rng')) : c.length ≤ count → c'.length ≤ count := by
  refine chooseLoop.partial_correctness all count (motive := fun _ c res => c.length ≤ count → res.1.length ≤ count) ?_
    rng c (c', rng') h
  intro f ih rng c res h hs
  simp only at h
  split_ifs at h with hc
  · split at h
    · exact ih _ _ _ h hs
    · refine ih _ _ _ h (le_trans (length_set_le _ _ _) hc)
  · cases h; exact hs

theorem choose_goes {bad : Prop} {P : Prim} {all : List NodeIndex} {count : Nat} (hne : count ≠ 0 → all ≠ [])
    (hcount : count ≤ all.length) (hnd : all.Nodup) (hall : all.length ≤ 2 ^ 32) {rng : Rng} (ho : OnStream P rng) :
    Goes (count ≠ 0 ∧ ¬ Fair P) bad (fun x => OnStream P x.2 ∧ choose all count rng = .ok x ∧ x.1.length ≤ count)
      (choose all count rng) := by
  rw [choose]
  by_cases h : count = 0
  · rw [if_pos h]; exact Goes.ok ⟨ho, rfl, by simp⟩
  · rw [if_neg h, if_neg (hne h)]
    split
    · rename_i hc
      refine Or.inr (Or.inl ⟨⟨h, fun hf => ?_⟩, rfl⟩)
      obtain ⟨x, hx⟩ := chooseLoop_fair hf hcount hnd hall ho []
      rw [hc] at hx
      cases hx
    · rename_i c rng' hc
      exact Goes.ok ⟨chooseLoop_onStream hc ho, rfl, by simpa using chooseLoop_le hc (by simp)⟩

/-! ### Damaging dealings -/

/-- The ciphertext with the entries of the targets changed. -/
def shift (targets : List NodeIndex) (a : Fn) : Cipher → Cipher
  | .single m => .single { m with ctexts := m.ctexts.mapIdx fun i c => if node i ∈ targets then c + a else c }
  | .pair m => .pair { m with ctexts := m.ctexts.mapIdx fun i c => if node i ∈ targets then (c.1 + a, c.2) else c }

theorem corrupt_eq {P : Prim} {d : Dealing} {ct : Cipher} {cm : Commitment} (h1 : d.ciphertext = some ct)
    (h2 : d.commitment = some cm) (targets : List NodeIndex) (sd : Seed) :
    corrupt P d targets sd = (Scalar.random (sd.rng P) >>= fun x => .ok ⟨some (shift targets x.1 ct), some cm, d.proof⟩) := by
  rw [corrupt, h2, h1, nonNil, Res.ok_bind]
  cases ct <;> rfl

theorem matched_shift {d : Dealing} {ct : Cipher} {cm : Commitment} (h : Matched d ct cm) (targets : List NodeIndex) (a : Fn) :
    Matched ⟨some (shift targets a ct), some cm, d.proof⟩ (shift targets a ct) cm := by
  refine ⟨rfl, rfl, h.2.2.1, ?_⟩
  rw [h.2.2.2]
  cases ct <;> rfl

theorem shift_ephemeral (targets : List NodeIndex) (a : Fn) (ct : Cipher) : (shift targets a ct).ephemeral = ct.ephemeral := by
  cases ct <;> rfl

theorem shift_pop (targets : List NodeIndex) (a : Fn) (ct : Cipher) (P : Prim) (ad : Bytes) (i : NodeIndex) :
    (shift targets a ct).popAccepted P ad i ↔ ct.popAccepted P ad i := by
  cases ct <;> exact Iff.rfl

theorem shift_size (targets : List NodeIndex) (a : Fn) (ct : Cipher) : (shift targets a ct).size = ct.size := by
  cases ct <;> simp [shift, Cipher.size]

theorem share_other {P : Prim} {ad : Bytes} {dealer : NodeIndex} {pk shared : Pt} {o : Opening} {ct : Cipher} {j : Nat}
    (hj : j < 2 ^ 63) {targets : List NodeIndex} (h : node j ∉ targets) (a : Fn)
    (ho : ShareUnder P ad dealer (node j) pk shared o ct) : ShareUnder P ad dealer (node j) pk shared o (shift targets a ct) := by
  have e : (node j).toInt.toNat = j := by rw [toInt_node hj]; rfl
  cases ct with
  | single m =>
    obtain ⟨c, x, h0, h1, h2, rfl⟩ := ho
    refine ⟨c, x, h0, ?_, h2, rfl⟩
    rw [e] at h1 ⊢
    simp [h1, h]
  | pair m =>
    obtain ⟨c, c', x, y, h0, h1, h2, rfl⟩ := ho
    refine ⟨c, c', x, y, h0, ?_, h2, rfl⟩
    rw [e] at h1 ⊢
    simp [h1, h]

theorem share_target {P : Prim} {ad : Bytes} {dealer : NodeIndex} {pk shared : Pt} {o : Opening} {ct : Cipher} {j : Nat}
    (hj : j < 2 ^ 63) {targets : List NodeIndex} (h : node j ∈ targets) {a : Fn} (ha : a ≠ 0) {cm : Commitment}
    (ho : ShareUnder P ad dealer (node j) pk shared o ct) (hop : Opens cm (node j) o) :
    ∃ o', ShareUnder P ad dealer (node j) pk shared o' (shift targets a ct) ∧ ¬ Opens cm (node j) o' := by
  have e : (node j).toInt.toNat = j := by rw [toInt_node hj]; rfl
  cases ct with
  | single m =>
    obtain ⟨c, x, h0, h1, h2, rfl⟩ := ho
    refine ⟨_, ⟨c + a, x, h0, ?_, h2, rfl⟩, fun hb => ?_⟩
    · rw [e] at h1 ⊢
      simp [h1, h]
    · have := hb.2.symm.trans hop.2
      have := smul_left_injective Fn G_ne_zero this
      exact ha (by linear_combination this)
  | pair m =>
    obtain ⟨c, c', x, y, h0, h1, h2, rfl⟩ := ho
    refine ⟨_, ⟨c + a, c', x, y, h0, ?_, h2, rfl⟩, fun hb => ?_⟩
    · rw [e] at h1 ⊢
      simp [h1, h]
    · have := add_right_cancel (hb.2.symm.trans hop.2)
      have := smul_left_injective Fn G_ne_zero this
      exact ha (by linear_combination this)

theorem mem_receivers_node {s : Setup} {x : NodeIndex × Fn} (h : x ∈ s.receivers) : ∃ j, j < s.sk.length ∧ x.1 = node j := by
  have : x.1 ∈ s.receivers.map Prod.fst := List.mem_map_of_mem h
  rw [receivers_fst] at this
  obtain ⟨j, hj, e⟩ := List.mem_map.1 this
  exact ⟨j, List.mem_range.1 hj, e.symm⟩

/-- Whether a recipient can open the damaged dealing. -/
theorem open_shift {P : Prim} {s : Setup} {k : Kind} {i : NodeIndex} {d : Dealing} {q r : List Fn} (hn : s.sk.length ≤ 2 ^ 63)
    (h : DealsAll P s k i d q r) {ct : Cipher} (hm : Matched d ct (commitTo k q r)) (targets : List NodeIndex)
    (a : Fn) {x : NodeIndex × Fn} (hx : x ∈ s.receivers) :
    (x.1 ∉ targets → ∃ o, openDealing P ⟨some (shift targets a ct), some (commitTo k q r), d.proof⟩ s.ad i x.1 x.2 (Point.mulByG x.2) = .ok o) ∧
    (x.1 ∈ targets → a ≠ 0 →
      (openDealing P ⟨some (shift targets a ct), some (commitTo k q r), d.proof⟩ s.ad i x.1 x.2 (Point.mulByG x.2)).isErr = true) ∧
    ((∃ o, openDealing P ⟨some (shift targets a ct), some (commitTo k q r), d.proof⟩ s.ad i x.1 x.2 (Point.mulByG x.2) = .ok o) ∨
      (openDealing P ⟨some (shift targets a ct), some (commitTo k q r), d.proof⟩ s.ad i x.1 x.2 (Point.mulByG x.2)).isErr = true) := by
  obtain ⟨j, hj, hxj⟩ := mem_receivers_node hx
  obtain ⟨h0, -⟩ := mem_receivers hn hx
  have hc := openDealing_cases P s.ad i x.2 (Point.mulByG x.2) (matched_shift hm targets a) h0
  have hg : GoodShare P s.ad i x.1 x.2 (Point.mulByG x.2) ct (commitTo k q r) := by
    rcases openDealing_cases P s.ad i x.2 (Point.mulByG x.2) hm h0 with ⟨-, h⟩ | ⟨h', -⟩
    · exact h
    · rw [h.all x hx] at h'; cases h'
  obtain ⟨hpop, o, ho, hop⟩ := hg
  refine ⟨fun hx => ?_, fun hx ha => ?_, hc.imp And.left And.left⟩
  · rcases hc with ⟨h, -⟩ | ⟨-, h⟩
    · exact h
    · refine absurd ⟨(shift_pop _ _ _ _ _ _).2 hpop, o, ?_, hop⟩ h
      rw [shift_ephemeral]
      rw [hxj] at ho hx ⊢
      exact share_other (by omega) hx a ho
  · rcases hc with ⟨-, h⟩ | ⟨h, -⟩
    · obtain ⟨-, o2, ho2, hop2⟩ := h
      rw [shift_ephemeral] at ho2
      rw [hxj] at ho hx hop ho2 hop2
      obtain ⟨o', h1, h2⟩ := share_target (by omega) hx ha ho hop
      rw [shareUnder_unique ho2 h1] at hop2
      exact absurd hop2 h2
    · exact h

theorem corrupt_goes {P : Prim} {s : Setup} {k : Kind} {i : NodeIndex} {d : Dealing} {q r : List Fn} (hn : s.sk.length ≤ 2 ^ 63)
    (h : LiveAll P s k i d q r) {targets : List NodeIndex} (ht : (targets.length : Int) ≤ s.threshold) (sd : Seed) :
    Goes (¬ Flows P) (ZeroScalar P) (fun bad => Live P s k i bad q r ∧
        Goes (¬ Flows P) (ZeroScalar P) (fun _ => True) (checkCorrupted P s bad i targets))
      (corrupt P d targets sd) := by
  obtain ⟨ct, hm, hpop, hsz⟩ := h.matched
  have hce := corrupt_eq (P := P) hm.1 hm.2.1 targets sd
  rw [hce]
  refine (scalar_goes (onStream_rng P sd)).bind fun x hx => Goes.ok ?_
  rw [hx, Res.ok_bind] at hce
  obtain ⟨a, rng⟩ := x
  simp only at hx hce ⊢
  have hd := corrupt_deals h.all hce
  constructor
  · refine ⟨hd, ⟨_, matched_shift hm _ _, (shift_pop _ _ _ _ _ _).2 hpop, by rw [shift_size, hsz]⟩, targets, ht, fun y hy hyt => ?_⟩
    obtain ⟨o, ho⟩ := (open_shift hn h.all hm targets a hy).1 hyt
    rw [ho, hd.sound y hy o ho]
  · rw [checkCorrupted]
    refine (Goes.mapM' fun y hy => ?_).bind fun _ _ => Goes.ok trivial
    obtain ⟨h1, h2, h3⟩ := open_shift hn h.all hm targets a hy
    rw [privateVerify_eq (matched_shift hm targets a)]
    rcases h3 with ⟨o, ho⟩ | he
    · rw [ho, Res.ok_bind]
      simp only
      split_ifs with hyt
      · by_cases ha : a = 0
        · subst ha
          exact Or.inr (Or.inr ⟨⟨sd, rng, hx⟩, rfl⟩)
        · have := h2 hyt ha
          rw [ho] at this
          cases this
      · exact Goes.ok trivial
    · obtain ⟨e, he⟩ := Res.isErr_iff.1 he
      rw [he, Res.err_bind]
      simp only
      split_ifs with hyt
      · exact Goes.ok trivial
      · obtain ⟨o, ho⟩ := h1 hyt
        rw [ho] at he
        cases he

theorem nodup_nodes {n : Nat} (hn : n ≤ 2 ^ 63) : ((List.range n).map node).Nodup := by
  refine List.Nodup.map_on ?_ List.nodup_range
  intro a ha b hb e
  rw [List.mem_range] at ha hb
  have := congrArg BitVec.toInt e
  rw [toInt_node (by omega), toInt_node (by omega)] at this
  exact_mod_cast this

theorem damageLoop_goes {P : Prim} {s : Setup} {k : Kind} (ht : 0 < s.threshold) (htn : s.threshold ≤ s.sk.length)
    (hn32 : s.sk.length ≤ 2 ^ 32) {q r : NodeIndex → List Fn} {damage : List NodeIndex} {rng : Rng} {ds : DealingMap}
    (hnd : damage.Nodup) (hmem : ∀ i ∈ damage, i ∈ ds.map Prod.fst) (hs : OMap.Sorted BitVec.toInt ds)
    (hd : ∀ x ∈ ds, Live P s k x.1 x.2 (q x.1) (r x.1))
    (ha : ∀ x ∈ ds, x.1 ∈ damage → LiveAll P s k x.1 x.2 (q x.1) (r x.1)) (ho : OnStream P rng) :
    Goes (damage ≠ [] ∧ (¬ Flows P ∨ ¬ Fair P)) (damage ≠ [] ∧ ZeroScalar P) (fun ds' => OMap.Sorted BitVec.toInt ds' ∧ ds'.map Prod.fst = ds.map Prod.fst ∧
      ∀ x ∈ ds', Live P s k x.1 x.2 (q x.1) (r x.1)) (damageLoop P s damage rng ds) := by
  have hn : s.sk.length ≤ 2 ^ 63 := by omega
  have hsk : s.sk ≠ [] := by
    intro e
    rw [e] at htn
    simp at htn
    omega
  induction damage generalizing rng ds with
  | nil => exact Goes.ok ⟨hs, rfl, hd⟩
  | cons i rest ih =>
    obtain ⟨hi, hn'⟩ := List.nodup_cons.1 hnd
    obtain ⟨⟨i', d⟩, hx, e⟩ := List.mem_map.1 (hmem i (by simp))
    simp only at e
    subst e
    refine Goes.imp (stuck := ¬ Flows P ∨ ¬ Fair P) (bad := ZeroScalar P) (fun h => ⟨by simp, h⟩) (fun h => ⟨by simp, h⟩)
      (fun _ _ h => h) ?_
    rw [damageLoop, OMap.get_of_mem hs hx, nonNil, Res.ok_bind]
    have ho1 := ho.uint32
    rcases hu : rng.uint32 with ⟨x, rng1⟩
    rw [hu] at ho1
    simp only at ho1 ⊢
    rw [if_neg (by omega)]
    have hlt := Int.tmod_lt_of_pos (x : Int) ht
    have hnn : 0 ≤ (x : Int).tmod s.threshold := Int.tmod_nonneg _ (by omega)
    refine (Goes.imp (fun h => Or.inr h.2) (fun h => h) (fun _ _ h => h) (choose_goes (bad := ZeroScalar P)
      (fun _ => by simpa using hsk) (by simp; omega) (nodup_nodes hn) (by simpa using hn32) ho1)).bind fun c hc => ?_
    obtain ⟨targets, rng2⟩ := c
    obtain ⟨ho2, hc⟩ := hc
    simp only at ho2 hc ⊢
    obtain ⟨sd, hsd, -⟩ := C22_seed_derivation.2.2.2.1 P rng2
    rw [hsd, Res.ok_bind]
    have hall := ha _ hx (by simp)
    refine (Goes.imp Or.inl (fun h => h) (fun _ _ h => h) (corrupt_goes hn hall (by omega) sd)).bind fun bad hbad =>
      (Goes.imp Or.inl (fun h => h) (fun _ _ h => h) hbad.2).bind fun _ _ => ?_
    have hset : (OMap.set BitVec.toInt i' bad ds).map Prod.fst = ds.map Prod.fst := set_map_fst hs hx
    refine Goes.imp And.right And.right (fun ds' _ h => ?_) (ih hn' (fun j hj => by
        rw [hset]; exact hmem j (List.mem_cons_of_mem _ hj)) (OMap.sorted_set _ _ hs) (fun y hy => ?_) (fun y hy hyr => ?_) (ho2.pos rfl))
    · rw [hset] at h; exact h
    · rcases OMap.mem_set hy with rfl | hy
      · exact hbad.1
      · exact hd y hy
    · rcases OMap.mem_set hy with rfl | hy
      · exact absurd hyr hi
      · exact ha y hy (List.mem_cons_of_mem _ hyr)

theorem createDealings_goes {P : Prim} {s : Setup} {op : Op} (ht : 0 < s.threshold) (htn : s.threshold ≤ s.sk.length)
    (hn : s.sk.length ≤ 2 ^ 32) {shares : List Shares} (hlen : shares.length ≤ 2 ^ 32)
    (hm : ∀ (j : Nat) (sh : Shares), shares[j]? = some sh → Matches (node j) sh op) {numberOfDealers corrupted : Nat}
    (h0 : 0 < numberOfDealers) (hle : numberOfDealers ≤ shares.length) (hcor : corrupted ≤ numberOfDealers) (seed : Seed) :
    Goes (¬ Flows P ∨ corrupted ≠ 0 ∧ ¬ Fair P) (corrupted ≠ 0 ∧ ZeroScalar P)
      (fun ds => ds.length = numberOfDealers ∧ ∃ q r : NodeIndex → List Fn,
        OMap.Sorted BitVec.toInt ds ∧ ∀ x ∈ ds, Live P s op.dealingKind x.1 x.2 (q x.1) (r x.1) ∧
          (corrupted = 0 → LiveAll P s op.dealingKind x.1 x.2 (q x.1) (r x.1)) ∧
          ∃ j sh, shares[j]? = some sh ∧ x.1 = node j ∧ ∀ a, sh.secret = some a → Poly.coeff (q x.1) 0 = a)
      (createDealings P s shares numberOfDealers corrupted op seed) := by
  rw [createDealings]
  refine (Goes.imp Or.inl False.elim (fun _ _ h => h) (dealLoop_goes ht htn (by omega) (i := 0) (by omega)
    (fun j sh hj => by rw [Nat.zero_add]; exact hm j sh hj) (onStream_rng P seed))).bind fun a h1 => ?_
  obtain ⟨ds1, rng1⟩ := a
  obtain ⟨o1, s1, l1, d1⟩ := h1
  simp only at o1 s1 l1 d1 ⊢
  obtain ⟨ds2, rng2, h2, l2, -⟩ := thin_goes (bound := numberOfDealers) (by omega) ds1.length rng1 ds1 rfl
  rw [h2, Res.ok_bind]
  simp only
  have l2 := l2 (by omega)
  obtain ⟨hsub, -⟩ := thin_spec rfl h2
  have s2 := sorted_of_sublist hsub s1
  have hne : ds2.map Prod.fst ≠ [] := by
    intro e
    rw [List.map_eq_nil_iff] at e
    rw [e] at l2
    simp at l2
    omega
  refine (Goes.imp Or.inr (fun h => h) (fun _ _ h => h) (choose_goes (bad := corrupted ≠ 0 ∧ ZeroScalar P) (fun _ => hne)
    (by rw [List.length_map]; omega) (OMap.nodup_keys s2) (by rw [List.length_map]; omega) (thin_onStream h2 o1))).bind fun c hc => ?_
  obtain ⟨damage, rng3⟩ := c
  obtain ⟨o3, hc1, hc2⟩ := hc
  obtain ⟨hnd, hmem⟩ := choose_spec hc1
  simp only at o3 hc2 ⊢
  have hex : ∀ i, ∃ q r : List Fn, ∀ d, (i, d) ∈ ds2 → LiveAll P s op.dealingKind i d q r ∧
      ∃ j sh, shares[j]? = some sh ∧ i = node j ∧ ∀ a, sh.secret = some a → Poly.coeff q 0 = a := by
    intro i
    by_cases hi : ∃ d, (i, d) ∈ ds2
    · obtain ⟨d, hd⟩ := hi
      obtain ⟨j, sh, q, r, -, e1, e2, e3, e4⟩ := d1 _ (hsub.subset hd)
      refine ⟨q, r, fun d' hd' => ?_⟩
      have : d = d' := by
        have e1 := OMap.get_of_mem s2 hd
        rw [OMap.get_of_mem s2 hd'] at e1
        simpa using e1.symm
      subst this
      exact ⟨e3, j, sh, by simpa using e1, e2, e4⟩
    · exact ⟨[], [], fun d hd => absurd ⟨d, hd⟩ hi⟩
  choose q r hqr using hex
  have hdam : damage ≠ [] → corrupted ≠ 0 := by
    rintro h rfl
    exact h (List.length_eq_zero_iff.1 (by omega))
  refine Goes.imp (stuck := damage ≠ [] ∧ (¬ Flows P ∨ ¬ Fair P)) (bad := damage ≠ [] ∧ ZeroScalar P)
    (fun h => h.2.imp (fun h => h) fun h' => ⟨hdam h.1, h'⟩) (fun h => ⟨hdam h.1, h.2⟩) (fun ds' hds' h => ?_)
    (damageLoop_goes (q := q) (r := r) (k := op.dealingKind) ht htn hn hnd hmem s2 (fun x hx => ((hqr x.1 x.2 hx).1).live ht.le)
      (fun x hx _ => (hqr x.1 x.2 hx).1) o3)
  · obtain ⟨s3, k3, d3⟩ := h
    refine ⟨?_, q, r, s3, fun x hx => ⟨d3 x hx, fun h0 => ?_, ?_⟩⟩
    · have := congrArg List.length k3
      rw [List.length_map, List.length_map] at this
      omega
    · have hnil : damage = [] := List.length_eq_zero_iff.1 (by omega)
      rw [hnil, damageLoop] at hds'
      cases hds'
      exact (hqr x.1 x.2 hx).1
    · have : x.1 ∈ ds2.map Prod.fst := by rw [← k3]; exact List.mem_map_of_mem hx
      obtain ⟨y, hy, e⟩ := List.mem_map.1 this
      have := (hqr y.1 y.2 hy).2
      rwa [e] at this

/-! ### Opening -/

/-- A recipient can open a dealing or gets an error. -/
theorem Live.cases {P : Prim} {s : Setup} {k : Kind} {i : NodeIndex} {d : Dealing} {q r : List Fn} (hn : s.sk.length ≤ 2 ^ 63)
    (h : Live P s k i d q r) {x : NodeIndex × Fn} (hx : x ∈ s.receivers) :
    openDealing P d s.ad i x.1 x.2 (Point.mulByG x.2) = .ok (valueOf k q r x.1) ∨
    (openDealing P d s.ad i x.1 x.2 (Point.mulByG x.2)).isErr = true := by
  obtain ⟨ct, hm, -⟩ := h.matched
  obtain ⟨h0, -⟩ := mem_receivers hn hx
  rcases openDealing_cases P s.ad i x.2 (Point.mulByG x.2) hm h0 with ⟨⟨o, ho⟩, -⟩ | ⟨h', -⟩
  · left; rw [ho, h.deals.sound x hx o ho]
  · exact Or.inr h'

theorem openersLoop_goes {P : Prim} {s : Setup} {k : Kind} {i : NodeIndex} {d : Dealing} {q r : List Fn}
    (hn : s.sk.length ≤ 2 ^ 63) (h : Live P s k i d q r) (receiver : NodeIndex) {l : List (NodeIndex × Fn)}
    (hl : ∀ x ∈ l, x ∈ s.receivers) :
    ∃ os, openersLoop P s d i receiver l = .ok os ∧ ∀ x ∈ l, x.1 ≠ receiver →
      (∃ o, openDealing P d s.ad i x.1 x.2 (Point.mulByG x.2) = .ok o) → x.1 ∈ os.map Prod.fst := by
  induction l with
  | nil => exact ⟨[], rfl, by simp⟩
  | cons x rest ih =>
    obtain ⟨opener, kk⟩ := x
    obtain ⟨os, hos, hmem⟩ := ih fun x hx => hl x (List.mem_cons_of_mem _ hx)
    have hx := hl (opener, kk) (by simp)
    obtain ⟨ct, hm, -⟩ := h.matched
    rw [openersLoop]
    by_cases hr : opener = receiver
    · rw [if_pos hr]
      refine ⟨os, hos, fun x hx hne ho => ?_⟩
      rcases List.mem_cons.1 hx with rfl | hx
      · exact absurd hr hne
      · exact hmem x hx hne ho
    · rw [if_neg hr, privateVerify_eq hm]
      rcases h.cases hn hx with ho | he
      · simp only at ho
        have hop := openDealing_ok h.deals.com ho
        rw [ho, Res.ok_bind]
        simp only [orPanic, Res.ok_bind, h.deals.com, nonNil, checkOpening_opens hop.1 hop.2, hos, if_true]
        refine ⟨_, rfl, fun x hx hne ho => ?_⟩
        rcases List.mem_cons.1 hx with rfl | hx
        · simp
        · exact List.mem_cons_of_mem _ (hmem x hx hne ho)
      · obtain ⟨e, he⟩ := Res.isErr_iff.1 he
        simp only at he
        rw [he, Res.err_bind]
        refine ⟨os, hos, fun x hx hne ho => ?_⟩
        rcases List.mem_cons.1 hx with rfl | hx
        · obtain ⟨o, ho⟩ := ho
          simp only [he] at ho
          cases ho
        · exact hmem x hx hne ho

theorem openers_enough {P : Prim} {s : Setup} {k : Kind} {i : NodeIndex} {d : Dealing} {q r : List Fn}
    (hn : s.sk.length ≤ 2 ^ 63) (h : Live P s k i d q r) {x : NodeIndex × Fn} (hx : x ∈ s.receivers)
    (he : (openDealing P d s.ad i x.1 x.2 (Point.mulByG x.2)).isErr = true) :
    ∃ os, openersLoop P s d i x.1 s.receivers = .ok os ∧ (s.sk.length : Int) - s.threshold ≤ os.length := by
  obtain ⟨os, hos, hmem⟩ := openersLoop_goes hn h x.1 (l := s.receivers) fun _ h => h
  refine ⟨os, hos, ?_⟩
  obtain ⟨targets, hlen, hall⟩ := h.few
  have hxt : x.1 ∈ targets := by
    by_contra hc
    rw [hall x hx hc] at he
    cases he
  have hsub : ∀ j ∈ s.receivers.map Prod.fst, j ∈ targets ++ os.map Prod.fst := by
    intro j hj
    obtain ⟨y, hy, rfl⟩ := List.mem_map.1 hj
    by_cases hyt : y.1 ∈ targets
    · exact List.mem_append_left _ hyt
    · exact List.mem_append_right _ (hmem y hy (fun e => hyt (e ▸ hxt)) ⟨_, hall y hy hyt⟩)
  have := ((receivers_nodup hn).subperm hsub).length_le
  rw [receivers_fst] at this
  simp only [List.length_map, List.length_range, List.length_append] at this
  omega

/-- The complaints of a receiver are accepted, and enough openings are provided. -/
theorem complaintLoop_goes {P : Prim} {s : Setup} {k : Kind} {ds : DealingMap} {q r : NodeIndex → List Fn}
    (ht : 0 < s.threshold) (h2t : 2 * s.threshold ≤ s.sk.length) (hn : s.sk.length ≤ 2 ^ 63) (hs : OMap.Sorted BitVec.toInt ds)
    (hd : ∀ y ∈ ds, Live P s k y.1 y.2 (q y.1) (r y.1)) {x : NodeIndex × Fn} (hx : x ∈ s.receivers)
    {cs : List (NodeIndex × Complaint)} (hc : ∀ y ∈ cs, ∃ d sd, (y.1, d) ∈ ds ∧
      (openDealing P d s.ad y.1 x.1 x.2 (Point.mulByG x.2)).isErr = true ∧
      newComplaint P sd d y.1 x.1 x.2 (Point.mulByG x.2) s.ad = .ok y.2) (rng : Rng) :
    ∃ provided rng', complaintLoop P s ds x.1 (Point.mulByG x.2) cs rng = .ok (provided, rng') ∧
      provided.map Prod.fst = cs.map Prod.fst ∧ ∀ y ∈ provided, (y.2.length : Int) = s.threshold := by
  induction cs generalizing rng with
  | nil => exact ⟨[], rng, rfl, rfl, by simp⟩
  | cons c rest ih =>
    obtain ⟨dealer, c⟩ := c
    obtain ⟨d, sd, hd1, he, hnew⟩ := hc (dealer, c) (by simp)
    simp only at hd1 he hnew
    have hlive := hd _ hd1
    simp only at hlive
    obtain ⟨ct, hm, hpop, hsz⟩ := hlive.matched
    obtain ⟨h0, hlt⟩ := mem_receivers hn hx
    have hlt' := (List.getElem?_eq_some_iff.1 hlt).1
    have hbad : ¬ GoodShare P s.ad dealer x.1 x.2 (Point.mulByG x.2) ct (commitTo k (q dealer) (r dealer)) := by
      rcases openDealing_cases P s.ad dealer x.2 (Point.mulByG x.2) hm h0 with ⟨⟨o, ho⟩, -⟩ | ⟨-, h'⟩
      · rw [ho] at he; cases he
      · exact h'
    have hv : verify P c d dealer x.1 (Point.mulByG x.2) s.ad = .ok () :=
      C66_justified_accepted P sd d ct _ hm dealer x.1 h0 (by omega) x.2 s.ad c hpop hbad hnew
    obtain ⟨os, hos, hlen⟩ := openers_enough hn hlive hx he
    obtain ⟨os', rng1, hthin, hl', -⟩ := thin_goes ht.le os.length rng os rfl
    obtain ⟨provided, rng2, hp, hk, hall⟩ := ih (fun y hy => hc y (List.mem_cons_of_mem _ hy)) rng1
    rw [complaintLoop, OMap.get_of_mem hs hd1]
    simp only
    rw [hv, Res.ok_bind, hos, Res.ok_bind, hthin, Res.ok_bind]
    simp only
    rw [hp, Res.ok_bind]
    refine ⟨_, _, rfl, by simp [hk], fun y hy => ?_⟩
    rcases List.mem_cons.1 hy with rfl | hy
    · exact hl' (by omega)
    · exact hall y hy

theorem Provided.reconstruct {P : Prim} {s : Setup} {k : Kind} {i : NodeIndex} {d : Dealing} {q r : List Fn} {os : OpeningMap}
    (hd : Deals P s k i d q r) (ht : 0 < s.threshold) (hp : Provided P s i d os) (hlen : (os.length : Int) = s.threshold)
    (j : NodeIndex) : reconstructShare d os j = .ok (valueOf k q r j) := by
  obtain ⟨hq, hr⟩ := hd.ne_nil ht
  have hos : os = (os.map Prod.fst).map fun y => (y, valueOf k q r y) := by
    rw [List.map_map]
    conv_lhs => rw [← List.map_id os]
    refine List.map_congr_left fun y hy => ?_
    obtain ⟨k', h1, h2⟩ := hp.2 y hy
    have := hd.sound _ h1 _ h2
    simp only [Function.comp_apply, id]
    rw [← this]
  have hcl : (commitTo k q r).points.length = q.length := commitTo_length rfl hr
  have hlq := hd.lenq
  obtain ⟨res, h1, -⟩ := C64_reconstruction d _ hd.com (by
      intro e; rw [e] at hcl; simp at hcl; exact hq (List.length_eq_zero_iff.1 hcl.symm))
    (os.map Prod.fst) (valueOf k q r) hp.1 (by rw [hcl, List.length_map]; omega)
    (fun y _ => opens_valueOf k hq hr y) j
  rw [← hos] at h1
  rw [h1, reconstruct_value hd ht hp h1]

theorem mapM_ok_or_err {α β : Type} {f : α → Res β} {g : α → β} {l : List α} (h : ∀ a ∈ l, f a = .ok (g a) ∨ (f a).isErr = true) :
    Res.mapM' f l = .ok (l.map g) ∨ ((Res.mapM' f l).isErr = true ∧ ∃ a ∈ l, (f a).isErr = true) := by
  induction l with
  | nil => exact Or.inl rfl
  | cons a l ih =>
    rw [Res.mapM']
    rcases h a (by simp) with h1 | h1
    · rw [h1, Res.ok_bind]
      rcases ih fun a ha => h a (List.mem_cons_of_mem _ ha) with h2 | ⟨h2, b, hb, h3⟩
      · rw [h2]; exact Or.inl rfl
      · obtain ⟨e, he⟩ := Res.isErr_iff.1 h2
        rw [he]
        exact Or.inr ⟨rfl, b, List.mem_cons_of_mem _ hb, h3⟩
    · obtain ⟨e, he⟩ := Res.isErr_iff.1 h1
      rw [he]
      exact Or.inr ⟨rfl, a, by simp, by rw [he]; rfl⟩

theorem openLoop_goes {P : Prim} {s : Setup} {op : Op} {ds : DealingMap} {q r : NodeIndex → List Fn} {w : NodeIndex → Fn}
    {T : Com} {seed : Seed} {l : List (NodeIndex × Fn)} {rng : Rng} (ht : 0 < s.threshold) 
    (hn : s.sk.length ≤ 2 ^ 63) (hsort : OMap.Sorted BitVec.toInt ds)
    (hs : Shape s.threshold ds (fun i => commitTo op.dealingKind (q i) (r i)) op T w)
    (hd : ∀ x ∈ ds, Live P s op.dealingKind x.1 x.2 (q x.1) (r x.1)) (hl : ∀ x ∈ l, x ∈ s.receivers)
    (h2t : 2 * s.threshold ≤ s.sk.length ∨ ∀ x ∈ ds, LiveAll P s op.dealingKind x.1 x.2 (q x.1) (r x.1)) :
    Goes (¬ Flows P) False (fun _ => True) (openLoop P s ds (some T) seed l rng) := by
  induction l generalizing rng with
  | nil => exact Goes.ok trivial
  | cons x rest ih =>
    obtain ⟨receiver, k⟩ := x
    have hx := hl (receiver, k) (by simp)
    have hcomb := (combine_values ht hs (fun x hx => ⟨(hd x hx).deals.lenq, (hd x hx).deals.lenr⟩) receiver).2
    have hrest := fun rng => ih (rng := rng) fun x hx => hl x (List.mem_cons_of_mem _ hx)
    rw [openLoop]
    have hop : ∀ y ∈ ds, openDealing P y.2 s.ad y.1 receiver k (Point.mulByG k) = .ok (valueOf op.dealingKind (q y.1) (r y.1) receiver) ∨
        (openDealing P y.2 s.ad y.1 receiver k (Point.mulByG k)).isErr = true := fun y hy =>
      Live.cases (x := (receiver, k)) hn (hd y hy) hx
    rcases mapM_ok_or_err (f := fun x : NodeIndex × Dealing => openDealing P x.2 s.ad x.1 receiver k (Point.mulByG k))
      (g := fun x => valueOf op.dealingKind (q x.1) (r x.1) receiver) (l := ds) hop with h1 | ⟨h1, y, hy, hye⟩
    · rw [fromDealings, h1, Res.ok_bind, hcomb]
      exact (hrest rng).bind fun _ _ => Goes.ok trivial
    · obtain ⟨e, he⟩ := Res.isErr_iff.1 h1
      rw [fromDealings, he, Res.err_bind]
      simp only
      have h2t : 2 * s.threshold ≤ s.sk.length := by
        rcases h2t with h | h
        · exact h
        · rw [(h y hy).all.all (receiver, k) hx] at hye
          cases hye
      obtain ⟨cs, hcs, -⟩ := C22_seed_derivation.2.2.1 P seed (ascii "complaint-" ++ decimal receiver.toNat)
      rw [hcs, Res.ok_bind]
      obtain ⟨h0, -⟩ := mem_receivers hn hx
      have hex : ∀ i, ∃ ct, ∀ d, (i, d) ∈ ds → Matched d ct (commitTo op.dealingKind (q i) (r i)) := by
        intro i
        by_cases hi : ∃ d, (i, d) ∈ ds
        · obtain ⟨d, hdi⟩ := hi
          obtain ⟨ct, hm, -⟩ := (hd _ hdi).matched
          refine ⟨ct, fun d' hd' => ?_⟩
          have : d = d' := by
            have e1 := OMap.get_of_mem hsort hdi
            rw [OMap.get_of_mem hsort hd'] at e1
            simpa using e1.symm
          subst this
          exact hm
        · exact ⟨.single ⟨0, 0, ⟨0, 0⟩, []⟩, fun d hd => absurd ⟨d, hd⟩ hi⟩
      choose ct hct using hex
      obtain ⟨c1, c2, c3, c6⟩ := C65_exactly_bad_partial P ds s.ad receiver k (Point.mulByG k) cs hsort ct
        (fun i => commitTo op.dealingKind (q i) (r i)) (fun x hx => hct x.1 x.2 hx) h0
      have hcases := fun x (hx : x ∈ ds) => openDealing_cases P s.ad x.1 k (Point.mulByG k) (hct x.1 x.2 hx) h0
      rcases hg : generateComplaints P ds s.ad receiver k (Point.mulByG k) cs with complaints | e | e | _
      · obtain ⟨-, c4, c5⟩ := c3 complaints hg
        rw [Res.ok_bind]
        obtain ⟨provided, rng1, hp, hkeys, hplen⟩ := complaintLoop_goes ht h2t hn hsort hd hx (cs := complaints) (fun y hy => by
          obtain ⟨-, d, sd, h3, -, h4⟩ := c5 y.1 y.2 hy
          obtain ⟨d', h5, h6⟩ := (c4 y.1).1 ⟨y.2, hy⟩
          refine ⟨d, sd, h3, ?_, h4⟩
          rcases hcases _ h3 with ⟨-, h7⟩ | ⟨h7, -⟩
          · exact absurd h7 h6
          · exact h7) rng
        simp only at hp
        rw [hp, Res.ok_bind]
        simp only
        rw [fromDealingsAndOpenings, Res.mapM'_ok (g := fun x => valueOf op.dealingKind (q x.1) (r x.1) receiver), Res.ok_bind, hcomb]
        · exact (hrest rng1).bind fun _ _ => Goes.ok trivial
        · intro z hz
          split
          · rename_i shares hsh
            obtain ⟨k', e1, e2⟩ := OMap.mem_of_get hsh
            obtain ⟨d, e3, e4⟩ := complaintLoop_spec hn hp _ e2
            cases BitVec.eq_of_toInt_eq e1
            rw [OMap.get_of_mem hsort (k := z.1) (v := z.2) hz] at e3
            cases e3
            exact e4.reconstruct (hd z hz).deals ht (hplen _ e2) receiver
          · rename_i hnone
            rw [OMap.get_eq_none_iff] at hnone
            rcases (hd z hz).cases hn hx with h3 | h3
            · exact h3
            · exfalso
              have hbad : ¬ GoodShare P s.ad z.1 receiver k (Point.mulByG k) (ct z.1) (commitTo op.dealingKind (q z.1) (r z.1)) := by
                rcases hcases z hz with ⟨⟨o, ho⟩, -⟩ | ⟨-, h4⟩
                · simp only [ho] at h3; cases h3
                · exact h4
              obtain ⟨c, hc⟩ := (c4 z.1).2 ⟨z.2, hz, hbad⟩
              have : z.1 ∈ provided.map Prod.fst := by rw [hkeys]; exact List.mem_map_of_mem hc
              obtain ⟨y, hy, e⟩ := List.mem_map.1 this
              exact hnone y hy (by rw [e])
      · exfalso
        rw [hg] at c2
        have := c2.2 rfl y hy
        rcases hcases y hy with ⟨⟨o, ho⟩, -⟩ | ⟨-, h4⟩
        · rw [ho] at hye; cases hye
        · exact h4 this
      · rw [hg] at c1; cases c1
      · refine Or.inr (Or.inl ⟨fun hf => ?_, rfl⟩)
        obtain ⟨cs', hcs'⟩ := c6 (fun x _ sd _ => by
          obtain ⟨y, r', h1, -⟩ := random_flows hf (onStream_rng P sd)
          exact ⟨y, r', h1⟩) ⟨y, hy, by
          rcases hcases y hy with ⟨⟨o, ho⟩, -⟩ | ⟨-, h4⟩
          · rw [ho] at hye; cases hye
          · exact h4⟩
        rw [hg] at hcs'
        cases hcs'

/-- A round goes through, provided that the transcript can be made from the dealings. -/
theorem make_goes {P : Prim} {cbor : Commitment → Res Bytes} {s : Setup} {shares : List Shares} {op : Op}
    {numberOfDealers corrupted : Nat} (ht : 0 < s.threshold) (htn : s.threshold ≤ s.sk.length) (hn : s.sk.length ≤ 2 ^ 32)
    (hlen : shares.length ≤ 2 ^ 32) (hm : ∀ (j : Nat) (sh : Shares), shares[j]? = some sh → Matches (node j) sh op)
    (h0 : 0 < numberOfDealers) (hle : numberOfDealers ≤ shares.length) (hcor : corrupted ≤ numberOfDealers) (hcbor : ∀ c : Commitment, c.points ≠ [] → ∃ b, cbor c = .ok b)
    (h2t : corrupted = 0 ∨ 2 * s.threshold ≤ s.sk.length)
    (hT : ∀ (ds : DealingMap) (q r : NodeIndex → List Fn), OMap.Sorted BitVec.toInt ds → ds.length = numberOfDealers →
      Commits ds (fun i => commitTo op.dealingKind (q i) (r i)) →
      (∀ x ∈ ds, ((q x.1).length : Int) = s.threshold ∧ (r x.1).length = (q x.1).length) →
      (∀ x ∈ ds, ∃ j sh, shares[j]? = some sh ∧ x.1 = node j ∧ ∀ a, sh.secret = some a → Poly.coeff (q x.1) 0 = a) →
      ∃ T, newTranscript s.threshold ds op = .ok (some T)) :
    GoesThrough P corrupted (Round.make P cbor s shares op numberOfDealers corrupted) := by
  suffices h : Goes (¬ Flows P ∨ corrupted ≠ 0 ∧ ¬ Fair P) (corrupted ≠ 0 ∧ ZeroScalar P) (fun _ => True)
      (Round.make P cbor s shares op numberOfDealers corrupted) from
    Or.imp_left (fun ⟨a, ha, _⟩ => ⟨a, ha⟩) h
  rw [Round.make, Setup.nextDealingSeed]
  obtain ⟨sd, hsd, -⟩ := C22_seed_derivation.2.2.1 P s.seed (ascii "ic-crypto-tecdsa-round-" ++ decimal s.round)
  rw [hsd, Res.ok_bind, Res.ok_bind]
  simp only
  refine (createDealings_goes (s := { s with round := s.round + 1 }) ht htn hn hlen hm h0 hle hcor sd).bind fun ds hds => ?_
  obtain ⟨hl, q, r, hsort, hd⟩ := hds
  have hcom : Commits ds (fun i => commitTo op.dealingKind (q i) (r i)) := fun x hx => (hd x hx).1.deals.com
  obtain ⟨T, hnew⟩ := hT ds q r hsort hl hcom (fun x hx => by
      have h1 := (hd x hx).1.deals.lenq
      have h2 := (hd x hx).1.deals.lenr
      simp only at h1 h2
      exact ⟨h1, by omega⟩) fun x hx => (hd x hx).2.2
  rw [hnew, Res.ok_bind, openDealings]
  obtain ⟨w, hw⟩ := newTranscript_shape hcom (OMap.nodup_keys hsort) hnew
  have hne : T.c.points ≠ [] := by
    intro e
    have h1 := length_linCombPts w (ds.map Prod.fst) (fun i => (commitTo op.dealingKind (q i) (r i)).points) s.threshold.toNat
    rw [hw.com] at e
    simp only at e
    rw [e] at h1
    simp at h1
    omega
  obtain ⟨b, hb⟩ := hcbor T.c hne
  obtain ⟨sd1, hsd1, -⟩ := C22_seed_derivation.2.1 P b
  obtain ⟨sd2, hsd2, -⟩ := C22_seed_derivation.2.2.1 P sd1 (ascii "rng")
  simp only [nonNil, Res.ok_bind, hb, hsd1, hsd2]
  refine (Goes.imp Or.inl False.elim (fun _ _ h => h) (openLoop_goes (s := { s with round := s.round + 1 }) ht
    (show s.sk.length ≤ 2 ^ 63 by omega) hsort hw
    (fun x hx => (hd x hx).1) (fun x hx => hx) ?_)).bind fun _ _ => Goes.ok trivial
  rcases h2t with h | h
  · exact Or.inr fun x hx => (hd x hx).2.1 h
  · exact Or.inl h

end Verif.Protocol
