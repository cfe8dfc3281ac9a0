import Verif.Model.Protocol
import Verif.Props.Transcript
import Verif.Props.Complaints

/-! Lemmas about the protocol driver. -/

set_option autoImplicit false

open Polynomial

namespace Verif.Protocol

open Mega Dealings Complaints Sign

/-! ### What an honest dealing contains -/

/-- The commitment to a polynomial, or to a pair. -/
noncomputable def commitTo (k : Kind) (q r : List Fn) : Commitment :=
  match k with
  | .simple => ⟨.simple, q.map Point.mulByG⟩
  | .pedersen => ⟨.pedersen, List.zipWith Point.pedersen q r⟩

/-- Its opening at a node. -/
noncomputable def valueOf (k : Kind) (q r : List Fn) (j : NodeIndex) : Opening :=
  match k with
  | .simple => .simple ((toPoly q).eval (place j))
  | .pedersen => .pedersen ((toPoly q).eval (place j)) ((toPoly r).eval (place j))

theorem commitTo_kind (k : Kind) (q r : List Fn) : (commitTo k q r).kind = k := by cases k <;> rfl

theorem commitTo_length {k : Kind} {q r : List Fn} {t : Nat} (hq : q.length = t) (hr : r.length = t) :
    (commitTo k q r).points.length = t := by cases k <;> simp [commitTo, hq, hr]

/-- The dealing of `i` commits to `q` (and `r`), and whatever a recipient manages to open is the value there. -/
structure Deals (P : Prim) (s : Setup) (k : Kind) (i : NodeIndex) (d : Dealing) (q r : List Fn) : Prop where
  lenq : (q.length : Int) = s.threshold
  lenr : (r.length : Int) = s.threshold
  com : d.commitment = some (commitTo k q r)
  sound : ∀ x ∈ s.receivers, ∀ o, openDealing P d s.ad i x.1 x.2 (Point.mulByG x.2) = .ok o → o = valueOf k q r x.1

/-- Every recipient can open it. -/
structure DealsAll (P : Prim) (s : Setup) (k : Kind) (i : NodeIndex) (d : Dealing) (q r : List Fn) : Prop where
  lenq : (q.length : Int) = s.threshold
  lenr : (r.length : Int) = s.threshold
  com : d.commitment = some (commitTo k q r)
  all : ∀ x ∈ s.receivers, openDealing P d s.ad i x.1 x.2 (Point.mulByG x.2) = .ok (valueOf k q r x.1)

theorem DealsAll.deals {P : Prim} {s : Setup} {k : Kind} {i : NodeIndex} {d : Dealing} {q r : List Fn}
    (h : DealsAll P s k i d q r) : Deals P s k i d q r :=
  ⟨h.lenq, h.lenr, h.com, fun x hx o ho => by rw [h.all x hx] at ho; cases ho; rfl⟩

theorem toInt_node {i : Nat} (h : i < 2 ^ 63) : (node i).toInt = i := by
  rw [node, BitVec.toInt_eq_toNat_cond, BitVec.toNat_ofNat]
  split_ifs <;> omega

theorem mem_receivers {s : Setup} {x : NodeIndex × Fn} (hn : s.sk.length ≤ 2 ^ 63) (h : x ∈ s.receivers) :
    0 ≤ x.1.toInt ∧ s.sk[x.1.toInt.toNat]? = some x.2 := by
  obtain ⟨⟨k, i⟩, hy, rfl⟩ := List.mem_map.1 h
  have h1 := List.mem_zipIdx' hy
  simp only
  rw [toInt_node (by omega)]
  refine ⟨by omega, ?_⟩
  rw [Int.toNat_natCast, List.getElem?_eq_getElem h1.1, ← h1.2]

theorem dealsAll_new {P : Prim} {s : Setup} {sh : Shares} {sd : Seed} {i : NodeIndex} {d : Dealing} {k : Kind}
    (hn : s.sk.length ≤ 2 ^ 63) (hs : sh ≠ .other) (hh : sh.hidden = decide (k = .pedersen))
    (h : Dealings.new P sh sd s.threshold s.pk i s.ad = .ok d) :
    ∃ q r, DealsAll P s k i d q r ∧ ∀ a, sh.secret = some a → Poly.coeff q 0 = a := by
  obtain ⟨q, r, hqr⟩ := honest_dealings (dealers := [i]) (d := fun _ => d) (sh := fun _ => sh) (seed := fun _ => sd)
    (P := P) (t := s.threshold) (keys := s.sk) (ad := s.ad) (decide (k = .pedersen)) (fun _ _ => hs) (fun _ _ => hh)
    (fun j hj => by
      rw [List.mem_singleton] at hj
      rw [hj]; exact h)
  obtain ⟨h1, h2, h3, h4, h5⟩ := hqr i (by simp)
  refine ⟨q i, r i, ⟨h1, h2, ?_, fun x hx => ?_⟩, h3⟩
  · rw [h4]; cases k <;> simp [commitTo]
  · obtain ⟨h6, h7⟩ := mem_receivers hn hx
    have := h5 x.1 x.2 h6 h7
    cases k <;> simpa [valueOf, Point.mulByG] using this

/-! ### Damaged dealings -/

theorem index_mapIdx {α β : Type} {f : Nat → α → β} {l : List α} {i : Int} {b : β} (h : index (l.mapIdx f) i = .ok b) :
    ∃ a, index l i = .ok a ∧ b = f i.toNat a := by
  rw [index] at h
  split_ifs at h with h0
  rw [List.getElem?_mapIdx] at h
  rcases hl : l[i.toNat]? with _ | a
  · rw [hl] at h; cases h
  · rw [hl] at h
    refine ⟨a, by rw [index, if_neg h0, hl], ?_⟩
    simp only [Option.map_some] at h
    cases h; rfl

/-- Changing the first components of a pair ciphertext cannot make a recipient accept another value. -/
theorem pair_changed {P : Prim} {m : Ciphertext (Fn × Fn)} {cm : Commitment} {ad : Bytes} {dealer j : NodeIndex} {k : Fn}
    {pk : Pt} {g : Nat → Fn × Fn → Fn} {o o' : Opening} (h : Pair.decryptAndCheck P m cm ad dealer j k pk = .ok o)
    (h' : Pair.decryptAndCheck P { m with ctexts := m.ctexts.mapIdx fun i c => (g i c, c.2) } cm ad dealer j k pk = .ok o') :
    o' = o := by
  obtain ⟨v, w, rfl, hk, hd, hQ⟩ := ((C79_decrypt_and_check P cm ad dealer j k pk o).2 m).1 h
  obtain ⟨v', w', rfl, -, hd', hQ'⟩ := ((C79_decrypt_and_check P cm ad dealer j k pk o').2 _).1 h'
  rw [Pair.decrypt] at hd hd'
  obtain ⟨⟨⟩, -, hd⟩ := Res.bind_eq_ok.1 hd
  obtain ⟨⟨⟩, -, hd'⟩ := Res.bind_eq_ok.1 hd'
  rw [Pair.decryptFromSharedSecret] at hd hd'
  split_ifs at hd with hl
  split_ifs at hd' with hl'
  obtain ⟨hm, h1, hd⟩ := Res.bind_eq_ok.1 hd
  obtain ⟨hm', h1', hd'⟩ := Res.bind_eq_ok.1 hd'
  simp only at h1'
  rw [h1] at h1'
  cases h1'
  obtain ⟨c, h2, hd⟩ := Res.bind_eq_ok.1 hd
  obtain ⟨c', h2', hd'⟩ := Res.bind_eq_ok.1 hd'
  obtain ⟨a, h3, rfl⟩ := index_mapIdx h2'
  rw [h2] at h3
  cases h3
  obtain ⟨p0, h4, hd⟩ := Res.bind_eq_ok.1 hd
  obtain ⟨p0', h4', hd'⟩ := Res.bind_eq_ok.1 hd'
  obtain ⟨p1, h5, hd⟩ := Res.bind_eq_ok.1 hd
  obtain ⟨p1', h5', hd'⟩ := Res.bind_eq_ok.1 hd'
  rw [h5] at h5'
  cases h5'
  have e1 : w' = w := by
    cases hd; cases hd'; rfl
  subst e1
  rw [hQ] at hQ'
  have e2 : Point.pedersen v w' = Point.pedersen v' w' := Res.ok.inj hQ'
  rw [Commitment.pedersen_eq, Commitment.pedersen_eq, add_left_inj] at e2
  rw [smul_left_injective Fn G_ne_zero e2]

/-- A damaged copy of an honest dealing: whoever can open it gets the value dealt. -/
theorem corrupt_deals {P : Prim} {s : Setup} {k : Kind} {i : NodeIndex} {d bad : Dealing} {q r : List Fn}
    {targets : List NodeIndex} {sd : Seed} (h : DealsAll P s k i d q r) (hb : corrupt P d targets sd = .ok bad) :
    Deals P s k i bad q r := by
  rw [corrupt] at hb
  obtain ⟨cm, hcm, hb⟩ := Res.bind_eq_ok.1 hb
  obtain ⟨⟨a, rng⟩, -, hb⟩ := Res.bind_eq_ok.1 hb
  simp only at hb
  cases hb
  refine ⟨h.lenq, h.lenr, h.com, fun x hx o ho => ?_⟩
  have ho1 := h.all x hx
  cases k with
  | simple =>
    have e1 := (openDealing_ok h.com ho1).2
    have e2 : Opens (commitTo .simple q r) x.1 o := (openDealing_ok (by exact h.com) ho).2
    obtain ⟨e3, e4⟩ := opens_simple e1 rfl
    obtain ⟨e5, e6⟩ := opens_simple e2 rfl
    rw [e3, e5, smul_left_injective Fn G_ne_zero (e6.symm.trans e4)]
  | pedersen =>
    rw [openDealing.eq_def] at ho ho1
    rw [h.com] at ho ho1
    rcases hc : d.ciphertext with _ | c
    · rw [hc] at ho1; cases ho1
    · rw [hc, nonNil, Res.ok_bind] at ho1
      rw [hc] at ho
      cases c with
      | single m =>
        obtain ⟨v, -, hk, -⟩ := ((C79_decrypt_and_check P _ _ _ _ _ _ _).1 m).1 ho1
        cases hk
      | pair m =>
        refine pair_changed (g := fun i c => if node i ∈ targets then c.1 + a else c.1) ho1 ?_
        simp only [nonNil, Res.ok_bind] at ho
        rw [← ho]
        simp only [Cipher.decryptAndCheck]
        congr 2
        refine congrArg (fun f => List.mapIdx f m.ctexts) ?_
        funext i c
        split_ifs <;> rfl

/-! ### Dealing -/

theorem sorted_of_sublist {V : Type} {m m' : List (NodeIndex × V)} (h : m'.Sublist m) (hs : OMap.Sorted BitVec.toInt m) :
    OMap.Sorted BitVec.toInt m' := List.Pairwise.sublist h hs

theorem dealLoop_spec {P : Prim} {s : Setup} {op : Op} {k : Kind} (hn : s.sk.length ≤ 2 ^ 63) {shares : List Shares} {i : Nat}
    {rng rng' : Rng} {ds : DealingMap} (hlen : i + shares.length ≤ 2 ^ 63)
    (hk : ∀ sh ∈ shares, sh ≠ .other ∧ sh.hidden = decide (k = .pedersen))
    (h : dealLoop P s op i shares rng = .ok (ds, rng')) :
    OMap.Sorted BitVec.toInt ds ∧ ∀ x ∈ ds, ∃ j sh q r, i ≤ j ∧ shares[j - i]? = some sh ∧ x.1 = node j ∧
      DealsAll P s k x.1 x.2 q r ∧ ∀ a, sh.secret = some a → Poly.coeff q 0 = a := by
  induction shares generalizing i rng rng' ds with
  | nil => cases h; exact ⟨OMap.sorted_nil, by simp⟩
  | cons sh rest ih =>
    rw [dealLoop] at h
    obtain ⟨⟨sd, rng1⟩, -, h⟩ := Res.bind_eq_ok.1 h
    obtain ⟨d, hd, h⟩ := Res.bind_eq_ok.1 h
    obtain ⟨⟨⟩, -, h⟩ := Res.bind_eq_ok.1 h
    obtain ⟨us, -, h⟩ := Res.bind_eq_ok.1 h
    obtain ⟨⟨ds1, rng2⟩, h1, h⟩ := Res.bind_eq_ok.1 h
    rw [List.length_cons] at hlen
    obtain ⟨ih1, ih2⟩ := ih (by omega) (fun sh hsh => hk sh (List.mem_cons_of_mem _ hsh)) h1
    have ih3 : ∀ x ∈ ds1, ∃ j sh' q r, i ≤ j ∧ (sh :: rest)[j - i]? = some sh' ∧ x.1 = node j ∧
        DealsAll P s k x.1 x.2 q r ∧ ∀ a, sh'.secret = some a → Poly.coeff q 0 = a := by
      intro x hx
      obtain ⟨j, sh', q, r, e1, e2, e3⟩ := ih2 x hx
      refine ⟨j, sh', q, r, by omega, ?_, e3⟩
      rw [show j - i = (j - (i + 1)) + 1 by omega, List.getElem?_cons_succ, e2]
    simp only at h
    cases h
    split_ifs with hsk
    · exact ⟨ih1, ih3⟩
    · obtain ⟨k1, k2⟩ := hk sh (by simp)
      obtain ⟨q, r, h2, h3⟩ := dealsAll_new hn k1 k2 hd
      refine ⟨List.pairwise_cons.2 ⟨fun x hx => ?_, ih1⟩, fun x hx => ?_⟩
      · obtain ⟨j, sh', q', r', e1, e2, e3, -⟩ := ih2 x hx
        have : j - (i + 1) < rest.length := by
          by_contra hc
          rw [List.getElem?_eq_none (by omega)] at e2
          cases e2
        rw [e3, toInt_node (by omega), toInt_node (by omega)]
        omega
      · rcases List.mem_cons.1 hx with rfl | hx
        · exact ⟨i, sh, q, r, le_rfl, by simp, rfl, h2, h3⟩
        · exact ih3 x hx

theorem thin_spec {V : Type} {bound : Int} {n : Nat} {rng rng' : Rng} {m m' : List (NodeIndex × V)}
    (hlen : m.length = n) (h : thin bound n rng m = .ok (m', rng')) : m'.Sublist m ∧ (m'.length : Int) ≤ bound := by
  induction n generalizing rng m with
  | zero =>
    rw [thin] at h
    split_ifs at h with hb
    cases h
    exact ⟨List.Sublist.refl _, by omega⟩
  | succ n ih =>
    rw [thin] at h
    split_ifs at h with hb
    · rcases hu : rng.uint32 with ⟨x, rng1⟩
      rw [hu] at h
      simp only at h
      have hx : x % (n + 1) < m.length := by rw [hlen]; exact Nat.mod_lt _ (by omega)
      obtain ⟨h1, h2⟩ := ih (by rw [List.length_eraseIdx_of_lt hx]; omega) h
      exact ⟨h1.trans (List.eraseIdx_sublist _ _), h2⟩
    · cases h
      exact ⟨List.Sublist.refl _, by omega⟩

theorem chooseLoop_spec {all : List NodeIndex} {count : Nat} {rng rng' : Rng} {c c' : List (NodeIndex × Unit)}
    (h : chooseLoop all count rng c = some (c', rng')) :
    OMap.Sorted BitVec.toInt c → (∀ x ∈ c, x.1 ∈ all) →
      OMap.Sorted BitVec.toInt c' ∧ (∀ x ∈ c', x.1 ∈ all) ∧ count ≤ c'.length := by
  refine chooseLoop.partial_correctness all count
    (motive := fun _ c res => OMap.Sorted BitVec.toInt c → (∀ x ∈ c, x.1 ∈ all) →
      OMap.Sorted BitVec.toInt res.1 ∧ (∀ x ∈ res.1, x.1 ∈ all) ∧ count ≤ res.1.length) ?_ rng c (c', rng') h
  intro f ih rng c res h hs hm
  simp only at h
  split_ifs at h with hc
  · split at h
    · exact ih _ _ _ h hs hm
    · rename_i j hj
      refine ih _ _ _ h (OMap.sorted_set _ _ hs) fun x hx => ?_
      rcases OMap.mem_set hx with rfl | hx
      · exact List.mem_of_getElem? hj
      · exact hm x hx
  · cases h
    exact ⟨hs, hm, not_lt.1 hc⟩

theorem choose_spec {all : List NodeIndex} {count : Nat} {rng rng' : Rng} {c : List NodeIndex}
    (h : choose all count rng = .ok (c, rng')) : c.Nodup ∧ ∀ x ∈ c, x ∈ all := by
  rw [choose] at h
  split_ifs at h
  · cases h; simp
  · split at h
    · cases h
    · rename_i c' rng1 hc
      cases h
      obtain ⟨h1, h2, -⟩ := chooseLoop_spec hc OMap.sorted_nil (by simp)
      exact ⟨OMap.nodup_keys h1, fun x hx => by obtain ⟨y, hy, rfl⟩ := List.mem_map.1 hx; exact h2 y hy⟩

theorem set_map_fst {V : Type} {k : NodeIndex} {v v' : V} {m : List (NodeIndex × V)} (hs : OMap.Sorted BitVec.toInt m)
    (h : (k, v) ∈ m) : (OMap.set BitVec.toInt k v' m).map Prod.fst = m.map Prod.fst := by
  induction m with
  | nil => simp at h
  | cons y ys ih =>
    obtain ⟨k', w⟩ := y
    have h' := List.pairwise_cons.1 hs
    rw [OMap.set]
    rcases List.mem_cons.1 h with h | h
    · cases h
      rw [if_neg (lt_irrefl _), if_neg (lt_irrefl _)]
      rfl
    · have hlt : BitVec.toInt k' < BitVec.toInt k := h'.1 (k, v) h
      rw [if_neg (not_lt.2 hlt.le), if_pos hlt, List.map_cons, List.map_cons, ih h'.2 h]

/-- Damaging does not change who has dealt what. -/
theorem damageLoop_spec {P : Prim} {s : Setup} {k : Kind} {q r : NodeIndex → List Fn} {damage : List NodeIndex} {rng : Rng}
    {ds ds' : DealingMap} (hn : damage.Nodup) (hs : OMap.Sorted BitVec.toInt ds)
    (hd : ∀ x ∈ ds, Deals P s k x.1 x.2 (q x.1) (r x.1))
    (ha : ∀ x ∈ ds, x.1 ∈ damage → DealsAll P s k x.1 x.2 (q x.1) (r x.1)) (h : damageLoop P s damage rng ds = .ok ds') :
    OMap.Sorted BitVec.toInt ds' ∧ ds'.map Prod.fst = ds.map Prod.fst ∧
      ∀ x ∈ ds', Deals P s k x.1 x.2 (q x.1) (r x.1) := by
  induction damage generalizing rng ds with
  | nil => cases h; exact ⟨hs, rfl, hd⟩
  | cons i rest ih =>
    obtain ⟨hi, hn'⟩ := List.nodup_cons.1 hn
    rw [damageLoop] at h
    obtain ⟨d, hg, h⟩ := Res.bind_eq_ok.1 h
    rcases hu : rng.uint32 with ⟨x, rng1⟩
    rw [hu] at h
    simp only at h
    split_ifs at h
    obtain ⟨⟨targets, rng2⟩, -, h⟩ := Res.bind_eq_ok.1 h
    obtain ⟨⟨sd, rng3⟩, -, h⟩ := Res.bind_eq_ok.1 h
    obtain ⟨bad, hb, h⟩ := Res.bind_eq_ok.1 h
    obtain ⟨⟨⟩, -, h⟩ := Res.bind_eq_ok.1 h
    have hget : OMap.get BitVec.toInt i ds = some d := by
      rcases hg' : OMap.get BitVec.toInt i ds with _ | d'
      · rw [hg'] at hg; cases hg
      · rw [hg'] at hg; cases hg; rfl
    have hmem := (OMap.get_eq_some_iff (fun a b e => BitVec.eq_of_toInt_eq e) hs).1 hget
    have hset : ∀ y, y ∈ OMap.set BitVec.toInt i bad ds ↔ y = (i, bad) ∨ (y ∈ ds ∧ y.1 ≠ i) := fun y =>
      OMap.mem_set_iff (fun a b e => BitVec.eq_of_toInt_eq e) hs
    obtain ⟨h1, h2, h3⟩ := ih hn' (OMap.sorted_set i bad hs) (fun y hy => by
      rcases (hset y).1 hy with rfl | ⟨hy, -⟩
      · exact corrupt_deals (ha (i, d) hmem (by simp)) hb
      · exact hd y hy) (fun y hy hr => by
      rcases (hset y).1 hy with rfl | ⟨hy, -⟩
      · exact absurd hr hi
      · exact ha y hy (List.mem_cons_of_mem _ hr)) h
    refine ⟨h1, h2.trans ?_, h3⟩
    exact set_map_fst hs hmem

/-- `CreateDealings`, whichever dealings are left out and however many are damaged: the dealers have dealt the shares. -/
theorem createDealings_spec {P : Prim} {s : Setup} {k : Kind} {shares : List Shares} {numberOfDealers corrupted : Nat} {op : Op}
    {seed : Seed} {ds : DealingMap} (hn : s.sk.length ≤ 2 ^ 63) (hlen : shares.length ≤ 2 ^ 63)
    (hk : ∀ sh ∈ shares, sh ≠ .other ∧ sh.hidden = decide (k = .pedersen))
    (h : createDealings P s shares numberOfDealers corrupted op seed = .ok ds) :
    ∃ q r : NodeIndex → List Fn, OMap.Sorted BitVec.toInt ds ∧ ds.length ≤ numberOfDealers ∧
      ∀ x ∈ ds, Deals P s k x.1 x.2 (q x.1) (r x.1) ∧ ∃ j sh, shares[j]? = some sh ∧ x.1 = node j ∧
        ∀ a, sh.secret = some a → Poly.coeff (q x.1) 0 = a := by
  rw [createDealings] at h
  obtain ⟨⟨ds1, rng1⟩, h1, h⟩ := Res.bind_eq_ok.1 h
  obtain ⟨⟨ds2, rng2⟩, h2, h⟩ := Res.bind_eq_ok.1 h
  obtain ⟨⟨damage, rng3⟩, h3, h⟩ := Res.bind_eq_ok.1 h
  simp only at h
  obtain ⟨s1, d1⟩ := dealLoop_spec (k := k) hn (by omega) hk h1
  obtain ⟨sub, hl⟩ := thin_spec rfl h2
  obtain ⟨nd, -⟩ := choose_spec h3
  have s2 := sorted_of_sublist sub s1
  have hex : ∀ i, ∃ q r : List Fn, ∀ d, (i, d) ∈ ds2 → DealsAll P s k i d q r ∧ ∃ j sh, shares[j]? = some sh ∧ i = node j ∧
      ∀ a, sh.secret = some a → Poly.coeff q 0 = a := by
    intro i
    by_cases hd : ∃ d, (i, d) ∈ ds2
    · obtain ⟨d, hd⟩ := hd
      obtain ⟨j, sh, q, r, -, e1, e2, e3, e4⟩ := d1 _ (sub.subset hd)
      refine ⟨q, r, fun d' hd' => ?_⟩
      have e := OMap.get_of_mem s2 hd
      rw [OMap.get_of_mem s2 hd'] at e
      cases e
      exact ⟨e3, j, sh, e1, e2, e4⟩
    · exact ⟨[], [], fun d hd' => absurd ⟨d, hd'⟩ hd⟩
  choose q r hqr using hex
  obtain ⟨s3, k3, d3⟩ := damageLoop_spec (q := q) (r := r) nd s2 (fun x hx => (hqr x.1 x.2 hx).1.deals)
    (fun x hx _ => (hqr x.1 x.2 hx).1) h
  refine ⟨q, r, s3, ?_, fun x hx => ⟨d3 x hx, ?_⟩⟩
  · have := congrArg List.length k3
    rw [List.length_map, List.length_map] at this
    omega
  · have : x.1 ∈ ds2.map Prod.fst := by rw [← k3]; exact List.mem_map_of_mem hx
    obtain ⟨y, hy, e⟩ := List.mem_map.1 this
    have := (hqr y.1 y.2 hy).2
    rwa [e] at this

/-! ### Opening -/

theorem openersLoop_spec {P : Prim} {s : Setup} {d : Dealing} {dealer receiver : NodeIndex} {l : List (NodeIndex × Fn)}
    {os : OpeningMap} (h : openersLoop P s d dealer receiver l = .ok os) :
    (os.map Prod.fst).Sublist (l.map Prod.fst) ∧
      ∀ y ∈ os, y.1 ≠ receiver ∧ ∃ k, (y.1, k) ∈ l ∧ openDealing P d s.ad dealer y.1 k (Point.mulByG k) = .ok y.2 := by
  induction l generalizing os with
  | nil => cases h; simp
  | cons x rest ih =>
    obtain ⟨opener, k⟩ := x
    have skip : openersLoop P s d dealer receiver rest = .ok os → (os.map Prod.fst).Sublist (((opener, k) :: rest).map Prod.fst) ∧
      ∀ y ∈ os, y.1 ≠ receiver ∧ ∃ k', (y.1, k') ∈ (opener, k) :: rest ∧
        openDealing P d s.ad dealer y.1 k' (Point.mulByG k') = .ok y.2 := by
      intro h
      obtain ⟨h1, h2⟩ := ih h
      refine ⟨h1.trans (List.sublist_cons_self _ _), fun y hy => ?_⟩
      obtain ⟨h3, k', h4, h5⟩ := h2 y hy
      exact ⟨h3, k', List.mem_cons_of_mem _ h4, h5⟩
    rw [openersLoop] at h
    split_ifs at h with he
    · exact skip h
    · split at h
      · exact skip h
      · cases h
      · cases h
      · obtain ⟨o, ho, h⟩ := Res.bind_eq_ok.1 h
        obtain ⟨cm, -, h⟩ := Res.bind_eq_ok.1 h
        obtain ⟨b, -, h⟩ := Res.bind_eq_ok.1 h
        split_ifs at h
        obtain ⟨os1, h1, h⟩ := Res.bind_eq_ok.1 h
        cases h
        have ho' : openDealing P d s.ad dealer opener k (Point.mulByG k) = .ok o := by
          rcases hx : openDealing P d s.ad dealer opener k (Point.mulByG k) with a | a | a | _ <;> rw [hx] at ho <;> cases ho
          rfl
        obtain ⟨h2, h3⟩ := ih h1
        refine ⟨h2.cons_cons _, fun y hy => ?_⟩
        rcases List.mem_cons.1 hy with rfl | hy
        · exact ⟨he, k, by simp, ho'⟩
        · obtain ⟨h4, k', h5, h6⟩ := h3 y hy
          exact ⟨h4, k', List.mem_cons_of_mem _ h5, h6⟩

/-- The openings provided for the dealing of `i`. -/
def Provided (P : Prim) (s : Setup) (i : NodeIndex) (d : Dealing) (os : OpeningMap) : Prop :=
  (os.map Prod.fst).Nodup ∧
    ∀ y ∈ os, ∃ k, (y.1, k) ∈ s.receivers ∧ openDealing P d s.ad i y.1 k (Point.mulByG k) = .ok y.2

theorem receivers_fst (s : Setup) : s.receivers.map Prod.fst = (List.range s.sk.length).map node := by
  rw [Setup.receivers, List.map_map, List.zipIdx_eq_zip_range']
  have : (Prod.fst ∘ fun x : Fn × Nat => (node x.2, x.1)) = node ∘ Prod.snd := rfl
  rw [this, ← List.map_map, List.map_snd_zip (by simp), List.range_eq_range']

theorem receivers_nodup {s : Setup} (hn : s.sk.length ≤ 2 ^ 63) : (s.receivers.map Prod.fst).Nodup := by
  rw [receivers_fst]
  refine List.Nodup.map_on ?_ List.nodup_range
  intro a ha b hb e
  rw [List.mem_range] at ha hb
  have := congrArg BitVec.toInt e
  rw [toInt_node (by omega), toInt_node (by omega)] at this
  exact_mod_cast this

theorem complaintLoop_spec {P : Prim} {s : Setup} {ds : DealingMap} {receiver : NodeIndex} {pk : Pt} {rng rng' : Rng}
    {cs : List (NodeIndex × Complaint)} {provided : List (NodeIndex × OpeningMap)} (hn : s.sk.length ≤ 2 ^ 63)
    (h : complaintLoop P s ds receiver pk cs rng = .ok (provided, rng')) :
    ∀ y ∈ provided, ∃ d, OMap.get BitVec.toInt y.1 ds = some d ∧ Provided P s y.1 d y.2 := by
  induction cs generalizing rng rng' provided with
  | nil => cases h; simp
  | cons c rest ih =>
    obtain ⟨dealer, c⟩ := c
    rw [complaintLoop] at h
    split at h
    · cases h
    · rename_i d hd
      obtain ⟨⟨⟩, -, h⟩ := Res.bind_eq_ok.1 h
      obtain ⟨os, h1, h⟩ := Res.bind_eq_ok.1 h
      obtain ⟨⟨os', rng1⟩, h2, h⟩ := Res.bind_eq_ok.1 h
      obtain ⟨⟨provided', rng2⟩, h3, h⟩ := Res.bind_eq_ok.1 h
      cases h
      obtain ⟨h4, h5⟩ := openersLoop_spec h1
      obtain ⟨h6, -⟩ := thin_spec rfl h2
      intro y hy
      rcases List.mem_cons.1 hy with rfl | hy
      · refine ⟨d, hd, (List.Nodup.sublist h4 (receivers_nodup hn)).sublist (h6.map _), fun y hy => ?_⟩
        exact (h5 y (h6.subset hy)).2
      · exact ih h3 y hy

theorem opens_valueOf (k : Kind) {q r : List Fn} (hq : q ≠ []) (hr : r.length = q.length) (j : NodeIndex) :
    Opens (commitTo k q r) j (valueOf k q r j) := by
  cases k with
  | simple =>
    refine ⟨rfl, ?_⟩
    have h := Commitment.evaluateAt_simple hq j
    rw [Commitment.evaluateAt_value (by simpa using hq), Poly.evaluateAt_eq] at h
    exact Res.ok.inj h
  | pedersen =>
    refine ⟨rfl, ?_⟩
    have h := Commitment.evaluateAt_pedersen hq hr j
    rw [Commitment.evaluateAt_value, Poly.evaluateAt_eq, Poly.evaluateAt_eq, Commitment.pedersen_eq] at h
    · exact Res.ok.inj h
    · intro e
      have := congrArg List.length e
      simp [hr] at this
      exact hq this

theorem Deals.ne_nil {P : Prim} {s : Setup} {k : Kind} {i : NodeIndex} {d : Dealing} {q r : List Fn}
    (h : Deals P s k i d q r) (ht : 0 < s.threshold) : q ≠ [] ∧ r.length = q.length := by
  have h1 := h.lenq
  have h2 := h.lenr
  refine ⟨?_, by omega⟩
  rintro rfl
  simp at h1
  omega

/-- Reconstruction from openings of others gives the value dealt. -/
theorem reconstruct_value {P : Prim} {s : Setup} {k : Kind} {i : NodeIndex} {d : Dealing} {q r : List Fn} {os : OpeningMap}
    {j : NodeIndex} {o : Opening} (hd : Deals P s k i d q r) (ht : 0 < s.threshold) (hp : Provided P s i d os)
    (h : reconstructShare d os j = .ok o) : o = valueOf k q r j := by
  obtain ⟨hq, hr⟩ := hd.ne_nil ht
  have hos : os = (os.map Prod.fst).map fun y => (y, valueOf k q r y) := by
    rw [List.map_map]
    conv_lhs => rw [← List.map_id os]
    refine List.map_congr_left fun y hy => ?_
    obtain ⟨k', h1, h2⟩ := hp.2 y hy
    have := hd.sound _ h1 _ h2
    simp only [Function.comp_apply, id]
    rw [← this]
  have hlen := ((C64_reconstruction_sound d _ hd.com os j).1 o h).1
  have hne : (commitTo k q r).points ≠ [] := by
    intro e
    have h1 := commitTo_length (k := k) (r := r) rfl hr
    rw [e] at h1
    exact hq (List.length_eq_zero_iff.1 h1.symm)
  obtain ⟨res, h1, h2, h3, h4⟩ := C64_reconstruction d _ hd.com hne (os.map Prod.fst) (fun y => valueOf k q r y) hp.1
    (by rwa [List.length_map]) (fun y _ => opens_valueOf k hq hr y) j
  rw [← hos, h] at h1
  cases h1
  cases k with
  | simple => exact (h3 rfl _ (opens_valueOf .simple hq hr j)).symm
  | pedersen =>
    exact h4 q r rfl hr.symm fun y _ => rfl

section
variable {s : Setup} {op : Op} {ds : DealingMap} {q r w : NodeIndex → List Fn} {T : Com}

theorem combine_values {t : Int} {w : NodeIndex → Fn} (ht : 0 < t)
    (hs : Shape t ds (fun i => commitTo op.dealingKind (q i) (r i)) op T w)
    (hl : ∀ x ∈ ds, ((q x.1).length : Int) = t ∧ ((r x.1).length : Int) = t) (j : NodeIndex) :
    T.c = commitTo op.dealingKind (linComb w (ds.map Prod.fst) q t.toNat) (linComb w (ds.map Prod.fst) r t.toNat) ∧
    combineOpenings (ds.map Prod.fst) (ds.map fun x => valueOf op.dealingKind (q x.1) (r x.1) j) (some T) j =
      .ok (valueOf op.dealingKind (linComb w (ds.map Prod.fst) q t.toNat) (linComb w (ds.map Prod.fst) r t.toNat) j) := by
  have hl' : ∀ i ∈ ds.map Prod.fst, ((q i).length : Int) = t ∧ ((r i).length : Int) = t := by
    intro i hi
    obtain ⟨x, hx, rfl⟩ := List.mem_map.1 hi
    exact hl x hx
  constructor
  · rw [hs.com]
    cases hk : op.dealingKind with
    | simple => simp only [commitTo]; rw [linCombPts_mulByG]
    | pedersen =>
      simp only [commitTo]
      rw [linCombPts_pedersen]
      intro i hi
      have := hl' i hi
      omega
  · rw [combineOpenings_eq hs ht (fun x _ => commitTo_kind _ _ _) j (fun i => valueOf op.dealingKind (q i) (r i) j)]
    · have e1 := eval_linComb w (ds.map Prod.fst) q t.toNat (fun i hi => by have := hl' i hi; omega) (place j)
      have e2 := eval_linComb w (ds.map Prod.fst) r t.toNat (fun i hi => by have := hl' i hi; omega) (place j)
      cases hk : op.dealingKind <;> simp only [valueOf, Opening.val, Opening.mask, e1, e2]
    · intro x hx
      have := hl x hx
      exact opens_valueOf _ (by rintro e; rw [e] at this; simp at this; omega) (by omega) j

end

theorem mapM_values {α β : Type} {f : α → Res β} {g : α → β} {l : List α} {bs : List β} (h : Res.mapM' f l = .ok bs)
    (hg : ∀ a ∈ l, ∀ b, f a = .ok b → b = g a) : bs = l.map g := by
  have := Res.mapM'_eq_ok.1 h
  clear h
  induction this with
  | nil => rfl
  | cons h1 h2 ih =>
    rw [List.map_cons, ← hg _ (by simp) _ h1, ← ih fun a ha => hg a (List.mem_cons_of_mem _ ha)]

/-- `OpenDealings`: every receiver ends up with the value at its place. -/
theorem openLoop_spec {P : Prim} {s : Setup} {op : Op} {ds : DealingMap} {q r : NodeIndex → List Fn} {w : NodeIndex → Fn}
    {T : Com} {seed : Seed} {l : List (NodeIndex × Fn)} {rng : Rng} {os : List Opening} (ht : 0 < s.threshold)
    (hn : s.sk.length ≤ 2 ^ 63) (hsort : OMap.Sorted BitVec.toInt ds)
    (hs : Shape s.threshold ds (fun i => commitTo op.dealingKind (q i) (r i)) op T w)
    (hd : ∀ x ∈ ds, Deals P s op.dealingKind x.1 x.2 (q x.1) (r x.1)) (hl : ∀ x ∈ l, x ∈ s.receivers)
    (h : openLoop P s ds (some T) seed l rng = .ok os) :
    os = l.map fun x => valueOf op.dealingKind (linComb w (ds.map Prod.fst) q s.threshold.toNat)
      (linComb w (ds.map Prod.fst) r s.threshold.toNat) x.1 := by
  induction l generalizing rng os with
  | nil => cases h; rfl
  | cons x rest ih =>
    obtain ⟨receiver, k⟩ := x
    have hx := hl (receiver, k) (by simp)
    have hcomb := (combine_values ht hs (fun x hx => ⟨(hd x hx).lenq, (hd x hx).lenr⟩) receiver).2
    have done : ∀ (o : Opening) (vals : List Opening) (os' : List Opening) (rng' : Rng),
        (vals = ds.map fun x => valueOf op.dealingKind (q x.1) (r x.1) receiver) →
        combineOpenings (ds.map Prod.fst) vals (some T) receiver = .ok o → openLoop P s ds (some T) seed rest rng' = .ok os' →
        os = o :: os' → os = ((receiver, k) :: rest).map fun x =>
          valueOf op.dealingKind (linComb w (ds.map Prod.fst) q s.threshold.toNat)
            (linComb w (ds.map Prod.fst) r s.threshold.toNat) x.1 := by
      intro o vals os' rng' h1 h2 h3 h4
      rw [h1, hcomb] at h2
      cases h2
      rw [h4, ih (fun x hx => hl x (List.mem_cons_of_mem _ hx)) h3, List.map_cons]
    rw [openLoop] at h
    split at h
    · rename_i o ho
      obtain ⟨os', h1, h⟩ := Res.bind_eq_ok.1 h
      cases h
      rw [fromDealings] at ho
      obtain ⟨vals, h2, h3⟩ := Res.bind_eq_ok.1 ho
      exact done o vals os' rng (mapM_values h2 fun y hy b hb => (hd y hy).sound _ hx b hb) h3 h1 rfl
    · obtain ⟨cs, -, h⟩ := Res.bind_eq_ok.1 h
      obtain ⟨complaints, -, h⟩ := Res.bind_eq_ok.1 h
      obtain ⟨⟨provided, rng1⟩, hp, h⟩ := Res.bind_eq_ok.1 h
      obtain ⟨o, ho, h⟩ := Res.bind_eq_ok.1 h
      obtain ⟨os', h1, h⟩ := Res.bind_eq_ok.1 h
      cases h
      have ho' : fromDealingsAndOpenings P ds provided (some T) s.ad receiver k (Point.mulByG k) = .ok o := by
        rcases hz : fromDealingsAndOpenings P ds provided (some T) s.ad receiver k (Point.mulByG k) with a | a | a | _ <;>
          rw [hz] at ho <;> cases ho
        rfl
      rw [fromDealingsAndOpenings] at ho'
      obtain ⟨vals, h2, h3⟩ := Res.bind_eq_ok.1 ho'
      refine done o vals os' rng1 (mapM_values h2 fun y hy b hb => ?_) h3 h1 rfl
      split at hb
      · rename_i shares hsh
        obtain ⟨k', e1, e2⟩ := OMap.mem_of_get hsh
        obtain ⟨d, e3, e4⟩ := complaintLoop_spec hn hp _ e2
        cases BitVec.eq_of_toInt_eq e1
        rw [OMap.get_of_mem hsort (k := y.1) (v := y.2) hy] at e3
        cases e3
        exact reconstruct_value (hd y hy) ht e4 hb
      · exact (hd y hy).sound _ hx b hb
    · cases h
    · cases h

/-! ### Rounds -/

/-- What a round that succeeds has made. -/
theorem make_spec {P : Prim} {cbor : Commitment → Res Bytes} {s s' : Setup} {shares : List Shares} {op : Op}
    {numberOfDealers corrupted : Nat} {R : Round} (ht : 0 < s.threshold) (hn : s.sk.length ≤ 2 ^ 63)
    (hlen : shares.length ≤ 2 ^ 63)
    (hk : ∀ sh ∈ shares, sh ≠ .other ∧ sh.hidden = decide (op.dealingKind = .pedersen))
    (h : Round.make P cbor s shares op numberOfDealers corrupted = .ok (R, s')) :
    s'.threshold = s.threshold ∧ s'.sk = s.sk ∧ s'.ad = s.ad ∧ s'.seed = s.seed ∧
    ∃ (q r : NodeIndex → List Fn) (w : NodeIndex → Fn), OMap.Sorted BitVec.toInt R.dealings ∧
      R.dealings.length ≤ numberOfDealers ∧
      newTranscript s.threshold R.dealings op = .ok (some R.transcript) ∧
      Shape s.threshold R.dealings (fun i => commitTo op.dealingKind (q i) (r i)) op R.transcript w ∧
      (∀ x ∈ R.dealings, ∃ j sh, shares[j]? = some sh ∧ x.1 = node j ∧
        ∀ a, sh.secret = some a → Poly.coeff (q x.1) 0 = a) ∧
      R.transcript.c = commitTo op.dealingKind (linComb w (R.dealings.map Prod.fst) q s.threshold.toNat)
        (linComb w (R.dealings.map Prod.fst) r s.threshold.toNat) ∧
      R.openings = (List.range s.sk.length).map fun i =>
        valueOf op.dealingKind (linComb w (R.dealings.map Prod.fst) q s.threshold.toNat)
          (linComb w (R.dealings.map Prod.fst) r s.threshold.toNat) (node i) := by
  rw [Round.make] at h
  obtain ⟨⟨seed, s1⟩, hs1, h⟩ := Res.bind_eq_ok.1 h
  obtain ⟨ds, h1, h⟩ := Res.bind_eq_ok.1 h
  obtain ⟨T, h2, h⟩ := Res.bind_eq_ok.1 h
  obtain ⟨os, h3, h⟩ := Res.bind_eq_ok.1 h
  obtain ⟨c, h4, h⟩ := Res.bind_eq_ok.1 h
  cases h
  rw [Setup.nextDealingSeed] at hs1
  obtain ⟨sd, -, hs1⟩ := Res.bind_eq_ok.1 hs1
  cases hs1
  simp only at h1 h2 h3
  have hT : T = some c := by
    cases T with
    | none => cases h4
    | some c' => cases h4; rfl
  subst hT
  obtain ⟨q, r, s2, hle, hd⟩ := createDealings_spec (s := { s with round := s.round + 1 }) (k := op.dealingKind) hn hlen hk h1
  obtain ⟨w, hw⟩ := newTranscript_shape (cm := fun i => commitTo op.dealingKind (q i) (r i))
    (fun x hx => (hd x hx).1.com) (OMap.nodup_keys s2) h2
  refine ⟨rfl, rfl, rfl, rfl, q, r, w, s2, hle, h2, hw, fun x hx => (hd x hx).2, ?_, ?_⟩
  · exact (combine_values ht hw (fun x hx => ⟨(hd x hx).1.lenq, (hd x hx).1.lenr⟩) 0).1
  · rw [openDealings] at h3
    obtain ⟨c', -, h3⟩ := Res.bind_eq_ok.1 h3
    obtain ⟨bytes, -, h3⟩ := Res.bind_eq_ok.1 h3
    obtain ⟨sd1, -, h3⟩ := Res.bind_eq_ok.1 h3
    obtain ⟨sd2, -, h3⟩ := Res.bind_eq_ok.1 h3
    have := openLoop_spec (s := { s with round := s.round + 1 }) ht hn s2 hw (fun x hx => (hd x hx).1) (fun x hx => hx) h3
    simp only at this ⊢
    rw [this]
    have e := receivers_fst { s with round := s.round + 1 }
    simp only at e
    have e2 := congrArg (List.map fun i => valueOf op.dealingKind (linComb w (ds.map Prod.fst) q s.threshold.toNat)
      (linComb w (ds.map Prod.fst) r s.threshold.toNat) i) e
    rw [List.map_map, List.map_map] at e2
    exact e2

end Verif.Protocol
