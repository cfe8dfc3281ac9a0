import Verif.Lemmas.HeapTranscript
import Verif.Lemmas.Key
import Verif.Spec.HeapSign

/-!
Key derivation, signing and complaints on memory.
-/

set_option autoImplicit false

namespace Verif.Heap

variable {ο ν ο' ν' α β γ δ : Type} {E : Mem → Prop} {m m0 m1 m' : Mem}

/-- The same objects, listed in another order. -/
theorem Ret.perm {V : View ο ν} {V' : View ο' ν'} {o : ο} {v : ν} {o' : ο'} {v' : ν'} (h : Ret V m v o m')
    (hp : (V'.objs o').Perm (V.objs o)) (hv : V'.val m' o' = v') : Ret V' m v' o' m' :=
  ⟨h.1, fun x hx => h.2.1 x (hp.mem_iff.1 hx), hp.nodup_iff.2 h.2.2.1, hv⟩

/-! ### key/key_derivation.go -/

section Key

variable {P : Prim} {pk : Addr} {v : Pt}

/-- What `ckdpub` returns. -/
abbrev ckdView : View (Addr × Bytes × Addr) (Pt × Bytes × Fn) := View.pt.prod (View.data.prod View.sc)

/-- The value of `ckdpub`'s result. -/
def ckdVal (P : Prim) (v : Pt) (c : Bytes) (i : Key.Index) : Pt × Bytes × Fn :=
  ((Bip32.step P (v, c) i).1, (Bip32.step P (v, c) i).2, (Bip32.il P v c i : Fn))

theorem ckdPub_none_iff (P : Prim) (v : Pt) (c : Bytes) (i : Key.Index) :
    Bip32.ckdPub P (v, c) i = none ↔
      (Scalar.serialize (Bip32.il P v c i : Fn) ≠ (P.hmacSha512 c (Point.serialize v ++ i)).take 32 ∨
        (Bip32.step P (v, c) i).1 = 0) := by
  have hl : ((P.hmacSha512 c (Point.serialize v ++ i)).take 32).length = 32 := by simp [P.hmacSha512_length]
  rw [Bip32.ckdPub, Ne, Bip32.il, Key.serialize_offset_iff hl, not_lt]
  split_ifs with h
  · exact ⟨fun _ => h, fun _ => rfl⟩
  · constructor
    · intro h'; cases h'
    · intro h'; exact absurd h' h

theorem ckd_step (hp : At View.pt m pk v) (c : Bytes) (i : Key.Index) :
    ∃ off key m1 m2,
      (Go.lift (Scalar.fromBytesWide ((Key.computeHMAC P c [Point.serialize (m.pt pk), i]).take 32)) >>= newSc) m =
        (.ok off, m1) ∧
      (do
        let c ← clonePt pk
        let t ← mulByG off
        addPt c pk t : Go Addr) m1 = (.ok key, m2) ∧
      m2.sc off = (Bip32.il P v c i : Fn) ∧ m2.pt key = (Bip32.step P (v, c) i).1 ∧
      Ret ckdView m (ckdVal P v c i) (key, (Key.computeHMAC P c [Point.serialize (m.pt pk), i]).drop 32, off) m2 := by
  rw [(at_pt.1 hp).2, Key.computeHMAC_eq, Key.offset_eq]
  obtain ⟨off, m1, e1, r1⟩ := newSc_ret (E := Writes ∅ m) (m := m) (Bip32.il P v c i : Fn)
  have h2 : Outcome (Writes ∅ m1) (do
        let c ← clonePt pk
        let t ← mulByG off
        addPt c pk t : Go Addr) m1 (.ok (v + Point.mulByG (Bip32.il P v c i : Fn))) (Ret View.pt m1) := by
    refine Outcome.call_ok (clonePt_ret (hp.mono r1.1)) (Writes.refl _ _) fun o m2 r2 w2 => ?_
    refine Outcome.call_ok (mulByG_ret (r1.at.mono w2)) w2 fun t m3 r3 w3 => ?_
    exact addPt_to (r2.upto r3.1) ((hp.mono r1.1).mono w3) r3.at
  obtain ⟨key, m2, e2, r2⟩ := h2
  have hkey : v + Point.mulByG (Bip32.il P v c i : Fn) = (Bip32.step P (v, c) i).1 := by
    rw [Key.step_fst]
    rfl
  rw [hkey] at r2
  refine ⟨off, key, m1, m2, e1, e2, (r1.upto r2.1).2.2.2, r2.2.2.2, ?_⟩
  refine (r1.pair r2).swap.perm (List.Perm.refl _) ?_
  exact Prod.ext r2.2.2.2 (Prod.ext rfl (r1.upto r2.1).2.2.2)

/-- If `ckdpub` returns on memory, then some iterate of the index is valid and the result is BIP32's unchecked step. -/
theorem ckdpubLoop_some (P : Prim) (pk : Addr) (c : Bytes) (i : Key.Index) (m : Mem)
    (r : Res (Addr × Bytes × Addr) × Mem) (h : ckdpubLoop P pk c i m = some r) (hp : pk < m.next) :
    (∃ k, Bip32.ckdPub P (m.pt pk, c) (Key.iterNext i k) ≠ none) ∧
      ∃ o m', r = (.ok o, m') ∧ Ret ckdView m (ckdVal P (m.pt pk) c i) o m' := by
  refine ckdpubLoop.partial_correctness P pk c
    (motive := fun i m r => pk < m.next → (∃ k, Bip32.ckdPub P (m.pt pk, c) (Key.iterNext i k) ≠ none) ∧
      ∃ o m', r = (.ok o, m') ∧ Ret ckdView m (ckdVal P (m.pt pk) c i) o m') ?_ i m r h hp
  intro f ih i m r hr hp
  obtain ⟨off, key, m1, m2, e1, e2, h1, h2, h3⟩ := ckd_step (P := P) (at_pt.2 ⟨hp, rfl⟩) c i
  dsimp only at hr
  rw [e1] at hr
  dsimp only at hr
  rw [e2] at hr
  dsimp only at hr
  have hn := ckdPub_none_iff P (m.pt pk) c i
  rw [h1, h2, Key.computeHMAC_eq] at hr
  rw [Key.computeHMAC_eq] at h3
  by_cases hv : Bip32.ckdPub P (m.pt pk, c) i = none
  · rw [if_pos (hn.1 hv)] at hr
    have hp2 : m2.pt pk = m.pt pk := h3.1.pt pk hp (Set.notMem_empty _)
    cases hf : f i.next m2 with
    | none => rw [hf] at hr; cases hr
    | some r' =>
      obtain ⟨⟨k, hk⟩, o', m3, rfl, r3⟩ := ih _ _ _ hf (hp.trans_le h3.1.next)
      rw [hf] at hr
      have hr' := Option.some.inj hr
      rw [hp2] at hk
      exact ⟨⟨k + 1, by rwa [Key.iterNext_succ]⟩, _, m3, hr'.symm, h3.upto r3.1⟩
  · rw [if_neg fun h => hv (hn.2 h)] at hr
    exact ⟨⟨0, hv⟩, _, m2, (Option.some.inj hr).symm, h3⟩

theorem ckdpubLoop_ne_none (P : Prim) (pk : Addr) (c : Bytes) (k : Nat) (i : Key.Index) (m : Mem) (hp : pk < m.next)
    (hk : Bip32.ckdPub P (m.pt pk, c) (Key.iterNext i k) ≠ none) : ckdpubLoop P pk c i m ≠ none := by
  induction k generalizing i m with
  | zero =>
    obtain ⟨off, key, m1, m2, e1, e2, h1, h2, -⟩ := ckd_step (P := P) (at_pt.2 ⟨hp, rfl⟩) c i
    rw [ckdpubLoop]
    dsimp only
    rw [e1]
    dsimp only
    rw [e2]
    dsimp only
    rw [h1, h2, Key.computeHMAC_eq, if_neg fun h => hk ((ckdPub_none_iff P (m.pt pk) c i).2 h)]
    exact Option.some_ne_none _
  | succ k ih =>
    obtain ⟨off, key, m1, m2, e1, e2, h1, h2, h3⟩ := ckd_step (P := P) (at_pt.2 ⟨hp, rfl⟩) c i
    rw [ckdpubLoop]
    dsimp only
    rw [e1]
    dsimp only
    rw [e2]
    dsimp only
    split_ifs
    · have hp2 : m2.pt pk = m.pt pk := h3.1.pt pk hp (Set.notMem_empty _)
      have hp3 := hp.trans_le h3.1.next
      have h4 := ih i.next m2 hp3 (by rwa [hp2, ← Key.iterNext_succ])
      obtain ⟨r, hr⟩ := Option.ne_none_iff_exists'.1 h4
      obtain ⟨-, o, m3, rfl, -⟩ := ckdpubLoop_some P pk c _ m2 r hr hp3
      rw [hr]
      exact Option.some_ne_none _
    · exact Option.some_ne_none _

theorem ckdpub_ret (hp : At View.pt m pk v) (c : Bytes) (i : Key.Index) :
    Outcome (Writes ∅ m) (ckdpub P pk c i) m (Key.ckdpub P v c i) (Ret ckdView m) := by
  obtain ⟨hp', rfl⟩ := at_pt.1 hp
  clear hp
  rename' hp' => hp
  rcases h : ckdpubLoop P pk c i m with _ | r
  · have h1 : Key.ckdpubLoop P (m.pt pk) c i = none := by
      by_contra h1
      obtain ⟨k, hk⟩ := (Key.ckdpubLoop_isSome_iff P (m.pt pk) c i).1 h1
      exact ckdpubLoop_ne_none P pk c k i m hp hk h
    have h2 : Key.ckdpub P (m.pt pk) c i = .diverge := by rw [Key.ckdpub, h1]
    rw [h2]
    exact ⟨m, by rw [ckdpub, h], Writes.refl _ _⟩
  · obtain ⟨hk, o, m', rfl, hr⟩ := ckdpubLoop_some P pk c i m r h hp
    have h1 := (Key.ckdpubLoop_isSome_iff P (m.pt pk) c i).2 hk
    have h2 : Key.ckdpub P (m.pt pk) c i = .ok (ckdVal P (m.pt pk) c i) := by
      rcases Key.ckdpub_cases P (m.pt pk) c i with e | e
      · exact e
      · rw [Key.ckdpub] at e
        obtain ⟨r, hr⟩ := Option.ne_none_iff_exists'.1 h1
        rw [Key.ckdpubLoop_eq] at hr e
        split_ifs at hr e
        cases hn : Key.ckdpubLoop P (m.pt pk) c i.next with
        | none => rw [hn] at hr; cases hr
        | some _ => rw [hn] at e; cases e
    rw [h2]
    exact ⟨o, m', by rw [ckdpub, h], hr⟩

theorem deriveLoop_ret {off : Addr} {x : Fn} {c : Bytes} {path : List Key.Index} (hp : At View.pt m pk v)
    (ho : Ret View.sc m0 x off m) :
    Outcome (Writes ∅ m0) (deriveLoop P pk c off path) m (Key.deriveLoop P v c x path)
      (Ret (View.sc.prod View.data) m0) := by
  induction path generalizing pk v c off x m with
  | nil => exact Outcome.pure (ho.pair (Ret.data (Writes.refl _ _)))
  | cons i path ih =>
    refine Outcome.call (ckdpub_ret hp c i) ho.1 fun n o m1 r1 w1 => ?_
    obtain ⟨h1, h2⟩ := at_prod.1 r1.at
    obtain ⟨h3, h4⟩ := at_prod.1 h2
    obtain ⟨key, c', d⟩ := o
    obtain ⟨vkey, vc', vd⟩ := n
    obtain rfl : c' = vc' := at_data.1 h3
    have hne : off ≠ d := by
      have := (at_sc.1 ho.at).1
      have := r1.snd.snd.new_sc.1
      dsimp only at this
      omega
    refine Outcome.addSc_step (ho.upto r1.1).at h4 ho.new_sc.1 w1 fun m2 w2 w02 h5 => ?_
    refine ih (h1.write_sc w2 (by simp [View.pt])) ?_
    refine ⟨w02, ?_, by simp [View.sc], h5.2⟩
    simpa [View.sc, Obj.addr] using ⟨ho.new_sc.1, (at_sc.1 h5).1⟩

theorem deriveTweak_ret (path : List Key.Index) (hp : At View.pt m pk v) :
    Outcome (Writes ∅ m) (deriveTweak P path pk) m (Key.deriveTweak P path v) (Ret (View.sc.prod View.data) m) := by
  refine Outcome.call_ok (clonePt_ret hp) (Writes.refl _ _) fun k m1 r1 w1 => ?_
  refine Outcome.call_ok (newSc_ret 0) w1 fun o m2 r2 w2 => ?_
  exact deriveLoop_ret (r1.upto r2.1).at (r2.since w1)

end Key

/-! ### sign/sign.go -/

section Sign

variable {P : Prim} {msg rand : Bytes} {path : List Key.Index} {keyT presigT : Option ComObj}
  {vkeyT vpresigT : Option Dealings.Com}

attribute [local irreducible] Key.deriveTweak Key.ckdpub Scalar.fromBytesWide Ro.outputScalar Sign.rhoTranscript

theorem ecdsaConversion_ret {p : Addr} {v : Pt} (h : At View.pt m p v) :
    Outcome (Writes ∅ m) (ecdsaConversion p) m (Sign.ecdsaConversion v) (Ret View.sc m) :=
  Outcome.getPt h (Outcome.lift_new fun v => newSc_ret v)

theorem convertHashToInteger_ret :
    Outcome (Writes ∅ m) (convertHashToInteger msg) m (Sign.convertHashToInteger msg) (Ret View.sc m) :=
  Outcome.lift_new fun v => newSc_ret v

theorem preSigOf_ret (h : At View.com.opt m presigT vpresigT) :
    Outcome (Writes ∅ m) (preSigOf presigT) m (Sign.preSigOf vpresigT) (Ret View.pt m) := by
  have w0 := Writes.refl ∅ m
  rcases at_opt.1 h with ⟨rfl, rfl⟩ | ⟨⟨w, c⟩, ⟨w', vc⟩, rfl, rfl, hw⟩
  · exact Outcome.err w0
  obtain ⟨e, hc⟩ := at_com.1 hw
  obtain rfl : w = w' := e
  dsimp only at hc
  have hk : c.kind = vc.kind := (at_commitment.1 hc).1
  cases w
  · exact Outcome.err w0
  · exact Outcome.err w0
  · unfold preSigOf Sign.preSigOf
    dsimp only
    rw [hk]
    rcases vc.kind with _ | _
    · exact constantTerm_ret hc
    · exact Outcome.err w0

theorem at_derived {o : DerivedObj} {v : Sign.Derived} : At View.derived m o v ↔
    At View.sc m o.rho v.rho ∧ At View.sc m o.keyTweak v.keyTweak ∧ At View.sc m o.randomizer v.randomizer ∧
      At View.pt m o.randomizedPresig v.randomizedPresig := by
  obtain ⟨a, b, c, d⟩ := v
  have h : At View.derived m o ⟨a, b, c, d⟩ ↔ At (View.sc.prod (View.sc.prod (View.sc.prod View.pt))) m
      (o.rho, o.keyTweak, o.randomizer, o.randomizedPresig) (a, b, c, d) := by
    simp [At, Has, View.derived, View.via, View.prod]
  rw [h, at_prod, at_prod, at_prod]

theorem deriveRho_ret (hk : At View.com.opt m keyT vkeyT) (hp : At View.com.opt m presigT vpresigT) :
    Outcome (Writes ∅ m) (deriveRho P msg rand path keyT presigT) m (Sign.deriveRho P msg rand path vkeyT vpresigT)
      (Ret View.derived m) := by
  refine Outcome.call (preSigOf_ret hp) (Writes.refl _ _) fun vp p m1 r1 w1 => ?_
  refine Outcome.call (transcriptConstantTerm_ret (hk.mono w1)) w1 fun vk k m2 r2 w2 => ?_
  refine Outcome.call (deriveTweak_ret path r2.at) w2 fun vt t m3 r3 w3 => ?_
  obtain ⟨h3, -⟩ := at_prod.1 r3.at
  have hp3 := (r1.at.mono r2.1).mono r3.1
  refine Outcome.getPt hp3 (Outcome.getSc h3 ?_)
  refine Outcome.lift w3 fun vr _ => ?_
  refine Outcome.call_ok (newSc_ret vr) w3 fun r m4 r4 w4 => ?_
  refine Outcome.call_ok (clonePt_ret (hp3.mono r4.1)) w4 fun c m5 r5 w5 => ?_
  refine Outcome.call_ok (newPt_ret G) w5 fun g m6 r6 w6 => ?_
  refine Outcome.call_ok (newPt_ret G) w6 fun g' m7 r7 w7 => ?_
  have r4' := ((r4.upto r5.1).upto r6.1).upto r7.1
  refine Outcome.upd (smulPt_to (r6.upto r7.1) r7.at r4'.at) w5 fun rg m8 r8 w8 => ?_
  have hp8 := ((hp3.mono r4.1).mono r5.1).mono r8.1
  refine Outcome.upd (addPt_to (r5.upto r8.1) hp8 r8.at) w4 fun q m9 r9 w9 => ?_
  refine Outcome.call (ecdsaConversion_ret r9.at) w9 fun vrho rho m10 r10 w10 => ?_
  have h := (r3.fst.pair (r4.pair (r9.pair r10))).since w2
  refine Outcome.pure (h.perm ?_ ?_)
  · change List.Perm [Obj.sc rho, .sc t.1, .sc r, .pt q] [.sc t.1, .sc r, .pt q, .sc rho]
    exact (List.perm_append_comm (l₁ := [Obj.sc rho]) (l₂ := [.sc t.1, .sc r, .pt q]))
  · obtain ⟨h1, h2⟩ := at_prod.1 h.at
    obtain ⟨h3, h4⟩ := at_prod.1 h2
    obtain ⟨h5, h6⟩ := at_prod.1 h4
    exact (at_derived.2 ⟨h6, h1, h3, h5⟩).2

theorem derivePublicKey_ret {master : Bytes} :
    Outcome (Writes ∅ m) (derivePublicKey P master path) m (Sign.derivePublicKey P master path) (Ret View.data m) := by
  refine Outcome.lift (Writes.refl _ _) fun d _ => ?_
  rcases d with _ | r
  · exact Outcome.panic (Writes.refl _ _)
  dsimp only
  rcases Point.ofRaw? r with _ | v
  · exact Outcome.panic (Writes.refl _ _)
  dsimp only
  refine Outcome.call_ok (newPt_ret v) (Writes.refl _ _) fun pk m1 r1 w1 => ?_
  refine Outcome.call (deriveTweak_ret path r1.at) w1 fun vt t m2 r2 w2 => ?_
  obtain ⟨h2, h2'⟩ := at_prod.1 r2.at
  refine Outcome.call_ok (mulByG_ret h2) w2 fun g m3 r3 w3 => ?_
  refine Outcome.upd (addPt_in r3 ((r1.at.mono r2.1).mono r3.1)) w2 fun q m4 r4 w4 => ?_
  refine Outcome.getPt r4.at ?_
  refine Outcome.lift w4 fun b _ => ?_
  have e : t.2 = vt.2 := at_data.1 h2'
  rw [e]
  exact Outcome.pure (Ret.data w4)

/-! ### sign/share.go -/

theorem pedersenValue_at {o : Option OpeningObj} {v : Option Opening} (h : At View.opening.opt m o v) :
    At (View.sc.prod View.sc).opt m (pedersenValue o) (Sign.pedersenValue v) := by
  rcases at_opt.1 h with ⟨rfl, rfl⟩ | ⟨o, v, rfl, rfl, h1⟩
  · exact at_opt.2 (.inl ⟨rfl, rfl⟩)
  · have h' := at_opening h1
    cases o <;> cases v <;> first | exact h'.elim | exact at_opt.2 (.inl ⟨rfl, rfl⟩) | skip
    exact at_opt.2 (.inr ⟨_, _, rfl, rfl, at_prod.2 h'⟩)

theorem pedersenPointer_at {o : Option OpeningObj} {v : Option Opening} (h : At View.opening.opt m o v) :
    At (View.sc.prod View.sc).opt m (pedersenPointer o) (Sign.pedersenPointer v) := by
  rcases at_opt.1 h with ⟨rfl, rfl⟩ | ⟨o, v, rfl, rfl, h1⟩
  · exact at_opt.2 (.inl ⟨rfl, rfl⟩)
  · have h' := at_opening h1
    cases o <;> cases v <;> first | exact h'.elim | exact at_opt.2 (.inl ⟨rfl, rfl⟩) | skip
    exact at_opt.2 (.inr ⟨_, _, rfl, rfl, at_prod.2 h'⟩)

variable {lam kl : Option OpeningObj} {vlam vkl : Option Opening}

theorem nuOf_ret {theta rho : Addr} {x y : Fn} (ht : At View.sc m theta x) (hr : At View.sc m rho y)
    (hl : At View.opening.opt m lam vlam) (hk : At View.opening.opt m kl vkl) :
    Outcome (Writes ∅ m) (nuOf theta rho lam kl) m (Sign.nuOf x y vlam vkl) (Ret View.opening.opt m) := by
  have w0 := Writes.refl ∅ m
  unfold nuOf Sign.nuOf
  rcases at_opt.1 (pedersenValue_at hk) with ⟨e1, e2⟩ | ⟨k, ⟨kv, km⟩, e1, e2, h1⟩ <;> rw [e1, e2]
  · exact Outcome.pure (Ret.none w0)
  rcases at_opt.1 (pedersenValue_at hl) with ⟨e1, e2⟩ | ⟨l, ⟨lv, lm⟩, e1, e2, h2⟩ <;> rw [e1, e2] <;> dsimp only
  · exact Outcome.call_ok (cloneSc_ret ht) w0 fun _ _ _ w1 => Outcome.panic w1
  obtain ⟨k1, k2⟩ := at_prod.1 h1
  obtain ⟨l1, l2⟩ := at_prod.1 h2
  refine Outcome.call_ok (mulNew_ret ht l1) w0 fun a m1 r1 w1 => ?_
  refine Outcome.call_ok (mulNew_ret (hr.mono w1) (k1.mono w1)) w1 fun t m2 r2 w2 => ?_
  refine Outcome.upd (addSc_in (r1.upto r2.1) r2.at) w0 fun a m3 r3 w3 => ?_
  refine Outcome.call_ok (mulNew_ret (ht.mono w3) (l2.mono w3)) w3 fun b m4 r4 w4 => ?_
  refine Outcome.call_ok (mulNew_ret (hr.mono w4) (k2.mono w4)) w4 fun t m5 r5 w5 => ?_
  refine Outcome.upd (addSc_in (r4.upto r5.1) r5.at) w3 fun b m6 r6 w6 => ?_
  exact Outcome.pure (ret_pedersen (r3.pair r6)).some

theorem muOf_ret {r : Addr} {x : Fn} (ht : At View.sc m r x)
    (hl : At View.opening.opt m lam vlam) (hk : At View.opening.opt m kl vkl) :
    Outcome (Writes ∅ m) (muOf r lam kl) m (Sign.muOf x vlam vkl) (Ret View.opening.opt m) := by
  have w0 := Writes.refl ∅ m
  unfold muOf Sign.muOf
  rcases at_opt.1 (pedersenValue_at hk) with ⟨e1, e2⟩ | ⟨k, ⟨kv, km⟩, e1, e2, h1⟩ <;> rw [e1, e2]
  · exact Outcome.pure (Ret.none w0)
  rcases at_opt.1 (pedersenValue_at hl) with ⟨e1, e2⟩ | ⟨l, ⟨lv, lm⟩, e1, e2, h2⟩ <;> rw [e1, e2] <;> dsimp only
  · exact Outcome.call_ok (cloneSc_ret ht) w0 fun _ _ _ w1 => Outcome.panic w1
  obtain ⟨k1, k2⟩ := at_prod.1 h1
  obtain ⟨l1, l2⟩ := at_prod.1 h2
  refine Outcome.call_ok (mulNew_ret ht l1) w0 fun a m1 r1 w1 => ?_
  refine Outcome.upd (addSc_in r1 (k1.mono w1)) w0 fun a m3 r3 w3 => ?_
  refine Outcome.call_ok (mulNew_ret (ht.mono w3) (l2.mono w3)) w3 fun b m4 r4 w4 => ?_
  refine Outcome.upd (addSc_in r4 (k2.mono w4)) w3 fun b m6 r6 w6 => ?_
  exact Outcome.pure (ret_pedersen (r3.pair r6)).some

theorem at_sigShare {o : SigShareObj} {v : Sign.SigShare} : At View.sigShare m o v ↔
    At View.opening.opt m o.sigmaNumerator v.sigmaNumerator ∧
      At View.opening.opt m o.sigmaDenominator v.sigmaDenominator := by
  obtain ⟨a, b⟩ := v
  have h : At View.sigShare m o ⟨a, b⟩ ↔ At (View.opening.opt.prod View.opening.opt) m
      (o.sigmaNumerator, o.sigmaDenominator) (a, b) := by
    simp [At, Has, View.sigShare, View.via, View.prod]
  rw [h, at_prod]

attribute [local irreducible] Sign.deriveRho Sign.convertHashToInteger Sign.nuOf Sign.muOf

theorem newSigShare_ret {kap : Option OpeningObj} {vkap : Option Opening} (hkey : At View.com.opt m keyT vkeyT)
    (hpre : At View.com.opt m presigT vpresigT) (hl : At View.opening.opt m lam vlam)
    (hkap : At View.opening.opt m kap vkap) (hk : At View.opening.opt m kl vkl) :
    Outcome (Writes ∅ m) (newSigShare P path msg rand keyT presigT lam kap kl) m
      (Sign.SigShare.new P path msg rand vkeyT vpresigT vlam vkap vkl) (Ret View.sigShare m) := by
  refine Outcome.call (deriveRho_ret hkey hpre) (Writes.refl _ _) fun vd d m1 r1 w1 => ?_
  obtain ⟨d1, d2, d3, -⟩ := at_derived.1 r1.at
  refine Outcome.call convertHashToInteger_ret w1 fun ve e m2 r2 w2 => ?_
  refine Outcome.call_ok (mulNew_ret (d1.mono r2.1) (d2.mono r2.1)) w2 fun t m3 r3 w3 => ?_
  refine Outcome.upd (addSc_in (r2.upto r3.1) r3.at) w1 fun theta m4 r4 w4 => ?_
  refine Outcome.call (nuOf_ret r4.at (d1.mono r4.1) (hl.mono w4) (hk.mono w4)) w4 fun vn nu m5 r5 w5 => ?_
  refine Outcome.call (muOf_ret ((d3.mono r4.1).mono r5.1) (hl.mono w5) (hkap.mono w5)) w5 fun vm mu m6 r6 w6 => ?_
  have h := (r5.pair r6).since w4
  exact Outcome.pure (Ret.via (f := fun o : SigShareObj => (o.sigmaNumerator, o.sigmaDenominator))
    (g := fun v : Option Opening × Option Opening => (⟨v.1, v.2⟩ : Sign.SigShare)) (o := ⟨nu, mu⟩) h)

theorem checkPointer_ret {o : Option OpeningObj} {v : Option Opening} {s : Addr} {x : Pt}
    (ho : At View.opening.opt m o v) (hs : At View.pt m s x) :
    Outcome (Writes ∅ m) (checkPointer o s) m (Sign.checkPointer v x) (Ret View.data m) := by
  have w0 := Writes.refl ∅ m
  unfold checkPointer Sign.checkPointer
  rcases at_opt.1 (pedersenPointer_at ho) with ⟨e1, e2⟩ | ⟨k, ⟨kv, km⟩, e1, e2, h1⟩ <;> rw [e1, e2] <;> dsimp only
  · exact Outcome.pure (Ret.data w0)
  obtain ⟨k1, k2⟩ := at_prod.1 h1
  refine Outcome.call_ok (pedersen_ret k1 k2) w0 fun p m1 r1 w1 => ?_
  refine Outcome.getPt (hs.mono w1) (Outcome.getPt r1.at ?_)
  dsimp only
  split_ifs
  · exact Outcome.pure (Ret.data w1)
  · exact Outcome.err w1

attribute [local irreducible] Dealings.transcriptEvaluateAt Sign.checkPointer

theorem verifySigShare_ret {t : SigShareObj} {vt : Sign.SigShare} {signer : NodeIndex} {la ka ke : Option ComObj}
    {vla vka vke : Option Dealings.Com} (ht : At View.sigShare m t vt) (hkey : At View.com.opt m keyT vkeyT)
    (hpre : At View.com.opt m presigT vpresigT) (hla : At View.com.opt m la vla) (hka : At View.com.opt m ka vka)
    (hke : At View.com.opt m ke vke) :
    Outcome (Writes ∅ m) (verifySigShare P t path msg rand signer keyT presigT la ka ke) m
      (vt.verify P path msg rand signer vkeyT vpresigT vla vka vke) (Ret View.data m) := by
  obtain ⟨t1, t2⟩ := at_sigShare.1 ht
  refine Outcome.call (deriveRho_ret hkey hpre) (Writes.refl _ _) fun vd d m1 r1 w1 => ?_
  obtain ⟨d1, d2, d3, -⟩ := at_derived.1 r1.at
  refine Outcome.call convertHashToInteger_ret w1 fun ve e m2 r2 w2 => ?_
  refine Outcome.call_ok (mulNew_ret (d1.mono r2.1) (d2.mono r2.1)) w2 fun s m3 r3 w3 => ?_
  refine Outcome.upd (addSc_in (r2.upto r3.1) r3.at) w1 fun theta m4 r4 w4 => ?_
  have d1' := d1.mono r4.1
  have d3' := d3.mono r4.1
  have rt := r4.at
  clear r3 r2 w2 w3
  refine Outcome.call (transcriptEvaluateAt_ret (hla.mono w4) signer) w4 fun vlj lj m5 r5 w5 => ?_
  refine Outcome.call (transcriptEvaluateAt_ret (hka.mono w5) signer) w5 fun vkj kj m6 r6 w6 => ?_
  refine Outcome.call (transcriptEvaluateAt_ret (hke.mono w6) signer) w6 fun vyj yj m7 r7 w7 => ?_
  have w57 := r6.1.trans_empty r7.1
  have w47 := r5.1.trans_empty w57
  refine Outcome.call_ok (smulNew_ret (r5.at.mono w57) (rt.mono w47)) w7 fun a m8 r8 w8 => ?_
  refine Outcome.call_ok (clonePt_ret (r7.at.mono r8.1)) w8 fun c m9 r9 w9 => ?_
  have w79 := r8.1.trans_empty r9.1
  have w49 := w47.trans_empty w79
  have hk9 := (r6.at.mono r7.1).mono w79
  refine Outcome.upd (smulPt_to r9 hk9 (d1'.mono w49)) w8 fun c m10 r10 w10 => ?_
  refine Outcome.upd (addPt_in (r8.upto r10.1) r10.at) w7 fun a m11 r11 w11 => ?_
  have w4b := w47.trans_empty r11.1
  refine Outcome.call_ok (smulNew_ret ((r5.at.mono w57).mono r11.1) (d3'.mono w4b)) w11 fun b m12 r12 w12 => ?_
  have hk12 := ((r6.at.mono r7.1).mono r11.1).mono r12.1
  refine Outcome.upd (addPt_in r12 hk12) w11 fun b m13 r13 w13 => ?_
  have ha := r11.at.mono r13.1
  refine Outcome.call (checkPointer_ret (t1.mono w13) ha) w13 fun _ _ m14 r14 w14 => ?_
  exact ((checkPointer_ret (t2.mono w14) (ha.mono r14.1)).after w14).mono fun _ _ _ h => h.since w14

/-! ### sign/combined_sig.go -/

theorem at_signature {o : SignatureObj} {v : Sign.Signature} :
    At View.signature m o v ↔ At View.sc m o.r v.r ∧ At View.sc m o.s v.s := by
  obtain ⟨a, b⟩ := v
  have h : At View.signature m o ⟨a, b⟩ ↔ At (View.sc.prod View.sc) m (o.r, o.s) (a, b) := by
    simp [At, Has, View.signature, View.via, View.prod]
  rw [h, at_prod]

theorem appendValue_at {l : List Addr} {vl : List Fn} {o : Option OpeningObj} {v : Option Opening}
    (hl : At View.sc.list m l vl) (ho : At View.opening.opt m o v) :
    At View.sc.list m (appendValue l o) (Sign.appendValue vl v) := by
  unfold appendValue Sign.appendValue
  rcases at_opt.1 (pedersenValue_at ho) with ⟨e1, e2⟩ | ⟨k, ⟨kv, km⟩, e1, e2, h1⟩ <;> rw [e1, e2]
  · exact hl
  · obtain ⟨h2, h3⟩ := at_list_sc.1 hl
    obtain ⟨h4, h5⟩ := at_sc.1 (at_prod.1 h1).1
    refine at_list_sc.2 ⟨fun c hc => ?_, ?_⟩
    · rcases List.mem_append.1 hc with hc | hc
      · exact h2 c hc
      · rw [List.mem_singleton.1 hc]
        exact h4
    · rw [List.map_append, h3]
      exact congrArg (fun z => vl ++ [z]) h5

theorem scanShares_at {count threshold : Int} {xs : List NodeIndex} {nums dens : List Addr} {vnums vdens : List Fn}
    {shares : List (NodeIndex × SigShareObj)} {vshares : Sign.ShareMap}
    (h : At (View.omap View.sigShare) m shares vshares) (hn : At View.sc.list m nums vnums)
    (hd : At View.sc.list m dens vdens) :
    (scanShares count threshold xs nums dens shares).1 = (Sign.scan count threshold xs vnums vdens vshares).1 ∧
    At View.sc.list m (scanShares count threshold xs nums dens shares).2.1
      (Sign.scan count threshold xs vnums vdens vshares).2.1 ∧
    At View.sc.list m (scanShares count threshold xs nums dens shares).2.2
      (Sign.scan count threshold xs vnums vdens vshares).2.2 := by
  induction shares generalizing vshares xs nums dens vnums vdens with
  | nil =>
    rw [at_nil.1 h]
    exact ⟨rfl, hn, hd⟩
  | cons x rest ih =>
    obtain ⟨i, sh⟩ := x
    rcases At.cases h with ⟨e, -⟩ | ⟨_, _, ⟨j, v⟩, vs', e, rfl, h1, h2⟩
    · cases e
    cases e
    obtain ⟨h3, h4⟩ := at_prod.1 h1
    obtain rfl : i = j := at_data.1 h3
    obtain ⟨h5, h6⟩ := at_sigShare.1 h4
    unfold scanShares Sign.scan
    by_cases hc : count ≥ threshold
    · rw [if_pos hc, if_pos hc]
      exact ih h2 hn hd
    · rw [if_neg hc, if_neg hc]
      exact ih h2 (appendValue_at hn h5) (appendValue_at hd h6)

/-- Inverting a new object in place. -/
theorem invSc_in {s : Addr} {x : Fn} (hs : Ret View.sc m x s m') :
    Outcome E (invSc s s) m' (.ok x⁻¹) (Ret View.sc m) := by
  have h1 := at_sc.1 hs.at
  by_cases h0 : x = 0
  · subst h0
    rw [inv_zero]
    refine ⟨s, m'.setSc s 0, by simp [invSc, h1.2], RetSc.ret ⟨hs.1.setSc (.inr ?_), ⟨?_, ?_⟩, ?_⟩⟩
    · exact hs.new_sc.1
    · exact hs.new_sc.1
    · exact h1.1
    · rw [Mem.setSc_self]
  · refine ⟨s, m'.setSc s x⁻¹, by simp [invSc, h1.2, h0], RetSc.ret ⟨hs.1.setSc (.inr ?_), ⟨?_, ?_⟩, ?_⟩⟩
    · exact hs.new_sc.1
    · exact hs.new_sc.1
    · exact h1.1
    · rw [Mem.setSc_self]

theorem negSc_in {s : Addr} {x : Fn} (hs : Ret View.sc m x s m') :
    Outcome E (negSc s s) m' (.ok (-x)) (Ret View.sc m) := by
  have h1 := at_sc.1 hs.at
  refine ⟨s, _, rfl, RetSc.ret ⟨hs.1.setSc (.inr ?_), ⟨?_, ?_⟩, ?_⟩⟩
  · exact hs.new_sc.1
  · exact hs.new_sc.1
  · exact h1.1
  · rw [Mem.setSc_self, h1.2]

/-- The inverse of a non-zero scalar, written to a new object. -/
theorem invSc_to {s a : Addr} {z x : Fn} (hs : Ret View.sc m z s m') (ha : At View.sc m' a x) (h0 : x ≠ 0) :
    Outcome E (invSc s a) m' (.ok x⁻¹) (Ret View.sc m) := by
  have h1 := at_sc.1 hs.at
  have h2 := at_sc.1 ha
  refine ⟨s, m'.setSc s x⁻¹, by simp [invSc, h2.2, h0], RetSc.ret ⟨hs.1.setSc (.inr ?_), ⟨?_, ?_⟩, ?_⟩⟩
  · exact hs.new_sc.1
  · exact hs.new_sc.1
  · exact h1.1
  · rw [Mem.setSc_self]

theorem ret_signature {r s : Addr} {x y : Fn} (h : Ret (View.sc.prod View.sc) m (x, y) (r, s) m') :
    Ret View.signature m ⟨x, y⟩ ⟨r, s⟩ m' :=
  Ret.via (f := fun o : SignatureObj => (o.r, o.s)) (g := fun v : Fn × Fn => (⟨v.1, v.2⟩ : Sign.Signature)) (o := ⟨r, s⟩) h

attribute [local irreducible] Lagr.atZero Lagr.interpolateScalar Sign.scan

theorem combineShares_ret {threshold : Int} {shares : List (NodeIndex × SigShareObj)} {vshares : Sign.ShareMap}
    (hkey : At View.com.opt m keyT vkeyT) (hpre : At View.com.opt m presigT vpresigT)
    (hs : At (View.omap View.sigShare) m shares vshares) :
    Outcome (Writes ∅ m) (combineShares P path msg rand keyT presigT threshold shares) m
      (Sign.combine P path msg rand vkeyT vpresigT threshold vshares) (Ret View.signature m) := by
  unfold combineShares Sign.combine
  rw [At.length hs]
  by_cases hl : (vshares.length : Int) < threshold
  · rw [if_pos hl, if_pos hl]
    exact Outcome.err (Writes.refl _ _)
  rw [if_neg hl, if_neg hl]
  refine Outcome.call (deriveRho_ret hkey hpre) (Writes.refl _ _) fun vd d m1 r1 w1 => ?_
  by_cases ht : threshold < 0
  · rw [if_pos ht, if_pos ht]
    exact Outcome.panic w1
  rw [if_neg ht, if_neg ht]
  obtain ⟨s1, s2, s3⟩ := scanShares_at (count := 0) (threshold := threshold) (xs := []) (hs.mono w1)
    (at_nil.2 rfl : At View.sc.list m1 [] []) (at_nil.2 rfl : At View.sc.list m1 [] [])
  dsimp only
  rw [s1]
  refine Outcome.call (atZero_ret _) w1 fun vl l m2 r2 w2 => ?_
  refine Outcome.call (interpolateScalar_ret r2.at (s2.mono r2.1)) w2 fun vn num m3 r3 w3 => ?_
  refine Outcome.call (interpolateScalar_ret (r2.at.mono r3.1) ((s3.mono r2.1).mono r3.1)) w3 fun vdn den m4 r4 w4 => ?_
  refine Outcome.upd (invSc_in r4) w3 fun inv m5 r5 w5 => ?_
  refine Outcome.upd (mulSc_in (r3.upto r5.1) r5.at) w2 fun sg m6 r6 w6 => ?_
  refine Outcome.getSc r6.at ?_
  have r1' : Ret View.sc m vd.rho d.rho m1 := by
    obtain ⟨h1, -⟩ := at_derived.1 r1.at
    exact ⟨r1.1, fun x hx => r1.2.1 x (List.mem_append_left _ hx), by simp [View.sc], h1.2⟩
  by_cases hh : Scalar.isHigh (vn * vdn⁻¹) = true
  · rw [if_pos hh, if_pos hh]
    refine Outcome.upd (negSc_in r6) w2 fun ns m7 r7 w7 => ?_
    exact Outcome.pure (ret_signature (r1'.pair (r7.since r2.1)))
  · rw [if_neg hh, if_neg hh]
    exact Outcome.pure (ret_signature (r1'.pair (r6.since r2.1)))

attribute [local irreducible] Dealings.constantTerm

theorem verifySignature_ret {t : SignatureObj} {vt : Sign.Signature} (ht : At View.signature m t vt)
    (hkey : At View.com.opt m keyT vkeyT) (hpre : At View.com.opt m presigT vpresigT) :
    Outcome (Writes ∅ m) (verifySignature P t path msg rand keyT presigT) m
      (vt.verify P path msg rand vkeyT vpresigT) (Ret View.data m) := by
  obtain ⟨t1, t2⟩ := at_signature.1 ht
  have w0 := Writes.refl ∅ m
  unfold verifySignature Sign.Signature.verify
  refine Outcome.getSc t1 (Outcome.getSc t2 ?_)
  by_cases h0 : vt.r = 0 ∨ vt.s = 0
  · rw [if_pos h0, if_pos h0]
    exact Outcome.err w0
  rw [if_neg h0, if_neg h0]
  refine Outcome.call convertHashToInteger_ret w0 fun vm e m1 r1 w1 => ?_
  refine Outcome.call (deriveRho_ret (hkey.mono w1) (hpre.mono w1)) w1 fun vd d m2 r2 w2 => ?_
  obtain ⟨d1, d2, -, d4⟩ := at_derived.1 r2.at
  refine Outcome.getSc (t1.mono w2) (Outcome.getSc d1 (Outcome.getSc (t2.mono w2) ?_))
  by_cases h1 : vt.r ≠ vd.rho ∨ Scalar.isHigh vt.s = true
  · rw [if_pos h1, if_pos h1]
    exact Outcome.err w2
  rw [if_neg h1, if_neg h1]
  refine Outcome.call (transcriptConstantTerm_ret (hkey.mono w2)) w2 fun vk k m3 r3 w3 => ?_
  refine Outcome.call_ok (mulByG_ret (d2.mono r3.1)) w3 fun g m4 r4 w4 => ?_
  refine Outcome.upd (addPt_in r4 (r3.at.mono r4.1)) w3 fun q m5 r5 w5 => ?_
  refine Outcome.call_ok (cloneSc_ret (t2.mono w5)) w5 fun c m6 r6 w6 => ?_
  refine Outcome.upd (invSc_to r6 (t2.mono w6) fun h => h0 (.inr h)) w5 fun c m7 r7 w7 => ?_
  have w27 := (r3.1.trans_empty r5.1).trans_empty r7.1
  refine Outcome.call_ok (mulNew_ret ((r1.at.mono r2.1).mono w27) r7.at) w7 fun u1 m8 r8 w8 => ?_
  refine Outcome.call_ok (mulNew_ret (t1.mono w8) (r7.at.mono r8.1)) w8 fun u2 m9 r9 w9 => ?_
  refine Outcome.call_ok (newPt_ret G) w9 fun g m10 r10 w10 => ?_
  have w710 := (r8.1.trans_empty r9.1).trans_empty r10.1
  refine Outcome.call_ok (mulPoints_ret r10.at ((r8.at.mono r9.1).mono r10.1)
    ((r5.at.mono r7.1).mono w710) (r9.at.mono r10.1)) w10 fun rp m11 r11 w11 => ?_
  refine Outcome.getPt r11.at (Outcome.getPt (((d4.mono w27).mono w710).mono r11.1) ?_)
  dsimp only
  split_ifs
  · exact Outcome.err w11
  · exact Outcome.err w11
  · exact Outcome.pure (Ret.data w11)

end Sign

/-! ### complaints/complaints.go -/

section Complaints

variable {P : Prim} {ad : Bytes} {sk pk : Addr} {vsk : Fn} {vpk : Pt} {seed : Seed}

attribute [local irreducible] Complaints.createProofAssocData Zk.Dlog.create Zk.Dlog.verify Seed.derive
  Dealings.openDealing Complaints.label Mega.Single.decryptFromSharedSecret Mega.Pair.decryptFromSharedSecret

theorem createProofAssocData_at {receiver dealer : NodeIndex} (hk : At View.pt m pk vpk) (w : Writes ∅ m0 m) :
    Outcome (Writes ∅ m0) (createProofAssocData P ad receiver dealer pk) m
      (Complaints.createProofAssocData P ad receiver dealer vpk) (fun v a m' => a = v ∧ m' = m) :=
  Outcome.getPt hk (Outcome.lift' w)

theorem ephemeral_at {c : CipherObj} {v : Dealings.Cipher} (h : At View.cipher m c v) :
    At View.pt m c.ephemeral v.ephemeral := by
  have h' := at_cipher h
  cases c <;> cases v <;> first | exact h'.elim | exact (at_ciphertext.1 h').1

theorem at_complaint {o : ComplaintObj} {v : Complaints.Complaint} :
    At View.complaint m o v ↔ At View.proof m o.proof v.proof ∧ At View.pt m o.sharedSecret v.sharedSecret := by
  obtain ⟨a, b⟩ := v
  have h : At View.complaint m o ⟨a, b⟩ ↔ At (View.proof.prod View.pt) m (o.proof, o.sharedSecret) (a, b) := by
    simp [At, Has, View.complaint, View.via, View.prod]
  rw [h, at_prod]

theorem newComplaint_ret {d : DealingObj} {vd : Dealings.Dealing} {dealer receiver : NodeIndex}
    (hd : At View.dealing m d vd) (hs : At View.sc m sk vsk) (hk : At View.pt m pk vpk) :
    Outcome (Writes ∅ m) (newComplaint P seed d dealer receiver sk pk ad) m
      (Complaints.newComplaint P seed vd dealer receiver vsk vpk ad) (Ret View.complaint m) := by
  have w0 := Writes.refl ∅ m
  refine Outcome.bind (nonNil_at (at_dealing.1 hd).1 w0) ?_
  rintro vc c m ⟨rfl, hc⟩
  have he := ephemeral_at hc
  refine Outcome.call_ok (smulNew_ret he hs) w0 fun s m1 r1 w1 => ?_
  refine Outcome.bind (createProofAssocData_at (hk.mono w1) w1) ?_
  rintro a b m1 ⟨rfl, rfl⟩
  refine Outcome.call_ok (newPt_ret G) w1 fun g m2 r2 w2 => ?_
  refine Outcome.call (dlogCreate_ret (hs.mono w2) r2.at (he.mono w2)) w2 fun vpf pf m3 r3 w3 => ?_
  have h := (r1.pair (r3.since r2.1)).swap
  exact Outcome.pure (Ret.via (f := fun o : ComplaintObj => (o.proof, o.sharedSecret))
    (g := fun v : Zk.Proof × Pt => (⟨v.1, v.2⟩ : Complaints.Complaint)) (o := ⟨pf, s⟩) h)

/-- Entering a new object into a map of new objects. -/
theorem Ret.set {V : View ο ν} {k : NodeIndex} {os : List (NodeIndex × ο)} {vs : List (NodeIndex × ν)} {o : ο} {v : ν}
    (h : Ret (View.omap V) m0 vs os m) (ho : Ret V m v o m') :
    Ret (View.omap V) m0 (OMap.set BitVec.toInt k v vs) (OMap.set BitVec.toInt k o os) m' := by
  have hall := (h.pair ho).swap
  have hsub : ∀ os : List (NodeIndex × ο),
      ((View.omap V).objs (OMap.set BitVec.toInt k o os)).Subperm (V.objs o ++ (View.omap V).objs os) := by
    intro os
    induction os with
    | nil => exact List.Subperm.refl _
    | cons x os ih =>
      obtain ⟨j, p⟩ := x
      unfold OMap.set
      split_ifs
      · exact List.Subperm.refl _
      · change (V.objs p ++ (View.omap V).objs (OMap.set BitVec.toInt k o os)).Subperm
          (V.objs o ++ (V.objs p ++ (View.omap V).objs os))
        refine ((List.subperm_append_left _).2 ih).trans ?_
        rw [← List.append_assoc, ← List.append_assoc]
        exact (List.perm_append_comm.append_right _).subperm
      · change (V.objs o ++ (View.omap V).objs os).Subperm (V.objs o ++ (V.objs p ++ (View.omap V).objs os))
        exact (List.subperm_append_left _).2 (List.sublist_append_right _ _).subperm
  obtain ⟨l, hp, hl⟩ := hsub os
  have hval : ∀ os : List (NodeIndex × ο), (View.omap V).val m' (OMap.set BitVec.toInt k o os) =
      OMap.set BitVec.toInt k (V.val m' o) ((View.omap V).val m' os) := by
    intro os
    induction os with
    | nil => rfl
    | cons x os ih =>
      obtain ⟨j, p⟩ := x
      change _ = OMap.set BitVec.toInt k (V.val m' o) ((j, V.val m' p) :: (View.omap V).val m' os)
      unfold OMap.set
      split_ifs
      · rfl
      · exact congrArg (List.cons (j, V.val m' p)) ih
      · rfl
  refine ⟨hall.1, fun x hx => hall.2.1 x (hl.subset (hp.symm.subset hx)), hp.nodup_iff.1 (hall.2.2.1.sublist hl), ?_⟩
  rw [hval, ho.2.2.2, (h.upto ho.1).2.2.2]

attribute [local irreducible] Complaints.newComplaint

theorem scanComplaints_ret {receiver : NodeIndex} {cs : List (NodeIndex × ComplaintObj)}
    {vcs : List (NodeIndex × Complaints.Complaint)} {ds : List (NodeIndex × DealingObj)} {vds : Dealings.DealingMap}
    (hc : Ret (View.omap View.complaint) m0 vcs cs m) (hd : At (View.omap View.dealing) m ds vds)
    (hs : At View.sc m sk vsk) (hk : At View.pt m pk vpk) :
    Outcome (Writes ∅ m0) (scanComplaints P ad receiver sk pk seed cs ds) m
      (Complaints.scan P ad receiver vsk vpk seed vcs vds) (Ret (View.omap View.complaint) m0) := by
  induction ds generalizing m cs vcs vds with
  | nil =>
    rw [at_nil.1 hd]
    exact Outcome.pure hc
  | cons x ds ih =>
    obtain ⟨i, d⟩ := x
    obtain ⟨vd, vrest, rfl, h1, h2⟩ := at_dealings_cases hd
    have ho := openDealing_ret (P := P) (ad := ad) (dealer := i) (opener := receiver) h1 hs hk
    unfold scanComplaints Complaints.scan
    dsimp only
    rcases e : Dealings.openDealing P vd ad i receiver vsk vpk with v | s | s | _ <;> rw [e] at ho
    · obtain ⟨o, m1, e1, r1⟩ := ho
      have e2 : Go.ignoreErr (openDealing P d ad i receiver sk pk) m = (.ok (some o), m1) := by
        simp [Go.ignoreErr, e1]
      refine Outcome.bind_ok (R := fun _ a m' => a = some o ∧ m' = m1) (v := ()) ⟨some o, m1, e2, rfl, rfl⟩ ?_
      rintro a m1' ⟨rfl, rfl⟩
      exact ih (hc.upto r1.1) (h2.mono r1.1) (hs.mono r1.1) (hk.mono r1.1)
    · obtain ⟨m1, e1, w1⟩ := ho
      have e2 : Go.ignoreErr (openDealing P d ad i receiver sk pk) m = (.ok none, m1) := by
        simp [Go.ignoreErr, e1]
      refine Outcome.bind_ok (R := fun _ a m' => a = none ∧ m' = m1) (v := ()) ⟨none, m1, e2, rfl, rfl⟩ ?_
      rintro a m1' ⟨rfl, rfl⟩
      have hc1 := hc.upto w1
      refine Outcome.lift hc1.1 fun cseed _ => ?_
      refine Outcome.call (newComplaint_ret (h1.mono w1) (hs.mono w1) (hk.mono w1)) hc1.1 fun v o m2 r2 w2 => ?_
      have w := w1.trans_empty r2.1
      exact ih (hc1.set r2) (h2.mono w) (hs.mono w) (hk.mono w)
    · obtain ⟨m1, e1, w1⟩ := ho
      refine ⟨m1, ?_, hc.1.trans_empty w1⟩
      simp [Bind.bind, Go.ignoreErr, e1]
    · obtain ⟨m1, e1, w1⟩ := ho
      refine ⟨m1, ?_, hc.1.trans_empty w1⟩
      simp [Bind.bind, Go.ignoreErr, e1]

attribute [local irreducible] Complaints.scan

theorem generateComplaints_ret {receiver : NodeIndex} {ds : List (NodeIndex × DealingObj)} {vds : Dealings.DealingMap}
    (hd : At (View.omap View.dealing) m ds vds) (hs : At View.sc m sk vsk) (hk : At View.pt m pk vpk) :
    Outcome (Writes ∅ m) (generateComplaints P ds ad receiver sk pk seed) m
      (Complaints.generateComplaints P vds ad receiver vsk vpk seed) (Ret (View.omap View.complaint) m) := by
  refine Outcome.bind (scanComplaints_ret (Ret.nil (Writes.refl _ _)) hd hs hk) ?_
  intro v o m1 r1
  rw [At.length r1.at]
  split_ifs
  · exact Outcome.err r1.1
  · exact Outcome.pure r1

theorem claimedOpening_ret {c : CipherObj} {vc : Dealings.Cipher} {kind : Kind} {dealer complainer : NodeIndex}
    {s : Addr} {vs : Pt} (hc : At View.cipher m c vc) (hk : At View.pt m pk vpk) (hs : At View.pt m s vs) :
    Outcome (Writes ∅ m) (claimedOpening P c kind ad dealer complainer pk s) m
      (Complaints.claimedOpening P vc kind ad dealer complainer vpk vs) (Ret View.opening m) := by
  have h' := at_cipher hc
  cases c <;> cases vc <;> first | exact h'.elim | skip
  · cases kind
    · refine Outcome.call (decryptSharedSingle_ret h' hk hs) (Writes.refl _ _) fun v o m1 r1 w1 => ?_
      exact Outcome.pure (ret_simple r1)
    · exact Outcome.err (Writes.refl _ _)
  · cases kind
    · exact Outcome.err (Writes.refl _ _)
    · refine Outcome.call (decryptSharedPair_ret h' hk hs) (Writes.refl _ _) fun v o m1 r1 w1 => ?_
      exact Outcome.pure (ret_pedersen r1)

attribute [local irreducible] Complaints.claimedOpening

theorem verifyComplaint_ret {c : ComplaintObj} {vc : Complaints.Complaint} {d : DealingObj} {vd : Dealings.Dealing}
    {dealer complainer : NodeIndex} (hc : At View.complaint m c vc) (hd : At View.dealing m d vd)
    (hk : At View.pt m pk vpk) :
    Outcome (Writes ∅ m) (verifyComplaint P c d dealer complainer pk ad) m
      (Complaints.verify P vc vd dealer complainer vpk ad) (Ret View.data m) := by
  have w0 := Writes.refl ∅ m
  obtain ⟨c1, c2⟩ := at_complaint.1 hc
  obtain ⟨hct, hcm, -⟩ := at_dealing.1 hd
  refine Outcome.bind (createProofAssocData_at hk w0) ?_
  rintro a b m ⟨rfl, rfl⟩
  refine Outcome.call_ok (newPt_ret G) w0 fun g m1 r1 w1 => ?_
  refine Outcome.bind (nonNil_at (hct.mono w1) w1) ?_
  rintro vct ct m1 ⟨rfl, hct⟩
  refine Outcome.call (dlogVerify_ret r1.at (ephemeral_at hct) (hk.mono w1) (c2.mono w1) (c1.mono w1)) w1
    fun _ _ m2 r2 w2 => ?_
  refine Outcome.bind (nonNil_at (hcm.mono w2) w2) ?_
  rintro vcm cm m2 ⟨rfl, hcm⟩
  rw [(at_commitment.1 hcm).1]
  refine Outcome.call (claimedOpening_ret (hct.mono r2.1) (hk.mono w2) (c2.mono w2)) w2 fun vo o m3 r3 w3 => ?_
  refine Outcome.call (checkOpening_ret (hcm.mono r3.1) r3.at) w3 fun vb b m4 r4 w4 => ?_
  obtain rfl : b = vb := at_data.1 r4.at
  cases b
  · exact Outcome.pure (Ret.data w4)
  · exact Outcome.err w4

end Complaints

end Verif.Heap
