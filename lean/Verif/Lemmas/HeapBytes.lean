import Verif.Model.HeapBytes
import Verif.Lemmas.Key

/-!
Lemmas about byte slices on memory.
-/

set_option autoImplicit false

namespace Verif.HeapBytes

/-- The window lies in an array that exists. -/
def Slice.Valid (m : Mem) (s : Slice) : Prop :=
  s.len ≤ s.cap ∧ (s.cap = 0 ∨ s.arr < m.next ∧ s.off + s.cap ≤ (m.arr s.arr).length)

/-- All arrays of `m` are as they were. -/
def Same (m m' : Mem) : Prop := m.next ≤ m'.next ∧ ∀ a < m.next, m'.arr a = m.arr a

/-- The slice does not show an array of `m`. -/
def Slice.New (m : Mem) (s : Slice) : Prop := s.cap = 0 ∨ m.next ≤ s.arr

/-- A slice made since `m`, showing `v`; nothing of `m` has been changed. -/
structure Fresh (m0 m : Mem) (s : Slice) (v : Bytes) : Prop where
  same : Same m0 m
  valid : s.Valid m
  new : s.New m0
  val : s.val m = v

theorem Same.refl (m : Mem) : Same m m := ⟨le_refl _, fun _ _ => rfl⟩

theorem Same.trans {m m' m'' : Mem} (h : Same m m') (h' : Same m' m'') : Same m m'' :=
  ⟨h.1.trans h'.1, fun a ha => (h'.2 a (lt_of_lt_of_le ha h.1)).trans (h.2 a ha)⟩

theorem Fresh.mono {m0 m m' : Mem} {s : Slice} {v : Bytes} (h : Same m0 m) (f : Fresh m m' s v) : Fresh m0 m' s v :=
  ⟨h.trans f.same, f.valid, f.new.imp_right h.1.trans, f.val⟩

theorem length_val {m : Mem} {s : Slice} (h : s.Valid m) : (s.val m).length = s.len := by
  rw [Slice.val, List.length_take, List.length_drop]
  rcases h with ⟨h1, h2 | ⟨-, h2⟩⟩ <;> omega

theorem Fresh.len {m0 m : Mem} {s : Slice} {v : Bytes} (h : Fresh m0 m s v) : s.len = v.length := by
  rw [← h.val, length_val h.valid]

theorem val_of_cap_zero {m : Mem} {s : Slice} (h : s.Valid m) (h0 : s.cap = 0) (m' : Mem) : s.val m' = [] := by
  have : s.len = 0 := by have := h.1; omega
  rw [Slice.val, this, List.take_zero]

theorem Same.val {m m' : Mem} (h : Same m m') {s : Slice} (hs : s.Valid m) : s.val m' = s.val m := by
  rcases hs.2 with h0 | ⟨h1, -⟩
  · rw [val_of_cap_zero hs h0, val_of_cap_zero hs h0]
  · rw [Slice.val, Slice.val, h.2 _ h1]

theorem Same.valid {m m' : Mem} (h : Same m m') {s : Slice} (hs : s.Valid m) : s.Valid m' := by
  refine ⟨hs.1, hs.2.imp_right fun ⟨h1, h2⟩ => ⟨lt_of_lt_of_le h1 h.1, ?_⟩⟩
  rw [h.2 _ h1]
  exact h2

/-- What is new does not depend on what was there. -/
theorem Fresh.keeps {m0 m : Mem} {s : Slice} {v : Bytes} (h : Fresh m0 m s v) {m' : Mem}
    (hm : ∀ a, m0.next ≤ a → m'.arr a = m.arr a) : s.val m' = v := by
  rcases h.new with h0 | h1
  · rw [← h.val, val_of_cap_zero h.valid h0, val_of_cap_zero h.valid h0]
  · rw [← h.val, Slice.val, Slice.val, hm _ h1]

theorem length_splice {a bs : Bytes} {i : Nat} (h : i + bs.length ≤ a.length) : (splice a i bs).length = a.length := by
  simp only [splice, List.length_append, List.length_take, List.length_drop]
  omega

theorem splice_nil (a : Bytes) (i : Nat) : splice a i [] = a := by simp [splice]

theorem splice_single {a : Bytes} {i : Nat} (h : i < a.length) (v : UInt8) : splice a i [v] = a.set i v := by
  rw [splice, List.set_eq_take_append_cons_drop, if_pos h]
  simp

/-- What a window shows after a write into it. -/
theorem window_splice (a bs : Bytes) (off len i : Nat) (h : off + len ≤ a.length) (hi : i + bs.length ≤ len) :
    ((splice a (off + i) bs).drop off).take len = splice ((a.drop off).take len) i bs := by
  apply List.ext_getElem?
  intro j
  simp only [splice, List.getElem?_take, List.getElem?_drop, List.getElem?_append, List.length_append, List.length_take,
    List.length_drop]
  split_ifs <;> first | rfl | omega | (congr 1; omega)

theorem Fresh.write {m0 m : Mem} {s : Slice} {v : Bytes} (h : Fresh m0 m s v) {i : Nat} {bs : Bytes} (hi : i + bs.length ≤ s.cap)
    (hl : i + bs.length ≤ v.length) : Fresh m0 (m.write s.arr (s.off + i) bs) s (splice v i bs) := by
  rcases Nat.eq_zero_or_pos s.cap with h0 | h0
  · have hb : bs = [] := List.length_eq_zero_iff.1 (by omega)
    subst hb
    have : m.write s.arr (s.off + i) [] = m := by
      rw [Mem.write, splice_nil, Function.update_eq_self]
    rw [this, splice_nil]
    exact h
  · obtain ⟨h1, h2⟩ := h.valid.2.resolve_left (by omega)
    have hn := h.new.resolve_left (by omega)
    have hlen := h.len
    refine ⟨⟨h.same.1, fun a ha => ?_⟩, ⟨h.valid.1, .inr ⟨h1, ?_⟩⟩, h.new, ?_⟩
    · rw [Mem.write, ← h.same.2 a ha]
      exact Function.update_of_ne (by omega) _ _
    · rw [Mem.write]
      simp only [Function.update_self]
      rw [length_splice (by omega)]
      exact h2
    · rw [Slice.val, Mem.write]
      simp only [Function.update_self]
      have := h.valid.1
      rw [window_splice _ _ _ _ _ (by omega) (by omega), ← h.val, Slice.val]

theorem set_fresh {m0 m : Mem} {s : Slice} {v : Bytes} (h : Fresh m0 m s v) {i : Nat} (hi : i < v.length) (x : UInt8) :
    ∃ m', set s i x m = (.ok (), m') ∧ Fresh m0 m' s (v.set i x) := by
  have hl := h.len
  refine ⟨_, by rw [set, if_pos (by omega)], ?_⟩
  rw [← splice_single hi]
  have := h.valid.1
  exact h.write (by simp; omega) (by simpa using hi)

theorem index_ok {m : Mem} {s : Slice} {v : Bytes} (h : s.val m = v) {i : Nat} (hi : i < v.length) :
    index s i m = (.ok v[i], m) := by
  rw [index, h, List.getElem?_eq_getElem hi]

theorem alloc_fresh (m : Mem) (bs : Bytes) : ∃ s m', alloc bs m = (.ok s, m') ∧ Fresh m m' s bs ∧ s.cap = s.len ∧ s.off = 0 := by
  refine ⟨_, _, rfl, ⟨⟨Nat.le_succ _, fun a ha => ?_⟩, ⟨le_refl _, .inr ⟨Nat.lt_succ_self _, ?_⟩⟩, .inr (le_refl _), ?_⟩, rfl, rfl⟩
  · exact Function.update_of_ne (by omega) _ _
  · simp
  · simp [Slice.val]

theorem makeSlice_fresh (m : Mem) {len cap : Nat} (h : len ≤ cap) :
    ∃ s m', makeSlice len cap m = (.ok s, m') ∧ Fresh m m' s (List.replicate len 0) ∧ s.len = len ∧ s.cap = cap ∧ s.off = 0 := by
  refine ⟨_, _, rfl, ⟨⟨Nat.le_succ _, fun a ha => ?_⟩, ⟨h, .inr ⟨Nat.lt_succ_self _, ?_⟩⟩, .inr (le_refl _), ?_⟩, rfl, rfl, rfl⟩
  · exact Function.update_of_ne (by omega) _ _
  · simp
  · simp [Slice.val, h]

/-- `append` to a slice that is new only writes where nobody else looks. -/
theorem append_fresh (grow : Nat → Nat → Nat) {m0 m : Mem} {s : Slice} {v : Bytes} (h : Fresh m0 m s v) (bs : Bytes) :
    ∃ s' m', append grow s bs m = (.ok s', m') ∧ Fresh m0 m' s' (v ++ bs) := by
  have hlen := h.len
  rw [append]
  split_ifs with hc
  · rcases Nat.eq_zero_or_pos s.cap with h0 | h0
    · have hb : bs = [] := List.length_eq_zero_iff.1 (by omega)
      subst hb
      refine ⟨_, _, rfl, ?_⟩
      rw [Mem.write, splice_nil, Function.update_eq_self, List.append_nil]
      exact ⟨h.same, h.valid, h.new, h.val⟩
    · obtain ⟨h1, h2⟩ := h.valid.2.resolve_left (by omega)
      have hn := h.new.resolve_left (by omega)
      refine ⟨_, _, rfl, ⟨h.same.1, fun a ha => ?_⟩, ⟨hc, .inr ⟨h1, ?_⟩⟩, .inr hn, ?_⟩
      · rw [Mem.write, ← h.same.2 a ha]
        exact Function.update_of_ne (by omega) _ _
      · rw [Mem.write]
        simp only [Function.update_self]
        rw [length_splice (by omega)]
        exact h2
      · rw [Slice.val, Mem.write]
        simp only [Function.update_self]
        rw [window_splice _ _ _ _ _ (by omega) (by omega), splice, ← h.val, Slice.val, List.take_take,
          List.drop_eq_nil_of_le (List.length_take_le ..), List.append_nil, Nat.min_eq_left (by omega)]
  · refine ⟨_, _, rfl, ⟨h.same.1.trans (Nat.le_succ _), fun a ha => ?_⟩, ⟨le_max_left _ _, .inr ⟨Nat.lt_succ_self _, ?_⟩⟩,
      .inr h.same.1, ?_⟩
    · rw [← h.same.2 a ha]
      exact Function.update_of_ne (by have := h.same.1; omega) _ _
    · simp only [Function.update_self, List.length_append, List.length_replicate, h.val]
      omega
    · simp only [Slice.val, Function.update_self, List.drop_zero]
      have e : List.take s.len (List.drop s.off (m.arr s.arr)) = v := h.val
      rw [e, List.take_left' (by simp [hlen])]

theorem nil_fresh (m : Mem) : Fresh m m nilSlice [] := ⟨Same.refl _, ⟨le_refl _, .inl rfl⟩, .inl rfl, rfl⟩

theorem bind_ok {α β : Type} {g : Go α} {f : α → Go β} {m m' : Mem} {a : α} (h : g m = (.ok a, m')) : (g >>= f) m = f a m' := by
  show (match g m with | (.ok a, m) => f a m | (.err e, m) => (.err e, m) | (.panic e, m) => (.panic e, m) | (.diverge, m) => (.diverge, m)) = _
  rw [h]

theorem bind_err {α β : Type} {g : Go α} {f : α → Go β} {m m' : Mem} {e : String} (h : g m = (.err e, m')) :
    (g >>= f) m = (.err e, m') := by
  show (match g m with | (.ok a, m) => f a m | (.err e, m) => (.err e, m) | (.panic e, m) => (.panic e, m) | (.diverge, m) => (.diverge, m)) = _
  rw [h]

theorem bind_panic {α β : Type} {g : Go α} {f : α → Go β} {m m' : Mem} {e : String} (h : g m = (.panic e, m')) :
    (g >>= f) m = (.panic e, m') := by
  show (match g m with | (.ok a, m) => f a m | (.err e, m) => (.err e, m) | (.panic e, m) => (.panic e, m) | (.diverge, m) => (.diverge, m)) = _
  rw [h]

theorem bind_diverge {α β : Type} {g : Go α} {f : α → Go β} {m m' : Mem} (h : g m = (.diverge, m')) :
    (g >>= f) m = (.diverge, m') := by
  show (match g m with | (.ok a, m) => f a m | (.err e, m) => (.err e, m) | (.panic e, m) => (.panic e, m) | (.diverge, m) => (.diverge, m)) = _
  rw [h]

/-! ### common/utils.go -/

theorem reverseLoop_fresh {m0 : Mem} {src : Slice} (hs : src.Valid m0) : ∀ (k i : Nat) (m : Mem) (out : Slice) (v : Bytes),
    Fresh m0 m out v → k ≤ (src.val m0).length → i + k = v.length →
    ∃ m', reverseLoop src out k i m = (.ok (), m') ∧ Fresh m0 m' out (v.take i ++ ((src.val m0).take k).reverse)
  | 0, i, m, out, v, h, _, hi => ⟨m, rfl, by
      rw [List.take_of_length_le (by omega), List.take_zero, List.reverse_nil, List.append_nil]; exact h⟩
  | k + 1, i, m, out, v, h, hk, hi => by
    obtain ⟨m1, h1, f1⟩ := set_fresh h (i := i) (by omega) ((src.val m0)[k])
    obtain ⟨m2, h2, f2⟩ := reverseLoop_fresh hs k (i + 1) m1 out _ f1 (by omega) (by rw [List.length_set]; omega)
    refine ⟨m2, ?_, ?_⟩
    · rw [reverseLoop, bind_ok (index_ok (h.same.val hs) (by omega)), bind_ok h1, h2]
    · convert f2 using 1
      have e1 : (v.set i (src.val m0)[k]).take (i + 1) = v.take i ++ [(src.val m0)[k]] := by
        rw [List.take_succ_eq_append_getElem (by rw [List.length_set]; omega), List.take_set_of_le (le_refl _), List.getElem_set_self]
      have e2 : (src.val m0).take (k + 1) = (src.val m0).take k ++ [(src.val m0)[k]] :=
        List.take_succ_eq_append_getElem (by omega)
      rw [e1, e2, List.reverse_append]
      simp

theorem reverseBytes_fresh {m : Mem} {src : Slice} (hs : src.Valid m) :
    ∃ s m', reverseBytes src m = (.ok s, m') ∧ Fresh m m' s (Verif.reverseBytes (src.val m)) := by
  obtain ⟨s, m1, h1, f1, l1, -⟩ := makeSlice_fresh m (le_refl src.len)
  have hl := length_val hs
  obtain ⟨m2, h2, f2⟩ := reverseLoop_fresh hs src.len 0 m1 s _ f1 (by omega) (by simp)
  refine ⟨s, m2, ?_, ?_⟩
  · rw [reverseBytes, bind_ok h1, bind_ok h2]
    rfl
  · convert f2 using 1
    rw [List.take_zero, List.nil_append, List.take_of_length_le (by omega)]
    rfl

/-! ### seed/xmd.go -/

theorem xmdLoop_fresh (grow : Nat → Nat → Nat) (P : Prim) (b0 : Bytes) {m0 : Mem} {dst : Slice} (hd : dst.Valid m0) : ∀ (k i : Nat)
    (m : Mem) (out : Slice) (v : Bytes), Fresh m0 m out v →
    ∃ s m', xmdLoop grow P b0 dst k i out m = (.ok s, m') ∧ Fresh m0 m' s (Xmd.loop P b0 (dst.val m0) k i v)
  | 0, i, m, out, v, h => ⟨out, m, rfl, h⟩
  | k + 1, i, m, out, v, h => by
    obtain ⟨s1, m1, h1, f1⟩ := append_fresh grow h (P.sha256 (List.zipWith (· ^^^ ·) b0 (v.drop (v.length - 32)) ++ [UInt8.ofNat i] ++
      dst.val m0 ++ [UInt8.ofNat (dst.val m0).length]))
    obtain ⟨s2, m2, h2, f2⟩ := xmdLoop_fresh grow P b0 hd k (i + 1) m1 s1 _ f1
    refine ⟨s2, m2, ?_, f2⟩
    rw [xmdLoop, bind_ok (show load out m = (.ok v, m) by rw [load, h.val]),
      bind_ok (show load dst m = (.ok (dst.val m0), m) by rw [load, h.same.val hd]), ← length_val hd, bind_ok h1, h2]

theorem xmd_fresh (grow : Nat → Nat → Nat) (P : Prim) {m : Mem} {msg dst : Slice} (hm : msg.Valid m) (hd : dst.Valid m)
    (length ell : Int) : ∃ s m', xmd grow P msg length ell dst m = (.ok s, m') ∧
      Fresh m m' s (Xmd.xmd P (msg.val m) length ell (dst.val m)) := by
  obtain ⟨s1, m1, h1, f1, -⟩ := makeSlice_fresh m (Nat.zero_le (ell * 32).toNat)
  obtain ⟨s2, m2, h2, f2⟩ := append_fresh grow f1 (P.sha256 (P.sha256 (List.replicate 64 0 ++ msg.val m ++
    [Xmd.byteOfInt (length.tdiv 256), Xmd.byteOfInt (length.tmod 256), 0] ++ dst.val m ++ [UInt8.ofNat (dst.val m).length]) ++ [1] ++
      dst.val m ++ [UInt8.ofNat (dst.val m).length]))
  obtain ⟨s3, m3, h3, f3⟩ := xmdLoop_fresh grow P _ hd (ell - 1).toNat 2 m2 s2 _ f2
  refine ⟨s3, m3, ?_, f3⟩
  rw [xmd, bind_ok h1, bind_ok (show load msg m1 = (.ok (msg.val m), m1) by rw [load, f1.same.val hm]),
    bind_ok (show load dst m1 = (.ok (dst.val m), m1) by rw [load, f1.same.val hd]), ← length_val hd, bind_ok h2, h3]

/-- What a piece of code on memory does, compared with the result on values: it ends in the same way, with a slice that is new and
shows what the result is; nothing that existed is changed. -/
def Makes (m : Mem) (out : Res Slice × Mem) (r : Res Bytes) : Prop :=
  match r with
  | .ok v => ∃ s m', out = (.ok s, m') ∧ Fresh m m' s v
  | .err _ => ∃ e m', out = (.err e, m') ∧ Same m m'
  | .panic _ => ∃ e m', out = (.panic e, m') ∧ Same m m'
  | .diverge => ∃ m', out = (.diverge, m') ∧ Same m m'

theorem Makes.mono {m0 m : Mem} (h : Same m0 m) {out : Res Slice × Mem} {r : Res Bytes} (hm : Makes m out r) : Makes m0 out r := by
  cases r with
  | ok v => obtain ⟨s, m', e, f⟩ := hm; exact ⟨s, m', e, f.mono h⟩
  | err _ => obtain ⟨s, m', e, f⟩ := hm; exact ⟨s, m', e, h.trans f⟩
  | panic _ => obtain ⟨s, m', e, f⟩ := hm; exact ⟨s, m', e, h.trans f⟩
  | diverge => obtain ⟨m', e, f⟩ := hm; exact ⟨m', e, h.trans f⟩

theorem reslice_fresh {m0 m : Mem} {s : Slice} {v : Bytes} (h : Fresh m0 m s v) {lo hi : Nat} (h1 : lo ≤ hi) (h2 : hi ≤ v.length) :
    ∃ s', reslice s lo hi m = (.ok s', m) ∧ Fresh m0 m s' ((v.take hi).drop lo) ∧ s'.len = hi - lo := by
  have hl := h.len
  have hv := h.valid.1
  refine ⟨_, by rw [reslice, if_pos ⟨h1, by omega⟩], ⟨h.same, ⟨by show hi - lo ≤ s.cap - lo; omega, ?_⟩, ?_, ?_⟩, rfl⟩
  · rcases h.valid.2 with h0 | ⟨h3, h4⟩
    · exact .inl (by show s.cap - lo = 0; omega)
    · refine .inr ⟨h3, ?_⟩
      show s.off + lo + (s.cap - lo) ≤ (m.arr s.arr).length
      omega
  · rcases h.new with h0 | h3
    · exact .inl (by show s.cap - lo = 0; omega)
    · exact .inr h3
  · rw [← h.val, Slice.val, Slice.val, List.take_take, Nat.min_eq_left (by omega), List.drop_take, List.drop_drop]

theorem xmdAny_fresh (grow : Nat → Nat → Nat) (P : Prim) {m : Mem} {msg dst : Slice} (hm : msg.Valid m) (hd : dst.Valid m)
    (length ell : Int) : ∃ s m', xmdAny grow P msg length ell dst m = (.ok s, m') ∧
      Fresh m m' s (if 256 ≤ (dst.val m).length then Xmd.xmd P (msg.val m) length ell (P.sha256 (ascii "H2C-OVERSIZE-DST-" ++ dst.val m))
        else Xmd.xmd P (msg.val m) length ell (dst.val m)) := by
  rw [xmdAny, length_val hd]
  split_ifs
  · obtain ⟨s, m1, e1, f1, -⟩ := alloc_fresh m (P.sha256 (ascii "H2C-OVERSIZE-DST-" ++ dst.val m))
    obtain ⟨s2, m2, e2, f2⟩ := xmd_fresh grow P (f1.same.valid hm) f1.valid length ell
    refine ⟨s2, m2, ?_, ?_⟩
    · rw [bind_ok (show load dst m = (.ok (dst.val m), m) from rfl), bind_ok e1, e2]
    · rw [f1.same.val hm, f1.val] at f2
      exact f2.mono f1.same
  · exact xmd_fresh grow P hm hd _ _

theorem expandMessageXmd_makes (grow : Nat → Nat → Nat) (P : Prim) {m : Mem} {msg dst : Slice} (hm : msg.Valid m) (hd : dst.Valid m)
    (length : Int) : Makes m (expandMessageXmd grow P msg dst length m) (Xmd.expandMessageXmd P (msg.val m) (dst.val m) length) := by
  have key := xmdAny_fresh grow P hm hd length ((length - 1).tdiv 32 + 1)
  rw [expandMessageXmd, Xmd.expandMessageXmd]
  dsimp only
  generalize (length - 1).tdiv 32 + 1 = ell at key ⊢
  generalize (if 256 ≤ (dst.val m).length then Xmd.xmd P (msg.val m) length ell (P.sha256 (ascii "H2C-OVERSIZE-DST-" ++ dst.val m))
    else Xmd.xmd P (msg.val m) length ell (dst.val m)) = out at key ⊢
  by_cases h1 : length > 255 * 32
  · rw [if_pos h1, if_pos h1]
    exact ⟨_, _, rfl, Same.refl _⟩
  rw [if_neg h1, if_neg h1]
  by_cases h2 : ell * 32 < 0
  · rw [if_pos h2, if_pos h2]
    exact ⟨_, _, rfl, Same.refl _⟩
  rw [if_neg h2, if_neg h2]
  obtain ⟨s, m', e, f⟩ := key
  rw [bind_ok e, f.len]
  split_ifs with h3 h4
  · exact ⟨_, _, rfl, f.same⟩
  · obtain ⟨s', e', f', -⟩ := reslice_fresh f (Nat.zero_le length.toNat) (by omega)
    exact ⟨s', m', e', by rwa [List.drop_zero] at f'⟩
  · exact ⟨s, m', rfl, f⟩

/-! ### ro/ro.go -/

/-- The entries of a transcript exist. -/
def RoObj.Valid (m : Mem) (r : RoObj) : Prop := ∀ e ∈ r.inputs, e.2.Valid m

theorem get_val (m : Mem) (name : Bytes) (l : List (Bytes × Slice)) :
    OMap.get nameKey name (l.map fun e => (e.1, e.2.val m)) = (OMap.get nameKey name l).map (Slice.val m) := by
  induction l with
  | nil => rfl
  | cons e l ih =>
    simp only [List.map_cons, OMap.get]
    split_ifs
    · rfl
    · exact ih

theorem set_val (m : Mem) (name : Bytes) (s : Slice) (l : List (Bytes × Slice)) :
    (OMap.set nameKey name s l).map (fun e => (e.1, e.2.val m)) = OMap.set nameKey name (s.val m) (l.map fun e => (e.1, e.2.val m)) := by
  induction l with
  | nil => rfl
  | cons e l ih =>
    simp only [List.map_cons, OMap.set]
    split_ifs
    · rfl
    · rw [List.map_cons, ih]
    · rfl

theorem RoObj.val_same {m m' : Mem} (h : Same m m') {r : RoObj} (hr : r.Valid m) : r.val m' = r.val m := by
  rw [RoObj.val, RoObj.val]
  congr 1
  exact List.map_congr_left fun e he => by rw [h.val (hr e he)]

theorem addInput_spec (grow : Nat → Nat → Nat) {m : Mem} {r : RoObj} (hr : r.Valid m) (name : Bytes) {input : Slice}
    (hi : input.Valid m) (ty : UInt8) :
    ∃ e r' m', addInput grow r name input ty m = (.ok (e, r'), m') ∧ Same m m' ∧ r'.Valid m' ∧
      (e, r'.val m') = (r.val m).addInput name (input.val m) ty ∧ (∀ x ∈ r'.inputs, x ∈ r.inputs ∨ x.2.New m) := by
  rw [addInput, Ro.addInput]
  simp only [RoObj.val, get_val, Option.isSome_map, length_val hi]
  split_ifs with h1 h2 h3
  · exact ⟨_, _, _, rfl, Same.refl _, hr, rfl, fun x hx => .inl hx⟩
  · exact ⟨_, _, _, rfl, Same.refl _, hr, rfl, fun x hx => .inl hx⟩
  · exact ⟨_, _, _, rfl, Same.refl _, hr, rfl, fun x hx => .inl hx⟩
  · obtain ⟨s1, m1, e1, f1⟩ := append_fresh grow (nil_fresh m) [ty]
    obtain ⟨s2, m2, e2, f2⟩ := append_fresh grow f1 (toBE 4 input.len)
    obtain ⟨s3, m3, e3, f3⟩ := append_fresh grow f2 (input.val m)
    refine ⟨none, ⟨r.domainSeparator, r.inputSize + (1 + name.length + s3.len), OMap.set nameKey name s3 r.inputs⟩, m3, ?_, f3.same,
      ?_, ?_, ?_⟩
    · rw [bind_ok e1, bind_ok e2, bind_ok (show load input m2 = (.ok (input.val m), m2) by rw [load, f2.same.val hi]), bind_ok e3]
      rfl
    · intro x hx
      rcases OMap.mem_set hx with rfl | hx
      · exact f3.valid
      · exact f3.same.valid (hr x hx)
    · have hv := f3.val
      have hl := f3.len
      simp only [List.nil_append] at hv hl
      simp only [set_val, hv, hl]
      have : (r.inputs.map fun e => (e.1, e.2.val m3)) = r.inputs.map fun e => (e.1, e.2.val m) :=
        List.map_congr_left fun e he => by rw [f3.same.val (hr e he)]
      rw [this]
    · intro x hx
      rcases OMap.mem_set hx with rfl | hx
      · exact .inr f3.new
      · exact .inl hx

theorem formLoop_fresh (grow : Nat → Nat → Nat) {m0 : Mem} : ∀ (l : List (Bytes × Slice)) (m : Mem) (s : Slice) (v : Bytes),
    (∀ e ∈ l, e.2.Valid m0) → Fresh m0 m s v →
    ∃ s' m', formLoop grow l s m = (.ok s', m') ∧
      Fresh m0 m' s' (v ++ (l.map fun e => (e.1, e.2.val m0)).flatMap fun e => [UInt8.ofNat e.1.length] ++ e.1 ++ e.2)
  | [], m, s, v, _, h => ⟨s, m, rfl, by simpa using h⟩
  | (name, data) :: l, m, s, v, hl, h => by
    obtain ⟨s1, m1, e1, f1⟩ := append_fresh grow h [UInt8.ofNat name.length]
    obtain ⟨s2, m2, e2, f2⟩ := append_fresh grow f1 name
    obtain ⟨s3, m3, e3, f3⟩ := append_fresh grow f2 (data.val m0)
    obtain ⟨s4, m4, e4, f4⟩ := formLoop_fresh grow l m3 s3 _ (fun e he => hl e (List.mem_cons_of_mem _ he)) f3
    refine ⟨s4, m4, ?_, ?_⟩
    · rw [formLoop, bind_ok e1, bind_ok e2,
        bind_ok (show load data m2 = (.ok (data.val m0), m2) by rw [load, f2.same.val (hl _ (List.mem_cons_self ..))]), bind_ok e3, e4]
    · convert f4 using 1
      simp

theorem formRoInput_makes (grow : Nat → Nat → Nat) {m : Mem} {r : RoObj} (hr : r.Valid m) :
    Makes m (formRoInput grow r m) (r.val m).formRoInput := by
  rw [formRoInput, Ro.formRoInput]
  simp only [RoObj.val, List.length_map]
  split_ifs
  · exact ⟨_, _, rfl, Same.refl _⟩
  · obtain ⟨s, m', e, f⟩ := formLoop_fresh grow r.inputs m nilSlice [] hr (nil_fresh m)
    exact ⟨s, m', e, f⟩

theorem outputByteString_makes (grow : Nat → Nat → Nat) (P : Prim) {m : Mem} {r : RoObj} (hr : r.Valid m) (length : Int) :
    Makes m (outputByteString grow P r length m) ((r.val m).outputByteString P length) := by
  have h := formRoInput_makes grow hr
  rw [outputByteString, Ro.outputByteString]
  cases hf : (r.val m).formRoInput with
  | ok v =>
    rw [hf] at h
    obtain ⟨s, m1, e1, f1⟩ := h
    obtain ⟨d, m2, e2, f2, -⟩ := alloc_fresh m1 r.domainSeparator
    rw [bind_ok e1, bind_ok e2, Res.ok_bind]
    have := expandMessageXmd_makes grow P (f2.same.valid f1.valid) f2.valid length
    rw [f2.same.val f1.valid, f1.val, f2.val] at this
    exact this.mono (f1.same.trans f2.same)
  | err _ => rw [hf] at h; obtain ⟨e, m', h1, h2⟩ := h; exact ⟨e, m', bind_err h1, h2⟩
  | panic _ => rw [hf] at h; obtain ⟨e, m', h1, h2⟩ := h; exact ⟨e, m', bind_panic h1, h2⟩
  | diverge => rw [hf] at h; obtain ⟨m', h1, h2⟩ := h; exact ⟨m', bind_diverge h1, h2⟩

/-! ### key/key_derivation.go -/

theorem nextLoop_fresh {m0 : Mem} : ∀ (l pre : Bytes) (m : Mem) (s : Slice) (c : UInt8), Fresh m0 m s (pre ++ l) →
    ∃ m', nextLoop s l.length pre.length c m = (.ok (Key.nextLoop l c).2, m') ∧ Fresh m0 m' s (pre ++ (Key.nextLoop l c).1)
  | [], pre, m, s, c, h => ⟨m, rfl, h⟩
  | w :: l, pre, m, s, c, h => by
    obtain ⟨m1, e1, f1⟩ := set_fresh h (i := pre.length) (by simp) (Key.add w c).1
    have hset : (pre ++ w :: l).set pre.length (Key.add w c).1 = (pre ++ [(Key.add w c).1]) ++ l := by simp
    rw [hset] at f1
    obtain ⟨m2, e2, f2⟩ := nextLoop_fresh l (pre ++ [(Key.add w c).1]) m1 s (if (Key.add w c).2 then 1 else 0) f1
    refine ⟨m2, ?_, ?_⟩
    · rw [List.length_cons, nextLoop, bind_ok (index_ok h.val (by simp))]
      have : (pre ++ w :: l)[pre.length]'(by simp) = w := by simp
      simp only [this]
      rw [bind_ok e1]
      rw [List.length_append, List.length_singleton] at e2
      rw [e2]
      rfl
    · convert f2 using 1
      rw [Key.nextLoop]
      simp

theorem next_fresh (grow : Nat → Nat → Nat) {m : Mem} {d : Slice} (hd : d.Valid m) :
    ∃ s m', next grow d m = (.ok s, m') ∧ Fresh m m' s (Key.Index.next (d.val m)) := by
  obtain ⟨s1, m1, e1, f1⟩ := reverseBytes_fresh hd
  obtain ⟨m2, e2, f2⟩ := nextLoop_fresh (Verif.reverseBytes (d.val m)) [] m1 s1 1 f1
  rw [List.nil_append] at f2
  rw [List.length_nil] at e2
  rw [next, bind_ok e1, f1.len, bind_ok e2, Key.Index.next]
  by_cases hc : (Key.nextLoop (Verif.reverseBytes (d.val m)) 1).2 ≠ 0
  · obtain ⟨s3, m3, e3, f3⟩ := append_fresh grow f2 [(Key.nextLoop (Verif.reverseBytes (d.val m)) 1).2]
    obtain ⟨s4, m4, e4, f4⟩ := reverseBytes_fresh f3.valid
    rw [f3.val] at f4
    simp only [if_pos hc]
    exact ⟨s4, m4, by rw [bind_ok e3, e4], f4.mono f3.same⟩
  · obtain ⟨s4, m4, e4, f4⟩ := reverseBytes_fresh f2.valid
    rw [f2.val] at f4
    simp only [if_neg hc]
    exact ⟨s4, m4, e4, f4.mono f2.same⟩

theorem newBip32_fresh : ∀ (l : List UInt32) (m : Mem), ∃ path m', newBip32 l m = (.ok path, m') ∧ Same m m' ∧
    path.map (Slice.val m') = Key.newBip32 l ∧ ∀ s ∈ path, Fresh m m' s (s.val m')
  | [], m => ⟨[], m, rfl, Same.refl _, rfl, by simp⟩
  | k :: l, m => by
    obtain ⟨s, m1, e1, f1, -⟩ := alloc_fresh m (toBE 4 k.toNat)
    obtain ⟨path, m2, e2, h2, v2, p2⟩ := newBip32_fresh l m1
    refine ⟨s :: path, m2, ?_, f1.same.trans h2, ?_, ?_⟩
    · rw [newBip32, bind_ok e1, bind_ok e2]
      rfl
    · rw [List.map_cons, v2, h2.val f1.valid, f1.val]
      rfl
    · intro x hx
      rcases List.mem_cons.1 hx with rfl | hx
      · exact ⟨f1.same.trans h2, h2.valid f1.valid, f1.new, rfl⟩
      · exact (p2 x hx).mono f1.same

/-- As `Makes`, for a scalar and a slice. -/
def MakesPair (m : Mem) (out : Res (Fn × Slice) × Mem) (r : Res (Fn × Bytes)) : Prop :=
  match r with
  | .ok v => ∃ s m', out = (.ok (v.1, s), m') ∧ Fresh m m' s v.2
  | .err _ => ∃ e m', out = (.err e, m') ∧ Same m m'
  | .panic _ => ∃ e m', out = (.panic e, m') ∧ Same m m'
  | .diverge => ∃ m', out = (.diverge, m') ∧ Same m m'

theorem ckdpub_chain {P : Prim} {pk : Pt} {c i : Bytes} {x : Pt × Bytes × Fn} (h : Key.ckdpub P pk c i = .ok x) :
    x.2.1 = (Key.computeHMAC P c [Point.serialize pk, i]).drop 32 := by
  rcases Key.ckdpub_cases P pk c i with h' | h'
  · rw [h] at h'
    cases h'
    rw [Key.computeHMAC_eq]
    rfl
  · rw [h] at h'
    cases h'

theorem deriveLoop_makes (P : Prim) {m0 : Mem} : ∀ (path : List Slice) (m : Mem) (K : Pt) (chain : Slice) (c : Bytes) (o : Fn),
    (∀ s ∈ path, s.Valid m0) → Fresh m0 m chain c →
    MakesPair m0 (deriveLoop P K chain o path m) (Key.deriveLoop P K c o (path.map (Slice.val m0)))
  | [], m, K, chain, c, o, _, h => ⟨chain, m, rfl, h⟩
  | idx :: path, m, K, chain, c, o, hp, h => by
    have hi := hp idx (List.mem_cons_self ..)
    rw [deriveLoop, List.map_cons, Key.deriveLoop]
    have hload : load chain m = (.ok c, m) := by rw [load, h.val]
    have hload' : load idx m = (.ok (idx.val m0), m) := by rw [load, h.same.val hi]
    cases hk : Key.ckdpub P K c (idx.val m0) with
    | ok x =>
      obtain ⟨K', c', o'⟩ := x
      obtain ⟨s1, m1, e1, f1, l1, -⟩ := alloc_fresh m (Key.computeHMAC P c [Point.serialize K, idx.val m0])
      have hlen : (Key.computeHMAC P c [Point.serialize K, idx.val m0]).length = 64 := P.hmacSha512_length _ _
      obtain ⟨s2, e2, f2, -⟩ := reslice_fresh f1 (lo := 32) (hi := 64) (by norm_num) (by omega)
      have hc : c' = (Key.computeHMAC P c [Point.serialize K, idx.val m0]).drop 32 := ckdpub_chain hk
      have f3 : Fresh m0 m1 s2 c' := by
        rw [List.take_of_length_le (by omega), ← hc] at f2
        exact f2.mono h.same
      have hck : ckdpub P K chain idx m = (.ok (K', s2, o'), m1) := by
        rw [ckdpub, bind_ok hload, bind_ok hload', bind_ok (show Go.lift (Key.ckdpub P K c (idx.val m0)) m = (.ok (K', c', o'), m) by
          rw [hk]; rfl)]
        show (alloc (Key.computeHMAC P c [Point.serialize K, idx.val m0]) >>= _) m = _
        rw [bind_ok e1, f1.len, hlen, bind_ok e2]
        rfl
      rw [bind_ok hck, Res.ok_bind]
      exact deriveLoop_makes P path m1 K' s2 c' (o + o') (fun s hs => hp s (List.mem_cons_of_mem _ hs)) f3
    | err e =>
      refine ⟨e, m, ?_, h.same⟩
      refine bind_err ?_
      rw [ckdpub, bind_ok hload, bind_ok hload']
      exact bind_err (by rw [hk]; rfl)
    | panic e =>
      refine ⟨e, m, ?_, h.same⟩
      refine bind_panic ?_
      rw [ckdpub, bind_ok hload, bind_ok hload']
      exact bind_panic (by rw [hk]; rfl)
    | diverge =>
      refine ⟨m, ?_, h.same⟩
      refine bind_diverge ?_
      rw [ckdpub, bind_ok hload, bind_ok hload']
      exact bind_diverge (by rw [hk]; rfl)

theorem deriveTweak_makes (P : Prim) {m : Mem} {path : List Slice} (hp : ∀ s ∈ path, s.Valid m) (pk : Pt) :
    MakesPair m (deriveTweak P path pk m) (Key.deriveTweak P (path.map (Slice.val m)) pk) := by
  obtain ⟨s, m1, e1, f1, -⟩ := alloc_fresh m (List.replicate 32 0)
  rw [deriveTweak, bind_ok e1, Key.deriveTweak]
  exact deriveLoop_makes P path m1 pk s _ 0 hp f1

/-! ### curve/encode.go -/

/-- `copy` into a window of a new slice. -/
theorem copy_fresh {m0 m : Mem} {s : Slice} {v : Bytes} (h : Fresh m0 m s v) {lo hi : Nat} (h1 : lo ≤ hi) (h2 : hi ≤ v.length)
    {src : Slice} {w : Bytes} (hw : src.val m = w) {w' : Slice} (hr : reslice s lo hi m = (.ok w', m)) :
    ∃ m', copy w' src m = (.ok (), m') ∧ Fresh m0 m' s (splice v lo (w.take (hi - lo))) := by
  have hl := h.len
  have hv := h.valid.1
  rw [reslice, if_pos ⟨h1, by omega⟩] at hr
  cases hr
  refine ⟨_, rfl, ?_⟩
  simp only [hw]
  have hlen : (w.take (hi - lo)).length ≤ hi - lo := List.length_take_le _ _
  exact h.write (by omega) (by omega)

theorem splice_zero_full (k : Nat) (w : Bytes) (h : w.length ≤ k) : splice (List.replicate k 0) 0 w = copyInto k w := by
  simp [splice, copyInto, List.take_of_length_le h]

theorem fromBytes_makes {m : Mem} {input : Slice} (hi : input.Valid m) :
    Makes m (Enc.fromBytes input m) (Encode.fromBytes (input.val m)) := by
  have hl := length_val hi
  cases hv : input.val m with
  | nil =>
    refine ⟨"index out of range", m, bind_panic ?_, Same.refl _⟩
    rw [index, hv]
    rfl
  | cons t l =>
    rw [hv] at hl
    have h0 : index input 0 m = (.ok t, m) := index_ok hv (by simp)
    rw [Enc.fromBytes, bind_ok h0, Encode.fromBytes, hl]
    split_ifs with hc
    · exact ⟨_, _, rfl, Same.refl _⟩
    · rw [not_not] at hc
      obtain ⟨s, m1, e1, f1, l1, c1, -⟩ := makeSlice_fresh m (le_refl (Encode.messageLen t))
      have hr : reslice s 0 s.len m1 = (.ok s, m1) := by
        rw [reslice, if_pos ⟨Nat.zero_le _, f1.valid.1⟩]
        rfl
      obtain ⟨m2, e2, f2⟩ := copy_fresh f1 (Nat.zero_le _) (by rw [l1]; simp) (f1.same.val hi) hr
      rw [hv, l1, Nat.sub_zero, List.take_of_length_le (by omega), splice_zero_full _ _ (by omega), copyInto,
        List.take_of_length_le (by omega), hl, hc, Nat.sub_self, List.replicate_zero, List.append_nil] at f2
      exact ⟨s, m2, by rw [bind_ok e1, bind_ok e2]; rfl, f2⟩

theorem fromStr_makes (m : Mem) (str : Bytes) : Makes m (Enc.fromStr str m) (Encode.fromStr str) := by
  rw [Enc.fromStr, Encode.fromStr]
  cases h : Hex.decodeString str with
  | ok b =>
    obtain ⟨s, m1, e1, f1, -⟩ := alloc_fresh m b
    rw [bind_ok (show Go.lift (.ok b) m = (.ok b, m) from rfl), bind_ok e1, Res.ok_bind, ← f1.val]
    exact (fromBytes_makes f1.valid).mono f1.same
  | err e => exact ⟨e, m, bind_err rfl, Same.refl _⟩
  | panic e => exact ⟨e, m, bind_panic rfl, Same.refl _⟩
  | diverge => exact ⟨m, bind_diverge rfl, Same.refl _⟩

theorem affine_splice (t : UInt8) (x y : Bytes) :
    splice (splice ((List.replicate 65 0).set 0 t) 1 (x.take 32)) 33 (y.take 32) = Encode.affineBuffer t x y := by
  have h1 : (List.replicate 65 (0 : UInt8)).set 0 t = t :: List.replicate 64 0 := rfl
  have h2 : splice (t :: List.replicate 64 0) 1 (x.take 32) = t :: (copyInto 32 x ++ List.replicate 32 0) := by
    simp only [splice, copyInto, List.take_succ_cons, List.take_zero, List.length_take, List.cons_append,
      List.append_assoc, List.cons.injEq, true_and, List.append_cancel_left_eq, Nat.add_comm 1, List.drop_succ_cons,
      List.drop_replicate, List.replicate_append_replicate, List.nil_append]
    congr 1
    omega
  have h3 : (copyInto 32 x).length = 32 := by
    simp only [copyInto, List.length_append, List.length_take, List.length_replicate]
    omega
  rw [h1, h2, Encode.affineBuffer]
  simp only [splice, List.take_succ_cons, List.cons_append, List.length_take, List.cons.injEq, true_and]
  rw [List.take_left' h3, List.append_assoc]
  congr 1
  rw [Nat.add_comm 33, show min 32 y.length + 33 = (min 32 y.length + 32) + 1 from rfl, List.drop_succ_cons, List.drop_append, h3, List.drop_eq_nil_of_le (by omega),
    List.nil_append, List.drop_replicate]
  rw [copyInto]
  congr 2
  omega

theorem fromAffineCoordinates_makes {m : Mem} {x y : Slice} (hx : x.Valid m) (hy : y.Valid m) (c : Bool) :
    Makes m (Enc.fromAffineCoordinates x y c m) (Encode.fromAffineCoordinates (x.val m) (y.val m) c) := by
  have key : ∀ t : UInt8, ∃ s m', (do
      let bytes ← makeSlice 65 65
      set bytes 0 t
      let dx ← reslice bytes 1 33
      copy dx x
      let dy ← reslice bytes 33 bytes.len
      copy dy y
      pure bytes : Go Slice) m = (.ok s, m') ∧ Fresh m m' s (Encode.affineBuffer t (x.val m) (y.val m)) := by
    intro t
    obtain ⟨s, m1, e1, f1, l1, c1, -⟩ := makeSlice_fresh m (le_refl 65)
    obtain ⟨m2, e2, f2⟩ := set_fresh f1 (i := 0) (by simp) t
    obtain ⟨dx, e3, -⟩ := reslice_fresh f2 (lo := 1) (hi := 33) (by norm_num) (by simp)
    obtain ⟨m3, e4, f4⟩ := copy_fresh f2 (by norm_num) (by simp) (f2.same.val hx) e3
    have l4 : (splice ((List.replicate 65 0).set 0 t) 1 ((x.val m).take (33 - 1))).length = 65 := by
      rw [length_splice]
      · simp
      · have := List.length_take_le (33 - 1) (x.val m)
        rw [List.length_set, List.length_replicate]
        omega
    obtain ⟨dy, e5, -⟩ := reslice_fresh f4 (lo := 33) (hi := 65) (by norm_num) (by omega)
    obtain ⟨m4, e6, f6⟩ := copy_fresh f4 (by norm_num) (by omega) (f4.same.val hy) e5
    refine ⟨s, m4, ?_, ?_⟩
    · rw [bind_ok e1, bind_ok e2, bind_ok e3, bind_ok e4, l1, bind_ok e5, bind_ok e6]
      rfl
    · rw [affine_splice] at f6
      exact f6
  rw [Enc.fromAffineCoordinates, Encode.fromAffineCoordinates, bind_ok (show load y m = (.ok (y.val m), m) from rfl)]
  cases c with
  | false => exact key 4
  | true =>
    simp only [if_true]
    cases h : Encode.compressY (y.val m) with
    | ok t => exact key t
    | err e => exact ⟨e, m, bind_err rfl, Same.refl _⟩
    | panic e => exact ⟨e, m, bind_panic rfl, Same.refl _⟩
    | diverge => exact ⟨m, bind_diverge rfl, Same.refl _⟩

theorem reslice_valid {m : Mem} {s : Slice} (h : s.Valid m) {lo hi : Nat} (h1 : lo ≤ hi) (h2 : hi ≤ s.len) :
    ∃ s', reslice s lo hi m = (.ok s', m) ∧ s'.Valid m ∧ s'.val m = ((s.val m).take hi).drop lo ∧ s'.len = hi - lo ∧
      s'.arr = s.arr ∧ s'.off = s.off + lo := by
  have hv := h.1
  refine ⟨⟨s.arr, s.off + lo, hi - lo, s.cap - lo⟩, by rw [reslice, if_pos ⟨h1, by omega⟩], ⟨by show hi - lo ≤ s.cap - lo; omega, ?_⟩, ?_, rfl, rfl, rfl⟩
  · rcases h.2 with h0 | ⟨h3, h4⟩
    · exact .inl (by show s.cap - lo = 0; omega)
    · refine .inr ⟨h3, ?_⟩
      show s.off + lo + (s.cap - lo) ≤ (m.arr s.arr).length
      omega
  · rw [Slice.val, Slice.val, List.take_take, Nat.min_eq_left (by omega), List.drop_take, List.drop_drop]

theorem fromUnTaggedBytes_makes {m : Mem} {input : Slice} (hi : input.Valid m) :
    Makes m (Enc.fromUnTaggedBytes input m) (Encode.fromUnTaggedBytes (input.val m)) := by
  rw [Enc.fromUnTaggedBytes, Encode.fromUnTaggedBytes, length_val hi]
  by_cases hl : input.len < 32
  · rw [if_pos hl]
    by_cases hc : 32 ≤ input.cap
    · refine ⟨"slice bounds out of range", m, ?_, Same.refl _⟩
      rw [bind_ok (show reslice input 0 32 m = (.ok _, m) by rw [reslice, if_pos ⟨Nat.zero_le _, hc⟩])]
      exact bind_panic (by rw [reslice, if_neg (by omega)])
    · exact ⟨_, m, bind_panic (by rw [reslice, if_neg (by omega)]), Same.refl _⟩
  · rw [if_neg hl]
    obtain ⟨x, e1, v1, w1, -⟩ := reslice_valid hi (Nat.zero_le 32) (by omega)
    obtain ⟨y, e2, v2, w2, -⟩ := reslice_valid hi (lo := 32) (hi := input.len) (by omega) (le_refl _)
    rw [bind_ok e1, bind_ok e2]
    have := fromAffineCoordinates_makes v1 v2 false
    rw [w1, w2, List.drop_zero, ← length_val hi, List.take_length] at this
    exact this

theorem conditionalSelect_makes {m : Mem} {a b : Slice} (ha : a.Valid m) (hb : b.Valid m) (choice : Nat) :
    Makes m (Enc.conditionalSelect a b choice m) (.ok (Encode.conditionalSelect (a.val m) (b.val m) choice)) := by
  have key : ∀ src : Slice, src.Valid m → Makes m ((do
      let bytes ← makeSlice src.len src.len
      copy bytes src
      pure bytes : Go Slice) m) (.ok (src.val m)) := by
    intro src hs
    have hl := length_val hs
    obtain ⟨s, m1, e1, f1, l1, c1, -⟩ := makeSlice_fresh m (le_refl src.len)
    have hr : reslice s 0 s.len m1 = (.ok s, m1) := by
      rw [reslice, if_pos ⟨Nat.zero_le _, f1.valid.1⟩]
      rfl
    obtain ⟨m2, e2, f2⟩ := copy_fresh f1 (Nat.zero_le _) (by rw [l1]; simp) (f1.same.val hs) hr
    rw [l1, Nat.sub_zero, List.take_of_length_le (by omega), splice_zero_full _ _ (by omega), copyInto,
      List.take_of_length_le (by omega), hl, Nat.sub_self, List.replicate_zero, List.append_nil] at f2
    exact ⟨s, m2, by rw [bind_ok e1, bind_ok e2]; rfl, f2⟩
  rw [Enc.conditionalSelect, Encode.conditionalSelect]
  split_ifs
  · exact key a ha
  · exact key b hb

end Verif.HeapBytes
