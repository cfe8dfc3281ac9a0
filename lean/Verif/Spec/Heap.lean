import Verif.Model.Heap

/-!
What code that works on memory is to be compared with: a result on values, and a statement of what it may write.
-/

set_option autoImplicit false

namespace Verif.Heap

/-- The address of an object. -/
def Obj.addr : Obj → Addr
  | .sc a => a
  | .pt a => a
  | .po a => a
  | .fe a => a

/-- Of the objects that exist in `m`, at most those in `W` have changed, and at most those in `W` were written to on the way from `m`
to `m'` (if the record did not have them already); addresses are only ever added. -/
structure Writes (W : Set Obj) (m m' : Mem) : Prop where
  next : m.next ≤ m'.next
  sc : ∀ a < m.next, .sc a ∉ W → m'.sc a = m.sc a
  pt : ∀ a < m.next, .pt a ∉ W → m'.pt a = m.pt a
  po : ∀ a < m.next, .po a ∉ W → m'.po a = m.po a
  fe : ∀ a < m.next, .fe a ∉ W → m'.fe a = m.fe a
  touched : ∀ o ∈ m'.touched, o ∈ m.touched ∨ o ∈ W ∨ m.next ≤ o.addr

/-- The object at `c` did not exist in `m` and does in `m'`. -/
def New (m m' : Mem) (c : Addr) : Prop := m.next ≤ c ∧ c < m'.next

/-- Running `g` in memory `m` ends in the same way as `r`: with the same error or panic, or without an end, leaving a
memory that satisfies `E`; or with a value related to that of `r`. -/
def Outcome {α β : Type} (E : Mem → Prop) (g : Go α) (m : Mem) (r : Res β) (R : β → α → Mem → Prop) : Prop :=
  match r with
  | .ok v => ∃ a m', g m = (.ok a, m') ∧ R v a m'
  | .err e => ∃ m', g m = (.err e, m') ∧ E m'
  | .panic e => ∃ m', g m = (.panic e, m') ∧ E m'
  | .diverge => ∃ m', g m = (.diverge, m') ∧ E m'

/-- What is returned is a new scalar object holding `v`; nothing that existed has changed. -/
def RetSc (m : Mem) (v : Fn) (c : Addr) (m' : Mem) : Prop := Writes ∅ m m' ∧ New m m' c ∧ m'.sc c = v

/-- The same for points. -/
def RetPt (m : Mem) (v : Pt) (c : Addr) (m' : Mem) : Prop := Writes ∅ m m' ∧ New m m' c ∧ m'.pt c = v

/-- The same for field elements. -/
def RetFe (m : Mem) (v : Fp) (c : Addr) (m' : Mem) : Prop := Writes ∅ m m' ∧ New m m' c ∧ m'.fe c = v

/-- What is returned are new scalar objects, no two the same, holding `vs`; nothing that existed has changed. -/
def RetScs (m : Mem) (vs : List Fn) (cs : List Addr) (m' : Mem) : Prop :=
  Writes ∅ m m' ∧ (∀ c ∈ cs, New m m' c) ∧ cs.Nodup ∧ cs.map m'.sc = vs

/-- The same for points. -/
def RetPts (m : Mem) (vs : List Pt) (cs : List Addr) (m' : Mem) : Prop :=
  Writes ∅ m m' ∧ (∀ c ∈ cs, New m m' c) ∧ cs.Nodup ∧ cs.map m'.pt = vs

/-- What is returned is a new polynomial with new coefficient objects, no two the same, holding `vs`; nothing that
existed has changed. -/
def RetPo (m : Mem) (vs : List Fn) (p : Addr) (m' : Mem) : Prop :=
  Writes ∅ m m' ∧ New m m' p ∧ (∀ c ∈ m'.po p, New m m' c) ∧ (m'.po p).Nodup ∧ (m'.po p).map m'.sc = vs

/-- What is returned is the receiver `p`, which now has new coefficient objects, no two the same, holding `vs`;
nothing else that existed has changed. -/
def SetPo (m : Mem) (p : Addr) (vs : List Fn) (q : Addr) (m' : Mem) : Prop :=
  q = p ∧ Writes {.po p} m m' ∧ (∀ c ∈ m'.po p, New m m' c) ∧ (m'.po p).Nodup ∧ (m'.po p).map m'.sc = vs

/-- The values of the coefficients of a polynomial object. -/
def polyVal (m : Mem) (p : Addr) : List Fn := (m.po p).map m.sc

/-- The polynomial and its coefficients exist. -/
def HasPo (m : Mem) (p : Addr) : Prop := p < m.next ∧ ∀ c ∈ m.po p, c < m.next

end Verif.Heap
