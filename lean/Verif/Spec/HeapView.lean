import Verif.Spec.Heap
import Verif.Model.Sign

/-!
Reading values off pointers.

A `View` says which objects a pointer, or a structure of pointers, refers to and which value it stands for.  The
specification of a function on memory is then: on arguments that exist (and may share objects in any way) it ends as the
function on the values of the arguments does; nothing that existed has changed; and the result consists of new objects, no
two the same, that hold the result on values.
-/

set_option autoImplicit false

namespace Verif.Heap

/-- An object holds the same in both memories. -/
def Obj.Same (m m' : Mem) : Obj → Prop
  | .sc a => m'.sc a = m.sc a
  | .pt a => m'.pt a = m.pt a
  | .po a => m'.po a = m.po a
  | .fe a => m'.fe a = m.fe a

structure View (ο ν : Type) where
  /-- The objects referred to. -/
  objs : ο → List Obj
  /-- The value represented. -/
  val : Mem → ο → ν
  /-- The value depends on these objects only. -/
  frame : ∀ {m m' : Mem} {o : ο}, (∀ x ∈ objs o, x.Same m m') → val m' o = val m o

/-- All the objects exist. -/
def Has {ο ν : Type} (V : View ο ν) (m : Mem) (o : ο) : Prop := ∀ x ∈ V.objs o, x.addr < m.next

/-- The result consists of new objects, no two the same, and represents `v`; nothing that existed has changed. -/
def Ret {ο ν : Type} (V : View ο ν) (m : Mem) (v : ν) (o : ο) (m' : Mem) : Prop :=
  Writes ∅ m m' ∧ (∀ x ∈ V.objs o, m.next ≤ x.addr ∧ x.addr < m'.next) ∧ (V.objs o).Nodup ∧ V.val m' o = v

namespace View

variable {ο ν ο' ν' : Type}

/-- A pointer to a scalar. -/
def sc : View Addr Fn where
  objs a := [.sc a]
  val m a := m.sc a
  frame h := h _ (List.mem_singleton_self _)

/-- A pointer to a point. -/
def pt : View Addr Pt where
  objs a := [.pt a]
  val m a := m.pt a
  frame h := h _ (List.mem_singleton_self _)

/-- A pointer to a field element. -/
def fe : View Addr Fp where
  objs a := [.fe a]
  val m a := m.fe a
  frame h := h _ (List.mem_singleton_self _)

/-- Data without pointers. -/
def data : View ν ν where
  objs _ := []
  val _ a := a
  frame _ := rfl

def prod (V : View ο ν) (V' : View ο' ν') : View (ο × ο') (ν × ν') where
  objs a := V.objs a.1 ++ V'.objs a.2
  val m a := (V.val m a.1, V'.val m a.2)
  frame h := Prod.ext (V.frame fun x hx => h x (List.mem_append_left _ hx))
    (V'.frame fun x hx => h x (List.mem_append_right _ hx))

def list (V : View ο ν) : View (List ο) (List ν) where
  objs l := l.flatMap V.objs
  val m l := l.map (V.val m)
  frame h := List.map_congr_left fun a ha => V.frame fun x hx => h x (List.mem_flatMap.2 ⟨a, ha, hx⟩)

def opt (V : View ο ν) : View (Option ο) (Option ν) where
  objs o := o.elim [] V.objs
  val m o := o.map (V.val m)
  frame {m m' o} h := by
    cases o with
    | none => rfl
    | some a => exact congrArg some (V.frame h)

/-- A structure with the same pointers. -/
def via {ο₁ ν₁ : Type} (V : View ο ν) (f : ο₁ → ο) (g : ν → ν₁) : View ο₁ ν₁ where
  objs o := V.objs (f o)
  val m o := g (V.val m (f o))
  frame h := congrArg g (V.frame h)

end View

end Verif.Heap
