import Verif.Spec.Complaints

/-!
Dealings whose encrypted entries were changed on the way.
-/

set_option autoImplicit false

namespace Verif.Dealings

open Mega

/-- The second dealing is the first with other encrypted entries, equally many; commitment, proof, ephemeral key and proof of possession are
the same. -/
inductive Altered : Dealing → Dealing → Prop
  | single (eph pop : Pt) (pf : Zk.Proof) (es es' : List Fn) (cm : Option Commitment) (proof : Option ProofVal) (h : es.length = es'.length) :
      Altered ⟨some (.single ⟨eph, pop, pf, es⟩), cm, proof⟩ ⟨some (.single ⟨eph, pop, pf, es'⟩), cm, proof⟩
  | pair (eph pop : Pt) (pf : Zk.Proof) (es es' : List (Fn × Fn)) (cm : Option Commitment) (proof : Option ProofVal)
      (h : es.length = es'.length) :
      Altered ⟨some (.pair ⟨eph, pop, pf, es⟩), cm, proof⟩ ⟨some (.pair ⟨eph, pop, pf, es'⟩), cm, proof⟩

/-- The encrypted entry for a recipient: value and mask, the mask zero if there is none. -/
def Dealing.entry (d : Dealing) (i : NodeIndex) : Option (Fn × Fn) :=
  match d.ciphertext with
  | some (.single m) => m.ctexts[i.toInt.toNat]?.map fun e => (e, 0)
  | some (.pair m) => m.ctexts[i.toInt.toNat]?
  | none => none

/-- The two entries for the recipient give away the discrete logarithm of `H`. -/
def Relates (d d' : Dealing) (i : NodeIndex) : Prop :=
  ∃ e e', d.entry i = some e ∧ d'.entry i = some e' ∧ e.2 ≠ e'.2 ∧ Point.H = ((e.1 - e'.1) / (e'.2 - e.2)) • G

end Verif.Dealings
