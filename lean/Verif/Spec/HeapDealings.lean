import Verif.Spec.HeapZk
import Verif.Model.HeapDealings

/-!
Which objects dealings, transcripts, shares and operations refer to, and which values they stand for.
-/

set_option autoImplicit false

namespace Verif.Heap

namespace View

/-- Commitments of operations and transcripts. -/
def com : View ComObj Dealings.Com :=
  (data.prod commitment).via (fun o => (o.wrap, o.c)) fun v => ⟨v.1, v.2⟩

/-- Shares of a dealer. -/
def shares : View SharesObj Dealings.Shares where
  objs
    | .random => []
    | .reshareUnmasked s => sc.objs s
    | .reshareMasked s k => (sc.prod sc).objs (s, k)
    | .unmaskedTimesMasked l r k => (sc.prod (sc.prod sc)).objs (l, r, k)
    | .other => []
  val m
    | .random => .random
    | .reshareUnmasked s => .reshareUnmasked (m.sc s)
    | .reshareMasked s k => .reshareMasked (m.sc s) (m.sc k)
    | .unmaskedTimesMasked l r k => .unmaskedTimesMasked (m.sc l) (m.sc r) (m.sc k)
    | .other => .other
  frame {m m' o} h := by
    cases o with
    | random => rfl
    | reshareUnmasked s => exact congrArg Dealings.Shares.reshareUnmasked (sc.frame h)
    | reshareMasked s k =>
      exact congrArg (fun v : Fn × Fn => Dealings.Shares.reshareMasked v.1 v.2) ((sc.prod sc).frame (o := (s, k)) h)
    | unmaskedTimesMasked l r k =>
      exact congrArg (fun v : Fn × Fn × Fn => Dealings.Shares.unmaskedTimesMasked v.1 v.2.1 v.2.2)
        ((sc.prod (sc.prod sc)).frame (o := (l, r, k)) h)
    | other => rfl

/-- Operations. -/
def op : View OpObj Dealings.Op where
  objs
    | .random => []
    | .reshareMasked p => com.objs p
    | .reshareUnmasked p => com.objs p
    | .unmaskedTimesMasked l r => (com.prod com).objs (l, r)
    | .other => []
  val m
    | .random => .random
    | .reshareMasked p => .reshareMasked (com.val m p)
    | .reshareUnmasked p => .reshareUnmasked (com.val m p)
    | .unmaskedTimesMasked l r => .unmaskedTimesMasked (com.val m l) (com.val m r)
    | .other => .other
  frame {m m' o} h := by
    cases o with
    | random => rfl
    | reshareMasked p => exact congrArg Dealings.Op.reshareMasked (com.frame h)
    | reshareUnmasked p => exact congrArg Dealings.Op.reshareUnmasked (com.frame h)
    | unmaskedTimesMasked l r =>
      exact congrArg (fun v : Dealings.Com × Dealings.Com => Dealings.Op.unmaskedTimesMasked v.1 v.2)
        ((com.prod com).frame (o := (l, r)) h)
    | other => rfl

/-- Proofs in dealings. -/
def proofVal : View ProofValObj Dealings.ProofVal where
  objs
    | .masked pf => proof.opt.objs pf
    | .product pf => productProof.opt.objs pf
    | .maskedVal pf => proof.opt.objs pf
    | .productVal pf => productProof.opt.objs pf
  val m
    | .masked pf => .masked (proof.opt.val m pf)
    | .product pf => .product (productProof.opt.val m pf)
    | .maskedVal pf => .maskedVal (proof.opt.val m pf)
    | .productVal pf => .productVal (productProof.opt.val m pf)
  frame {m m' o} h := by
    cases o with
    | masked pf => exact congrArg Dealings.ProofVal.masked (proof.opt.frame h)
    | product pf => exact congrArg Dealings.ProofVal.product (productProof.opt.frame h)
    | maskedVal pf => exact congrArg Dealings.ProofVal.maskedVal (proof.opt.frame h)
    | productVal pf => exact congrArg Dealings.ProofVal.productVal (productProof.opt.frame h)

/-- Ciphertexts in dealings. -/
def cipher : View CipherObj Dealings.Cipher where
  objs
    | .single c => (ciphertext sc).objs c
    | .pair c => (ciphertext (sc.prod sc)).objs c
  val m
    | .single c => .single ((ciphertext sc).val m c)
    | .pair c => .pair ((ciphertext (sc.prod sc)).val m c)
  frame {m m' o} h := by
    cases o with
    | single c => exact congrArg Dealings.Cipher.single ((ciphertext sc).frame h)
    | pair c => exact congrArg Dealings.Cipher.pair ((ciphertext (sc.prod sc)).frame h)

/-- Dealings. -/
def dealing : View DealingObj Dealings.Dealing :=
  (cipher.opt.prod (commitment.opt.prod proofVal.opt)).via (fun o => (o.ciphertext, o.commitment, o.proof))
    fun v => ⟨v.1, v.2.1, v.2.2⟩

/-- Maps from node indices. -/
def omap {ο ν : Type} (V : View ο ν) : View (List (NodeIndex × ο)) (List (NodeIndex × ν)) := (data.prod V).list

end View

end Verif.Heap
