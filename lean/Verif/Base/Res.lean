import Mathlib.Data.List.Forall2

/-!
Outcomes of Go calls.
-/

namespace Verif

/-- The outcome of a Go call: a normal return with a nil error, a return with a non-nil error, a panic,
or no return at all (an endless loop). -/
inductive Res (α : Type) where
  | ok (a : α)
  | err (e : String)
  | panic (e : String)
  | diverge
  deriving Repr, DecidableEq

namespace Res

variable {α β γ : Type}

/-- Sequencing: `x, err := f(); if err != nil { return err }; g(x)`. -/
protected def bind (r : Res α) (f : α → Res β) : Res β :=
  match r with
  | ok a => f a
  | err e => err e
  | panic e => panic e
  | diverge => diverge

instance : Monad Res where
  pure := Res.ok
  bind := Res.bind

@[simp] theorem pure_eq (a : α) : (pure a : Res α) = ok a := rfl
@[simp] theorem ok_bind (a : α) (f : α → Res β) : (ok a >>= f) = f a := rfl
@[simp] theorem err_bind (e : String) (f : α → Res β) : ((err e : Res α) >>= f) = err e := rfl
@[simp] theorem panic_bind (e : String) (f : α → Res β) : ((panic e : Res α) >>= f) = panic e := rfl
@[simp] theorem diverge_bind (f : α → Res β) : ((diverge : Res α) >>= f) = diverge := rfl

theorem bind_eq_ok {r : Res α} {f : α → Res β} {b : β} : (r >>= f) = ok b ↔ ∃ a, r = ok a ∧ f a = ok b := by
  cases r <;> simp

instance : LawfulMonad Res := LawfulMonad.mk'
  (id_map := fun x => by cases x <;> rfl)
  (pure_bind := fun _ _ => rfl)
  (bind_assoc := fun x _ _ => by cases x <;> rfl)

/-- Returned normally, with a nil error. -/
def isOk : Res α → Bool
  | ok _ => true
  | _ => false

/-- Returned a non-nil error. -/
def isErr : Res α → Bool
  | err _ => true
  | _ => false

/-- Panicked. -/
def isPanic : Res α → Bool
  | panic _ => true
  | _ => false

@[simp] theorem isOk_ok (a : α) : (ok a).isOk = true := rfl
@[simp] theorem isOk_err (e : String) : (err e : Res α).isOk = false := rfl
@[simp] theorem isOk_panic (e : String) : (panic e : Res α).isOk = false := rfl
@[simp] theorem isOk_diverge : (diverge : Res α).isOk = false := rfl
@[simp] theorem isErr_ok (a : α) : (ok a).isErr = false := rfl
@[simp] theorem isErr_err (e : String) : (err e : Res α).isErr = true := rfl
@[simp] theorem isErr_panic (e : String) : (panic e : Res α).isErr = false := rfl
@[simp] theorem isErr_diverge : (diverge : Res α).isErr = false := rfl
@[simp] theorem isPanic_ok (a : α) : (ok a).isPanic = false := rfl
@[simp] theorem isPanic_err (e : String) : (err e : Res α).isPanic = false := rfl
@[simp] theorem isPanic_panic (e : String) : (panic e : Res α).isPanic = true := rfl
@[simp] theorem isPanic_diverge : (diverge : Res α).isPanic = false := rfl

theorem isOk_iff {r : Res α} : r.isOk = true ↔ ∃ a, r = ok a := by cases r <;> simp
theorem isErr_iff {r : Res α} : r.isErr = true ↔ ∃ a, r = err a := by cases r <;> simp
theorem isPanic_iff {r : Res α} : r.isPanic = true ↔ ∃ a, r = panic a := by cases r <;> simp

/-- Map a loop over a list of calls, stopping at the first one that does not return normally. -/
def mapM' (f : α → Res β) : List α → Res (List β)
  | [] => ok []
  | a :: as => do
    let b ← f a
    let bs ← mapM' f as
    ok (b :: bs)

theorem mapM'_ok {f : α → Res β} {g : α → β} {l : List α} (h : ∀ a ∈ l, f a = ok (g a)) :
    mapM' f l = ok (l.map g) := by
  induction l with
  | nil => rfl
  | cons a as ih =>
    rw [mapM', h a (by simp), ih (fun b hb => h b (List.mem_cons_of_mem _ hb))]
    rfl

theorem mapM'_eq_ok {f : α → Res β} {l : List α} {bs : List β} :
    mapM' f l = ok bs ↔ List.Forall₂ (fun a b => f a = ok b) l bs := by
  induction l generalizing bs with
  | nil => cases bs <;> simp [mapM']
  | cons a as ih =>
    rw [mapM', bind_eq_ok]
    constructor
    · rintro ⟨b, hb, h⟩
      rw [bind_eq_ok] at h
      obtain ⟨cs, hcs, h⟩ := h
      cases h
      exact List.Forall₂.cons hb (ih.1 hcs)
    · rintro (_ | ⟨hb, hbs⟩)
      exact ⟨_, hb, by rw [ih.2 hbs]; rfl⟩

end Res

end Verif
