/-
Outcome of a modelled C++ call.
-/
namespace Conduit

/-- `ok a`: normal return.  `error`: `CONDUIT_ERROR` (throws conduit::Error with the
    default handler, conduit_utils.cpp default_error_handler).  `ub`: the code
    reaches undefined behaviour (out of range vector access, null or dangling
    pointer, buffer overrun, unbounded recursion). -/
inductive Res (α : Type) where
  | ok (a : α)
  | error
  | ub
deriving DecidableEq, Repr

namespace Res
def bind {α β : Type} : Res α → (α → Res β) → Res β
  | .ok a, f => f a
  | .error, _ => .error
  | .ub, _ => .ub

instance : Monad Res where
  pure := .ok
  bind := bind

def map' {α β : Type} (f : α → β) : Res α → Res β
  | .ok a => .ok (f a)
  | .error => .error
  | .ub => .ub

/-- the call returned normally -/
def isOk {α : Type} : Res α → Bool
  | .ok _ => true
  | _ => false

/-- the call reached undefined behaviour -/
def isUb {α : Type} : Res α → Bool
  | .ub => true
  | _ => false

/-- vector access `v[i]`; out of range is undefined behaviour -/
def ofIdx {α : Type} (l : List α) (i : Nat) : Res α :=
  match l[i]? with
  | some a => .ok a
  | none => .ub

@[simp] theorem bind_ok {α β : Type} (a : α) (f : α → Res β) : (Res.ok a >>= f) = f a := rfl
@[simp] theorem bind_error {α β : Type} (f : α → Res β) : ((Res.error : Res α) >>= f) = .error := rfl
@[simp] theorem bind_ub {α β : Type} (f : α → Res β) : ((Res.ub : Res α) >>= f) = .ub := rfl
@[simp] theorem pure_def {α : Type} (a : α) : (pure a : Res α) = .ok a := rfl
@[simp] theorem map'_ok {α β : Type} (f : α → β) (a : α) : map' f (.ok a) = .ok (f a) := rfl
@[simp] theorem map'_error {α β : Type} (f : α → β) : map' f (.error) = .error := rfl
@[simp] theorem map'_ub {α β : Type} (f : α → β) : map' f (.ub) = .ub := rfl

theorem bind_eq_ok {α β : Type} {x : Res α} {f : α → Res β} {b : β} :
    (x >>= f) = .ok b ↔ ∃ a, x = .ok a ∧ f a = .ok b := by
  cases x <;> simp
end Res
end Conduit
