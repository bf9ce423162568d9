/-!
# Outcomes of a modelled C++ call

A call either returns normally, reports an error (exception or error code), or runs into undefined
behaviour (out-of-bounds access, null dereference, read of uninitialised memory, endless recursion).
Undefined behaviour is a value of the model, it is never assumed away.
-/
namespace Iode

/-- Outcome of a modelled call. -/
inductive Res (α : Type u) where
  /-- normal return -/
  | ok (a : α)
  /-- exception thrown or error code returned -/
  | err
  /-- undefined behaviour in C++ -/
  | ub
  deriving Repr, DecidableEq

namespace Res

/-- Sequencing: errors and undefined behaviour stop the computation. -/
def bind {α : Type u} {β : Type v} (x : Res α) (f : α → Res β) : Res β :=
  match x with
  | ok a => f a
  | err => err
  | ub => ub

instance : Monad Res where
  pure := Res.ok
  bind := Res.bind

/-- Read an optional value as a result that may be an error. -/
def ofOption {α : Type u} : Option α → Res α
  | some a => ok a
  | none => err

@[simp] theorem pure_eq {α : Type u} (a : α) : (pure a : Res α) = ok a := rfl
@[simp] theorem bind_ok {α β : Type u} (a : α) (f : α → Res β) : (Res.ok a >>= f) = f a := rfl
@[simp] theorem bind_err {α β : Type u} (f : α → Res β) : ((Res.err : Res α) >>= f) = err := rfl
@[simp] theorem bind_ub {α β : Type u} (f : α → Res β) : ((Res.ub : Res α) >>= f) = ub := rfl
@[simp] theorem ofOption_some {α : Type u} (a : α) : ofOption (some a) = ok a := rfl
@[simp] theorem ofOption_none {α : Type u} : ofOption (none : Option α) = err := rfl

end Res
end Iode
