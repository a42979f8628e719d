/-
Outcomes of running a piece of the allocator.
-/
namespace HM

/-- Outcome of a C function run on a model state. -/
inductive Res (α : Type) where
  /-- Returned normally. -/
  | ok (a : α)
  /-- `fatal_error(msg)` (util.c:33-44): the process is aborted. -/
  | fatal (msg : String)
  /-- Access to a page without the needed protection: the process is killed. -/
  | segv
  /-- Undefined behaviour of C (for instance an array index out of bounds). -/
  | ub (why : String)
  /-- A loop that never ends. -/
  | hang
  deriving Repr, DecidableEq

namespace Res

/-- Sequencing. -/
@[inline] def bind {α β : Type} (x : Res α) (f : α → Res β) : Res β :=
  match x with
  | ok a => f a
  | fatal m => fatal m
  | segv => segv
  | ub w => ub w
  | hang => hang

instance : Monad Res where
  pure := ok
  bind := bind

@[simp] theorem bind_ok {α β : Type} (a : α) (f : α → Res β) : (ok a >>= f) = f a := rfl
@[simp] theorem bind_fatal {α β : Type} (m : String) (f : α → Res β) : ((fatal m : Res α) >>= f) = fatal m := rfl
@[simp] theorem bind_segv {α β : Type} (f : α → Res β) : ((segv : Res α) >>= f) = segv := rfl
@[simp] theorem bind_ub {α β : Type} (w : String) (f : α → Res β) : ((ub w : Res α) >>= f) = ub w := rfl
@[simp] theorem bind_hang {α β : Type} (f : α → Res β) : ((hang : Res α) >>= f) = hang := rfl
@[simp] theorem pure_eq {α : Type} (a : α) : (pure a : Res α) = ok a := rfl

theorem bind_eq_ok {α β : Type} {x : Res α} {f : α → Res β} {b : β} :
    (x >>= f) = ok b ↔ ∃ a, x = ok a ∧ f a = ok b := by
  cases x <;> simp

end Res
end HM
