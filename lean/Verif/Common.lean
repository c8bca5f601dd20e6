/-
Outcome type shared by all parts of the model.
-/
namespace Verif

/-- Outcome of running a piece of C++: a value, a thrown exception / script error (the message is
not modelled), or undefined behaviour (out-of-bounds access, signed overflow, ...). -/
inductive Out (β : Type u) where
  | ok (b : β)
  | err
  | ub
  deriving DecidableEq, Repr

namespace Out

/-- Sequencing: errors and undefined behaviour propagate. -/
def bind {β : Type u} {γ : Type v} (x : Out β) (f : β → Out γ) : Out γ :=
  match x with
  | ok b => f b
  | err => err
  | ub => ub

/-- Map over the value. -/
def map {β : Type u} {γ : Type v} (f : β → γ) (x : Out β) : Out γ :=
  match x with
  | ok b => ok (f b)
  | err => err
  | ub => ub

instance : Monad Out where
  pure := ok
  bind := bind

@[simp] theorem bind_ok {β γ : Type u} (b : β) (f : β → Out γ) : (Out.ok b >>= f) = f b := rfl
@[simp] theorem bind_err {β γ : Type u} (f : β → Out γ) : ((Out.err : Out β) >>= f) = Out.err := rfl
@[simp] theorem bind_ub {β γ : Type u} (f : β → Out γ) : ((Out.ub : Out β) >>= f) = Out.ub := rfl
@[simp] theorem pure_eq {β : Type u} (b : β) : (pure b : Out β) = Out.ok b := rfl

end Out
end Verif
