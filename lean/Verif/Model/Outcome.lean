/-!
# Outcomes of C++ calls

`throw`: the call left by an exception (the object's state after it is not modelled).
`ub`: the call executed an out-of-bounds access, an out-of-range shift or another undefined operation.
-/
namespace Verif

inductive Outcome (α : Type) where
  | ok (a : α)
  | throw
  | ub
deriving DecidableEq, Repr

namespace Outcome

def bind {α β : Type} (x : Outcome α) (f : α → Outcome β) : Outcome β :=
  match x with
  | ok a => f a
  | throw => throw
  | ub => ub

instance : Monad Outcome where
  pure := ok
  bind := bind

end Outcome
end Verif
