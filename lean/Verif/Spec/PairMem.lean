import Verif.Spec.Alias
/-!
# What it means that a function that may report failure may be called in place
-/
namespace Verif.Spec.Alias

/-- `f(r, a)` computes `g` of the operand as it was on entry.  `none` is an undefined or unending run.  If `g` is
`some none` the function reports failure and changes no cell of the caller; if it is `some (some v)` the function reports
success and stores `v` at `r`, whether or not `r` is `a`, and changes no other cell of the caller.  `k` is the size of the
objects, `rd` reads them; the boolean is whether the function reports success. -/
def SqrtSafe {β α : Type} (k : Nat) (rd : (Nat → β) → Nat → α) (g : α → Option (Option α))
    (f : Nat → Nat → Nat → (Nat → β) → Option (Bool × (Nat → β))) : Prop :=
  ∀ (L r a : Nat) (m : Nat → β), SameOrApart r k a k → r + k ≤ L → a + k ≤ L →
    match g (rd m a) with
    | none => f L r a m = none
    | some none => ∃ m', f L r a m = some (false, m') ∧ ∀ x, x < L → m' x = m x
    | some (some v) => ∃ m', f L r a m = some (true, m') ∧ rd m' r = v ∧
        ∀ x, x < L → ¬ (r ≤ x ∧ x < r + k) → m' x = m x

end Verif.Spec.Alias
