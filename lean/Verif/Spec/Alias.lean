/-!
# What it means that a function on memory may be called in place

A memory maps addresses to cells.  A function `f(r, a, b)` gets the addresses of its result and of two operands, and a
stack for its local variables from address `L` on; what the caller owns lies below `L`.
-/
namespace Verif.Spec.Alias

/-- The `n` cells from `x` on and the `k` cells from `y` on are the same object (they begin at the same address) or do not
overlap. -/
def SameOrApart (x n y k : Nat) : Prop := x = y ∨ x + n ≤ y ∨ y + k ≤ x

/-- `f(r, a, b)` computes `v = g(memory, a, b)` from the memory on entry, stores it at `r`, whichever of `r`, `a` and `b` are
the same object, and changes no other cell of the caller.  `none` is an undefined or unending run.  `nr`, `na`, `nb` are
the sizes of the objects, `rd` reads the result. -/
def InPlaceSafe {β γ : Type} (nr na nb : Nat) (rd : (Nat → β) → Nat → γ) (g : (Nat → β) → Nat → Nat → Option γ)
    (f : Nat → Nat → Nat → Nat → (Nat → β) → Option (Nat → β)) : Prop :=
  ∀ (L r a b : Nat) (m : Nat → β), SameOrApart r nr a na → SameOrApart r nr b nb → SameOrApart a na b nb →
    r + nr ≤ L → a + na ≤ L → b + nb ≤ L →
    match g m a b with
    | none => f L r a b m = none
    | some v => ∃ m', f L r a b m = some m' ∧ rd m' r = v ∧ ∀ x, x < L → ¬ (r ≤ x ∧ x < r + nr) → m' x = m x

end Verif.Spec.Alias
