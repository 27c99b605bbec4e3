import Verif.Spec.Sm3
/-! # Specification: collisions of SM3 and of its compression function -/
namespace Verif.Spec.SM3

/-- An input of the compression function: chaining value and the sixteen words of a block. -/
abbrev CFIn := State × (Fin 16 → Word)

/-- The compression function on such an input. -/
def cf (x : CFIn) : State := CF x.1 fun j => if h : j < 16 then x.2 ⟨j, h⟩ else 0

/-- How many blocks are compressed when `m` is hashed. -/
def nBlocks (m : List (BitVec 8)) : Nat := (pad m).length / 64

/-- The input of the `i`-th compression when `m` is hashed. -/
def cfIn (m : List (BitVec 8)) (i : Nat) : CFIn := (V (pad m) i, fun j => wordAt (pad m) (64 * i + 4 * j))

/-- Hashing `m` and hashing `m'` compress two different inputs to the same value. -/
def CFCollision (m m' : List (BitVec 8)) : Prop :=
  ∃ i < nBlocks m, ∃ j < nBlocks m', cfIn m i ≠ cfIn m' j ∧ cf (cfIn m i) = cf (cfIn m' j)

end Verif.Spec.SM3
