/-! # Specification: the integers denoted by limb arrays and byte strings -/
namespace Verif.Spec

/-- Value of a little-endian limb array with `w`-bit limbs. -/
def val {w : Nat} : List (BitVec w) → Nat
  | [] => 0
  | a :: as => a.toNat + 2 ^ w * val as

/-- Big-endian value of a byte string. -/
def beVal (bs : List (BitVec 8)) : Nat := bs.foldl (fun acc b => acc * 256 + b.toNat) 0

/-- The `n`-byte big-endian representation of a number below `256^n`. -/
def toBE : Nat → Nat → List (BitVec 8)
  | 0, _ => []
  | n + 1, x => toBE n (x / 256) ++ [BitVec.ofNat 8 x]

end Verif.Spec
