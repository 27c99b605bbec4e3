import Verif.Spec.Num
/-! # Specification: little-endian values -/
namespace Verif.Spec

/-- Little-endian value of a byte string. -/
def leVal : List (BitVec 8) → Nat
  | [] => 0
  | b :: bs => b.toNat + 256 * leVal bs

end Verif.Spec
