import Verif.Spec.Num
import Mathlib.Data.ZMod.Basic
/-! # Specification: the residue class denoted by a Montgomery-form limb array (radix 2^256) -/
namespace Verif.Spec

/-- The residue class `x` with `x * 2^256 = value of the limbs` modulo `P` (`P` odd). -/
def montVal (P : Nat) {w : Nat} (a : List (BitVec w)) : ZMod P := (val a : ZMod P) * ((2 ^ 256 : Nat) : ZMod P)⁻¹

end Verif.Spec
