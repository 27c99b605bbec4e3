import Verif.Spec.Der
/-! # Specification: what a lenient reader takes for a 32-octet magnitude -/
namespace Verif.Spec.Der

/-- The octets `v` that follow the header of an INTEGER of declared length `n` look like one whose magnitude has 32 octets
and begins `o` octets further on.  Only the first two octets are looked at; `v` may be shorter than `n`. -/
def Magnitude (n o : Nat) (v : List (BitVec 8)) : Prop :=
  (n = 32 ∧ o = 0 ∧ ∃ a, v[0]? = some a ∧ a ≠ 0 ∧ (a = 0xff → ∃ c, v[1]? = some c ∧ c.toNat < 128)) ∨
  (n = 33 ∧ o = 1 ∧ v[0]? = some 0 ∧ ∃ c, v[1]? = some c ∧ 128 ≤ c.toNat)

end Verif.Spec.Der
