import Verif.Spec.EcPoint
import Verif.Spec.Curves
import Mathlib.Data.ZMod.Basic
import Mathlib.Algebra.Field.ZMod
import Verif.Proofs.Primes
/-!
# Specification: the SM2 curve group (GB/T 32918.5)

`sm2p` is proved prime in `Verif.Proofs.Primes`, so that `ZMod sm2p` is a field.
-/
namespace Verif.Spec

instance : Fact (Nat.Prime sm2p) := ⟨sm2p_prime⟩
instance : Fact (Nat.Prime sm2n) := ⟨sm2n_prime⟩

/-- The curve `y² = x³ + a x + b` of SM2 over the field with `sm2p` elements. -/
def sm2Curve : WeierstrassCurve.Affine (ZMod sm2p) := shortCurve (-3) (sm2b : ZMod sm2p)

/-- Points of the SM2 curve, with Mathlib's group law. -/
abbrev Sm2Point := sm2Curve.Point

end Verif.Spec
