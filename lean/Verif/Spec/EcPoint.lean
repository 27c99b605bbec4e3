import Mathlib.AlgebraicGeometry.EllipticCurve.Affine.Point
import Verif.Model.Sm2Ec
/-!
# Specification: curves in short Weierstrass form and the points denoted by coordinates

The group law is Mathlib's `WeierstrassCurve.Affine.Point` (chord and tangent, with the point at infinity `0`).
-/
namespace Verif.Spec

/-- The curve `y² = x³ + a x + b`. -/
def shortCurve {K : Type} [Field K] (a b : K) : WeierstrassCurve.Affine K := ⟨0, 0, 0, a, b⟩

/-- The Jacobian triple `(X : Y : Z)` stands for the point `P`: `Z = 0` for the point at infinity, and otherwise
`P = (X / Z², Y / Z³)`. -/
def IsJac {K : Type} [Field K] {W : WeierstrassCurve.Affine K} (J : EcJ K) : W.Point → Prop
  | .zero => J.z = 0
  | .some x y _ => J.z ≠ 0 ∧ J.x = x * J.z ^ 2 ∧ J.y = y * J.z ^ 3

end Verif.Spec
