import Verif.Spec.EcPoint
/-!
# Specification: curve points denoted by point arrays, over any coordinate representation

`ok` says which coordinate arrays are properly reduced and `φ` which field element an array denotes.
-/
namespace Verif.Spec

variable {α K : Type} [Field K] {W : WeierstrassCurve.Affine K}

/-- The affine point array `P` holds reduced coordinates of the (finite) curve point `Q`. -/
def IsAffineOf (ok : α → Prop) (φ : α → K) (P : EcA α) (Q : W.Point) : Prop :=
  ok P.x ∧ ok P.y ∧ ∃ h, Q = .some (φ P.x) (φ P.y) h

/-- The Jacobian point array `P` holds reduced coordinates of the curve point `Q` (possibly at infinity). -/
def IsJacobianOf (ok : α → Prop) (φ : α → K) (P : EcJ α) (Q : W.Point) : Prop :=
  ok P.x ∧ ok P.y ∧ ok P.z ∧ IsJac ⟨φ P.x, φ P.y, φ P.z⟩ Q

end Verif.Spec
