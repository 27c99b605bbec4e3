import Verif.Spec.Sm2Curve
import Verif.Spec.MontCtx
/-! # Specification: the curve points denoted by the library's SM2 point arrays -/
namespace Verif.Spec

/-- The residue class denoted by a reduced Montgomery-form array. -/
noncomputable abbrev fpVal (a : List W32) : ZMod sm2p := montVal sm2p a

/-- The affine point array `P` holds reduced coordinates of the (finite) curve point `Q`. -/
def Sm2IsAffine (P : Sm2.A) (Q : Sm2Point) : Prop :=
  Reduced sm2p P.x ∧ Reduced sm2p P.y ∧ ∃ h, Q = .some (fpVal P.x) (fpVal P.y) h

/-- The Jacobian point array `P` holds reduced coordinates of the curve point `Q` (possibly at infinity). -/
def Sm2IsJacobian (P : Sm2.J) (Q : Sm2Point) : Prop :=
  Reduced sm2p P.x ∧ Reduced sm2p P.y ∧ Reduced sm2p P.z ∧ IsJac ⟨fpVal P.x, fpVal P.y, fpVal P.z⟩ Q

end Verif.Spec
