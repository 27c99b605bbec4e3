import Verif.Spec.EcDen
import Verif.Spec.Sm9Tower
import Verif.Spec.Num
import Verif.Model.Sm9Ec
import Verif.Proofs.Sm9Fp
/-!
# Specification: the SM9 curve groups (GB/T 38635.1, GM/T 0044.5)

`G1` is the group of points of `y² = x³ + 5` over `F_p`; `G2` lies on the twist `y² = x³ + 5u` over `F_p²`, here seen in
any field `K` over `F_p` with an element `w`, `w¹² = -2`, `u = w⁶`.  The group law is Mathlib's.
(`Verif.Proofs.Sm9Fp` is imported for the fact that `sm9p` is prime, so that `ZMod sm9p` is a field.)
-/
namespace Verif.Spec

/-- `y² = x³ + 5` over the field with `sm9p` elements. -/
def sm9Curve : WeierstrassCurve.Affine (ZMod sm9p) := shortCurve 0 5
/-- Its points. -/
abbrev Sm9Point := sm9Curve.Point

/-- The affine point array `P` holds reduced coordinates of the (finite) point `Q`. -/
def Sm9IsAffine (P : Sm9.A) (Q : Sm9Point) : Prop := IsAffineOf (Reduced sm9p) (montVal sm9p) P Q
/-- The Jacobian point array `P` holds reduced coordinates of `Q`. -/
def Sm9IsJacobian (P : Sm9.J) (Q : Sm9Point) : Prop := IsJacobianOf (Reduced sm9p) (montVal sm9p) P Q

section
variable {K : Type} [Field K] [Algebra (ZMod sm9p) K]

/-- `y² = x³ + 5u`. -/
def sm9Twist (w : K) : WeierstrassCurve.Affine K := shortCurve 0 (5 * w ^ 6)
/-- Its points. -/
abbrev Sm9Point2 (w : K) := (sm9Twist w).Point

/-- The affine point array `P` holds reduced coordinates of the (finite) point `Q` of the twist. -/
def Sm9IsAffine2 (w : K) (P : Sm9.A2) (Q : Sm9Point2 w) : Prop :=
  IsAffineOf (All2 (Reduced sm9p)) (fp2Den w) P Q
/-- The Jacobian point array `P` holds reduced coordinates of the point `Q` of the twist. -/
def Sm9IsJacobian2 (w : K) (P : Sm9.J2) (Q : Sm9Point2 w) : Prop :=
  IsJacobianOf (All2 (Reduced sm9p)) (fp2Den w) P Q

end

/-- Coordinates `x = x1 u + x0`, `y = y1 u + y0` of the published generator of `G2`. -/
def sm9g2x1 : Nat := 0x85AEF3D078640C98597B6027B441A01FF1DD2C190F5E93C454806C11D8806141
/-- See `sm9g2x1`. -/
def sm9g2x0 : Nat := 0x3722755292130B08D2AAB97FD34EC120EE265948D19C17ABF9B7213BAF82D65B
/-- See `sm9g2x1`. -/
def sm9g2y1 : Nat := 0x17509B092E845C1266BA0D262CBEE6ED0736A96FA347C8BD856DC76B84EBEB96
/-- See `sm9g2x1`. -/
def sm9g2y0 : Nat := 0xA7CF28D519BE3DA65F3170153D278FF247EFBA98A71A08116215BBA5C999A7C7

/-- 32 octets of an element of `F_p`. -/
def sm9Octets (x : ZMod sm9p) : List (BitVec 8) := toBE 32 x.val

end Verif.Spec
