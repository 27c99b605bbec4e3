import Verif.Spec.Sm9Scheme
import Verif.Spec.MontCtxX64
import Verif.Model.Sm9X64
/-!
# Specification: the elements and points denoted by the arrays of the build with 64-bit limbs

The same reading of the arrays as in `Spec/Sm9Tower` and `Spec/Sm9Curve`, over four 64-bit limbs.
-/
namespace Verif.Spec.X64

section
variable {K : Type} [Field K] [Algebra (ZMod sm9p) K]

/-- The element of `K` denoted by an `sm9_fp_t` (Montgomery form). -/
noncomputable def fpDen (a : List W64) : K := algebraMap (ZMod sm9p) K (montVal sm9p a)
/-- The element denoted by an `sm9_fp2_t`. -/
noncomputable def fp2Den (w : K) (a : Fp2 (List W64)) : K := den2 fpDen (w ^ 6) a
/-- The element denoted by an `sm9_fp4_t`. -/
noncomputable def fp4Den (w : K) (a : Fp4 (List W64)) : K := den4 fpDen (w ^ 6) (w ^ 3) a
/-- The element denoted by an `sm9_fp12_t`. -/
noncomputable def fp12Den (w : K) (a : Fp12 (List W64)) : K := den12 fpDen (w ^ 6) (w ^ 3) w a

/-- The affine point array `P` holds reduced coordinates of the (finite) point `Q` of `y² = x³ + 5`. -/
def Sm9IsAffine (P : Verif.X64.Sm9.A) (Q : Sm9Point) : Prop := IsAffineOf (Reduced sm9p) (montVal sm9p) P Q
/-- The affine point array `P` holds reduced coordinates of the (finite) point `Q` of the twist. -/
def Sm9IsAffine2 (w : K) (P : Verif.X64.Sm9.A2) (Q : Sm9Point2 w) : Prop := IsAffineOf (All2 (Reduced sm9p)) (fp2Den w) P Q

/-- The pairing function of the library, applied to these two points, gives the element `g`. -/
def PairsTo (w : K) (P : Verif.X64.Sm9.A) (Q : Verif.X64.Sm9.A2) (g : K) : Prop :=
  ∃ r, Verif.X64.Sm9.pairing P Q = some r ∧ All12 (Reduced sm9p) r ∧ fp12Den w r = g

end
end Verif.Spec.X64
