import Verif.Model.Sm9Field
import Verif.Spec.MontCtx
import Verif.Spec.Curves
import Mathlib.Algebra.Algebra.Defs
import Mathlib.Algebra.Field.ZMod
/-!
# Specification: the elements of the SM9 tower denoted by the library's arrays

SM9 works in `F_p ⊂ F_p² ⊂ F_p⁴ ⊂ F_p¹²` with `F_p² = F_p[u]/(u² + 2)`, `F_p⁴ = F_p²[v]/(v² - u)` and
`F_p¹² = F_p⁴[w]/(w³ - v)`, that is, `w¹² = -2`, `v = w³`, `u = w⁶`.  The statements below hold in every field `K`
over `F_p` with an element `w` such that `w¹² = -2`.
-/
namespace Verif.Spec

/-- `a + b u`. -/
def den2 {α K : Type} [Field K] (φ : α → K) (u : K) (a : Fp2 α) : K := φ a.c0 + φ a.c1 * u
/-- `a + b v` over `F_p²`. -/
def den4 {α K : Type} [Field K] (φ : α → K) (u v : K) (a : Fp4 α) : K := den2 φ u a.c0 + den2 φ u a.c1 * v
/-- `a + b w + c w²` over `F_p⁴`. -/
def den12 {α K : Type} [Field K] (φ : α → K) (u v w : K) (a : Fp12 α) : K :=
  den4 φ u v a.c0 + den4 φ u v a.c1 * w + den4 φ u v a.c2 * w ^ 2

/-- `q` holds of both components. -/
def All2 {α : Type} (q : α → Prop) (a : Fp2 α) : Prop := q a.c0 ∧ q a.c1
/-- `q` holds of all four components. -/
def All4 {α : Type} (q : α → Prop) (a : Fp4 α) : Prop := All2 q a.c0 ∧ All2 q a.c1
/-- `q` holds of all twelve components. -/
def All12 {α : Type} (q : α → Prop) (a : Fp12 α) : Prop := All4 q a.c0 ∧ All4 q a.c1 ∧ All4 q a.c2

/-- An eight-limb array holding a number not above `p`: the library's negation of zero is `p` itself. -/
def AtMost (p : Nat) (a : List W32) : Prop := a.length = 8 ∧ val a ≤ p

section
variable {K : Type} [Field K] [Algebra (ZMod sm9p) K]

/-- The element of `K` denoted by an `sm9_fp_t` (Montgomery form). -/
noncomputable def fpDen (a : List W32) : K := algebraMap (ZMod sm9p) K (montVal sm9p a)
/-- The element denoted by an `sm9_fp2_t`. -/
noncomputable def fp2Den (w : K) (a : Fp2 (List W32)) : K := den2 fpDen (w ^ 6) a
/-- The element denoted by an `sm9_fp4_t`. -/
noncomputable def fp4Den (w : K) (a : Fp4 (List W32)) : K := den4 fpDen (w ^ 6) (w ^ 3) a
/-- The element denoted by an `sm9_fp12_t`. -/
noncomputable def fp12Den (w : K) (a : Fp12 (List W32)) : K := den12 fpDen (w ^ 6) (w ^ 3) w a


/-- The case in which `sm9_fp12_inv` computes `p - 0` with the library's subtraction: with `c_i = a_i + b_i u + c_i v +
d_i uv`, the coefficient of `uv` in `c2²` and the constant coefficient of `c0 c1` both vanish. -/
def InvSlip (x : Fp12 (List W32)) : Prop :=
  let m := montVal sm9p
  2 * (m x.c2.c0.c0 * m x.c2.c1.c1 + m x.c2.c0.c1 * m x.c2.c1.c0) = 0 ∧
  m x.c0.c0.c0 * m x.c1.c0.c0 - 2 * (m x.c0.c0.c1 * m x.c1.c0.c1)
    - 2 * (m x.c0.c1.c0 * m x.c1.c1.c1 + m x.c0.c1.c1 * m x.c1.c1.c0) = 0

/-- The elements `sm9_fp12_inv` is right about. -/
def InvRight (w : K) (x : Fp12 (List W32)) : Prop :=
  fp12Den w x = 0 ∨ ¬ InvSlip x ∨ fp4Den w x.c0 = 0 ∧ fp4Den w x.c1 = 0

end
end Verif.Spec
