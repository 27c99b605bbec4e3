import Verif.Proofs.Sm9Bil2
/-! # The line functions of the pairing: exact values, and their relation to line values -/
set_option linter.unusedSectionVars false
open WeierstrassCurve WeierstrassCurve.Affine
namespace Verif
open Spec

section
variable {K : Type} [Field K]

/-- The tangent function. -/
def tanK (w : K) (J : EcJ K) (x y : K) : K :=
  (2 * J.y ^ 2 - 3 * J.x ^ 3) - 2 * (J.z ^ 3 * J.y) * y * w ^ 3 + 3 * (J.z ^ 2 * J.x ^ 2) * x * w ^ 2

/-- The line function with an affine second point. -/
def linAK (w : K) (J : EcJ K) (A : EcA K) (x y : K) : K :=
  ((J.x - J.z ^ 2 * A.x) * J.z * A.y - (J.y - J.z ^ 3 * A.y) * A.x) - (J.x - J.z ^ 2 * A.x) * J.z * y * w ^ 3 +
    (J.y - J.z ^ 3 * A.y) * x * w ^ 2

/-- The line function with a Jacobian second point. -/
def linJK (w : K) (J I : EcJ K) (x y : K) : K :=
  ((I.z ^ 2 * J.x - J.z ^ 2 * I.x) * J.z * I.z * I.y - (I.z ^ 3 * J.y - J.z ^ 3 * I.y) * I.x * I.z) -
    (I.z ^ 2 * J.x - J.z ^ 2 * I.x) * J.z * I.z * I.z ^ 3 * y * w ^ 3 +
    I.z ^ 3 * (I.z ^ 3 * J.y - J.z ^ 3 * I.y) * x * w ^ 2

theorem slope_self0 [DecidableEq K] {b x y : K} (h : y ≠ (shortCurve 0 b).negY x y) :
    (shortCurve 0 b).slope x x y y = 3 * x ^ 2 / (2 * y) := by
  rw [slope_of_Y_ne rfl h]
  simp only [shortCurve, negY]
  congr 1 <;> ring

theorem slope_ne0 [DecidableEq K] {b x₁ x₂ y₁ y₂ : K} (h : x₁ ≠ x₂) :
    (shortCurve 0 b).slope x₁ x₂ y₁ y₂ = (y₁ - y₂) / (x₁ - x₂) := slope_of_X_ne h

/-- Tangent values up to a factor. -/
theorem tanK_lv [DecidableEq K] {b w x y : K} {J : EcJ K} {A : (shortCurve 0 b).Point} (hJ : IsJac J A) (h0 : A ≠ 0)
    (h2 : A + A ≠ 0) (h22 : (2 : K) ≠ 0) {hX : (shortCurve 0 b).Nonsingular (w ^ 2 * x) (w ^ 3 * y)} :
    tanK w J x y = -(2 * J.y * J.z ^ 3) * lv A A (.some _ _ hX) ∧ J.y ≠ 0 ∧ J.z ≠ 0 := by
  cases A with
  | zero => exact absurd rfl h0
  | some x1 y1 h1 =>
    obtain ⟨z0, ex, ey⟩ := hJ
    have hne : ¬(x1 = x1 ∧ y1 = (shortCurve 0 b).negY x1 y1) := fun h => h2 (Point.add_of_Y_eq rfl h.2)
    have hny : y1 ≠ (shortCurve 0 b).negY x1 y1 := fun h => hne ⟨rfl, h⟩
    have y0 : y1 ≠ 0 := by
      rintro rfl
      apply hny
      simp only [shortCurve, negY]; ring
    rw [lv_some h1 h1 hX hne, slope_self0 hny]
    refine ⟨?_, by rw [ey]; exact mul_ne_zero y0 (pow_ne_zero 3 z0), z0⟩
    unfold tanK
    rw [ex, ey]
    field_simp
    ring

/-- Values of a line up to a factor. -/
theorem linAK_lv [DecidableEq K] {b w x y : K} {J : EcJ K} {A : (shortCurve 0 b).Point} (hJ : IsJac J A) (h0 : A ≠ 0)
    {x2 y2 : K} {h2 : (shortCurve 0 b).Nonsingular x2 y2} (n1 : A ≠ .some x2 y2 h2) (n2 : A ≠ -.some x2 y2 h2)
    {hX : (shortCurve 0 b).Nonsingular (w ^ 2 * x) (w ^ 3 * y)} :
    linAK w J ⟨x2, y2⟩ x y = -((J.x - J.z ^ 2 * x2) * J.z) * lv A (.some x2 y2 h2) (.some _ _ hX) ∧
      (J.x - J.z ^ 2 * x2) * J.z ≠ 0 := by
  cases A with
  | zero => exact absurd rfl h0
  | some x1 y1 h1 =>
    obtain ⟨z0, ex, ey⟩ := hJ
    have hx : x1 ≠ x2 := by
      rintro rfl
      rcases Y_eq_of_X_eq h1.left h2.left rfl with h | h
      · subst h; exact n1 rfl
      · subst h
        exact n2 (by rw [Point.neg_some])
    rw [lv_some h1 h2 hX (fun h => hx h.1), slope_ne0 hx]
    have hd : x1 - x2 ≠ 0 := sub_ne_zero.mpr hx
    constructor
    · unfold linAK
      simp only
      rw [ex, ey]
      field_simp
      ring
    · rw [ex, show x1 * J.z ^ 2 - J.z ^ 2 * x2 = J.z ^ 2 * (x1 - x2) by ring]
      exact mul_ne_zero (mul_ne_zero (pow_ne_zero 2 z0) hd) z0

/-- The same with Jacobian coordinates. -/
theorem linJK_lv [DecidableEq K] {b w x y : K} {J I : EcJ K} {A B : (shortCurve 0 b).Point} (hJ : IsJac J A)
    (hI : IsJac I B) (h0 : A ≠ 0) (h0' : B ≠ 0) (n1 : A ≠ B) (n2 : A ≠ -B)
    {hX : (shortCurve 0 b).Nonsingular (w ^ 2 * x) (w ^ 3 * y)} :
    linJK w J I x y = -((I.z ^ 2 * J.x - J.z ^ 2 * I.x) * J.z * I.z * I.z ^ 3) * lv A B (.some _ _ hX) ∧
      (I.z ^ 2 * J.x - J.z ^ 2 * I.x) * J.z * I.z * I.z ^ 3 ≠ 0 := by
  cases B with
  | zero => exact absurd rfl h0'
  | some x2 y2 h2 =>
  cases A with
  | zero => exact absurd rfl h0
  | some x1 y1 h1 =>
    obtain ⟨z0, ex, ey⟩ := hJ
    obtain ⟨z0', ex', ey'⟩ := hI
    have hx : x1 ≠ x2 := by
      rintro rfl
      rcases Y_eq_of_X_eq h1.left h2.left rfl with h | h
      · subst h; exact n1 rfl
      · subst h
        exact n2 (by rw [Point.neg_some])
    rw [lv_some h1 h2 hX (fun h => hx h.1), slope_ne0 hx]
    have hd : x1 - x2 ≠ 0 := sub_ne_zero.mpr hx
    constructor
    · unfold linJK
      rw [ex, ey, ex', ey']
      field_simp
      ring
    · rw [ex, ex', show I.z ^ 2 * (x1 * J.z ^ 2) - J.z ^ 2 * (x2 * I.z ^ 2) = I.z ^ 2 * J.z ^ 2 * (x1 - x2) by ring]
      exact mul_ne_zero (mul_ne_zero (mul_ne_zero (mul_ne_zero (mul_ne_zero (pow_ne_zero 2 z0') (pow_ne_zero 2 z0)) hd) z0) z0')
        (pow_ne_zero 3 z0')

end

section
variable {K : Type} [Field K] [Algebra (ZMod sm9p) K] {w : K} (hw : w ^ 12 = -2)
include hw

local notation "ok2" => All2 (Reduced sm9p)
local notation "wk2" => All2 (AtMost sm9p)
local notation "wk12" => All12 (AtMost sm9p)

theorem sparse_is {a0 a1 a4 : Sm9.F2} {s0 s1 s4 : K} (h0 : Is wk2 (fp2Den w) a0 s0) (h1 : Is wk2 (fp2Den w) a1 s1)
    (h4 : Is wk2 (fp2Den w) a4 s4) : Is wk12 (fp12Den w) (Sm9.sparse a0 a1 a4) (s0 + s1 * w ^ 3 + s4 * w ^ 2) := by
  have H := sm9fp2_wk hw
  have z : Is wk2 (fp2Den w) Sm9.fp2.zero 0 := ⟨H.wk_of H.zero_ok, H.zero⟩
  have z4 : Is (All4 (AtMost sm9p)) (fp4Den w) (⟨Sm9.fp2.zero, Sm9.fp2.zero⟩ : Sm9.F4) 0 := (is4 z z).val (by ring)
  exact (is12 (is4 h0 h1) z4 (is4 h4 z)).val (by ring)

theorem gTangent_is {T : Sm9.J2} {J : EcJ K} (hT : IsJ ok2 (fp2Den w) T J) {P : Sm9.A} {x y : K}
    (hx : Is (Reduced sm9p) fpDen P.x x) (hy : Is (Reduced sm9p) fpDen P.y y) :
    ∃ f, Sm9.gTangent T P = some f ∧ Is wk12 (fp12Den w) f (tanK w J x y) := by
  have H := sm9fp2_wk hw
  have h := sm9fp_wk (K := K)
  have M := fun {a : Sm9.F2} {s : K} (ha : Is ok2 (fp2Den w) a s) {b : List W32} {t : K} (hb : Is (Reduced sm9p) fpDen b t) =>
    (fp2MulFp_is h (H.w ha) (h.w hb) : Is ok2 (fp2Den w) _ _)
  obtain ⟨tx, ty, tz⟩ := hT
  have t0 := H.iSqr (H.w tz)
  have t1 := H.iMulO t0 tz
  have b1 := H.iDbl (H.iMulO t1 ty)
  have a1 := H.iNeg (H.w (M b1 hy))
  have q1 := H.iSqr (H.w tx)
  have q0 := M (H.iMulO t0 q1) hx
  obtain ⟨a4, e4, o4, v4⟩ := H.tpl q0.1
  have q2 := H.iMulO q1 tx
  obtain ⟨t3, e3, o3, v3⟩ := H.tpl q2.1
  have a0 := H.iSub (H.iDbl (H.iSqr (H.w ty))) (show Is ok2 (fp2Den w) t3 _ from ⟨o3, v3⟩)
  refine ⟨_, ?_, (sparse_is hw (H.w a0) a1 (H.w (show Is ok2 (fp2Den w) a4 _ from ⟨o4, v4⟩))).val ?_⟩
  · unfold Sm9.gTangent
    dsimp only
    rw [show Sm9.fp2.tpl _ = some a4 from e4]; dsimp only [Option.bind_eq_bind, Option.bind_some]
    rw [show Sm9.fp2.tpl _ = some t3 from e3]; rfl
  · rw [show fp2Den w _ = _ from q0.2, q2.2]
    unfold tanK
    ring

theorem gLineA_is {T : Sm9.J2} {J : EcJ K} (hT : IsJ ok2 (fp2Den w) T J) {Q : Sm9.A2} {A : EcA K}
    (hQ : IsA wk2 (fp2Den w) Q A) {P : Sm9.A} {x y : K}
    (hx : Is (Reduced sm9p) fpDen P.x x) (hy : Is (Reduced sm9p) fpDen P.y y) :
    Is wk12 (fp12Den w) (Sm9.gLineA T Q P) (linAK w J A x y) := by
  have H := sm9fp2_wk hw
  have h := sm9fp_wk (K := K)
  have M := fun {a : Sm9.F2} {s : K} (ha : Is ok2 (fp2Den w) a s) {b : List W32} {t : K} (hb : Is (Reduced sm9p) fpDen b t) =>
    (fp2MulFp_is h (H.w ha) (h.w hb) : Is ok2 (fp2Den w) _ _)
  obtain ⟨tx, ty, tz⟩ := hT
  obtain ⟨qx, qy⟩ := hQ
  have t2 := H.iSqr (H.w tz)
  have t3 := H.iMul (H.w t2) qx
  have t2' := H.iMul (H.w (H.iMulO t2 tz)) qy
  have b1 := H.iMulO (H.iSub tx t3) tz
  have c1 := H.iMul (H.w b1) qy
  have t3' := H.iSub ty t2'
  have a4 := M t3' hx
  have a0 := H.iSub c1 (H.iMul (H.w t3') qx)
  have a1 := H.iNeg (H.w (M b1 hy))
  refine (sparse_is hw (H.w a0) a1 (H.w a4)).val ?_
  unfold linAK
  ring

theorem gLineJ_is {T Q : Sm9.J2} {J I : EcJ K} (hT : IsJ ok2 (fp2Den w) T J) (hQ : IsJ wk2 (fp2Den w) Q I)
    {P : Sm9.A} {x y : K} (hx : Is (Reduced sm9p) fpDen P.x x) (hy : Is (Reduced sm9p) fpDen P.y y) :
    Is wk12 (fp12Den w) (Sm9.gLineJ T Q P) (linJK w J I x y) := by
  have H := sm9fp2_wk hw
  have h := sm9fp_wk (K := K)
  have M := fun {a : Sm9.F2} {s : K} (ha : Is ok2 (fp2Den w) a s) {b : List W32} {t : K} (hb : Is (Reduced sm9p) fpDen b t) =>
    (fp2MulFp_is h (H.w ha) (h.w hb) : Is ok2 (fp2Den w) _ _)
  obtain ⟨tx, ty, tz⟩ := hT
  obtain ⟨qx, qy, qz⟩ := hQ
  have t0 := H.iSqr qz
  have t1 := H.iMul (H.w t0) (H.w tx)
  have t0' := H.iMul (H.w t0) qz
  have t2 := H.iSqr (H.w tz)
  have t3 := H.iMul (H.w t2) qx
  have t2' := H.iMul (H.w (H.iMulO t2 tz)) qy
  have t1' := H.iMul (H.w (H.iMulO (H.iSub t1 t3) tz)) qz
  have b1 := H.iMulO t1' t0'
  have t1'' := H.iMul (H.w t1') qy
  have t3' := H.iSub (H.iMulO t0' ty) t2'
  have a4 := M (H.iMulO t0' t3') hx
  have a0 := H.iSub t1'' (H.iMul (H.w (H.iMul (H.w t3') qx)) qz)
  have a1 := H.iNeg (H.w (M b1 hy))
  refine (sparse_is hw (H.w a0) a1 (H.w a4)).val ?_
  unfold linJK
  ring

/-- Elements of `F_p²` vanish in the final exponentiation. -/
theorem kill2 {x : K} (h0 : x ≠ 0) (h : fK K 2 x = x) : x ^ sm9D = 1 := kill6 h0 (fK_even h 3)

theorem fix2 (a : Sm9.F2) : fK K 2 (fp2Den w a) = fp2Den w a := by
  rw [fK_two]; exact frob2_fp2 hw a

end
end Verif
