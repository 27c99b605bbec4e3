import Verif.Spec.EcDen
import Verif.Model.Sm9Ec
import Verif.Proofs.WkHom
import Verif.Proofs.Sm2Misc
/-!
# Curves `y² = x³ + b` over any coordinate representation: point formulas and scalar multiplication
-/
set_option linter.unusedSectionVars false
namespace Verif
open Spec WeierstrassCurve.Affine

section formulas
variable {K : Type} [Field K] [DecidableEq K] {α : Type} {F : FpOps α} {ok wk : α → Prop} {φ : α → K}

theorem hom_dbl0 (h : FpHom F ok φ) {P : EcJ α} {J : EcJ K} (hP : IsJ ok φ P J) :
    ∃ R S, ecJDbl0 F P = some R ∧ IsJ ok φ R S ∧ ecJDbl0 (fieldOps K) J = some S := by
  obtain ⟨hx, hy, hz⟩ := hP
  have ha : Is ok φ (F.sqr P.x) (J.x ^ 2) := by is_tac h
  obtain ⟨t, t1, t2, t3⟩ := h.tpl ha.1
  have ht : Is ok φ t (3 * J.x ^ 2) := ⟨t2, by rw [t3, ha.2]⟩
  refine ⟨_, _, by simp only [ecJDbl0, t1]; rfl, ⟨?_, ?_, ?_⟩, rfl⟩
  all_goals simp only [fieldOps]; is_tac h

theorem hom_add0 (h : FpHom F ok φ) {P Q : EcJ α} {J I : EcJ K} (hP : IsJ ok φ P J) (hQ : IsJ ok φ Q I) :
    ∃ R S, ecJAdd0 F P Q = some R ∧ IsJ ok φ R S ∧ ecJAdd0 (fieldOps K) J I = some S := by
  obtain ⟨D, D', d1, d2, d3⟩ := hom_dbl0 h hP
  have i1 := hom_inf h
  obtain ⟨hx, hy, hz⟩ := hP
  obtain ⟨qx, qy, qz⟩ := hQ
  have e1 := h.is_eq (x := F.mul P.x (F.sqr Q.z)) (y := F.mul Q.x (F.sqr P.z))
    (u := J.x * I.z ^ 2) (v := I.x * J.z ^ 2) (by is_tac h) (by is_tac h)
  have e2 := h.is_eq (x := F.mul (F.mul P.y Q.z) (F.sqr Q.z)) (y := F.mul (F.mul Q.y P.z) (F.sqr P.z))
    (u := J.y * I.z * I.z ^ 2) (v := I.y * J.z * J.z ^ 2) (by is_tac h) (by is_tac h)
  unfold ecJAdd0
  simp only [e1, e2]
  by_cases c1 : J.x * I.z ^ 2 = I.x * J.z ^ 2
  · have f1 : (fieldOps K).eq (J.x * I.z ^ 2) (I.x * J.z ^ 2) = true := by simp [fieldOps, c1]
    have f1' : (fieldOps K).eq ((fieldOps K).mul J.x ((fieldOps K).sqr I.z))
      ((fieldOps K).mul I.x ((fieldOps K).sqr J.z)) = true := f1
    simp only [if_pos f1, if_pos f1']
    by_cases c2 : J.y * I.z * I.z ^ 2 = I.y * J.z * J.z ^ 2
    · have f2 : (fieldOps K).eq (J.y * I.z * I.z ^ 2) (I.y * J.z * J.z ^ 2) = true := by simp [fieldOps, c2]
      have f2' : (fieldOps K).eq ((fieldOps K).mul ((fieldOps K).mul J.y I.z) ((fieldOps K).sqr I.z))
        ((fieldOps K).mul ((fieldOps K).mul I.y J.z) ((fieldOps K).sqr J.z)) = true := f2
      simp only [if_pos f2, if_pos f2']
      exact ⟨D, D', d1, d2, d3⟩
    · have f2 : ¬ (fieldOps K).eq (J.y * I.z * I.z ^ 2) (I.y * J.z * J.z ^ 2) = true := by simp [fieldOps, c2]
      have f2' : ¬ (fieldOps K).eq ((fieldOps K).mul ((fieldOps K).mul J.y I.z) ((fieldOps K).sqr I.z))
        ((fieldOps K).mul ((fieldOps K).mul I.y J.z) ((fieldOps K).sqr J.z)) = true := f2
      simp only [if_neg f2, if_neg f2']
      exact ⟨_, _, rfl, i1, rfl⟩
  · have f1 : ¬ (fieldOps K).eq (J.x * I.z ^ 2) (I.x * J.z ^ 2) = true := by simp [fieldOps, c1]
    have f1' : ¬ (fieldOps K).eq ((fieldOps K).mul J.x ((fieldOps K).sqr I.z))
      ((fieldOps K).mul I.x ((fieldOps K).sqr J.z)) = true := f1
    simp only [if_neg f1, if_neg f1']
    refine ⟨_, _, rfl, ⟨?_, ?_, ?_⟩, rfl⟩
    all_goals simp only [fieldOps]; is_tac h

theorem hom_check0 (h : FpHom F ok φ) {P : EcA α} {Q : EcA K} {b : α} {b' : K} (hP : IsA ok φ P Q)
    (hb : Is ok φ b b') : ecACheck0 F b P = true ↔ Q.y ^ 2 = Q.x ^ 3 + b' := by
  obtain ⟨hx, hy⟩ := hP
  unfold ecACheck0
  rw [h.is_eq (u := Q.y ^ 2) (v := b' + Q.x ^ 2 * Q.x) (by is_tac h) (by is_tac h)]
  rw [show b' + Q.x ^ 2 * Q.x = Q.x ^ 3 + b' by ring]
  simp [fieldOps]

/-- The affine operand may be unreduced: it is only multiplied. -/
theorem hom_addA_wk (h : WkHom F ok wk φ) {P : EcJ α} {Q : EcA α} {J : EcJ K} {A : EcA K} (hP : IsJ ok φ P J)
    (hQ : IsA wk φ Q A) : IsJ ok φ (ecJAddA F P Q) (ecJAddA (fieldOps K) J A) := by
  have h' := h.fpHom
  obtain ⟨hx, hy, hz⟩ := hP
  obtain ⟨qx, qy⟩ := hQ
  have z2 := h.iSqr (h.w hz)
  have u2 := h.iMul qx (h.w z2)
  have s2 := h.iMul qy (h.w hz)
  refine ⟨?_, ?_, ?_⟩
  all_goals simp only [ecJAddA, fieldOps]; is_tac h'

theorem hom_toA_wk (h : WkHom F ok wk φ) {P : EcJ α} {J : EcJ K} (hP : IsJ ok φ P J) :
    ∃ R S, ecJToA F P = some R ∧ IsA ok φ R S ∧ ecJToA (fieldOps K) J = some S := by
  obtain ⟨hx, hy, hz⟩ := hP
  obtain ⟨t, t1, ht⟩ := h.iInv hz
  have i2 := h.iSqr ht
  have i3 := h.iMul ht (h.w i2)
  exact ⟨_, _, by simp only [ecJToA, t1]; rfl, ⟨h.iMulO hx i2, h.iMulO hy i3⟩, rfl⟩

variable {b : K}

/-- dbl-2009-l, `a = 0`. -/
theorem rep_dbl0 {J : EcJ K} {P : (shortCurve 0 b).Point} (hJ : IsJac J P) :
    ∃ R, ecJDbl0 (fieldOps K) J = some R ∧ IsJac R (P + P) := by
  refine ⟨_, rfl, ?_⟩
  cases P with
  | zero =>
    have hz : J.z = 0 := hJ
    show 2 * (J.y * J.z) = 0
    rw [hz]; ring
  | some x y h =>
    obtain ⟨hz, hx, hy⟩ := hJ
    by_cases y0 : 2 * y = 0
    · rw [some_add_opp rfl (show y = -y by linear_combination y0)]
      show 2 * (J.y * J.z) = 0
      rw [hy]; linear_combination J.z ^ 4 * y0
    · obtain ⟨h', e⟩ := some_add_self (h₁ := h) y0
      rw [e]
      have yne : y ≠ 0 := fun hh => y0 (by rw [hh]; ring)
      have t2 : (2 : K) ≠ 0 := fun hh => y0 (by rw [hh]; ring)
      refine ⟨?_, ?_, ?_⟩
      · show 2 * (J.y * J.z) ≠ 0
        rw [hy, show 2 * (y * J.z ^ 3 * J.z) = (2 * y) * J.z ^ 4 by ring]
        exact mul_ne_zero y0 (pow_ne_zero _ hz)
      · simp only [fieldOps]
        rw [hx, hy]
        field_simp
        ring
      · simp only [fieldOps]
        rw [hx, hy]
        field_simp
        ring

/-- add-2007-bl with the code's case distinction: correct unless exactly one operand is the point at infinity. -/
theorem rep_add0 (h2 : (2 : K) ≠ 0) {J₁ J₂ : EcJ K} {P Q : (shortCurve 0 b).Point} (h₁ : IsJac J₁ P)
    (h₂ : IsJac J₂ Q) (hPQ : P = 0 ↔ Q = 0) :
    ∃ R, ecJAdd0 (fieldOps K) J₁ J₂ = some R ∧ IsJac R (P + Q) := by
  obtain ⟨D, d1, d2⟩ := rep_dbl0 h₁
  cases P with
  | zero =>
    cases Q with
    | some x y h => exact absurd (hPQ.mp rfl) (Point.some_ne_zero h)
    | zero =>
      have z1 : J₁.z = 0 := h₁
      have z2 : J₂.z = 0 := h₂
      refine ⟨D, ?_, d2⟩
      unfold ecJAdd0
      rw [if_pos (by simp [fieldOps, z1, z2]), if_pos (by simp [fieldOps, z1, z2]), d1]
  | some x₁ y₁ n₁ =>
    cases Q with
    | zero => exact absurd (hPQ.mpr rfl) (Point.some_ne_zero n₁)
    | some x₂ y₂ n₂ =>
      obtain ⟨z1, hx1, hy1⟩ := h₁
      obtain ⟨z2, hx2, hy2⟩ := h₂
      have cx : (fieldOps K).eq ((fieldOps K).mul J₁.x ((fieldOps K).sqr J₂.z))
          ((fieldOps K).mul J₂.x ((fieldOps K).sqr J₁.z)) = true ↔ x₁ = x₂ := by
        simp only [fieldOps, decide_eq_true_eq]
        rw [hx1, hx2, show x₁ * J₁.z ^ 2 * J₂.z ^ 2 = x₁ * (J₁.z ^ 2 * J₂.z ^ 2) by ring,
          show x₂ * J₂.z ^ 2 * J₁.z ^ 2 = x₂ * (J₁.z ^ 2 * J₂.z ^ 2) by ring]
        exact mul_left_inj' (mul_ne_zero (pow_ne_zero _ z1) (pow_ne_zero _ z2))
      have cy : (fieldOps K).eq ((fieldOps K).mul ((fieldOps K).mul J₁.y J₂.z) ((fieldOps K).sqr J₂.z))
          ((fieldOps K).mul ((fieldOps K).mul J₂.y J₁.z) ((fieldOps K).sqr J₁.z)) = true ↔ y₁ = y₂ := by
        simp only [fieldOps, decide_eq_true_eq]
        rw [hy1, hy2, show y₁ * J₁.z ^ 3 * J₂.z * J₂.z ^ 2 = y₁ * (J₁.z ^ 3 * J₂.z ^ 3) by ring,
          show y₂ * J₂.z ^ 3 * J₁.z * J₁.z ^ 2 = y₂ * (J₁.z ^ 3 * J₂.z ^ 3) by ring]
        exact mul_left_inj' (mul_ne_zero (pow_ne_zero _ z1) (pow_ne_zero _ z2))
      unfold ecJAdd0
      simp only [cx, cy]
      by_cases c1 : x₁ = x₂
      · subst c1
        simp only [if_true]
        by_cases c2 : y₁ = y₂
        · subst c2
          simp only [if_true]
          exact ⟨D, d1, d2⟩
        · simp only [if_neg c2]
          refine ⟨_, rfl, ?_⟩
          have : y₁ = -y₂ := (y_eq_or n₁ n₂).resolve_left c2
          rw [some_add_opp rfl this]
          exact rep_inf
      · simp only [if_neg c1]
        refine ⟨_, rfl, ?_⟩
        obtain ⟨h', e⟩ := some_add_some_ne (h₁ := n₁) (h₂ := n₂) c1
        rw [e]
        have hd : x₁ - x₂ ≠ 0 := sub_ne_zero.mpr c1
        refine ⟨?_, ?_, ?_⟩
        · simp only [fieldOps]
          rw [hx1, hx2, show ((J₁.z + J₂.z) ^ 2 - J₁.z ^ 2 - J₂.z ^ 2) *
            (x₂ * J₂.z ^ 2 * J₁.z ^ 2 - x₁ * J₁.z ^ 2 * J₂.z ^ 2) = -(2 * ((x₁ - x₂) * (J₁.z ^ 3 * J₂.z ^ 3))) by ring]
          exact neg_ne_zero.mpr (mul_ne_zero h2 (mul_ne_zero hd (mul_ne_zero (pow_ne_zero _ z1) (pow_ne_zero _ z2))))
        · simp only [fieldOps]
          rw [hx1, hy1, hx2, hy2]
          field_simp
          ring
        · simp only [fieldOps]
          rw [hx1, hy1, hx2, hy2]
          field_simp
          ring

/-- The defect: with the point at infinity on either side the result is the point at infinity. -/
theorem add0_inf {J₁ J₂ : EcJ K} (hz : J₁.z = 0 ∨ J₂.z = 0 ∧ (J₂.x ≠ 0 ∨ J₂.y ≠ 0)) :
    ∃ R, ecJAdd0 (fieldOps K) J₁ J₂ = some R ∧ R.z = 0 := by
  unfold ecJAdd0
  by_cases c1 : (fieldOps K).eq ((fieldOps K).mul J₁.x ((fieldOps K).sqr J₂.z))
          ((fieldOps K).mul J₂.x ((fieldOps K).sqr J₁.z)) = true
  · simp only [if_pos c1]
    by_cases c2 : (fieldOps K).eq ((fieldOps K).mul ((fieldOps K).mul J₁.y J₂.z) ((fieldOps K).sqr J₂.z))
          ((fieldOps K).mul ((fieldOps K).mul J₂.y J₁.z) ((fieldOps K).sqr J₁.z)) = true
    · simp only [if_pos c2]
      refine ⟨_, rfl, ?_⟩
      have hz1 : J₁.z = 0 := by
        rcases hz with hz | ⟨hz, hxy⟩
        · exact hz
        · by_contra hne
          simp only [fieldOps, decide_eq_true_eq] at c1 c2
          rw [hz] at c1 c2
          rcases hxy with h | h
          · apply mul_ne_zero h (pow_ne_zero 2 hne); rw [← c1]; ring
          · apply mul_ne_zero (mul_ne_zero h hne) (pow_ne_zero 2 hne); rw [← c2]; ring
      simp only [fieldOps]
      rw [hz1]; ring
    · simp only [if_neg c2]
      exact ⟨_, rfl, rfl⟩
  · simp only [if_neg c1]
    refine ⟨_, rfl, ?_⟩
    simp only [fieldOps]
    rcases hz with hz | ⟨hz, -⟩ <;> rw [hz] <;> ring

variable {a : K}

/-- The mixed addition does not double: equal operands give the point at infinity. -/
theorem rep_addA_same {J : EcJ K} {x y : K} {hs : (shortCurve a b).Nonsingular x y}
    (hJ : IsJac (W := shortCurve a b) J (.some x y hs)) :
    IsJac (W := shortCurve a b) (ecJAddA (fieldOps K) J ⟨x, y⟩) 0 := by
  obtain ⟨hz, hx, hy⟩ := hJ
  show (J.z + (x * J.z ^ 2 - J.x)) ^ 2 - J.z ^ 2 - (x * J.z ^ 2 - J.x) ^ 2 = 0
  rw [hx]; ring

/-- So does adding to the point at infinity. -/
theorem rep_addA_inf {J : EcJ K} {A : EcA K} (hJ : J.z = 0) :
    IsJac (W := shortCurve a b) (ecJAddA (fieldOps K) J A) 0 := by
  show (J.z + (A.x * J.z ^ 2 - J.x)) ^ 2 - J.z ^ 2 - (A.x * J.z ^ 2 - J.x) ^ 2 = 0
  rw [hJ]; ring

end formulas

/-! ## The library's point functions -/

section lib
variable {K : Type} [Field K] [DecidableEq K] {α : Type} {F : FpOps α} {ok wk : α → Prop} {φ : α → K} {b : K}

theorem isJacobianOf_iff {W : WeierstrassCurve.Affine K} {P : EcJ α} {Q : W.Point} :
    IsJacobianOf ok φ P Q ↔ ∃ J, IsJ ok φ P J ∧ IsJac J Q := by
  constructor
  · rintro ⟨hx, hy, hz, h⟩
    exact ⟨_, ⟨⟨hx, rfl⟩, ⟨hy, rfl⟩, ⟨hz, rfl⟩⟩, h⟩
  · rintro ⟨⟨x, y, z⟩, ⟨⟨hx, rfl⟩, ⟨hy, rfl⟩, ⟨hz, rfl⟩⟩, h⟩
    exact ⟨hx, hy, hz, h⟩

theorem isAffineOf_isA {W : WeierstrassCurve.Affine K} {P : EcA α} {Q : W.Point} (h : IsAffineOf ok φ P Q) :
    IsA ok φ P ⟨φ P.x, φ P.y⟩ := ⟨⟨h.1, rfl⟩, ⟨h.2.1, rfl⟩⟩

variable (h : WkHom F ok wk φ)
include h

theorem dbl0_ok {P : EcJ α} {Q : (shortCurve 0 b).Point} (hP : IsJacobianOf ok φ P Q) :
    ∃ R, ecJDbl0 F P = some R ∧ IsJacobianOf ok φ R (Q + Q) := by
  obtain ⟨J, j1, j2⟩ := isJacobianOf_iff.mp hP
  obtain ⟨R, S, r1, r2, r3⟩ := hom_dbl0 h.fpHom j1
  obtain ⟨S', s1, s2⟩ := rep_dbl0 j2
  rw [r3] at s1
  cases s1
  exact ⟨R, r1, isJacobianOf_iff.mpr ⟨S, r2, s2⟩⟩

theorem add0_ok (h2 : (2 : K) ≠ 0) {P P' : EcJ α} {Q Q' : (shortCurve 0 b).Point} (hP : IsJacobianOf ok φ P Q)
    (hP' : IsJacobianOf ok φ P' Q') (hne : Q = 0 ↔ Q' = 0) :
    ∃ R, ecJAdd0 F P P' = some R ∧ IsJacobianOf ok φ R (Q + Q') := by
  obtain ⟨J, j1, j2⟩ := isJacobianOf_iff.mp hP
  obtain ⟨J', j1', j2'⟩ := isJacobianOf_iff.mp hP'
  obtain ⟨R, S, r1, r2, r3⟩ := hom_add0 h.fpHom j1 j1'
  obtain ⟨S', s1, s2⟩ := rep_add0 h2 j2 j2' hne
  rw [r3] at s1
  cases s1
  exact ⟨R, r1, isJacobianOf_iff.mpr ⟨S, r2, s2⟩⟩

/-- Mixed addition, exactly: wrong when the Jacobian operand is infinity or the two are equal, where the result is
the point at infinity. -/
theorem addA_wk (h2 : (2 : K) ≠ 0) {P : EcJ α} {A : EcA α} {Q S : (shortCurve 0 b).Point}
    (hP : IsJacobianOf ok φ P Q) (hA : IsAffineOf wk φ A S) :
    IsJacobianOf ok φ (ecJAddA F P A) (if Q = 0 ∨ Q = S then 0 else Q + S) := by
  obtain ⟨J, j1, j2⟩ := isJacobianOf_iff.mp hP
  have r := hom_addA_wk h j1 (isAffineOf_isA hA)
  obtain ⟨-, -, hs, hS⟩ := hA
  refine isJacobianOf_iff.mpr ⟨_, r, ?_⟩
  split_ifs with hc
  · by_cases h0 : Q = 0
    · rw [h0] at j2; exact rep_addA_inf j2
    · have : Q = S := hc.resolve_left h0
      rw [this, hS] at j2
      exact rep_addA_same j2
  · push Not at hc
    rw [hS] at hc ⊢
    exact rep_addA h2 j2 hs hc.1 hc.2

theorem wk_affine {A : EcA α} {S : (shortCurve 0 b).Point} (hA : IsAffineOf ok φ A S) : IsAffineOf wk φ A S :=
  ⟨h.wk_of hA.1, h.wk_of hA.2.1, hA.2.2⟩

theorem inf_ok : IsJacobianOf (W := shortCurve 0 b) ok φ (ecJInf F) 0 :=
  isJacobianOf_iff.mpr ⟨_, hom_inf h.fpHom, rep_inf⟩

theorem fromA_ok {A : EcA α} {Q : (shortCurve 0 b).Point} (hA : IsAffineOf ok φ A Q) :
    IsJacobianOf ok φ (ecJFromA F A) Q := by
  have r := hom_fromA h.fpHom (isAffineOf_isA hA)
  obtain ⟨-, -, hs, e⟩ := hA
  rw [e]
  exact isJacobianOf_iff.mpr ⟨_, r, rep_fromA hs⟩

theorem toA_ok {P : EcJ α} {Q : (shortCurve 0 b).Point} (hP : IsJacobianOf ok φ P Q) (h0 : Q ≠ 0) :
    ∃ R, ecJToA F P = some R ∧ IsAffineOf ok φ R Q := by
  obtain ⟨J, j1, j2⟩ := isJacobianOf_iff.mp hP
  obtain ⟨R, S, r1, r2, r3⟩ := hom_toA_wk h j1
  cases Q with
  | zero => exact absurd rfl h0
  | some x y hs =>
    have := rep_toA j2
    rw [r3] at this
    cases this
    obtain ⟨⟨rx, ex⟩, ⟨ry, ey⟩⟩ := r2
    refine ⟨R, r1, rx, ry, ?_⟩
    exact some_congr rfl ex.symm ey.symm

/-- The point at infinity is turned into the pair (0, 0). -/
theorem toA_inf {P : EcJ α} (hP : IsJacobianOf (W := shortCurve 0 b) ok φ P 0) :
    ∃ R, ecJToA F P = some R ∧ ok R.x ∧ ok R.y ∧ φ R.x = 0 ∧ φ R.y = 0 := by
  obtain ⟨J, j1, j2⟩ := isJacobianOf_iff.mp hP
  obtain ⟨R, S, r1, r2, r3⟩ := hom_toA_wk h j1
  have hz : J.z = 0 := j2
  have hS : S = ⟨0, 0⟩ := by
    simp only [ecJToA, fieldOps, hz, inv_zero, Option.some.injEq] at r3
    rw [← r3]
    congr 1 <;> ring
  rw [hS] at r2
  exact ⟨R, r1, r2.1.1, r2.2.1, r2.1.2, r2.2.2⟩

theorem neg_wk {A : EcA α} {Q : (shortCurve 0 b).Point} (hA : IsAffineOf ok φ A Q) :
    IsAffineOf wk φ (ecANeg F A) (-Q) := by
  obtain ⟨hx, hy, hs, e⟩ := hA
  refine ⟨h.wk_of hx, h.neg_w (h.wk_of hy), ?_⟩
  rw [e, Point.neg_some]
  refine some_congr rfl rfl ?_
  rw [show (ecANeg F A).y = F.neg A.y from rfl, h.neg (h.wk_of hy)]
  simp [negY, shortCurve]

theorem isInf_ok {P : EcJ α} {Q : (shortCurve 0 b).Point} (hP : IsJacobianOf ok φ P Q) :
    ecJIsInf F P = true ↔ Q = 0 := by
  unfold ecJIsInf
  obtain ⟨-, -, hz, hJ⟩ := hP
  rw [h.isZero hz]
  cases Q with
  | zero => exact ⟨fun _ => rfl, fun _ => hJ⟩
  | some x y hs => exact ⟨fun hh => absurd hh hJ.1, fun hh => absurd hh (Point.some_ne_zero hs)⟩

theorem normal_ok {P : EcJ α} {Q : (shortCurve 0 b).Point} (hP : IsJacobianOf ok φ P Q) :
    ∃ R, ecJNormal F P = some R ∧ IsJacobianOf ok φ R Q ∧ (φ R.z = 0 ∧ Q = 0 ∨ φ R.z = 1 ∧ Q ≠ 0) := by
  have hi := isInf_ok h hP
  unfold ecJNormal
  by_cases h0 : Q = 0
  · rw [if_pos (hi.mpr h0), h0]
    exact ⟨_, rfl, inf_ok h, Or.inl ⟨h.zero, rfl⟩⟩
  · rw [if_neg (fun hh => h0 (hi.mp hh))]
    obtain ⟨hx, hy, hz, hJ⟩ := hP
    obtain ⟨t, t1, t2, t3⟩ := h.inv hz
    rw [t1]
    refine ⟨_, rfl, ⟨?_, ?_, h.one_ok, ?_⟩, Or.inr ⟨h.one, h0⟩⟩
    · exact h.mul_ww (h.wk_of hx) (h.wk_of (h.sqr_w t2))
    · exact h.mul_ww (h.wk_of hy) (h.wk_of (h.mul_ww t2 (h.wk_of (h.sqr_w t2))))
    · cases Q with
      | zero => exact absurd rfl h0
      | some x y hs =>
        obtain ⟨z0, ex, ey⟩ := hJ
        refine ⟨?_, ?_, ?_⟩
        · show φ F.one ≠ 0
          rw [h.one]; exact one_ne_zero
        · show φ (F.mul P.x (F.sqr t)) = x * φ F.one ^ 2
          have ex' : φ P.x = x * φ P.z ^ 2 := ex
          have z0' : φ P.z ≠ 0 := z0
          rw [h.mul (h.wk_of hx) (h.wk_of (h.sqr_w t2)), h.sqr t2, t3, h.one, ex']
          field_simp
        · show φ (F.mul P.y (F.mul t (F.sqr t))) = y * φ F.one ^ 3
          have ey' : φ P.y = y * φ P.z ^ 3 := ey
          have z0' : φ P.z ≠ 0 := z0
          rw [h.mul (h.wk_of hy) (h.wk_of (h.mul_ww t2 (h.wk_of (h.sqr_w t2)))), h.mul t2 (h.wk_of (h.sqr_w t2)),
            h.sqr t2, t3, h.one, ey']
          field_simp

theorem equal_ok {P P' : EcJ α} {Q Q' : (shortCurve 0 b).Point} (hP : IsJacobianOf ok φ P Q)
    (hP' : IsJacobianOf ok φ P' Q') (h0 : Q ≠ 0) (h0' : Q' ≠ 0) : ecJEqual F P P' = true ↔ Q = Q' := by
  obtain ⟨J, j1, j2⟩ := isJacobianOf_iff.mp hP
  obtain ⟨J', j1', j2'⟩ := isJacobianOf_iff.mp hP'
  rw [hom_equal h.fpHom j1 j1']
  exact rep_equal j2 j2' h0 h0'

theorem jneg_wk {P : EcJ α} {Q : (shortCurve 0 b).Point} (hP : IsJacobianOf ok φ P Q) :
    IsJacobianOf wk φ (ecJNeg F P) (-Q) := by
  obtain ⟨hx, hy, hz, hJ⟩ := hP
  refine ⟨h.wk_of hx, h.neg_w (h.wk_of hy), h.wk_of hz, ?_⟩
  cases Q with
  | zero => exact hJ
  | some x y hs =>
    obtain ⟨z0, ex, ey⟩ := hJ
    rw [Point.neg_some]
    refine ⟨z0, ex, ?_⟩
    have ey' : φ P.y = y * φ P.z ^ 3 := ey
    show φ (F.neg P.y) = (shortCurve 0 b).negY x y * φ P.z ^ 3
    rw [h.neg (h.wk_of hy), ey']
    simp only [negY, shortCurve]
    ring

/-- Addition with exactly one operand at infinity, in the representation the library creates. -/
theorem add0_inf_ok {P : EcJ α} {Q : (shortCurve 0 b).Point} (hP : IsJacobianOf ok φ P Q) :
    (∃ R, ecJAdd0 F (ecJInf F) P = some R ∧ IsJacobianOf (W := shortCurve 0 b) ok φ R 0) ∧
    (∃ R, ecJAdd0 F P (ecJInf F) = some R ∧ IsJacobianOf (W := shortCurve 0 b) ok φ R 0) := by
  obtain ⟨J, j1, j2⟩ := isJacobianOf_iff.mp hP
  have i1 := hom_inf h.fpHom
  have key : ∀ (P₁ P₂ : EcJ α) (J₁ J₂ : EcJ K), IsJ ok φ P₁ J₁ → IsJ ok φ P₂ J₂ →
      (J₁.z = 0 ∨ J₂.z = 0 ∧ (J₂.x ≠ 0 ∨ J₂.y ≠ 0)) →
      ∃ R, ecJAdd0 F P₁ P₂ = some R ∧ IsJacobianOf (W := shortCurve 0 b) ok φ R 0 := by
    intro P₁ P₂ J₁ J₂ h₁ h₂ hz
    obtain ⟨R, S, r1, r2, r3⟩ := hom_add0 h.fpHom h₁ h₂
    obtain ⟨S', s1, s2⟩ := add0_inf hz
    rw [r3] at s1
    cases s1
    exact ⟨R, r1, isJacobianOf_iff.mpr ⟨S, r2, s2⟩⟩
  exact ⟨key _ _ _ _ i1 j1 (Or.inl rfl), key _ _ _ _ j1 i1 (Or.inr ⟨rfl, Or.inl one_ne_zero⟩)⟩

/-! ## Scalar multiplication -/

variable {N : Nat} (h2 : (2 : K) ≠ 0) (hmod : N % 4 = 1) (hbig : 100 < N)
include h2 hmod hbig

/-- One step of the loop: from `[2w]` to `[2w + d]`. -/
theorem mulAStep0_ok {e3 eL : List W32} {e i : Nat} (he : u256BitTest eL (i + 1) = some (e.testBit (i + 1)))
    (he3 : u256BitTest e3 (i + 1) = some ((3 * e).testBit (i + 1))) (hlt : e < N)
    (hi : 2 ^ (i + 2) ≤ 3 * e) {A : EcA α} {Q : (shortCurve 0 b).Point} (hord : addOrderOf Q = N)
    (hA : IsAffineOf ok φ A Q) {T : EcJ α} (hT : IsJacobianOf ok φ T (wPre e (i + 2) • Q)) :
    ∃ R, mulAStep0 F eL e3 A (ecANeg F A) (i + 1) T = some R ∧
      IsJacobianOf ok φ R (if i = 0 ∧ e = N - 2 then 0 else wPre e (i + 1) • Q) := by
  have hQ0 : Q ≠ 0 := by obtain ⟨-, -, hs, e⟩ := hA; rw [e]; exact Point.some_ne_zero hs
  have hz : ∀ k : Nat, k • Q = 0 ↔ N ∣ k := fun k => by rw [← hord]; exact addOrderOf_dvd_iff_nsmul_eq_zero.symm
  have hN := neg_wk h hA
  have hAw := wk_affine h hA
  obtain ⟨D, d1, d2⟩ := dbl0_ok h hT
  rw [← add_nsmul, ← two_mul] at d2
  have hstep : wPre e (i + 1) + (e.testBit (i + 1)).toNat = 2 * wPre e (i + 2) + ((3 * e).testBit (i + 1)).toNat :=
    wPre_step e (i + 1)
  have hw := wPre_pos hi
  have hle := wPre_le e i
  have hzero : (e.testBit (0 + 1)) = decide (e / 2 % 2 = 1) := by rw [Nat.testBit_eq_decide_div_mod_eq]
  have hzero3 : ((3 * e).testBit (0 + 1)) = decide (3 * e / 2 % 2 = 1) := by
    rw [Nat.testBit_eq_decide_div_mod_eq]
  unfold mulAStep0
  rw [d1]
  simp only [he, he3]
  rcases Bool.eq_false_or_eq_true (e.testBit (i + 1)) with b1 | b1 <;>
  rcases Bool.eq_false_or_eq_true ((3 * e).testBit (i + 1)) with b3 | b3 <;>
  rw [b1, b3] at hstep <;> simp only [b1, b3, Bool.toNat_true, Bool.toNat_false] at hstep ⊢
  · refine ⟨D, by simp, ?_⟩
    rw [if_neg, show wPre e (i + 1) = 2 * wPre e (i + 2) by omega]
    · exact d2
    · rintro ⟨rfl, he'⟩
      rw [hzero3] at b3
      simp only [decide_eq_true_eq] at b3
      omega
  · -- digit -1
    refine ⟨_, by simp; rfl, ?_⟩
    have h1 : (2 * wPre e (i + 2)) • Q ≠ 0 := by
      rw [Ne, hz]
      intro hd
      obtain ⟨k, hk⟩ := hd
      have : k < 2 := by
        by_contra hc
        have : N * 2 ≤ N * k := Nat.mul_le_mul_left _ (by omega)
        omega
      interval_cases k <;> omega
    have h3 : (2 * wPre e (i + 2)) • Q = -Q ↔ i = 0 ∧ e = N - 2 := by
      constructor
      · intro hc
        have : (2 * wPre e (i + 2) + 1) • Q = 0 := by rw [add_nsmul, hc, one_nsmul, neg_add_cancel]
        rw [hz] at this
        have heq : 2 * wPre e (i + 2) + 1 = N := by
          obtain ⟨k, hk⟩ := this
          have : k < 2 := by
            by_contra hc
            have : N * 2 ≤ N * k := Nat.mul_le_mul_left _ (by omega)
            omega
          interval_cases k <;> omega
        rcases Nat.eq_zero_or_pos i with rfl | hipos
        · have hw1 : wPre e (0 + 1) = e := wPre_one e
          exact ⟨rfl, by omega⟩
        · exfalso
          obtain ⟨j, rfl⟩ : ∃ j, i = j + 1 := ⟨i - 1, by omega⟩
          have hl := wPre_lt e (j + 1)
          have hp : 2 ≤ 2 ^ (j + 1) := by rw [pow_succ]; have := Nat.two_pow_pos j; omega
          generalize 2 ^ (j + 1) = s at *
          have : (N - 2) * s < e + s := by
            rw [show wPre e (j + 1 + 1) = N - 2 by omega] at hl; exact hl
          have h3 : (N - 3) * s < e := by
            rw [show N - 2 = (N - 3) + 1 by omega, Nat.add_mul, Nat.one_mul] at this
            omega
          have : (N - 3) * 2 ≤ (N - 3) * s := Nat.mul_le_mul_left _ hp
          omega
      · rintro ⟨rfl, he'⟩
        have hw1 : wPre e (0 + 1) = e := wPre_one e
        have : (2 * wPre e (0 + 2) + 1) • Q = 0 := by rw [hz]; exact ⟨1, by omega⟩
        rw [add_nsmul, one_nsmul] at this
        exact eq_neg_of_add_eq_zero_left this
    have := addA_wk h h2 d2 hN
    simp only [h1, h3, false_or] at this
    convert this using 2
    rw [show 2 * wPre e (i + 2) = wPre e (i + 1) + 1 by omega, add_nsmul, one_nsmul, add_neg_cancel_right]
  · -- digit 1
    refine ⟨_, by simp; rfl, ?_⟩
    have h1 : (2 * wPre e (i + 2)) • Q ≠ 0 := by
      rw [Ne, hz]
      exact fun hd => absurd (Nat.le_of_dvd (by omega) hd) (by omega)
    have h3 : (2 * wPre e (i + 2)) • Q ≠ Q := by
      intro hc
      have : (2 * wPre e (i + 2) - 1) • Q + Q = 0 + Q := by
        rw [zero_add, ← succ_nsmul, Nat.sub_add_cancel (by omega)]; exact hc
      have := add_right_cancel this
      rw [hz] at this
      exact absurd (Nat.le_of_dvd (by omega) this) (by omega)
    have := addA_wk h h2 d2 hAw
    rw [if_neg (by simp only [h1, h3, or_self, not_false_eq_true]), ← succ_nsmul] at this
    rw [if_neg]
    · convert this using 2
      omega
    · rintro ⟨rfl, he'⟩
      rw [hzero] at b1
      simp only [decide_eq_false_iff_not] at b1
      omega
  · refine ⟨D, by simp, ?_⟩
    rw [if_neg, show wPre e (i + 1) = 2 * wPre e (i + 2) by omega]
    · exact d2
    · rintro ⟨rfl, he'⟩
      rw [hzero] at b1
      simp only [decide_eq_false_iff_not] at b1
      omega

theorem mulALoop0_ok {e3 eL : List W32} {e : Nat} (hlt : e < N) {A : EcA α} {Q : (shortCurve 0 b).Point}
    (hord : addOrderOf Q = N) (hA : IsAffineOf ok φ A Q) :
    ∀ (i : Nat) (T : EcJ α), (∀ j ≤ i + 1, u256BitTest eL j = some (e.testBit j)) →
      (∀ j ≤ i + 1, u256BitTest e3 j = some ((3 * e).testBit j)) → 2 ^ (i + 2) ≤ 3 * e →
      IsJacobianOf ok φ T (wPre e (i + 2) • Q) →
      ∃ R, mulALoop0 F eL e3 A (ecANeg F A) (i + 1) T = some R ∧
        IsJacobianOf ok φ R (if e = N - 2 then 0 else e • Q)
  | 0, T, he, he3, hi, hT => by
    obtain ⟨S, s1, s2⟩ := mulAStep0_ok h h2 hmod hbig (he 1 le_rfl) (he3 1 le_rfl) hlt hi hord hA hT
    unfold mulALoop0
    rw [s1]
    refine ⟨S, rfl, ?_⟩
    rw [wPre_one] at s2
    simpa only [true_and] using s2
  | i + 1, T, he, he3, hi, hT => by
    obtain ⟨S, s1, s2⟩ := mulAStep0_ok h h2 hmod hbig (he (i + 2) le_rfl) (he3 (i + 2) le_rfl) hlt hi hord hA hT
    rw [if_neg (by omega)] at s2
    unfold mulALoop0
    rw [s1]
    refine mulALoop0_ok hlt hord hA i S (fun j hj => he j (by omega)) (fun j hj => he3 j (by omega)) ?_ s2
    have := Nat.two_pow_pos (i + 2)
    rw [pow_succ] at hi
    omega

/-- Scalar multiplication, exactly: `[k]Q`, except that `[-2]Q` comes out as the point at infinity. -/
theorem mulA0_ok {n : List W32} (hn8 : n.length = 8) (hnv : val n = N) (hn2 : 2 ^ 256 < 2 * N) {k : List Byte}
    (hk : k.length = 32) {A : EcA α} {Q : (shortCurve 0 b).Point} (hord : addOrderOf Q = N)
    (hA : IsAffineOf ok φ A Q) :
    ∃ R, ecJMulA0 F n k A = some R ∧
      IsJacobianOf ok φ R (if beVal k % N = N - 2 then 0 else beVal k • Q) := by
  obtain ⟨hl, hv⟩ := u256FromBytes_spec k hk
  have hkl : beVal k < 2 ^ 256 := by have := beVal_lt k; rw [hk] at this; omega
  have hn3 : N < 2 ^ 256 := by rw [← hnv]; exact len8_lt hn8
  unfold ecJMulA0
  dsimp only
  obtain ⟨eL, e1, e2, e3⟩ : ∃ eL, (if u256Cmp (u256FromBytes k) n ≥ 0
      then (u256SubBorrow (u256FromBytes k) n).1 else u256FromBytes k) = eL ∧ eL.length = 8 ∧
        val eL = beVal k % N := by
    refine ⟨_, rfl, ?_⟩
    rw [(Props.C31_cmp _ _ hl hn8).1, hv, hnv]
    by_cases hc : beVal k < N
    · rw [if_neg, Nat.mod_eq_of_lt hc]
      · exact ⟨hl, hv⟩
      · rw [if_neg (by omega), if_pos hc]; omega
    · rw [if_pos]
      · obtain ⟨s1, s2, -⟩ := u256Sub_spec _ _ hl hn8
        refine ⟨s1, ?_⟩
        rw [(s2 (by omega)).1, hv, hnv, Nat.mod_eq_sub_mod (by omega), Nat.mod_eq_of_lt (by omega)]
      · split_ifs <;> omega
  rw [e1]
  have hNQ : N • Q = 0 := by rw [← hord]; exact addOrderOf_nsmul_eq_zero Q
  have hkQ : beVal k • Q = (beVal k % N) • Q := by
    conv_lhs => rw [← Nat.div_add_mod (beVal k) N, add_nsmul, mul_nsmul, hNQ, nsmul_zero, zero_add]
  rw [hkQ]
  have helt : beVal k % N < N := Nat.mod_lt _ (by omega)
  generalize beVal k % N = e at *
  clear e1
  by_cases hz : u256EqualZero eL = true
  · simp only [if_pos hz]
    rw [u256EqualZero_iff] at hz
    refine ⟨_, rfl, ?_⟩
    rw [if_neg (by omega), show e = 0 by omega, zero_nsmul]
    exact inf_ok h
  · simp only [if_neg hz]
    rw [u256EqualZero_iff, e3] at hz
    obtain ⟨-, -, t3, -, -, t6⟩ := Props.C31_add_dbl_tpl eL eL e2 e2
    rw [e3] at t3
    have hT := fromA_ok h hA
    have hbe : ∀ j < 256, u256BitTest eL j = some (e.testBit j) := by
      intro j hj; rw [Props.C31_bittest eL e2 j hj, e3]
    generalize hr : u256TplCarry eL = r at *
    obtain ⟨e3L, c⟩ := r
    dsimp only at t3 t6 ⊢
    have h3l := len8_lt t6
    have hbe3 : ∀ j < 256, u256BitTest e3L j = some ((3 * e).testBit j) := by
      intro j hj
      rw [Props.C31_bittest e3L t6 j hj]
      congr 1
      rw [← t3, Nat.add_comm, Nat.testBit_two_pow_mul_add _ h3l, if_pos hj]
    have hlow : val e3L = 3 * e - 2 ^ 256 * c.toNat := by omega
    have hcle : c.toNat ≤ 2 := by omega
    by_cases c1 : c = 1
    · rw [if_pos c1]
      have hc : c.toNat = 1 := by rw [c1]; rfl
      refine mulALoop0_ok h h2 hmod hbig helt hord hA 254 _ (fun j hj => hbe j (by omega))
        (fun j hj => hbe3 j (by omega)) (by omega) ?_
      rw [wPre_top (by omega) (by omega), one_nsmul]
      exact hT
    · rw [if_neg c1]
      by_cases c2 : c = 2
      · rw [if_pos c2]
        have hc : c.toNat = 2 := by rw [c2]; rfl
        obtain ⟨D, d1, d2⟩ := dbl0_ok h hT
        rw [d1]
        refine mulALoop0_ok h h2 hmod hbig helt hord hA 254 _ (fun j hj => hbe j (by omega))
          (fun j hj => hbe3 j (by omega)) (by omega) ?_
        have : wPre e 256 = 2 := by
          have a1 : 3 * e / 2 ^ 256 = 2 := Nat.div_eq_of_lt_le (by omega) (by omega)
          have a2 : e / 2 ^ 256 = 0 := Nat.div_eq_of_lt (by omega)
          unfold wPre; rw [a1, a2]
        rw [this, two_nsmul]
        exact d2
      · rw [if_neg c2]
        have hc : c.toNat = 0 := by
          have h1 : c.toNat ≠ 1 := fun h => c1 (BitVec.eq_of_toNat_eq h)
          have h2 : c.toNat ≠ 2 := fun h => c2 (BitVec.eq_of_toNat_eq h)
          omega
        rw [hc] at t3
        obtain ⟨t, u1, u2, u3, u4⟩ := topBit_ok t6 255 (by omega) (by omega) (by omega)
        rw [u1]
        have ht : 1 ≤ t := by
          rcases Nat.eq_zero_or_pos t with rfl | h
          · simp at u4; omega
          · exact h
        obtain ⟨t', rfl⟩ : ∃ t', t = t' + 1 := ⟨t - 1, by omega⟩
        have htop : wPre e (t' + 1) = 1 := wPre_top (by omega) (by omega)
        rcases Nat.eq_zero_or_pos t' with rfl | htp
        · have hw1 : wPre e (0 + 1) = e := wPre_one e
          have he1 : e = 1 := by omega
          refine ⟨_, rfl, ?_⟩
          rw [if_neg (by omega), he1, one_nsmul]
          exact hT
        · obtain ⟨t'', rfl⟩ : ∃ s, t' = s + 1 := ⟨t' - 1, by omega⟩
          refine mulALoop0_ok h h2 hmod hbig helt hord hA t'' _ (fun j hj => hbe j (by omega))
            (fun j hj => hbe3 j (by omega)) (by rw [← t3]; simpa using u3) ?_
          rw [htop, one_nsmul]
          exact hT

end lib
end Verif
