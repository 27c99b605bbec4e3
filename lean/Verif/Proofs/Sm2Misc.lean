import Verif.Proofs.Sm2Enc
/-! # Comparison, normalisation and negation of Jacobian points; conversion of the point at infinity -/
set_option linter.constructorNameAsVariable false
namespace Verif
open Spec WeierstrassCurve.Affine

section
variable {K : Type} [Field K] [DecidableEq K] {a b : K}

theorem rep_equal {J I : EcJ K} {Q Q' : (shortCurve a b).Point} (h : IsJac J Q) (h' : IsJac I Q')
    (h0 : Q ≠ 0) (h0' : Q' ≠ 0) : ecJEqual (fieldOps K) J I = true ↔ Q = Q' := by
  cases Q with
  | zero => exact absurd rfl h0
  | some x y hs =>
    cases Q' with
    | zero => exact absurd rfl h0'
    | some x' y' hs' =>
      obtain ⟨hz, hx, hy⟩ := h
      obtain ⟨hz', hx', hy'⟩ := h'
      have e1 : J.x * I.z ^ 2 = I.x * J.z ^ 2 ↔ x = x' := by
        rw [hx, hx']
        constructor
        · intro h
          have : (J.z ^ 2 * I.z ^ 2) ≠ 0 := mul_ne_zero (pow_ne_zero _ hz) (pow_ne_zero _ hz')
          apply mul_right_cancel₀ this
          linear_combination h
        · rintro rfl; ring
      have e2 : J.y * (I.z ^ 2 * I.z) = I.y * (J.z ^ 2 * J.z) ↔ y = y' := by
        rw [hy, hy']
        constructor
        · intro h
          have : (J.z ^ 3 * I.z ^ 3) ≠ 0 := mul_ne_zero (pow_ne_zero _ hz) (pow_ne_zero _ hz')
          apply mul_right_cancel₀ this
          linear_combination h
        · rintro rfl; ring
      rw [Point.some.injEq]
      unfold ecJEqual
      simp only [fieldOps]
      rw [← e1, ← e2]
      by_cases c1 : J.x * I.z ^ 2 = I.x * J.z ^ 2 <;>
        by_cases c2 : J.y * (I.z ^ 2 * I.z) = I.y * (J.z ^ 2 * J.z) <;> simp [c1, c2]

theorem rep_normal {J : EcJ K} {Q : (shortCurve a b).Point} (h : IsJac J Q) :
    ∃ R, ecJNormal (fieldOps K) J = some R ∧ IsJac R Q ∧ (R.z = 0 ∧ Q = 0 ∨ R.z = 1 ∧ Q ≠ 0) := by
  unfold ecJNormal ecJIsInf
  cases Q with
  | zero =>
    have hz : J.z = 0 := h
    have : (fieldOps K).isZero J.z = true := by simp [fieldOps, hz]
    rw [if_pos this]
    exact ⟨_, rfl, rep_inf, Or.inl ⟨rfl, rfl⟩⟩
  | some x y hs =>
    obtain ⟨hz, hx, hy⟩ := h
    have : ¬ (fieldOps K).isZero J.z = true := by simp [fieldOps, hz]
    rw [if_neg this]
    simp only [fieldOps]
    refine ⟨_, rfl, ⟨one_ne_zero, ?_, ?_⟩, Or.inr ⟨rfl, Point.some_ne_zero _⟩⟩
    · show J.x * J.z⁻¹ ^ 2 = x * 1 ^ 2
      rw [hx]; field_simp
    · show J.y * (J.z⁻¹ * J.z⁻¹ ^ 2) = y * 1 ^ 3
      rw [hy]; field_simp
end

theorem jEqual_iff {P P' : Sm2.J} {Q Q' : Sm2Point} (h : Sm2IsJacobian P Q) (h' : Sm2IsJacobian P' Q')
    (h0 : Q ≠ 0) (h0' : Q' ≠ 0) : ecJEqual Sm2.fp P P' = true ↔ Q = Q' := by
  obtain ⟨J, j1, j2⟩ := isJacobian_iff.mp h
  obtain ⟨J', j1', j2'⟩ := isJacobian_iff.mp h'
  rw [hom_equal sm2fp_hom j1 j1']
  exact rep_equal j2 j2' h0 h0'

theorem jIsInf_iff {P : Sm2.J} {Q : Sm2Point} (h : Sm2IsJacobian P Q) : ecJIsInf Sm2.fp P = true ↔ Q = 0 := by
  obtain ⟨J, j1, j2⟩ := isJacobian_iff.mp h
  unfold ecJIsInf
  rw [sm2fp_hom.is_isZero j1.2.2]
  simp only [fieldOps, decide_eq_true_eq]
  cases Q with
  | zero => exact ⟨fun _ => rfl, fun _ => j2⟩
  | some x y hs => exact ⟨fun h => absurd h j2.1, fun h => absurd h (Point.some_ne_zero _)⟩

theorem jNormal_ok {P : Sm2.J} {Q : Sm2Point} (h : Sm2IsJacobian P Q) :
    ∃ R, ecJNormal Sm2.fp P = some R ∧ Sm2IsJacobian R Q ∧ (fpVal R.z = 0 ∧ Q = 0 ∨ fpVal R.z = 1 ∧ Q ≠ 0) := by
  obtain ⟨J, j1, j2⟩ := isJacobian_iff.mp h
  obtain ⟨R, S, r1, r2, r3⟩ := hom_normal sm2fp_hom sm2fp_inv j1
  obtain ⟨S', s1, s2, s3⟩ := rep_normal j2
  rw [r3] at s1
  cases s1
  refine ⟨R, r1, isJacobian_iff.mpr ⟨S, r2, s2⟩, ?_⟩
  have : fpVal R.z = S.z := r2.2.2.2
  rw [this]
  exact s3

/-- `sm2_ec_j_to_a` on the point at infinity gives the coordinates 0, 0. -/
theorem jToA_inf {P : Sm2.J} (h : Sm2IsJacobian P 0) : Sm2.jToA P = some ⟨u256Zero, u256Zero⟩ := by
  obtain ⟨J, j1, j2⟩ := isJacobian_iff.mp h
  obtain ⟨R, S, r1, r2, r3⟩ := hom_toA sm2fp_hom sm2fp_inv j1
  have hz : J.z = 0 := j2
  have e : S = ⟨0, 0⟩ := by
    simp only [ecJToA, fieldOps, hz] at r3
    have := Option.some.inj r3
    rw [← this]
    simp
  subst e
  rw [show Sm2.jToA P = some R from r1]
  have z0 : ∀ {a : List W32}, Reduced sm2p a → montVal sm2p a = 0 → a = u256Zero := by
    intro a ha h
    have := (sm2_montVal_zero ha).mp h
    exact val_inj _ _ (by rw [ha.1]; rfl) (by rw [this]; rfl)
  obtain ⟨⟨x1, x2⟩, ⟨y1, y2⟩⟩ := r2
  have ex := z0 x1 x2
  have ey := z0 y1 y2
  have : R = ⟨R.x, R.y⟩ := rfl
  rw [this, ex, ey]

theorem jNeg_ok {P : Sm2.J} {Q : Sm2Point} (h : Sm2IsJacobian P Q) (h0 : Q ≠ 0) :
    Sm2IsJacobian (ecJNeg Sm2.fp P) (-Q) := by
  obtain ⟨hx, hy, hz, h⟩ := h
  cases Q with
  | zero => exact absurd rfl h0
  | some x y hs =>
    obtain ⟨j1, j2, j3⟩ := h
    have hy0 : fpVal P.y ≠ 0 := by
      have : fpVal P.y = y * fpVal P.z ^ 3 := j3
      rw [this]
      exact mul_ne_zero (sm2_y_ne (sm2_onCurve hs)) (pow_ne_zero _ j1)
    obtain ⟨n1, n2⟩ := sm2fp_neg hy hy0
    refine ⟨hx, n1, hz, ?_⟩
    rw [Point.neg_some]
    refine ⟨j1, j2, ?_⟩
    have e : sm2Curve.negY x y = -y := by simp [sm2Curve, shortCurve, negY]
    rw [e]
    show fpVal (Sm2.fp.neg P.y) = -y * fpVal P.z ^ 3
    have : fpVal P.y = y * fpVal P.z ^ 3 := j3
    rw [show fpVal (Sm2.fp.neg P.y) = - fpVal P.y from n2, this]
    ring

end Verif
