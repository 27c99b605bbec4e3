import Mathlib.AlgebraicGeometry.EllipticCurve.Affine.Point
/-!
# Lines on a Weierstrass curve as elements of its coordinate ring

`lineF A B` is the line through `A` and `B`, `vertF S` the vertical through `S`; their ideals are products of point
ideals, which gives the associativity identity `lineF_assoc` up to a fourth root of unity.
-/
open Polynomial WeierstrassCurve WeierstrassCurve.Affine WeierstrassCurve.Affine.CoordinateRing
open scoped Polynomial.Bivariate
set_option linter.unusedSectionVars false
namespace Verif

section
variable {F : Type} [Field F] [DecidableEq F] {W : WeierstrassCurve.Affine F}

/-- The ideal of a point. -/
noncomputable def ptI : W.Point → Ideal W.CoordinateRing
  | .zero => ⊤
  | .some x y _ => XYIdeal W x (C y)

/-- The vertical line through a point. -/
noncomputable def vertF : W.Point → W.CoordinateRing
  | .zero => 1
  | .some x _ _ => XClass W x

/-- The line through two points. -/
noncomputable def lineF : W.Point → W.Point → W.CoordinateRing
  | .zero, B => vertF B
  | A, .zero => vertF A
  | .some x₁ y₁ _, .some x₂ y₂ _ =>
    if x₁ = x₂ ∧ y₁ = W.negY x₂ y₂ then XClass W x₁
    else YClass W (linePolynomial x₁ y₁ (W.slope x₁ x₂ y₁ y₂))

theorem lineF_zero_left (B : W.Point) : lineF 0 B = vertF B := by cases B <;> rfl
theorem lineF_zero_right (A : W.Point) : lineF A 0 = vertF A := by cases A <;> rfl
theorem vertF_zero : vertF (0 : W.Point) = 1 := rfl

theorem lineF_some {x₁ y₁ x₂ y₂ : F} (h₁ : W.Nonsingular x₁ y₁) (h₂ : W.Nonsingular x₂ y₂)
    (h : ¬(x₁ = x₂ ∧ y₁ = W.negY x₂ y₂)) :
    lineF (.some x₁ y₁ h₁) (.some x₂ y₂ h₂) = YClass W (linePolynomial x₁ y₁ (W.slope x₁ x₂ y₁ y₂)) := if_neg h

theorem lineF_vert {x₁ y₁ x₂ y₂ : F} (h₁ : W.Nonsingular x₁ y₁) (h₂ : W.Nonsingular x₂ y₂)
    (h : x₁ = x₂ ∧ y₁ = W.negY x₂ y₂) : lineF (.some x₁ y₁ h₁) (.some x₂ y₂ h₂) = XClass W x₁ := if_pos h

theorem vertF_span (S : W.Point) : Ideal.span {vertF S} = ptI S * ptI (-S) := by
  rcases S with _ | ⟨x, y, h⟩
  · show Ideal.span {(1 : W.CoordinateRing)} = ⊤ * ⊤
    rw [Ideal.span_singleton_one, Ideal.top_mul]
  · rw [Point.neg_some]
    exact ((mul_comm _ _).trans (XYIdeal_neg_mul h)).symm

theorem vertF_ne (S : W.Point) : vertF S ≠ 0 := by
  rcases S with _ | ⟨x, y, h⟩
  · exact one_ne_zero
  · exact XClass_ne_zero x

theorem lineF_span (A B : W.Point) : Ideal.span {lineF A B} = ptI A * ptI B * ptI (-(A + B)) := by
  rcases A with _ | ⟨x₁, y₁, h₁⟩
  · have : (Point.zero : W.Point) = 0 := rfl
    rw [this, lineF_zero_left, zero_add, vertF_span]
    show _ = ⊤ * _ * _
    rw [Ideal.top_mul]
  rcases B with _ | ⟨x₂, y₂, h₂⟩
  · have : (Point.zero : W.Point) = 0 := rfl
    rw [this, lineF_zero_right, add_zero, vertF_span]
    show _ = _ * ⊤ * _
    rw [Ideal.mul_top]
  by_cases h : x₁ = x₂ ∧ y₁ = W.negY x₂ y₂
  · rw [lineF_vert h₁ h₂ h, Point.add_of_Y_eq h.1 h.2]
    have h0 : ptI (-(0 : W.Point)) = ⊤ := by rw [neg_zero]; rfl
    rw [h0, Ideal.mul_top]
    obtain ⟨rfl, rfl⟩ := h
    exact (XYIdeal_neg_mul h₂).symm
  · rw [lineF_some h₁ h₂ h, Point.add_some h]
    have key := XYIdeal_mul_XYIdeal h₁.left h₂.left h
    have hv := vertF_span (Point.some _ _ (nonsingular_add h₁ h₂ h))
    set S : W.Point := Point.some _ _ (nonsingular_add h₁ h₂ h) with hS
    have e1 : Ideal.span {vertF S} * (ptI (.some x₁ y₁ h₁) * ptI (.some x₂ y₂ h₂)) =
      Ideal.span {YClass W (linePolynomial x₁ y₁ (W.slope x₁ x₂ y₁ y₂))} * ptI S := key
    have hne : Ideal.span {vertF S} ≠ ⊥ := by rw [Ne, Ideal.span_singleton_eq_bot]; exact vertF_ne S
    have e2 : Ideal.span {vertF S} * (ptI (.some x₁ y₁ h₁) * ptI (.some x₂ y₂ h₂) * ptI (-S)) =
      Ideal.span {vertF S} * Ideal.span {YClass W (linePolynomial x₁ y₁ (W.slope x₁ x₂ y₁ y₂))} := by
      rw [← mul_assoc, e1, mul_assoc, ← hv, mul_comm]
    have := (Ideal.span_singleton_mul_right_inj (vertF_ne S)).mp e2
    exact this.symm

/-- The leading coefficient of the norm. -/
noncomputable def lcN (f : W.CoordinateRing) : F := (Algebra.norm F[X] f).leadingCoeff

theorem lcN_mul (f g : W.CoordinateRing) : lcN (f * g) = lcN f * lcN g := by
  unfold lcN; rw [map_mul, leadingCoeff_mul]

theorem lcN_X (x : F) : lcN (XClass W x) = 1 := by
  have e : XClass W x = (X - C x : F[X]) • (1 : W.CoordinateRing) + (0 : F[X]) • CoordinateRing.mk W Y := by
    rw [zero_smul, add_zero, CoordinateRing.smul, mul_one]; rfl
  unfold lcN
  rw [e, norm_smul_basis]
  simp [leadingCoeff_pow]

theorem lcN_Y (x y l : F) : lcN (YClass W (linePolynomial x y l)) = -1 := by
  have e : YClass W (linePolynomial x y l) = (-linePolynomial x y l : F[X]) • (1 : W.CoordinateRing) +
      (1 : F[X]) • CoordinateRing.mk W Y := by
    rw [one_smul, CoordinateRing.smul, mul_one]
    show CoordinateRing.mk W (Y - C (linePolynomial x y l)) = _
    rw [map_sub, C_neg, map_neg]; ring
  have hn : Algebra.norm F[X] (YClass W (linePolynomial x y l)) = W.addPolynomial x y l := by
    rw [e, norm_smul_basis, addPolynomial, WeierstrassCurve.Affine.polynomial]
    simp only [eval_add, eval_sub, eval_mul, eval_pow, eval_X, eval_C]
    ring
  unfold lcN
  rw [hn, addPolynomial_eq, leadingCoeff_neg]
  congr 1
  exact Cubic.leadingCoeff_of_a_ne_zero' one_ne_zero

theorem lcN_vert (S : W.Point) : lcN (vertF S) = 1 := by
  rcases S with _ | ⟨x, y, h⟩
  · show lcN 1 = 1
    unfold lcN; rw [map_one, leadingCoeff_one]
  · exact lcN_X x

theorem lcN_line (A B : W.Point) : lcN (lineF A B) ^ 2 = 1 := by
  rcases A with _ | ⟨x₁, y₁, h₁⟩
  · have : (Point.zero : W.Point) = 0 := rfl
    rw [this, lineF_zero_left, lcN_vert, one_pow]
  rcases B with _ | ⟨x₂, y₂, h₂⟩
  · have : (Point.zero : W.Point) = 0 := rfl
    rw [this, lineF_zero_right, lcN_vert, one_pow]
  by_cases h : x₁ = x₂ ∧ y₁ = W.negY x₂ y₂
  · rw [lineF_vert h₁ h₂ h, lcN_X, one_pow]
  · rw [lineF_some h₁ h₂ h, lcN_Y]; norm_num

/-- Units of the coordinate ring are constants. -/
theorem unit_const {u : W.CoordinateRing} (h : IsUnit u) : ∃ c : F, u = CoordinateRing.mk W (C (C c)) := by
  obtain ⟨p, q, rfl⟩ := exists_smul_basis_eq u
  have hu := h.map (Algebra.norm F[X])
  have hd := degree_eq_zero_of_isUnit hu
  rw [degree_norm_smul_basis] at hd
  have hq : q = 0 := by
    by_contra hq
    have := le_max_right (2 • p.degree) (2 • q.degree + 3)
    rw [hd, degree_eq_natDegree hq] at this
    norm_cast at this
  subst hq
  have hp : p ≠ 0 := by rintro rfl; simp at hd
  have : p.natDegree = 0 := by
    rw [degree_zero] at hd
    rw [degree_eq_natDegree hp] at hd
    simp at hd
    have h2 : ((2 * p.natDegree : ℕ) : WithBot ℕ) = 0 := by
      simpa using hd
    norm_cast at h2
  obtain ⟨c, hc⟩ := natDegree_eq_zero.mp this
  refine ⟨c, ?_⟩
  rw [← hc, zero_smul, add_zero, CoordinateRing.smul, mul_one]

/-- Two functions with the same ideal and normalised leading coefficients differ by a fourth root of unity. -/
theorem same_ideal {f g : W.CoordinateRing} (h : Ideal.span {f} = Ideal.span {g}) (hf : lcN f ^ 2 = 1)
    (hg : lcN g ^ 2 = 1) : ∃ c : F, c ^ 4 = 1 ∧ f = CoordinateRing.mk W (C (C c)) * g := by
  rw [Ideal.span_singleton_eq_span_singleton] at h
  obtain ⟨u, hu⟩ := h.symm
  obtain ⟨c, hc⟩ := unit_const u.isUnit
  rw [hc] at hu
  refine ⟨c, ?_, by rw [← hu, mul_comm]⟩
  have e : CoordinateRing.mk W (C (C c)) = (C c : F[X]) • (1 : W.CoordinateRing) + (0 : F[X]) • CoordinateRing.mk W Y := by
    rw [zero_smul, add_zero, CoordinateRing.smul, mul_one]
  have hl : lcN (CoordinateRing.mk W (C (C c))) = c ^ 2 := by
    unfold lcN; rw [e, norm_smul_basis]; simp [leadingCoeff_pow]
  rw [← hu, lcN_mul, mul_pow, hg, one_mul, hl] at hf
  rw [← hf]; ring

/-- **The associativity identity of lines.** -/
theorem lineF_assoc (A B D : W.Point) : ∃ c : F, c ^ 4 = 1 ∧
    lineF A B * lineF (A + B) D * vertF (B + D) =
      CoordinateRing.mk W (C (C c)) * (lineF B D * lineF A (B + D) * vertF (A + B)) := by
  refine same_ideal ?_ ?_ ?_
  · simp only [← Ideal.span_singleton_mul_span_singleton, lineF_span, vertF_span]
    rw [← add_assoc]
    ring
  · simp only [lcN_mul, mul_pow, lcN_line, lcN_vert]; ring
  · simp only [lcN_mul, mul_pow, lcN_line, lcN_vert]; ring

/-! ### Values -/

/-- The value of a function at a point. -/
noncomputable def ev {x y : F} (h : W.Equation x y) : W.CoordinateRing →+* F := AdjoinRoot.evalEval h

theorem ev_X {x y : F} (h : W.Equation x y) (a : F) : ev h (XClass W a) = x - a := by
  unfold ev XClass
  erw [AdjoinRoot.evalEval_mk]
  simp [evalEval]

theorem ev_Y {x y : F} (h : W.Equation x y) (a b l : F) :
    ev h (YClass W (linePolynomial a b l)) = y - (l * (x - a) + b) := by
  unfold ev YClass linePolynomial
  erw [AdjoinRoot.evalEval_mk]
  simp [evalEval]

theorem ev_C {x y : F} (h : W.Equation x y) (c : F) : ev h (CoordinateRing.mk W (C (C c))) = c := by
  unfold ev
  erw [AdjoinRoot.evalEval_mk]
  simp

/-- The value at `X` of the line through `A` and `B` (`1` at infinity). -/
noncomputable def lv (A B : W.Point) : W.Point → F
  | .zero => 1
  | .some _ _ h => ev h.left (lineF A B)

/-- The value at `X` of the vertical through `S` (`1` at infinity). -/
noncomputable def vv (S : W.Point) : W.Point → F
  | .zero => 1
  | .some _ _ h => ev h.left (vertF S)

theorem lv_assoc (A B D X : W.Point) : ∃ c : F, c ^ 4 = 1 ∧
    lv A B X * lv (A + B) D X * vv (B + D) X = c * (lv B D X * lv A (B + D) X * vv (A + B) X) := by
  rcases X with _ | ⟨x, y, h⟩
  · exact ⟨1, one_pow _, by simp [lv, vv]⟩
  · obtain ⟨c, h1, h2⟩ := lineF_assoc A B D
    refine ⟨c, h1, ?_⟩
    have := congrArg (ev h.left) h2
    simp only [map_mul, ev_C] at this
    exact this

theorem lv_zero_left (B X : W.Point) : lv 0 B X = vv B X := by
  cases X
  · rfl
  · show ev _ _ = ev _ _; rw [lineF_zero_left]

theorem lv_zero_right (A X : W.Point) : lv A 0 X = vv A X := by
  cases X
  · rfl
  · show ev _ _ = ev _ _; rw [lineF_zero_right]

theorem vv_zero (X : W.Point) : vv 0 X = 1 := by
  cases X
  · rfl
  · show ev _ (1 : W.CoordinateRing) = _; rw [map_one]

theorem vv_some {x₁ y₁ x y : F} (h₁ : W.Nonsingular x₁ y₁) (h : W.Nonsingular x y) :
    vv (.some x₁ y₁ h₁) (.some x y h) = x - x₁ := ev_X _ _

theorem lv_some {x₁ y₁ x₂ y₂ x y : F} (h₁ : W.Nonsingular x₁ y₁) (h₂ : W.Nonsingular x₂ y₂) (hX : W.Nonsingular x y)
    (h : ¬(x₁ = x₂ ∧ y₁ = W.negY x₂ y₂)) : lv (.some x₁ y₁ h₁) (.some x₂ y₂ h₂) (.some x y hX) =
      y - (W.slope x₁ x₂ y₁ y₂ * (x - x₁) + y₁) := by
  show ev _ (lineF _ _) = _
  rw [lineF_some h₁ h₂ h, ev_Y]

theorem lineF_comm (A B : W.Point) : lineF A B = lineF B A := by
  rcases A with _ | ⟨x₁, y₁, h₁⟩
  · have : (Point.zero : W.Point) = 0 := rfl
    rw [this, lineF_zero_left, lineF_zero_right]
  rcases B with _ | ⟨x₂, y₂, h₂⟩
  · have : (Point.zero : W.Point) = 0 := rfl
    rw [this, lineF_zero_left, lineF_zero_right]
  by_cases h : x₁ = x₂ ∧ y₁ = W.negY x₂ y₂
  · rw [lineF_vert h₁ h₂ h, lineF_vert h₂ h₁ ⟨h.1.symm, by rw [h.2, h.1, negY_negY]⟩, h.1]
  · have h' : ¬(x₂ = x₁ ∧ y₂ = W.negY x₁ y₁) := fun k => h ⟨k.1.symm, by rw [k.2, k.1, negY_negY]⟩
    rw [lineF_some h₁ h₂ h, lineF_some h₂ h₁ h']
    by_cases hx : x₁ = x₂
    · subst hx
      have hy : y₁ = y₂ := Y_eq_of_Y_ne h₁.left h₂.left rfl (fun k => h ⟨rfl, k⟩)
      subst hy
      rfl
    · rw [slope_of_X_ne hx, slope_of_X_ne (Ne.symm hx)]
      congr 1
      unfold linePolynomial
      have e : (y₂ - y₁) / (x₂ - x₁) = (y₁ - y₂) / (x₁ - x₂) := by rw [← neg_sub y₁ y₂, ← neg_sub x₁ x₂, neg_div_neg_eq]
      have e2 : (y₁ - y₂) / (x₁ - x₂) * x₁ - y₁ = (y₁ - y₂) / (x₁ - x₂) * x₂ - y₂ := by
        have := sub_ne_zero.mpr hx
        field_simp
        ring
      rw [e, mul_sub, mul_sub, ← C_mul, ← C_mul]
      have e3 := congrArg (C (R := F)) e2
      rw [C_sub, C_sub] at e3
      linear_combination -e3

theorem lv_comm (A B X : W.Point) : lv A B X = lv B A X := by
  cases X
  · rfl
  · show ev _ _ = ev _ _; rw [lineF_comm]

theorem lv_neg_self (A X : W.Point) : lv A (-A) X = vv A X := by
  rcases A with _ | ⟨x₁, y₁, h₁⟩
  · exact lv_zero_left _ _
  · rcases X with _ | ⟨x, y, h⟩
    · rfl
    · show ev _ (lineF _ (-(Point.some x₁ y₁ h₁))) = ev _ _
      rw [Point.neg_some, lineF_vert h₁ _ ⟨rfl, by rw [negY_negY]⟩]
      rfl

theorem vv_neg (A X : W.Point) : vv (-A) X = vv A X := by
  rcases A with _ | ⟨x₁, y₁, h₁⟩
  · rfl
  · rcases X with _ | ⟨x, y, h⟩
    · rfl
    · rw [Point.neg_some, vv_some, vv_some]

theorem vv_neg_right (A X : W.Point) : vv A (-X) = vv A X := by
  rcases X with _ | ⟨x, y, h⟩
  · rfl
  · rcases A with _ | ⟨x₁, y₁, h₁⟩
    · rw [Point.neg_some]
      show ev _ (1 : W.CoordinateRing) = ev _ (1 : W.CoordinateRing)
      rw [map_one, map_one]
    · rw [Point.neg_some, vv_some, vv_some]

/-- The values of a line over the points with abscissa `t`. -/
theorem line_cubic {x₁ y₁ x₂ y₂ : F} (h₁ : W.Nonsingular x₁ y₁) (h₂ : W.Nonsingular x₂ y₂)
    (h : ¬(x₁ = x₂ ∧ y₁ = W.negY x₂ y₂)) (t : F) :
    let l := W.slope x₁ x₂ y₁ y₂
    W.polynomial.evalEval t (l * (t - x₁) + y₁) = -((t - x₁) * (t - x₂) * (t - W.addX x₁ x₂ l)) := by
  intro l
  have := congrArg (eval t) (addPolynomial_slope h₁.left h₂.left h)
  rw [addPolynomial] at this
  rw [← evalEval_C t (0 : F) (eval _ W.polynomial)] at this
  simp only [eval_neg, eval_mul, eval_sub, eval_X, eval_C] at this
  rw [← this]
  unfold linePolynomial
  rw [evalEval_C, evalEval]
  simp [WeierstrassCurve.Affine.polynomial, l]

/-- A line times its mirror image. -/
theorem lv_norm (A B : W.Point) {X : W.Point} (hX : X ≠ 0) :
    ∃ c : F, c ^ 4 = 1 ∧ lv A B X * lv A B (-X) = c * (vv A X * vv B X * vv (A + B) X) := by
  rcases A with _ | ⟨x₁, y₁, h₁⟩
  · refine ⟨1, one_pow _, ?_⟩
    have : (Point.zero : W.Point) = 0 := rfl
    rw [this, lv_zero_left, lv_zero_left, vv_neg_right, zero_add, vv_zero]; ring
  rcases B with _ | ⟨x₂, y₂, h₂⟩
  · refine ⟨1, one_pow _, ?_⟩
    have : (Point.zero : W.Point) = 0 := rfl
    rw [this, lv_zero_right, lv_zero_right, vv_neg_right, add_zero, vv_zero]; ring
  by_cases h : x₁ = x₂ ∧ y₁ = W.negY x₂ y₂
  · refine ⟨1, one_pow _, ?_⟩
    have e : (Point.some x₂ y₂ h₂ : W.Point) = -(Point.some x₁ y₁ h₁) := by
      rw [Point.neg_some]
      congr 1
      · exact h.1.symm
      · rw [h.2, h.1, negY_negY]
    rw [e, lv_neg_self, lv_neg_self, vv_neg_right, vv_neg, add_neg_cancel, vv_zero]; ring
  · refine ⟨-1, by norm_num, ?_⟩
    rcases X with _ | ⟨x, y, hP⟩
    · exact absurd rfl hX
    · rw [Point.add_some h, Point.neg_some, lv_some h₁ h₂ hP h, lv_some h₁ h₂ _ h, vv_some, vv_some, vv_some]
      have k := line_cubic h₁ h₂ h x
      simp only at k
      have e := (W.equation_iff x y).mp hP.left
      rw [evalEval_polynomial] at k
      unfold negY
      linear_combination k - e

/-- **Reciprocity of two lines.** -/
theorem lv_recip {A B X Z : W.Point} (hA : A ≠ 0) (hB : B ≠ 0) (hAB : A + B ≠ 0) (hX : X ≠ 0) (hZ : Z ≠ 0)
    (hXZ : X + Z ≠ 0) : lv A B X * lv A B Z * lv A B (-(X + Z)) = -(lv X Z A * lv X Z B * lv X Z (-(A + B))) := by
  rcases A with _ | ⟨a₁, b₁, h₁⟩
  · exact absurd rfl hA
  rcases B with _ | ⟨a₂, b₂, h₂⟩
  · exact absurd rfl hB
  rcases X with _ | ⟨x₁, y₁, k₁⟩
  · exact absurd rfl hX
  rcases Z with _ | ⟨x₂, y₂, k₂⟩
  · exact absurd rfl hZ
  have h : ¬(a₁ = a₂ ∧ b₁ = W.negY a₂ b₂) := fun h => hAB (Point.add_of_Y_eq h.1 h.2)
  have k : ¬(x₁ = x₂ ∧ y₁ = W.negY x₂ y₂) := fun h => hXZ (Point.add_of_Y_eq h.1 h.2)
  rw [Point.add_some h, Point.add_some k, Point.neg_some, Point.neg_some]
  simp only [lv_some _ _ _ h, lv_some _ _ _ k]
  have c1 := line_cubic h₁ h₂ h
  have c2 := line_cubic k₁ k₂ k
  have ea : a₂ = a₂ ∧ b₂ = W.slope a₁ a₂ b₁ b₂ * (a₂ - a₁) + b₁ := by
    refine ⟨rfl, ?_⟩
    by_cases hx : a₁ = a₂
    · subst hx
      have hy : b₁ = b₂ := Y_eq_of_Y_ne h₁.left h₂.left rfl (fun k => h ⟨rfl, k⟩)
      rw [hy]; ring
    · rw [slope_of_X_ne hx]
      have := sub_ne_zero.mpr hx
      field_simp
      ring
  have ex : y₂ = W.slope x₁ x₂ y₁ y₂ * (x₂ - x₁) + y₁ := by
    by_cases hx : x₁ = x₂
    · subst hx
      have hy : y₁ = y₂ := Y_eq_of_Y_ne k₁.left k₂.left rfl (fun h => k ⟨rfl, h⟩)
      rw [hy]; ring
    · rw [slope_of_X_ne hx]
      have := sub_ne_zero.mpr hx
      field_simp
      ring
  have ea := ea.2
  unfold addY
  rw [negY_negY, negY_negY]
  unfold negAddY
  simp only at c1 c2
  generalize W.slope a₁ a₂ b₁ b₂ = l at *
  generalize W.slope x₁ x₂ y₁ y₂ = m at *
  generalize W.addX a₁ a₂ l = a₃ at *
  generalize W.addX x₁ x₂ m = x₃ at *
  by_cases hlm : l = m
  · subst hlm
    rw [ea, ex]
    ring
  · have hne : l - m ≠ 0 := sub_ne_zero.mpr hlm
    -- the common abscissa of the two lines
    obtain ⟨t, ht⟩ : ∃ t : F, l * (t - a₁) + b₁ = m * (t - x₁) + y₁ :=
      ⟨(l * a₁ - b₁ - m * x₁ + y₁) / (l - m), by field_simp; ring⟩
    have q : (t - a₁) * (t - a₂) * (t - a₃) = (t - x₁) * (t - x₂) * (t - x₃) := by
      have q1 := c1 t
      rw [ht, c2 t] at q1
      linear_combination q1
    have d : ∀ s, (m * (s - x₁) + y₁) - (l * (s - a₁) + b₁) = (m - l) * (s - t) := fun s => by
      linear_combination -ht
    have d1 : ∀ s, (l * (s - a₁) + b₁) - (m * (s - x₁) + y₁) = (l - m) * (s - t) := fun s => by
      linear_combination ht
    rw [ea, ex]
    have r1 : y₁ - (l * (x₁ - a₁) + b₁) = (m - l) * (x₁ - t) := by rw [← d]; ring
    have r2 : b₁ - (m * (a₁ - x₁) + y₁) = (l - m) * (a₁ - t) := by rw [← d1]; ring
    rw [r1, r2, d, d, d1, d1]
    linear_combination (m - l) ^ 3 * q

end
end Verif
