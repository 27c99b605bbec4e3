import Verif.Spec.EcPoint
import Mathlib.Tactic.FieldSimp
import Mathlib.Tactic.LinearCombination
/-! # The point formulas over an abstract field, against the group law -/
set_option linter.unusedSectionVars false
namespace Verif
open Spec WeierstrassCurve.Affine

/-- The exact operations of a field. -/
def fieldOps (K : Type) [Field K] [DecidableEq K] : FpOps K where
  add := (· + ·)
  sub := (· - ·)
  mul := (· * ·)
  sqr a := a ^ 2
  dbl a := 2 * a
  tpl a := some (3 * a)
  neg a := -a
  inv a := some a⁻¹
  eq a b := decide (a = b)
  isZero a := decide (a = 0)
  one := 1
  zero := 0

variable {K : Type} [Field K] [DecidableEq K]

section hom
variable {α : Type}

/-- `F` computes in `K` through `φ` on the values satisfying `ok`. -/
structure FpHom (F : FpOps α) (ok : α → Prop) (φ : α → K) : Prop where
  add_ok : ∀ {a b}, ok a → ok b → ok (F.add a b)
  add : ∀ {a b}, ok a → ok b → φ (F.add a b) = φ a + φ b
  sub_ok : ∀ {a b}, ok a → ok b → ok (F.sub a b)
  sub : ∀ {a b}, ok a → ok b → φ (F.sub a b) = φ a - φ b
  mul_ok : ∀ {a b}, ok a → ok b → ok (F.mul a b)
  mul : ∀ {a b}, ok a → ok b → φ (F.mul a b) = φ a * φ b
  sqr_ok : ∀ {a}, ok a → ok (F.sqr a)
  sqr : ∀ {a}, ok a → φ (F.sqr a) = φ a ^ 2
  dbl_ok : ∀ {a}, ok a → ok (F.dbl a)
  dbl : ∀ {a}, ok a → φ (F.dbl a) = 2 * φ a
  tpl : ∀ {a}, ok a → ∃ r, F.tpl a = some r ∧ ok r ∧ φ r = 3 * φ a
  eq : ∀ {a b}, ok a → ok b → (F.eq a b = true ↔ φ a = φ b)
  isZero : ∀ {a}, ok a → (F.isZero a = true ↔ φ a = 0)
  one_ok : ok F.one
  one : φ F.one = 1
  zero_ok : ok F.zero
  zero : φ F.zero = 0

/-- Inversion, separately (needs primality of the modulus at limb level). -/
def InvHom (F : FpOps α) (ok : α → Prop) (φ : α → K) : Prop :=
  ∀ {a}, ok a → ∃ r, F.inv a = some r ∧ ok r ∧ φ r = (φ a)⁻¹

/-- Negation of non-zero values. -/
def NegHom (F : FpOps α) (ok : α → Prop) (φ : α → K) : Prop :=
  ∀ {a}, ok a → φ a ≠ 0 → ok (F.neg a) ∧ φ (F.neg a) = - φ a

variable {F : FpOps α} {ok : α → Prop} {φ : α → K}

/-- `x` is a valid value denoting `u`. -/
def Is (ok : α → Prop) (φ : α → K) (x : α) (u : K) : Prop := ok x ∧ φ x = u

theorem FpHom.is_add (h : FpHom F ok φ) {x y u v} (hx : Is ok φ x u) (hy : Is ok φ y v) :
    Is ok φ (F.add x y) (u + v) := ⟨h.add_ok hx.1 hy.1, by rw [h.add hx.1 hy.1, hx.2, hy.2]⟩
theorem FpHom.is_sub (h : FpHom F ok φ) {x y u v} (hx : Is ok φ x u) (hy : Is ok φ y v) :
    Is ok φ (F.sub x y) (u - v) := ⟨h.sub_ok hx.1 hy.1, by rw [h.sub hx.1 hy.1, hx.2, hy.2]⟩
theorem FpHom.is_mul (h : FpHom F ok φ) {x y u v} (hx : Is ok φ x u) (hy : Is ok φ y v) :
    Is ok φ (F.mul x y) (u * v) := ⟨h.mul_ok hx.1 hy.1, by rw [h.mul hx.1 hy.1, hx.2, hy.2]⟩
theorem FpHom.is_sqr (h : FpHom F ok φ) {x u} (hx : Is ok φ x u) :
    Is ok φ (F.sqr x) (u ^ 2) := ⟨h.sqr_ok hx.1, by rw [h.sqr hx.1, hx.2]⟩
theorem FpHom.is_dbl (h : FpHom F ok φ) {x u} (hx : Is ok φ x u) :
    Is ok φ (F.dbl x) (2 * u) := ⟨h.dbl_ok hx.1, by rw [h.dbl hx.1, hx.2]⟩
theorem FpHom.is_one (h : FpHom F ok φ) : Is ok φ F.one 1 := ⟨h.one_ok, h.one⟩
theorem FpHom.is_zero (h : FpHom F ok φ) : Is ok φ F.zero 0 := ⟨h.zero_ok, h.zero⟩
theorem FpHom.is_eq (h : FpHom F ok φ) {x y u v} (hx : Is ok φ x u) (hy : Is ok φ y v) :
    F.eq x y = (fieldOps K).eq u v := by
  rw [Bool.eq_iff_iff, h.eq hx.1 hy.1, hx.2, hy.2]
  simp [fieldOps]
theorem FpHom.is_isZero (h : FpHom F ok φ) {x u} (hx : Is ok φ x u) : F.isZero x = (fieldOps K).isZero u := by
  rw [Bool.eq_iff_iff, h.isZero hx.1, hx.2]
  simp [fieldOps]

/-- The Jacobian triple `P` denotes `J`. -/
def IsJ (ok : α → Prop) (φ : α → K) (P : EcJ α) (J : EcJ K) : Prop :=
  Is ok φ P.x J.x ∧ Is ok φ P.y J.y ∧ Is ok φ P.z J.z
/-- The affine pair `P` denotes `Q`. -/
def IsA (ok : α → Prop) (φ : α → K) (P : EcA α) (Q : EcA K) : Prop := Is ok φ P.x Q.x ∧ Is ok φ P.y Q.y

/-- Prove `Is` goals by following the expression. -/
macro "is_tac" h:term : tactic => `(tactic| repeat' (first
  | assumption
  | refine FpHom.is_add $h ?_ ?_ | refine FpHom.is_sub $h ?_ ?_ | refine FpHom.is_mul $h ?_ ?_
  | refine FpHom.is_sqr $h ?_ | refine FpHom.is_dbl $h ?_ | exact FpHom.is_one $h | exact FpHom.is_zero $h))

theorem hom_dbl (h : FpHom F ok φ) {P : EcJ α} {J : EcJ K} (hP : IsJ ok φ P J) :
    ∃ R S, ecJDbl F P = some R ∧ IsJ ok φ R S ∧ ecJDbl (fieldOps K) J = some S := by
  obtain ⟨hx, hy, hz⟩ := hP
  have ha : Is ok φ (F.mul (F.sub P.x (F.sqr P.z)) (F.add P.x (F.sqr P.z)))
      ((J.x - J.z ^ 2) * (J.x + J.z ^ 2)) := by is_tac h
  obtain ⟨t, t1, t2, t3⟩ := h.tpl ha.1
  have ht : Is ok φ t (3 * ((J.x - J.z ^ 2) * (J.x + J.z ^ 2))) := ⟨t2, by rw [t3, ha.2]⟩
  refine ⟨_, _, by simp only [ecJDbl, t1]; rfl, ⟨?_, ?_, ?_⟩, rfl⟩
  all_goals simp only [fieldOps]; is_tac h

theorem hom_inf (h : FpHom F ok φ) : IsJ ok φ (ecJInf F) (ecJInf (fieldOps K)) :=
  ⟨h.is_one, h.is_one, h.is_zero⟩

theorem hom_addA (h : FpHom F ok φ) {P : EcJ α} {Q : EcA α} {J : EcJ K} {A : EcA K} (hP : IsJ ok φ P J)
    (hQ : IsA ok φ Q A) : IsJ ok φ (ecJAddA F P Q) (ecJAddA (fieldOps K) J A) := by
  obtain ⟨hx, hy, hz⟩ := hP
  obtain ⟨qx, qy⟩ := hQ
  refine ⟨?_, ?_, ?_⟩
  all_goals simp only [ecJAddA, fieldOps]; is_tac h

theorem hom_add (h : FpHom F ok φ) {P Q : EcJ α} {J I : EcJ K} (hP : IsJ ok φ P J) (hQ : IsJ ok φ Q I) :
    ∃ R S, ecJAdd F P Q = some R ∧ IsJ ok φ R S ∧ ecJAdd (fieldOps K) J I = some S := by
  obtain ⟨D, D', d1, d2, d3⟩ := hom_dbl h hP
  have i1 := hom_inf h
  obtain ⟨hx, hy, hz⟩ := hP
  obtain ⟨qx, qy, qz⟩ := hQ
  have e1 := h.is_eq (x := F.mul P.x (F.sqr Q.z)) (y := F.mul Q.x (F.sqr P.z))
    (u := J.x * I.z ^ 2) (v := I.x * J.z ^ 2) (by is_tac h) (by is_tac h)
  have e2 := h.is_eq (x := F.mul (F.mul P.y Q.z) (F.sqr Q.z)) (y := F.mul (F.mul Q.y P.z) (F.sqr P.z))
    (u := J.y * I.z * I.z ^ 2) (v := I.y * J.z * J.z ^ 2) (by is_tac h) (by is_tac h)
  unfold ecJAdd
  simp only [e1, e2]
  by_cases c1 : J.x * I.z ^ 2 = I.x * J.z ^ 2
  · have f1 : (fieldOps K).eq (J.x * I.z ^ 2) (I.x * J.z ^ 2) = true := by simp [fieldOps, c1]
    have f1' : (fieldOps K).eq ((fieldOps K).mul J.x ((fieldOps K).sqr I.z))
      ((fieldOps K).mul I.x ((fieldOps K).sqr J.z)) = true := f1
    simp only [if_pos f1, if_pos f1']
    by_cases c2 : J.y * I.z * I.z ^ 2 = I.y * J.z * J.z ^ 2
    · have f2 : (fieldOps K).eq (J.y * I.z * I.z ^ 2) (I.y * J.z * J.z ^ 2) = true := by simp [fieldOps, c2]
      have f2' : (fieldOps K).eq ((fieldOps K).mul ((fieldOps K).mul J.y I.z) ((fieldOps K).sqr I.z))
        ((fieldOps K).mul ((fieldOps K).mul I.y J.z) ((fieldOps K).sqr J.z)) = true := f2
      simp only [if_pos f2, if_pos f2']
      exact ⟨D, D', d1, d2, d3⟩
    · have f2 : ¬ (fieldOps K).eq (J.y * I.z * I.z ^ 2) (I.y * J.z * J.z ^ 2) = true := by simp [fieldOps, c2]
      have f2' : ¬ (fieldOps K).eq ((fieldOps K).mul ((fieldOps K).mul J.y I.z) ((fieldOps K).sqr I.z))
        ((fieldOps K).mul ((fieldOps K).mul I.y J.z) ((fieldOps K).sqr J.z)) = true := f2
      simp only [if_neg f2, if_neg f2']
      exact ⟨_, _, rfl, i1, rfl⟩
  · have f1 : ¬ (fieldOps K).eq (J.x * I.z ^ 2) (I.x * J.z ^ 2) = true := by simp [fieldOps, c1]
    have f1' : ¬ (fieldOps K).eq ((fieldOps K).mul J.x ((fieldOps K).sqr I.z))
      ((fieldOps K).mul I.x ((fieldOps K).sqr J.z)) = true := f1
    simp only [if_neg f1, if_neg f1']
    refine ⟨_, _, rfl, ⟨?_, ?_, ?_⟩, rfl⟩
    all_goals simp only [fieldOps]; is_tac h

theorem hom_fromA (h : FpHom F ok φ) {P : EcA α} {Q : EcA K} (hP : IsA ok φ P Q) :
    IsJ ok φ (ecJFromA F P) (ecJFromA (fieldOps K) Q) := ⟨hP.1, hP.2, h.is_one⟩

theorem hom_toA (h : FpHom F ok φ) (hi : InvHom F ok φ) {P : EcJ α} {J : EcJ K} (hP : IsJ ok φ P J) :
    ∃ R S, ecJToA F P = some R ∧ IsA ok φ R S ∧ ecJToA (fieldOps K) J = some S := by
  obtain ⟨hx, hy, hz⟩ := hP
  obtain ⟨t, t1, t2, t3⟩ := hi hz.1
  have ht : Is ok φ t J.z⁻¹ := ⟨t2, by rw [t3, hz.2]⟩
  refine ⟨_, _, by simp only [ecJToA, t1]; rfl, ⟨?_, ?_⟩, rfl⟩
  all_goals simp only [fieldOps]; is_tac h

theorem hom_normal (h : FpHom F ok φ) (hi : InvHom F ok φ) {P : EcJ α} {J : EcJ K} (hP : IsJ ok φ P J) :
    ∃ R S, ecJNormal F P = some R ∧ IsJ ok φ R S ∧ ecJNormal (fieldOps K) J = some S := by
  have i1 := hom_inf h
  obtain ⟨hx, hy, hz⟩ := hP
  obtain ⟨t, t1, t2, t3⟩ := hi hz.1
  have ht : Is ok φ t J.z⁻¹ := ⟨t2, by rw [t3, hz.2]⟩
  unfold ecJNormal ecJIsInf
  rw [h.is_isZero hz]
  by_cases c : (fieldOps K).isZero J.z = true
  · simp only [if_pos c]; exact ⟨_, _, rfl, i1, rfl⟩
  · simp only [if_neg c]
    refine ⟨_, _, by simp only [t1]; rfl, ⟨?_, ?_, ?_⟩, rfl⟩
    all_goals simp only [fieldOps]; is_tac h

theorem hom_equal (h : FpHom F ok φ) {P Q : EcJ α} {J I : EcJ K} (hP : IsJ ok φ P J) (hQ : IsJ ok φ Q I) :
    ecJEqual F P Q = ecJEqual (fieldOps K) J I := by
  obtain ⟨hx, hy, hz⟩ := hP
  obtain ⟨qx, qy, qz⟩ := hQ
  unfold ecJEqual
  have e1 := h.is_eq (x := F.mul P.x (F.sqr Q.z)) (y := F.mul Q.x (F.sqr P.z))
    (u := J.x * I.z ^ 2) (v := I.x * J.z ^ 2) (by is_tac h) (by is_tac h)
  have e2 := h.is_eq (x := F.mul P.y (F.mul (F.sqr Q.z) Q.z)) (y := F.mul Q.y (F.mul (F.sqr P.z) P.z))
    (u := J.y * (I.z ^ 2 * I.z)) (v := I.y * (J.z ^ 2 * J.z)) (by is_tac h) (by is_tac h)
  simp only [e1, e2]
  rfl

theorem hom_check (h : FpHom F ok φ) {P : EcA α} {Q : EcA K} {a b : α} {a' b' : K} (hP : IsA ok φ P Q)
    (ha : Is ok φ a a') (hb : Is ok φ b b') :
    ecACheck F a b P = true ↔ Q.y ^ 2 = Q.x ^ 3 + a' * Q.x + b' := by
  obtain ⟨hx, hy⟩ := hP
  unfold ecACheck
  rw [h.is_eq (u := Q.y ^ 2) (v := b' + a' * Q.x + Q.x ^ 2 * Q.x) (by is_tac h) (by is_tac h)]
  rw [show b' + a' * Q.x + Q.x ^ 2 * Q.x = Q.x ^ 3 + a' * Q.x + b' by ring]
  simp [fieldOps]

end hom

/-! ## Group law -/

variable {a b : K}

theorem onCurve_of_nonsing {x y : K} (h : (shortCurve a b).Nonsingular x y) : y ^ 2 = x ^ 3 + a * x + b := by
  have := h.1
  rw [equation_iff] at this
  simpa [shortCurve] using this

theorem rep_inf : IsJac (W := shortCurve a b) (ecJInf (fieldOps K)) 0 := by
  show (0 : K) = 0
  rfl

theorem rep_fromA {x y : K} (h : (shortCurve a b).Nonsingular x y) :
    IsJac (W := shortCurve a b) (ecJFromA (fieldOps K) ⟨x, y⟩) (.some x y h) := by
  refine ⟨?_, ?_, ?_⟩
  · exact one_ne_zero
  · show x = x * (1 : K) ^ 2; ring
  · show y = y * (1 : K) ^ 3; ring

theorem some_congr {W : WeierstrassCurve.Affine K} {P : W.Point} {x y x' y' : K} {h : W.Nonsingular x y}
    (e : P = .some x y h) (ex : x = x') (ey : y = y') : ∃ h', P = .some x' y' h' := by
  subst ex ey
  exact ⟨h, e⟩

theorem some_add_some_ne {x₁ y₁ x₂ y₂ : K} {h₁ : (shortCurve a b).Nonsingular x₁ y₁}
    {h₂ : (shortCurve a b).Nonsingular x₂ y₂} (hx : x₁ ≠ x₂) :
    ∃ h, Point.some x₁ y₁ h₁ + Point.some x₂ y₂ h₂ =
      Point.some (W' := shortCurve a b) (((y₁ - y₂) / (x₁ - x₂)) ^ 2 - x₁ - x₂)
        (-(((y₁ - y₂) / (x₁ - x₂)) * ((((y₁ - y₂) / (x₁ - x₂)) ^ 2 - x₁ - x₂) - x₁) + y₁)) h := by
  have e := Point.add_of_X_ne (h₁ := h₁) (h₂ := h₂) hx
  have eX : (shortCurve a b).addX x₁ x₂ ((shortCurve a b).slope x₁ x₂ y₁ y₂)
      = ((y₁ - y₂) / (x₁ - x₂)) ^ 2 - x₁ - x₂ := by
    rw [slope_of_X_ne hx]; simp [addX, shortCurve]
  have eY : (shortCurve a b).addY x₁ x₂ y₁ ((shortCurve a b).slope x₁ x₂ y₁ y₂)
      = -(((y₁ - y₂) / (x₁ - x₂)) * ((((y₁ - y₂) / (x₁ - x₂)) ^ 2 - x₁ - x₂) - x₁) + y₁) := by
    unfold addY negAddY negY
    rw [eX, slope_of_X_ne hx]; simp [shortCurve]
  exact some_congr e eX eY

theorem some_add_self {x₁ y₁ : K} {h₁ : (shortCurve a b).Nonsingular x₁ y₁} (hy : 2 * y₁ ≠ 0) :
    ∃ h, Point.some x₁ y₁ h₁ + Point.some x₁ y₁ h₁ =
      Point.some (W' := shortCurve a b) (((3 * x₁ ^ 2 + a) / (2 * y₁)) ^ 2 - x₁ - x₁)
        (-(((3 * x₁ ^ 2 + a) / (2 * y₁)) * ((((3 * x₁ ^ 2 + a) / (2 * y₁)) ^ 2 - x₁ - x₁) - x₁) + y₁)) h := by
  have hne : y₁ ≠ (shortCurve a b).negY x₁ y₁ := by
    intro hh
    apply hy
    have : y₁ = -y₁ := by simpa [negY, shortCurve] using hh
    linear_combination this
  have e := Point.add_self_of_Y_ne (h₁ := h₁) hne
  have es : (shortCurve a b).slope x₁ x₁ y₁ y₁ = (3 * x₁ ^ 2 + a) / (2 * y₁) := by
    rw [slope_of_Y_ne rfl hne]
    simp [negY, shortCurve, two_mul]
  have eX : (shortCurve a b).addX x₁ x₁ ((shortCurve a b).slope x₁ x₁ y₁ y₁)
      = ((3 * x₁ ^ 2 + a) / (2 * y₁)) ^ 2 - x₁ - x₁ := by
    rw [es]; simp [addX, shortCurve]
  have eY : (shortCurve a b).addY x₁ x₁ y₁ ((shortCurve a b).slope x₁ x₁ y₁ y₁)
      = -(((3 * x₁ ^ 2 + a) / (2 * y₁)) * ((((3 * x₁ ^ 2 + a) / (2 * y₁)) ^ 2 - x₁ - x₁) - x₁) + y₁) := by
    unfold addY negAddY negY
    rw [eX, es]; simp [shortCurve]
  exact some_congr e eX eY

theorem some_add_opp {x₁ y₁ x₂ y₂ : K} {h₁ : (shortCurve a b).Nonsingular x₁ y₁}
    {h₂ : (shortCurve a b).Nonsingular x₂ y₂} (hx : x₁ = x₂) (hy : y₁ = -y₂) :
    Point.some x₁ y₁ h₁ + Point.some x₂ y₂ h₂ = 0 :=
  Point.add_of_Y_eq hx (by simp [negY, shortCurve, hy])

/-- Two affine points with the same abscissa are equal or opposite. -/
theorem y_eq_or {x y₁ y₂ : K} (h₁ : (shortCurve a b).Nonsingular x y₁)
    (h₂ : (shortCurve a b).Nonsingular x y₂) : y₁ = y₂ ∨ y₁ = -y₂ := by
  have e1 := onCurve_of_nonsing h₁
  have e2 := onCurve_of_nonsing h₂
  exact sq_eq_sq_iff_eq_or_eq_neg.mp (e1.trans e2.symm)

/-- dbl-2001-b, `a = -3`. -/
theorem rep_dbl (h2 : (2 : K) ≠ 0) {J : EcJ K} {P : (shortCurve (-3) b).Point} (hJ : IsJac J P) :
    ∃ R, ecJDbl (fieldOps K) J = some R ∧ IsJac R (P + P) := by
  refine ⟨_, rfl, ?_⟩
  cases P with
  | zero =>
    have hz : J.z = 0 := hJ
    show (J.y + J.z) ^ 2 - J.y ^ 2 - J.z ^ 2 = 0
    rw [hz]; ring
  | some x y h =>
    obtain ⟨hz, hx, hy⟩ := hJ
    by_cases y0 : 2 * y = 0
    · rw [some_add_opp rfl (show y = -y by linear_combination y0)]
      show (J.y + J.z) ^ 2 - J.y ^ 2 - J.z ^ 2 = 0
      rw [hy]; linear_combination J.z ^ 4 * y0
    · obtain ⟨h', e⟩ := some_add_self (h₁ := h) y0
      rw [e]
      have yne : y ≠ 0 := fun hh => y0 (by rw [hh]; ring)
      refine ⟨?_, ?_, ?_⟩
      · show (J.y + J.z) ^ 2 - J.y ^ 2 - J.z ^ 2 ≠ 0
        rw [hy, show (y * J.z ^ 3 + J.z) ^ 2 - (y * J.z ^ 3) ^ 2 - J.z ^ 2 = (2 * y) * J.z ^ 4 by ring]
        exact mul_ne_zero y0 (pow_ne_zero _ hz)
      · simp only [fieldOps]
        rw [hx, hy]
        field_simp
        ring
      · simp only [fieldOps]
        rw [hx, hy]
        field_simp
        ring

/-- madd-2007-bl: the sum of a finite Jacobian point and a different affine point. -/
theorem rep_addA (h2 : (2 : K) ≠ 0) {J : EcJ K} {P : (shortCurve a b).Point} (hJ : IsJac J P) {x₂ y₂ : K}
    (h₂ : (shortCurve a b).Nonsingular x₂ y₂) (hP : P ≠ 0) (hPQ : P ≠ .some x₂ y₂ h₂) :
    IsJac (ecJAddA (fieldOps K) J ⟨x₂, y₂⟩) (P + .some x₂ y₂ h₂) := by
  cases P with
  | zero => exact absurd rfl hP
  | some x y h =>
    obtain ⟨hz, hx, hy⟩ := hJ
    by_cases c : x = x₂
    · subst c
      have hy' : y = -y₂ := by
        rcases y_eq_or h h₂ with e | e
        · subst e; exact absurd rfl hPQ
        · exact e
      rw [some_add_opp rfl hy']
      show (J.z + (x * J.z ^ 2 - J.x)) ^ 2 - J.z ^ 2 - (x * J.z ^ 2 - J.x) ^ 2 = 0
      rw [hx]; ring
    · obtain ⟨h', e⟩ := some_add_some_ne (h₁ := h) (h₂ := h₂) c
      rw [e]
      have hd : x - x₂ ≠ 0 := sub_ne_zero.mpr c
      refine ⟨?_, ?_, ?_⟩
      · show (J.z + (x₂ * J.z ^ 2 - J.x)) ^ 2 - J.z ^ 2 - (x₂ * J.z ^ 2 - J.x) ^ 2 ≠ 0
        rw [hx, show (J.z + (x₂ * J.z ^ 2 - x * J.z ^ 2)) ^ 2 - J.z ^ 2 - (x₂ * J.z ^ 2 - x * J.z ^ 2) ^ 2
          = -(2 * ((x - x₂) * J.z ^ 3)) by ring]
        exact neg_ne_zero.mpr (mul_ne_zero h2 (mul_ne_zero hd (pow_ne_zero _ hz)))
      · simp only [fieldOps, ecJAddA]
        rw [hx, hy]
        field_simp
        ring
      · simp only [fieldOps, ecJAddA]
        rw [hx, hy]
        field_simp
        ring

/-- add-2007-bl with the code's case distinction: correct unless exactly one operand is the point at infinity. -/
theorem rep_add (h2 : (2 : K) ≠ 0) {J₁ J₂ : EcJ K} {P Q : (shortCurve (-3) b).Point} (h₁ : IsJac J₁ P)
    (h₂ : IsJac J₂ Q) (hPQ : P = 0 ↔ Q = 0) :
    ∃ R, ecJAdd (fieldOps K) J₁ J₂ = some R ∧ IsJac R (P + Q) := by
  obtain ⟨D, d1, d2⟩ := rep_dbl h2 h₁
  cases P with
  | zero =>
    cases Q with
    | some x y h => exact absurd (hPQ.mp rfl) (Point.some_ne_zero h)
    | zero =>
      have z1 : J₁.z = 0 := h₁
      have z2 : J₂.z = 0 := h₂
      refine ⟨D, ?_, d2⟩
      unfold ecJAdd
      rw [if_pos (by simp [fieldOps, z1, z2]), if_pos (by simp [fieldOps, z1, z2]), d1]
  | some x₁ y₁ n₁ =>
    cases Q with
    | zero => exact absurd (hPQ.mpr rfl) (Point.some_ne_zero n₁)
    | some x₂ y₂ n₂ =>
      obtain ⟨z1, hx1, hy1⟩ := h₁
      obtain ⟨z2, hx2, hy2⟩ := h₂
      have cx : (fieldOps K).eq ((fieldOps K).mul J₁.x ((fieldOps K).sqr J₂.z))
          ((fieldOps K).mul J₂.x ((fieldOps K).sqr J₁.z)) = true ↔ x₁ = x₂ := by
        simp only [fieldOps, decide_eq_true_eq]
        rw [hx1, hx2, show x₁ * J₁.z ^ 2 * J₂.z ^ 2 = x₁ * (J₁.z ^ 2 * J₂.z ^ 2) by ring,
          show x₂ * J₂.z ^ 2 * J₁.z ^ 2 = x₂ * (J₁.z ^ 2 * J₂.z ^ 2) by ring]
        exact mul_left_inj' (mul_ne_zero (pow_ne_zero _ z1) (pow_ne_zero _ z2))
      have cy : (fieldOps K).eq ((fieldOps K).mul ((fieldOps K).mul J₁.y J₂.z) ((fieldOps K).sqr J₂.z))
          ((fieldOps K).mul ((fieldOps K).mul J₂.y J₁.z) ((fieldOps K).sqr J₁.z)) = true ↔ y₁ = y₂ := by
        simp only [fieldOps, decide_eq_true_eq]
        rw [hy1, hy2, show y₁ * J₁.z ^ 3 * J₂.z * J₂.z ^ 2 = y₁ * (J₁.z ^ 3 * J₂.z ^ 3) by ring,
          show y₂ * J₂.z ^ 3 * J₁.z * J₁.z ^ 2 = y₂ * (J₁.z ^ 3 * J₂.z ^ 3) by ring]
        exact mul_left_inj' (mul_ne_zero (pow_ne_zero _ z1) (pow_ne_zero _ z2))
      unfold ecJAdd
      simp only [cx, cy]
      by_cases c1 : x₁ = x₂
      · subst c1
        simp only [if_true]
        by_cases c2 : y₁ = y₂
        · subst c2
          simp only [if_true]
          exact ⟨D, d1, d2⟩
        · simp only [if_neg c2]
          refine ⟨_, rfl, ?_⟩
          have : y₁ = -y₂ := (y_eq_or n₁ n₂).resolve_left c2
          rw [some_add_opp rfl this]
          exact rep_inf
      · simp only [if_neg c1]
        refine ⟨_, rfl, ?_⟩
        obtain ⟨h', e⟩ := some_add_some_ne (h₁ := n₁) (h₂ := n₂) c1
        rw [e]
        have hd : x₁ - x₂ ≠ 0 := sub_ne_zero.mpr c1
        refine ⟨?_, ?_, ?_⟩
        · simp only [fieldOps]
          rw [hx1, hx2, show ((J₁.z + J₂.z) ^ 2 - J₁.z ^ 2 - J₂.z ^ 2) *
            (x₂ * J₂.z ^ 2 * J₁.z ^ 2 - x₁ * J₁.z ^ 2 * J₂.z ^ 2) = -(2 * ((x₁ - x₂) * (J₁.z ^ 3 * J₂.z ^ 3))) by ring]
          exact neg_ne_zero.mpr (mul_ne_zero h2 (mul_ne_zero hd (mul_ne_zero (pow_ne_zero _ z1) (pow_ne_zero _ z2))))
        · simp only [fieldOps]
          rw [hx1, hy1, hx2, hy2]
          field_simp
          ring
        · simp only [fieldOps]
          rw [hx1, hy1, hx2, hy2]
          field_simp
          ring

/-- The defect: with the point at infinity on either side the result is always the point at infinity. -/
theorem add_inf {J₁ J₂ : EcJ K} (hz : J₁.z = 0 ∨ J₂.z = 0 ∧ (J₂.x ≠ 0 ∨ J₂.y ≠ 0)) :
    ∃ R, ecJAdd (fieldOps K) J₁ J₂ = some R ∧ R.z = 0 := by
  unfold ecJAdd
  by_cases c1 : (fieldOps K).eq ((fieldOps K).mul J₁.x ((fieldOps K).sqr J₂.z))
          ((fieldOps K).mul J₂.x ((fieldOps K).sqr J₁.z)) = true
  · simp only [if_pos c1]
    by_cases c2 : (fieldOps K).eq ((fieldOps K).mul ((fieldOps K).mul J₁.y J₂.z) ((fieldOps K).sqr J₂.z))
          ((fieldOps K).mul ((fieldOps K).mul J₂.y J₁.z) ((fieldOps K).sqr J₁.z)) = true
    · simp only [if_pos c2]
      refine ⟨_, rfl, ?_⟩
      have hz1 : J₁.z = 0 := by
        rcases hz with hz | ⟨hz, hxy⟩
        · exact hz
        · by_contra hne
          simp only [fieldOps, decide_eq_true_eq] at c1 c2
          rw [hz] at c1 c2
          rcases hxy with h | h
          · apply mul_ne_zero h (pow_ne_zero 2 hne); rw [← c1]; ring
          · apply mul_ne_zero (mul_ne_zero h hne) (pow_ne_zero 2 hne); rw [← c2]; ring
      simp only [fieldOps]
      rw [hz1]; ring
    · simp only [if_neg c2]
      exact ⟨_, rfl, rfl⟩
  · simp only [if_neg c1]
    refine ⟨_, rfl, ?_⟩
    simp only [fieldOps]
    rcases hz with hz | ⟨hz, -⟩ <;> rw [hz] <;> ring

theorem rep_toA {J : EcJ K} {x y : K} {h : (shortCurve a b).Nonsingular x y}
    (hJ : IsJac (W := shortCurve a b) J (.some x y h)) : ecJToA (fieldOps K) J = some ⟨x, y⟩ := by
  obtain ⟨hz, hx, hy⟩ := hJ
  simp only [ecJToA, fieldOps]
  rw [hx, hy]
  congr 2 <;> field_simp

end Verif
