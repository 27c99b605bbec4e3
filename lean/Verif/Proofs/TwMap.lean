import Verif.Proofs.Line
import Verif.Spec.EcPoint
/-!
# Scaled field homomorphisms between curves `y² = x³ + b`

`(x, y) ↦ (c² f(x), c³ f(y))` from `y² = x³ + b` to `y² = x³ + c⁶ f(b)` is additive, and carries lines to lines.  The
untwisting map and the Frobenius map of the twist are of this form.
-/
set_option linter.unusedSectionVars false
open WeierstrassCurve WeierstrassCurve.Affine
namespace Verif
open Spec

section
variable {F K : Type} [Field F] [Field K] [DecidableEq F] [DecidableEq K] {b : F} {b' : K} (f : F →+* K) (c : K)

theorem sc_eq {b x y : F} : (shortCurve 0 b).Equation x y ↔ y ^ 2 = x ^ 3 + b := by
  rw [equation_iff]; simp [shortCurve]

theorem sc_ns {b x y : F} : (shortCurve 0 b).Nonsingular x y ↔ y ^ 2 = x ^ 3 + b ∧ (3 * x ^ 2 ≠ 0 ∨ 2 * y ≠ 0) := by
  rw [nonsingular_iff', sc_eq]
  simp [shortCurve]

theorem tw_ns (hc : c ≠ 0) (hb : b' = c ^ 6 * f b) {x y : F} (h : (shortCurve 0 b).Nonsingular x y) :
    (shortCurve 0 b').Nonsingular (c ^ 2 * f x) (c ^ 3 * f y) := by
  rw [sc_ns] at h ⊢
  obtain ⟨h1, h2⟩ := h
  have e := congrArg f h1
  simp only [map_add, map_pow] at e
  refine ⟨by rw [hb]; linear_combination c ^ 6 * e, ?_⟩
  have i : ∀ z : F, z ≠ 0 → f z ≠ 0 := fun z hz => (map_ne_zero f).mpr hz
  rcases h2 with h2 | h2
  · left
    have := mul_ne_zero (pow_ne_zero 4 hc) (i _ h2)
    simp only [map_mul, map_pow, map_ofNat] at this
    intro h0; apply this; rw [← h0]; ring
  · right
    have := mul_ne_zero (pow_ne_zero 3 hc) (i _ h2)
    simp only [map_mul, map_ofNat] at this
    intro h0; apply this; rw [← h0]; ring

/-- The map on points. -/
def twPt (hc : c ≠ 0) (hb : b' = c ^ 6 * f b) : (shortCurve 0 b).Point → (shortCurve 0 b').Point
  | .zero => .zero
  | .some x y h => .some (c ^ 2 * f x) (c ^ 3 * f y) (tw_ns f c hc hb h)

variable {f c} (hc : c ≠ 0) (hb : b' = c ^ 6 * f b)

theorem tw_negY (x y : F) : (shortCurve 0 b').negY (c ^ 2 * f x) (c ^ 3 * f y) = c ^ 3 * f ((shortCurve 0 b).negY x y) := by
  simp [negY, shortCurve]

include hc in
theorem tw_cond (x₁ x₂ y₁ y₂ : F) : (c ^ 2 * f x₁ = c ^ 2 * f x₂ ∧ c ^ 3 * f y₁ = (shortCurve 0 b').negY (c ^ 2 * f x₂) (c ^ 3 * f y₂)) ↔
    (x₁ = x₂ ∧ y₁ = (shortCurve 0 b).negY x₂ y₂) := by
  rw [tw_negY (b := b)]
  constructor
  · rintro ⟨h1, h2⟩
    exact ⟨f.injective (mul_left_cancel₀ (pow_ne_zero 2 hc) h1), f.injective (mul_left_cancel₀ (pow_ne_zero 3 hc) h2)⟩
  · rintro ⟨h1, h2⟩
    rw [h1, h2]; exact ⟨rfl, rfl⟩

include hc in
theorem tw_slope (x₁ x₂ y₁ y₂ : F) : (shortCurve 0 b').slope (c ^ 2 * f x₁) (c ^ 2 * f x₂) (c ^ 3 * f y₁) (c ^ 3 * f y₂) =
    c * f ((shortCurve 0 b).slope x₁ x₂ y₁ y₂) := by
  by_cases hx : x₁ = x₂
  · subst hx
    by_cases hy : y₁ = (shortCurve 0 b).negY x₁ y₂
    · have h' := (tw_cond (b := b) (b' := b') (f := f) hc x₁ x₁ y₁ y₂).mpr ⟨rfl, hy⟩
      rw [slope_of_Y_eq rfl hy, slope_of_Y_eq rfl h'.2, map_zero, mul_zero]
    · have h' := fun h => hy ((tw_cond (b := b) (b' := b') (f := f) hc x₁ x₁ y₁ y₂).mp ⟨rfl, h⟩).2
      rw [slope_of_Y_ne rfl hy, slope_of_Y_ne rfl h', map_div₀]
      simp only [shortCurve, negY, map_add, map_sub, map_mul, map_pow, map_zero, map_neg, map_ofNat]
      rw [← mul_div_assoc]
      have e1 : (3 * (c ^ 2 * f x₁) ^ 2 + 2 * 0 * (c ^ 2 * f x₁) + 0 - 0 * (c ^ 3 * f y₁)) =
        c ^ 3 * (c * (3 * f x₁ ^ 2 + 2 * 0 * f x₁ + 0 - 0 * f y₁)) := by ring
      have e2 : (c ^ 3 * f y₁ - (-(c ^ 3 * f y₁) - 0 * (c ^ 2 * f x₁) - 0)) = c ^ 3 * (f y₁ - (-f y₁ - 0 * f x₁ - 0)) := by ring
      rw [e1, e2, mul_div_mul_left _ _ (pow_ne_zero 3 hc)]
  · have hx' : c ^ 2 * f x₁ ≠ c ^ 2 * f x₂ := fun h => hx (f.injective (mul_left_cancel₀ (pow_ne_zero 2 hc) h))
    rw [slope_of_X_ne hx, slope_of_X_ne hx', map_div₀, map_sub, map_sub, ← mul_sub, ← mul_sub, ← mul_div_assoc]
    have : c ^ 3 * (f y₁ - f y₂) = c ^ 2 * (c * (f y₁ - f y₂)) := by ring
    rw [this, mul_div_mul_left _ _ (pow_ne_zero 2 hc)]

theorem tw_zero : twPt f c hc hb (0 : (shortCurve 0 b).Point) = 0 := rfl

theorem tw_neg (P : (shortCurve 0 b).Point) : twPt f c hc hb (-P) = -twPt f c hc hb P := by
  rcases P with _ | ⟨x, y, h⟩
  · rfl
  · rw [Point.neg_some]
    show Point.some _ _ _ = -(Point.some _ _ _)
    rw [Point.neg_some]
    simp only [tw_negY (b := b)]

/-- **The map is additive.** -/
theorem tw_add (P Q : (shortCurve 0 b).Point) : twPt f c hc hb (P + Q) = twPt f c hc hb P + twPt f c hc hb Q := by
  rcases P with _ | ⟨x₁, y₁, h₁⟩
  · have : (Point.zero : (shortCurve 0 b).Point) = 0 := rfl
    rw [this, tw_zero, zero_add, zero_add]
  rcases Q with _ | ⟨x₂, y₂, h₂⟩
  · have : (Point.zero : (shortCurve 0 b).Point) = 0 := rfl
    rw [this, tw_zero, add_zero, add_zero]
  by_cases h : x₁ = x₂ ∧ y₁ = (shortCurve 0 b).negY x₂ y₂
  · have h' := (tw_cond (b := b) (b' := b') (f := f) hc x₁ x₂ y₁ y₂).mpr h
    rw [Point.add_of_Y_eq h.1 h.2, tw_zero]
    exact (Point.add_of_Y_eq (h₁ := tw_ns f c hc hb h₁) (h₂ := tw_ns f c hc hb h₂) h'.1 h'.2).symm
  · have h' := fun k => h ((tw_cond (b := b) (b' := b') (f := f) hc x₁ x₂ y₁ y₂).mp k)
    rw [Point.add_some h]
    refine Eq.trans ?_ (Point.add_some (h₁ := tw_ns f c hc hb h₁) (h₂ := tw_ns f c hc hb h₂) h').symm
    show Point.some _ _ _ = Point.some _ _ _
    simp only [tw_slope (b := b) hc, Point.some.injEq]
    constructor
    · simp [addX, shortCurve]; ring
    · simp [addY, negY, addX, negAddY, shortCurve]; ring

theorem tw_nsmul (n : ℕ) (P : (shortCurve 0 b).Point) : twPt f c hc hb (n • P) = n • twPt f c hc hb P := by
  induction n with
  | zero => rw [zero_nsmul, zero_nsmul, tw_zero]
  | succ n ih => rw [succ_nsmul, succ_nsmul, tw_add, ih]

theorem tw_zsmul (n : ℤ) (P : (shortCurve 0 b).Point) : twPt f c hc hb (n • P) = n • twPt f c hc hb P := by
  cases n with
  | ofNat n => simpa using tw_nsmul hc hb n P
  | negSucc n => rw [negSucc_zsmul, negSucc_zsmul, tw_neg, tw_nsmul]

theorem tw_eq_zero (P : (shortCurve 0 b).Point) : twPt f c hc hb P = 0 ↔ P = 0 := by
  rcases P with _ | ⟨x, y, h⟩
  · exact ⟨fun _ => rfl, fun _ => rfl⟩
  · exact ⟨fun h => absurd h (Point.some_ne_zero _), fun h => absurd h (Point.some_ne_zero _)⟩

theorem tw_vv (S X : (shortCurve 0 b).Point) :
    ∃ k : ℕ, vv (twPt f c hc hb S) (twPt f c hc hb X) = c ^ k * f (vv S X) := by
  rcases X with _ | ⟨x, y, h⟩
  · exact ⟨0, by show (1 : K) = c ^ 0 * f 1; rw [map_one]; ring⟩
  rcases S with _ | ⟨x₁, y₁, h₁⟩
  · refine ⟨0, ?_⟩
    have : (Point.zero : (shortCurve 0 b).Point) = 0 := rfl
    rw [this, tw_zero, vv_zero, vv_zero, map_one]; ring
  · refine ⟨2, ?_⟩
    rw [vv_some]
    show vv (Point.some _ _ _) (Point.some _ _ _) = _
    rw [vv_some, map_sub]; ring

/-- Lines are carried to lines. -/
theorem tw_lv (A B X : (shortCurve 0 b).Point) :
    ∃ k : ℕ, lv (twPt f c hc hb A) (twPt f c hc hb B) (twPt f c hc hb X) = c ^ k * f (lv A B X) := by
  rcases A with _ | ⟨x₁, y₁, h₁⟩
  · have : (Point.zero : (shortCurve 0 b).Point) = 0 := rfl
    rw [this, tw_zero, lv_zero_left, lv_zero_left]
    exact tw_vv hc hb B X
  rcases B with _ | ⟨x₂, y₂, h₂⟩
  · have : (Point.zero : (shortCurve 0 b).Point) = 0 := rfl
    rw [this, tw_zero, lv_zero_right, lv_zero_right]
    exact tw_vv hc hb _ X
  rcases X with _ | ⟨x, y, hX⟩
  · exact ⟨0, by show (1 : K) = c ^ 0 * f 1; rw [map_one]; ring⟩
  by_cases h : x₁ = x₂ ∧ y₁ = (shortCurve 0 b).negY x₂ y₂
  · have e : (Point.some x₂ y₂ h₂ : (shortCurve 0 b).Point) = -(Point.some x₁ y₁ h₁) := by
      rw [Point.neg_some]
      congr 1
      · exact h.1.symm
      · rw [h.2, h.1, negY_negY]
    rw [e, tw_neg, lv_neg_self, lv_neg_self]
    exact tw_vv hc hb _ _
  · have h' := fun k => h ((tw_cond (b := b) (b' := b') (f := f) hc x₁ x₂ y₁ y₂).mp k)
    refine ⟨3, ?_⟩
    rw [lv_some h₁ h₂ hX h]
    refine (lv_some (tw_ns f c hc hb h₁) (tw_ns f c hc hb h₂) (tw_ns f c hc hb hX) h').trans ?_
    rw [tw_slope (b := b) hc]
    simp only [map_add, map_sub, map_mul]
    ring

end
end Verif
