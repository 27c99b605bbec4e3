import Verif.Proofs.Sm9Enc
/-!
# Properties C40 (SM9 part), C53, C54, C57, C64, C65: the SM9 curve groups

`Spec.Sm9Point` is Mathlib's group of points of `y² = x³ + 5` over the field with `sm9p` elements, `Spec.Sm9Point2 w` that
of the twist `y² = x³ + 5u`, `u = w⁶`, over any field `K` over `F_p` with an element `w`, `w¹² = -2` (such fields exist:
C51_field_exists).  `Sm9IsAffine`, `Sm9IsJacobian`, `Sm9IsAffine2 w`, `Sm9IsJacobian2 w` say that the library's arrays hold
reduced coordinates of a curve point.
-/
set_option linter.constructorNameAsVariable false
set_option linter.unusedSectionVars false
namespace Verif.Props
open Verif Verif.Spec WeierstrassCurve.Affine

/-! ## C40: domain parameters -/

/-- **C40** the SM9 constants in the source are the published ones. -/
theorem C40_sm9_constants :
    beVal Sm9.sm9CurveP = sm9p ∧ beVal Sm9.sm9CurveN = sm9n ∧ beVal Sm9.sm9CurveA = 0 ∧ beVal Sm9.sm9CurveB = 5 ∧
    beVal Sm9.sm9CurveGx = sm9gx ∧ beVal Sm9.sm9CurveGy = sm9gy ∧
    beVal (Sm9.sm9Curve2Gx.take 32) = sm9g2x1 ∧ beVal (Sm9.sm9Curve2Gx.drop 32) = sm9g2x0 ∧
    beVal (Sm9.sm9Curve2Gy.take 32) = sm9g2y1 ∧ beVal (Sm9.sm9Curve2Gy.drop 32) = sm9g2y0 ∧
    val Sm9.nLimbs = sm9n ∧ IsMontCtx Sm9.fpCtx sm9p ∧ IsMontCtx Sm9.fnCtx sm9n :=
  ⟨by decide +kernel, by decide +kernel, by decide +kernel, by decide +kernel, by decide +kernel,
    by decide +kernel, by decide +kernel, by decide +kernel, by decide +kernel, by decide +kernel,
    by decide +kernel, Sm9.fpCtx_wf, Sm9.fnCtx_wf⟩

/-- **C40** every solution of the curve equation is a (nonsingular) point; the base point is one of them; the
group has exactly `n` elements, so every point except infinity, the base point included, has order `n` and generates
the group. -/
theorem C40_sm9_g1 :
    (∀ x y : ZMod sm9p, y ^ 2 = x ^ 3 + 5 ↔ sm9Curve.Nonsingular x y) ∧
    (∃ h, sm9G = .some (sm9gx : ZMod sm9p) (sm9gy : ZMod sm9p) h) ∧
    Nat.card Sm9Point = sm9n ∧ (∀ Q : Sm9Point, Q ≠ 0 → addOrderOf Q = sm9n) ∧
    (∀ Q : Sm9Point, ∃ k < sm9n, Q = k • sm9G) := by
  refine ⟨fun x y => ⟨sm9_nonsing, sm9_onCurve⟩, ⟨_, rfl⟩, sm9_card, fun Q hQ => sm9_order hQ, fun Q => ?_⟩
  have hm : Q ∈ AddSubgroup.zmultiples sm9G := by
    have : Nat.card Sm9Point = sm9n := sm9_card
    exact mem_zmultiples_of_prime_card (p := sm9n) this sm9G_ne
  obtain ⟨z, rfl⟩ := AddSubgroup.mem_zmultiples_iff.mp hm
  have hn : (0 : Int) < sm9n := by decide +kernel
  refine ⟨(z % sm9n).toNat, ?_, ?_⟩
  · have := Int.emod_lt_of_pos z hn
    have := Int.emod_nonneg z (ne_of_gt hn)
    omega
  · have e : ((z % sm9n).toNat : Int) = z % sm9n := Int.toNat_of_nonneg (Int.emod_nonneg z (ne_of_gt hn))
    rw [← natCast_zsmul, e]
    conv_lhs => rw [← Int.mul_ediv_add_emod z sm9n, add_zsmul, mul_comm, mul_zsmul, natCast_zsmul, sm9_nsmul,
      zsmul_zero, zero_add]

section
variable {K : Type} [Field K] [Algebra (ZMod sm9p) K] [DecidableEq K] {w : K} (hw : w ^ 12 = -2)
include hw

/-- **C40** the same for the twist, where the published generator has order `n`. -/
theorem C40_sm9_g2 :
    (∀ x y : K, y ^ 2 = x ^ 3 + 5 * w ^ 6 ↔ (sm9Twist w).Nonsingular x y) ∧
    ∃ h, addOrderOf (.some (sm9g2x0 + sm9g2x1 * w ^ 6) (sm9g2y0 + sm9g2y1 * w ^ 6) h : Sm9Point2 w) = sm9n :=
  ⟨fun _ _ => ⟨sm9_nonsing2 hw, sm9_onCurve2⟩, _, sm9_order2 hw⟩

end

/-- **C40** the base points the library multiplies are these. -/
theorem C40_sm9_base : Sm9IsAffine Sm9.p1 sm9G ∧
    ∀ (K : Type) (_ : Field K) (_ : Algebra (ZMod sm9p) K) (w : K), w ^ 12 = -2 →
      ∃ h, Sm9IsAffine2 w Sm9.p2 (.some (sm9g2x0 + sm9g2x1 * w ^ 6) (sm9g2y0 + sm9g2y1 * w ^ 6) h) :=
  ⟨p1_ok, fun _ _ _ _ hw => ⟨_, p2_ok hw⟩⟩

/-! ## C64: point arithmetic -/

/-- Everything about the point functions, for any coordinate field. -/
private theorem facts {α K : Type} [Field K] [DecidableEq K] {F : FpOps α} {ok wk : α → Prop} {φ : α → K} {b : K}
    (h : WkHom F ok wk φ) (h2 : (2 : K) ≠ 0) (P P' : EcJ α) (A : EcA α) (Q Q' S : (shortCurve 0 b).Point)
    (hP : IsJacobianOf ok φ P Q) (hP' : IsJacobianOf ok φ P' Q') (hA : IsAffineOf ok φ A S) :
    (∃ R, ecJDbl0 F P = some R ∧ IsJacobianOf ok φ R (Q + Q)) ∧
    ((Q = 0 ↔ Q' = 0) → ∃ R, ecJAdd0 F P P' = some R ∧ IsJacobianOf ok φ R (Q + Q')) ∧
    IsJacobianOf ok φ (ecJAddA F P A) (if Q = 0 ∨ Q = S then 0 else Q + S) ∧
    IsJacobianOf ok φ (ecJFromA F A) S ∧
    (Q ≠ 0 → ∃ R, ecJToA F P = some R ∧ IsAffineOf ok φ R Q) ∧
    (Q = 0 → ∃ R, ecJToA F P = some R ∧ ok R.x ∧ ok R.y ∧ φ R.x = 0 ∧ φ R.y = 0) ∧
    (∃ R, ecJNormal F P = some R ∧ IsJacobianOf ok φ R Q ∧ (φ R.z = 0 ∧ Q = 0 ∨ φ R.z = 1 ∧ Q ≠ 0)) ∧
    IsAffineOf wk φ (ecANeg F A) (-S) ∧ IsJacobianOf wk φ (ecJNeg F P) (-Q) ∧
    (Q ≠ 0 → Q' ≠ 0 → (ecJEqual F P P' = true ↔ Q = Q')) ∧
    (ecJIsInf F P = true ↔ Q = 0) ∧ IsJacobianOf (W := shortCurve 0 b) ok φ (ecJInf F) 0 :=
  ⟨dbl0_ok h hP, add0_ok h h2 hP hP', addA_wk h h2 hP (wk_affine h hA), fromA_ok h hA, toA_ok h hP,
    fun e => toA_inf h (e ▸ hP), normal_ok h hP, neg_wk h hA, jneg_wk h hP, equal_ok h hP hP', isInf_ok h hP, inf_ok h⟩

private theorem addInf {α K : Type} [Field K] [DecidableEq K] {F : FpOps α} {ok wk : α → Prop} {φ : α → K} {b : K}
    (h : WkHom F ok wk φ) (P : EcJ α) (Q : (shortCurve 0 b).Point) (hP : IsJacobianOf ok φ P Q) (h0 : Q ≠ 0) :
    (∃ R, ecJAdd0 F (ecJInf F) P = some R ∧ IsJacobianOf (W := shortCurve 0 b) ok φ R 0 ∧
      ¬ IsJacobianOf ok φ R (0 + Q)) ∧
    (∃ R, ecJAdd0 F P (ecJInf F) = some R ∧ IsJacobianOf (W := shortCurve 0 b) ok φ R 0 ∧
      ¬ IsJacobianOf ok φ R (Q + 0)) := by
  obtain ⟨⟨R, r1, r2⟩, R', r1', r2'⟩ := add0_inf_ok h hP
  rw [zero_add, add_zero]
  exact ⟨⟨R, r1, r2, fun hc => h0 ((isInf_ok h hc).mp ((isInf_ok h r2).mpr rfl))⟩,
    R', r1', r2', fun hc => h0 ((isInf_ok h hc).mp ((isInf_ok h r2').mpr rfl))⟩

/-- **C64** the point functions of `G1`: doubling; addition (unless exactly one operand is infinity); mixed addition,
which gives infinity when the Jacobian operand is infinity or equal to the affine one; conversions, normalisation,
negation (whose `y` may come out as the unreduced `p` instead of 0), comparison of finite points, test for infinity. -/
theorem C64_g1_partial (P P' : Sm9.J) (A : Sm9.A) (Q Q' S : Sm9Point) (hP : Sm9IsJacobian P Q)
    (hP' : Sm9IsJacobian P' Q') (hA : Sm9IsAffine A S) :
    (∃ R, Sm9.jDbl P = some R ∧ Sm9IsJacobian R (Q + Q)) ∧
    ((Q = 0 ↔ Q' = 0) → ∃ R, Sm9.jAdd P P' = some R ∧ Sm9IsJacobian R (Q + Q')) ∧
    Sm9IsJacobian (Sm9.jAddA P A) (if Q = 0 ∨ Q = S then 0 else Q + S) ∧
    Sm9IsJacobian (ecJFromA Sm9.fp A) S ∧
    (Q ≠ 0 → ∃ R, Sm9.jToA P = some R ∧ Sm9IsAffine R Q) ∧
    (Q = 0 → ∃ R, Sm9.jToA P = some R ∧ Reduced sm9p R.x ∧ Reduced sm9p R.y ∧ montVal sm9p R.x = 0 ∧
      montVal sm9p R.y = 0) ∧
    (∃ R, ecJNormal Sm9.fp P = some R ∧ Sm9IsJacobian R Q ∧
      (montVal sm9p R.z = 0 ∧ Q = 0 ∨ montVal sm9p R.z = 1 ∧ Q ≠ 0)) ∧
    IsAffineOf (AtMost sm9p) (montVal sm9p) (ecANeg Sm9.fp A) (-S) ∧
    IsJacobianOf (AtMost sm9p) (montVal sm9p) (ecJNeg Sm9.fp P) (-Q) ∧
    (Q ≠ 0 → Q' ≠ 0 → (ecJEqual Sm9.fp P P' = true ↔ Q = Q')) ∧
    (ecJIsInf Sm9.fp P = true ↔ Q = 0) ∧ Sm9IsJacobian (ecJInf Sm9.fp) 0 :=
  facts sm9fp_wk0 sm9_two_ne P P' A Q Q' S hP hP' hA

/-- **C64** the missing case of addition: a finite point plus infinity gives infinity, in either order. -/
theorem C64_g1_add_infinity_violated (P : Sm9.J) (Q : Sm9Point) (hP : Sm9IsJacobian P Q) (h0 : Q ≠ 0) :
    (∃ R, Sm9.jAdd (ecJInf Sm9.fp) P = some R ∧ Sm9IsJacobian R 0 ∧ ¬ Sm9IsJacobian R (0 + Q)) ∧
    (∃ R, Sm9.jAdd P (ecJInf Sm9.fp) = some R ∧ Sm9IsJacobian R 0 ∧ ¬ Sm9IsJacobian R (Q + 0)) :=
  addInf sm9fp_wk0 P Q hP h0

/-- **C64** `sm9_ec_a_check` decides membership of the curve. -/
theorem C64_g1_check (P : Sm9.A) (hx : Reduced sm9p P.x) (hy : Reduced sm9p P.y) :
    Sm9.ecCheck P = true ↔ ∃ Q, Sm9IsAffine P Q := s9Check_iff hx hy

section
variable {K : Type} [Field K] [Algebra (ZMod sm9p) K] [DecidableEq K] {w : K} (hw : w ^ 12 = -2)
include hw

/-- **C64** the same for the point functions of the twist. -/
theorem C64_g2_partial (P P' : Sm9.J2) (A : Sm9.A2) (Q Q' S : Sm9Point2 w) (hP : Sm9IsJacobian2 w P Q)
    (hP' : Sm9IsJacobian2 w P' Q') (hA : Sm9IsAffine2 w A S) :
    (∃ R, Sm9.j2Dbl P = some R ∧ Sm9IsJacobian2 w R (Q + Q)) ∧
    ((Q = 0 ↔ Q' = 0) → ∃ R, Sm9.j2Add P P' = some R ∧ Sm9IsJacobian2 w R (Q + Q')) ∧
    Sm9IsJacobian2 w (Sm9.j2AddA P A) (if Q = 0 ∨ Q = S then 0 else Q + S) ∧
    Sm9IsJacobian2 w (ecJFromA Sm9.fp2 A) S ∧
    (Q ≠ 0 → ∃ R, Sm9.j2ToA P = some R ∧ Sm9IsAffine2 w R Q) ∧
    (Q = 0 → ∃ R, Sm9.j2ToA P = some R ∧ All2 (Reduced sm9p) R.x ∧ All2 (Reduced sm9p) R.y ∧
      fp2Den w R.x = 0 ∧ fp2Den w R.y = 0) ∧
    (∃ R, ecJNormal Sm9.fp2 P = some R ∧ Sm9IsJacobian2 w R Q ∧
      (fp2Den w R.z = 0 ∧ Q = 0 ∨ fp2Den w R.z = 1 ∧ Q ≠ 0)) ∧
    IsAffineOf (All2 (AtMost sm9p)) (fp2Den w) (ecANeg Sm9.fp2 A) (-S) ∧
    IsJacobianOf (All2 (AtMost sm9p)) (fp2Den w) (ecJNeg Sm9.fp2 P) (-Q) ∧
    (Q ≠ 0 → Q' ≠ 0 → (ecJEqual Sm9.fp2 P P' = true ↔ Q = Q')) ∧
    (ecJIsInf Sm9.fp2 P = true ↔ Q = 0) ∧ Sm9IsJacobian2 w (ecJInf Sm9.fp2) 0 :=
  facts (sm9fp2_wk hw) (sm9K_two_ne (K := K)) P P' A Q Q' S hP hP' hA

/-- **C64** the missing case of addition on the twist. -/
theorem C64_g2_add_infinity_violated (P : Sm9.J2) (Q : Sm9Point2 w) (hP : Sm9IsJacobian2 w P Q) (h0 : Q ≠ 0) :
    (∃ R, Sm9.j2Add (ecJInf Sm9.fp2) P = some R ∧ Sm9IsJacobian2 w R 0 ∧ ¬ Sm9IsJacobian2 w R (0 + Q)) ∧
    (∃ R, Sm9.j2Add P (ecJInf Sm9.fp2) = some R ∧ Sm9IsJacobian2 w R 0 ∧ ¬ Sm9IsJacobian2 w R (Q + 0)) :=
  addInf (sm9fp2_wk hw) P Q hP h0

/-- **C64** `sm9_ec2_a_check` decides membership of the twist. -/
theorem C64_g2_check (P : Sm9.A2) (hx : All2 (Reduced sm9p) P.x) (hy : All2 (Reduced sm9p) P.y) :
    Sm9.ec2Check P = true ↔ ∃ Q, Sm9IsAffine2 w P Q := s9Check2_iff hw hx hy

/-- The generator of `G2` meets the hypotheses, also after a doubling. -/
example : Sm9IsAffine2 w Sm9.p2 (sm9G2 hw) ∧ sm9G2 hw ≠ 0 ∧ ∃ P, Sm9IsJacobian2 w P (sm9G2 hw + sm9G2 hw) := by
  obtain ⟨R, -, r⟩ := dbl0_ok (sm9fp2_wk hw) (fromA_ok (sm9fp2_wk hw) (p2_ok hw))
  exact ⟨p2_ok hw, sm9G2_ne hw, R, r⟩

end

/-- The base point of `G1` meets the hypotheses, also after a doubling. -/
example : Sm9IsAffine Sm9.p1 sm9G ∧ sm9G ≠ 0 ∧ ∃ P, Sm9IsJacobian P (sm9G + sm9G) := by
  obtain ⟨R, -, r⟩ := dbl0_ok sm9fp_wk0 (fromA_ok sm9fp_wk0 p1_ok)
  exact ⟨p1_ok, sm9G_ne, R, r⟩

/-! ## C57: scalar multiplication -/

/-- **C57** for every 32-octet scalar and every point of `G1`, exactly: the function terminates with a representation
of `[k]Q`, except that for `k ≡ -2` modulo `n` it is one of the point at infinity. -/
theorem C57_mul_exact (k : List Byte) (hk : k.length = 32) (A : Sm9.A) (Q : Sm9Point) (hA : Sm9IsAffine A Q) :
    ∃ R, Sm9.jMulA k A = some R ∧
      Sm9IsJacobian R (if beVal k % sm9n = sm9n - 2 then 0 else beVal k • Q) := by
  have hQ : Q ≠ 0 := by obtain ⟨-, -, hs, e⟩ := hA; rw [e]; exact Point.some_ne_zero _
  exact mulA0_ok sm9fp_wk0 sm9_two_ne (N := sm9n) (by decide +kernel) (by decide +kernel) (by decide +kernel)
    (by decide +kernel) (by decide +kernel) hk (sm9_order hQ) hA

/-- **C57** the claim, for the scalars for which it holds. -/
theorem C57_mul_partial (k : List Byte) (hk : k.length = 32) (A : Sm9.A) (Q : Sm9Point) (hA : Sm9IsAffine A Q)
    (hne : beVal k % sm9n ≠ sm9n - 2) : ∃ R, Sm9.jMulA k A = some R ∧ Sm9IsJacobian R (beVal k • Q) := by
  have := C57_mul_exact k hk A Q hA
  rwa [if_neg hne] at this

/-- **C57** multiplication of the base point (public keys, signing): the affine result, for scalars that are not 0 or
-2 modulo `n`. -/
theorem C57_mul_g_partial (k : List Byte) (hk : k.length = 32) (h0 : ¬ sm9n ∣ beVal k)
    (hne : beVal k % sm9n ≠ sm9n - 2) :
    ∃ R S, Sm9.jMulG k = some R ∧ Sm9.jToA R = some S ∧ Sm9IsAffine S (beVal k • sm9G) := by
  obtain ⟨R, r1, r2⟩ := C57_mul_partial k hk Sm9.p1 sm9G p1_ok hne
  have hz : beVal k • sm9G ≠ 0 := fun h => h0 (by
    rw [← sm9_order sm9G_ne]; exact addOrderOf_dvd_of_nsmul_eq_zero h)
  obtain ⟨S, s1, s2⟩ := toA_ok sm9fp_wk0 r2 hz
  exact ⟨R, S, r1, s1, s2⟩

/-- **C57** the failure: `[n-2]Q` comes out as the point at infinity for every point `Q`, although it is `-[2]Q`, and the
conversion to affine form then gives the pair (0, 0), which is not a point. -/
theorem C57_mul_violated (k : List Byte) (hk : k.length = 32) (hne : beVal k % sm9n = sm9n - 2) (A : Sm9.A)
    (Q : Sm9Point) (hA : Sm9IsAffine A Q) :
    ∃ R S, Sm9.jMulA k A = some R ∧ Sm9IsJacobian R 0 ∧ beVal k • Q ≠ 0 ∧ Sm9.jToA R = some S ∧
      montVal sm9p S.x = 0 ∧ montVal sm9p S.y = 0 ∧ ¬ ∃ T, Sm9IsAffine S T := by
  obtain ⟨R, r1, r2⟩ := C57_mul_exact k hk A Q hA
  rw [if_pos hne] at r2
  have hQ : Q ≠ 0 := by obtain ⟨-, -, hs, e⟩ := hA; rw [e]; exact Point.some_ne_zero _
  obtain ⟨S, s1, s2, s3, s4, s5⟩ := toA_inf sm9fp_wk0 r2
  refine ⟨R, S, r1, r2, fun h => ?_, s1, s4, s5, ?_⟩
  · have hd := addOrderOf_dvd_of_nsmul_eq_zero h
    rw [sm9_order hQ] at hd
    rw [Nat.mod_eq_zero_of_dvd hd] at hne
    exact absurd hne (by decide +kernel)
  · rintro ⟨T, -, -, h, -⟩
    have := sm9_onCurve h
    exact sm9_y_ne this s5

/-- The excluded scalar exists (so does its alias above `n`), and so do scalars that are not excluded. -/
example : beVal (toBE 32 (sm9n - 2)) % sm9n = sm9n - 2 ∧ ¬ sm9n ∣ beVal (toBE 32 (2 ^ 256 - 1)) ∧
    beVal (toBE 32 (2 ^ 256 - 1)) % sm9n ≠ sm9n - 2 := by decide +kernel

section
variable {K : Type} [Field K] [Algebra (ZMod sm9p) K] [DecidableEq K] {w : K} (hw : w ^ 12 = -2)
include hw

/-- **C57** the same in `G2`, i.e. for points of order `n` of the twist. -/
theorem C57_g2_mul_exact (k : List Byte) (hk : k.length = 32) (A : Sm9.A2) (Q : Sm9Point2 w)
    (hord : addOrderOf Q = sm9n) (hA : Sm9IsAffine2 w A Q) :
    ∃ R, Sm9.j2MulA k A = some R ∧
      Sm9IsJacobian2 w R (if beVal k % sm9n = sm9n - 2 then 0 else beVal k • Q) :=
  mulA0_ok (sm9fp2_wk hw) (sm9K_two_ne (K := K)) (N := sm9n) (by decide +kernel) (by decide +kernel)
    (by decide +kernel) (by decide +kernel) (by decide +kernel) hk hord hA

/-- **C57** multiplication of the generator of `G2`: the affine result, for scalars that are not 0 or -2 modulo `n`. -/
theorem C57_g2_mul_g_partial (k : List Byte) (hk : k.length = 32) (h0 : ¬ sm9n ∣ beVal k)
    (hne : beVal k % sm9n ≠ sm9n - 2) :
    ∃ R S, Sm9.j2MulG k = some R ∧ Sm9.j2ToA R = some S ∧ Sm9IsAffine2 w S (beVal k • sm9G2 hw) := by
  obtain ⟨R, r1, r2⟩ := C57_g2_mul_exact hw k hk Sm9.p2 (sm9G2 hw) (sm9_order2 hw) (p2_ok hw)
  rw [if_neg hne] at r2
  have hz : beVal k • sm9G2 hw ≠ 0 := fun h => h0 (by
    rw [← sm9_order2 hw]; exact addOrderOf_dvd_of_nsmul_eq_zero h)
  obtain ⟨S, s1, s2⟩ := toA_ok (sm9fp2_wk hw) r2 hz
  exact ⟨R, S, r1, s1, s2⟩

/-- **C57** the failure in `G2`. -/
theorem C57_g2_mul_violated (k : List Byte) (hk : k.length = 32) (hne : beVal k % sm9n = sm9n - 2) :
    ∃ R S, Sm9.j2MulG k = some R ∧ Sm9IsJacobian2 w R 0 ∧ beVal k • sm9G2 hw ≠ 0 ∧ Sm9.j2ToA R = some S ∧
      fp2Den w S.x = 0 ∧ fp2Den w S.y = 0 ∧ Sm9.ec2Check S = false := by
  obtain ⟨R, r1, r2⟩ := C57_g2_mul_exact hw k hk Sm9.p2 (sm9G2 hw) (sm9_order2 hw) (p2_ok hw)
  rw [if_pos hne] at r2
  obtain ⟨S, s1, s2, s3, s4, s5⟩ := toA_inf (sm9fp2_wk hw) r2
  refine ⟨R, S, r1, r2, fun h => ?_, s1, s4, s5, ?_⟩
  · have hd := addOrderOf_dvd_of_nsmul_eq_zero h
    rw [sm9_order2 hw] at hd
    rw [Nat.mod_eq_zero_of_dvd hd] at hne
    exact absurd hne (by decide +kernel)
  · rw [← Bool.not_eq_true, s9Check2_iff hw s2 s3]
    rintro ⟨T, -, -, h, -⟩
    have := sm9_onCurve2 h
    rw [s4, s5] at this
    have h5 : (5 : K) ≠ 0 := by exact_mod_cast sm9K_nat_ne (K := K) 5 (by decide +kernel)
    apply mul_ne_zero h5 (pow_ne_zero 6 (sm9w_ne hw))
    linear_combination -this

end

/-! ## C65: encodings of `G1` -/

/-- **C65** the three encoders write the standard's octet strings. -/
theorem C65_encode (A : Sm9.A) (x y : ZMod sm9p) (h : sm9Curve.Nonsingular x y)
    (hA : Sm9IsAffine A (.some x y h)) :
    Sm9.toUncompressed A = 0x04 :: (toBE 32 x.val ++ toBE 32 y.val) ∧
    Sm9.toCompressed A = (if y.val % 2 = 0 then 0x02 else 0x03) :: toBE 32 x.val ∧
    Sm9.toMix A = (if y.val % 2 = 0 then 0x06 else 0x07) :: (toBE 32 x.val ++ toBE 32 y.val) := by
  obtain ⟨hx, hy, hs, e⟩ := hA
  obtain ⟨rfl, rfl⟩ := (Point.some.injEq ..).mp e
  have e := lsb_toBE 32 (montVal sm9p A.y).val (by omega)
  unfold Sm9.toUncompressed Sm9.toCompressed Sm9.toMix Sm9.toBytes04
  rw [lsb_append _ _ (by rw [s9To_eq hy]; exact sm9Octets_ne _), s9To_eq hx, s9To_eq hy]
  unfold sm9Octets
  rw [e]
  rcases Nat.mod_two_eq_zero_or_one (montVal sm9p A.y).val with h | h <;> simp [h]

/-- **C65** round trip: decoding any of the three encodings, followed by any other octets, gives back the point
array and the number of octets of the encoding. -/
theorem C65_round_trip (A : Sm9.A) (Q : Sm9Point) (hA : Sm9IsAffine A Q) (rest : List Byte) (inl : Nat)
    (hl : inl ≠ 0) :
    Sm9.ecAFromBytes (Sm9.toUncompressed A ++ rest) inl = .ok (A, (Sm9.toUncompressed A).length) ∧
    Sm9.ecAFromBytes (Sm9.toCompressed A ++ rest) inl = .ok (A, (Sm9.toCompressed A).length) ∧
    Sm9.ecAFromBytes (Sm9.toMix A ++ rest) inl = .ok (A, (Sm9.toMix A).length) := by
  have hA0 := hA
  obtain ⟨hx, hy, hs, rfl⟩ := hA
  obtain ⟨e1, e2, e3⟩ := C65_encode A _ _ hs hA0
  generalize ex : montVal sm9p A.x = X at *
  generalize ey : montVal sm9p A.y = Y at *
  have lx : (toBE 32 X.val).length = 32 := toBE_len _ _
  have ly : (toBE 32 Y.val).length = 32 := toBE_len _ _
  have hv : ∀ Z : ZMod sm9p, (beVal (toBE 32 Z.val) : ZMod sm9p) = Z := fun Z => by
    rw [beVal_toBE, Nat.mod_eq_of_lt ((ZMod.val_lt _).trans (by decide +kernel)), ZMod.natCast_val, ZMod.cast_id]
  have full : ∀ b : Byte, (b = 0x04 ∨ b = 0x06 ∨ b = 0x07) →
      Sm9.ecAFromBytes (b :: ((toBE 32 X.val ++ toBE 32 Y.val) ++ rest)) inl = .ok (A, 65) := by
    intro b hb
    refine (s9Full_iff hb hl (by rw [List.length_append, List.length_append]; omega) A 65).mpr ⟨rfl, _, hA0, ?_⟩
    rw [List.append_assoc, List.take_left' lx, List.drop_left' lx, List.take_left' ly, hv, hv]
    exact ⟨hs, rfl⟩
  have l64 : (toBE 32 X.val ++ toBE 32 Y.val).length = 64 := by rw [List.length_append, lx, ly]
  refine ⟨?_, ?_, ?_⟩
  · rw [e1, List.length_cons, l64]
    exact full 4 (Or.inl rfl)
  · rw [e2, List.length_cons, lx, List.cons_append]
    refine (s9Comp_iff (by split <;> simp) hl (by rw [List.length_append, lx]; omega) A 33).mpr ⟨rfl, _, hA0, ?_⟩
    rw [List.take_left' lx, hv]
    refine ⟨_, hs, rfl, ?_⟩
    rcases Nat.mod_two_eq_zero_or_one Y.val with h | h <;> simp [h]
  · rw [e3, List.length_cons, l64]
    exact full _ (by split <;> simp)

/-- **C65** what the decoder accepts.  Tags 04, 06, 07 with 64 readable octets: exactly when the coordinates
(reduced modulo `p`) satisfy the curve equation, and the result is that point. -/
theorem C65_decode_full (b : Byte) (hb : b = 0x04 ∨ b = 0x06 ∨ b = 0x07) (rest : List Byte) (inl : Nat)
    (hl : inl ≠ 0) (hr : 64 ≤ rest.length) (R : Sm9.A) (n : Nat) :
    Sm9.ecAFromBytes (b :: rest) inl = .ok (R, n) ↔
      n = 65 ∧ ∃ Q, Sm9IsAffine R Q ∧ ∃ h, Q = .some (beVal (rest.take 32) : ZMod sm9p)
        (beVal ((rest.drop 32).take 32) : ZMod sm9p) h := s9Full_iff hb hl hr R n

/-- **C65** Tags 02, 03 with 32 readable octets: exactly when there is a point with that `x`, and the result is the
one whose `y` has the parity of the tag. -/
theorem C65_decode_compressed (b : Byte) (hb : b = 0x02 ∨ b = 0x03) (rest : List Byte) (inl : Nat)
    (hl : inl ≠ 0) (hr : 32 ≤ rest.length) (R : Sm9.A) (n : Nat) :
    Sm9.ecAFromBytes (b :: rest) inl = .ok (R, n) ↔
      n = 33 ∧ ∃ Q, Sm9IsAffine R Q ∧ ∃ y h, Q = .some (beVal (rest.take 32) : ZMod sm9p) y h ∧
        y.val % 2 = b.toNat % 2 := s9Comp_iff hb hl hr R n

/-- **C65** any other tag, and length 0, are rejected. -/
theorem C65_decode_other (b : Byte) (rest : List Byte) (inl : Nat) :
    (b ≠ 0x02 → b ≠ 0x03 → b ≠ 0x04 → b ≠ 0x06 → b ≠ 0x07 → Sm9.ecAFromBytes (b :: rest) inl = .fail) ∧
    Sm9.ecAFromBytes (b :: rest) 0 = .fail ∧ Sm9.ecAFromBytes [] 0 = .fail := by
  refine ⟨fun h2 h3 h4 h6 h7 => s9Other ?_ ?_ rest inl, ?_, ?_⟩
  · rintro (h | h | h)
    · exact h4 h
    · exact h6 h
    · exact h7 h
  · rintro (h | h)
    · exact h2 h
    · exact h3 h
  · unfold Sm9.ecAFromBytes; rw [if_pos rfl]
  · unfold Sm9.ecAFromBytes; rw [if_pos rfl]

/-- **C65** whatever is accepted, from whatever buffer, is a point on the curve. -/
theorem C65_decode_on_curve (inp : List Byte) (inl : Nat) (R : Sm9.A) (n : Nat)
    (h : Sm9.ecAFromBytes inp inl = .ok (R, n)) : (∃ Q, Sm9IsAffine R Q) ∧ n ≤ inp.length := by
  by_cases hl : inl = 0
  · subst hl
    unfold Sm9.ecAFromBytes at h
    rw [if_pos rfl] at h
    cases h
  cases inp with
  | nil => unfold Sm9.ecAFromBytes at h; rw [if_neg hl] at h; cases h
  | cons b rest =>
    by_cases h1 : b = 0x04 ∨ b = 0x06 ∨ b = 0x07
    · by_cases hr : 64 ≤ rest.length
      · obtain ⟨rfl, Q, q1, -⟩ := (s9Full_iff h1 hl hr R n).mp h
        exact ⟨⟨Q, q1⟩, by rw [List.length_cons]; omega⟩
      · unfold Sm9.ecAFromBytes at h
        rw [if_neg hl] at h
        simp only at h
        rw [if_pos h1, if_pos (by omega)] at h
        cases h
    · by_cases h2 : b = 0x02 ∨ b = 0x03
      · by_cases hr : 32 ≤ rest.length
        · obtain ⟨rfl, Q, q1, -⟩ := (s9Comp_iff h2 hl hr R n).mp h
          exact ⟨⟨Q, q1⟩, by rw [List.length_cons]; omega⟩
        · unfold Sm9.ecAFromBytes at h
          rw [if_neg hl] at h
          simp only at h
          rw [if_neg h1, if_pos h2, if_pos (by omega)] at h
          cases h
      · rw [s9Other h1 h2] at h
        cases h

/-- **C65** the decoder is not injective: the parity in a mixed-form tag is ignored, and coordinates are accepted
modulo `p` (`(-1, 2)` is a point). -/
theorem C65_noncanonical_accepted :
    (∀ rest inl, Sm9.ecAFromBytes (0x06 :: rest) inl = Sm9.ecAFromBytes (0x07 :: rest) inl) ∧
    ∃ R, Sm9.ecAFromBytes (0x04 :: (toBE 32 (sm9p - 1) ++ toBE 32 2)) 65 = .ok (R, 65) ∧
      Sm9.ecAFromBytes (0x04 :: (toBE 32 (sm9p - 1) ++ toBE 32 (sm9p + 2))) 65 = .ok (R, 65) := by
  refine ⟨fun rest inl => by unfold Sm9.ecAFromBytes; simp,
    ⟨Sm9.fpFromBytes (toBE 32 (sm9p - 1)), Sm9.fpFromBytes (toBE 32 2)⟩, ?_, ?_⟩ <;> decide +kernel

/-- The compressed base point (its `y` is even) and its decoding. -/
example : Sm9.toCompressed Sm9.p1 = 0x02 :: Sm9.sm9CurveGx ∧
    Sm9.ecAFromBytes (0x06 :: (Sm9.sm9CurveGx ++ Sm9.sm9CurveGy)) 65 = .ok (Sm9.p1, 65) := by decide +kernel

/-! ## C53: reads beyond the input -/

/-- **C53** exactly when the decoder stays within the buffer it is given: the length argument plays no role (except
that 0 is rejected), so an encoding truncated anywhere after its tag is read beyond its end. -/
theorem C53_decoder_overread_iff (inp : List Byte) (inl : Nat) :
    Sm9.ecAFromBytes inp inl = .ub ↔ inl ≠ 0 ∧ (inp = [] ∨ ∃ b rest, inp = b :: rest ∧
      ((b = 0x04 ∨ b = 0x06 ∨ b = 0x07) ∧ rest.length < 64 ∨ (b = 0x02 ∨ b = 0x03) ∧ rest.length < 32)) := by
  by_cases hl : inl = 0
  · subst hl
    unfold Sm9.ecAFromBytes
    rw [if_pos rfl]
    simp
  · cases inp with
    | nil => unfold Sm9.ecAFromBytes; rw [if_neg hl]; simp [hl]
    | cons b rest =>
      have hs : (inl ≠ 0 ∧ (b :: rest = [] ∨ ∃ b' rest', b :: rest = b' :: rest' ∧
          ((b' = 0x04 ∨ b' = 0x06 ∨ b' = 0x07) ∧ rest'.length < 64 ∨ (b' = 0x02 ∨ b' = 0x03) ∧ rest'.length < 32))) ↔
          ((b = 0x04 ∨ b = 0x06 ∨ b = 0x07) ∧ rest.length < 64 ∨ (b = 0x02 ∨ b = 0x03) ∧ rest.length < 32) := by
        constructor
        · rintro ⟨-, h | ⟨b', rest', h, h'⟩⟩
          · cases h
          · cases h; exact h'
        · exact fun h => ⟨hl, Or.inr ⟨b, rest, rfl, h⟩⟩
      rw [hs]
      by_cases h1 : b = 0x04 ∨ b = 0x06 ∨ b = 0x07
      · have h2 : ¬ (b = 0x02 ∨ b = 0x03) := by rcases h1 with rfl | rfl | rfl <;> decide
        unfold Sm9.ecAFromBytes
        rw [if_neg hl]
        simp only
        rw [if_pos h1]
        by_cases hr : rest.length < 64
        · rw [if_pos hr]; exact ⟨fun _ => Or.inl ⟨h1, hr⟩, fun _ => rfl⟩
        · rw [if_neg hr]
          constructor
          · intro h; split_ifs at h
          · rintro (⟨-, h⟩ | ⟨h, -⟩)
            · exact absurd h hr
            · exact absurd h h2
      · by_cases h2 : b = 0x02 ∨ b = 0x03
        · by_cases hr : rest.length < 32
          · unfold Sm9.ecAFromBytes
            rw [if_neg hl]
            simp only
            rw [if_neg h1, if_pos h2, if_pos hr]
            exact ⟨fun _ => Or.inr ⟨h2, hr⟩, fun _ => rfl⟩
          · constructor
            · intro h
              exfalso
              have hy : (if b = 0x02 then 0 else 1 : Byte) = 0 ∨ (if b = 0x02 then 0 else 1 : Byte) = 1 := by
                rcases h2 with rfl | rfl <;> decide
              obtain ⟨x1, -⟩ := s9From_ok (bs := rest.take 32) (by simp; omega)
              unfold Sm9.ecAFromBytes at h
              rw [if_neg hl] at h
              simp only at h
              rw [if_neg h1, if_pos h2, if_neg hr] at h
              rcases s9RecoverY x1 hy with ⟨y, y1, -⟩ | ⟨y1, -⟩
              · rw [y1] at h
                simp only at h
                split_ifs at h
              · rw [y1] at h
                cases h
            · rintro (⟨h, -⟩ | ⟨-, h⟩)
              · exact absurd h h1
              · exact absurd h hr
        · rw [s9Other h1 h2]
          constructor
          · intro h; cases h
          · rintro (⟨h, -⟩ | ⟨h, -⟩)
            · exact absurd h h1
            · exact absurd h h2

/-- **C53** the claim fails: a one-octet input of length 1 makes the decoder read beyond it. -/
theorem C53_decoder_violated : Sm9.ecAFromBytes [0x04] 1 = .ub ∧ Sm9.ecAFromBytes [0x02] 1 = .ub := by decide

/-- **C53** inputs with all their octets present are decoded without reading further, whatever the contents. -/
theorem C53_decoder_partial (inp : List Byte) (inl : Nat) (h : 65 ≤ inp.length) : Sm9.ecAFromBytes inp inl ≠ .ub := by
  rw [Ne, C53_decoder_overread_iff]
  rintro ⟨-, rfl | ⟨b, rest, rfl, ⟨-, hr⟩ | ⟨-, hr⟩⟩⟩
  · simp at h
  · rw [List.length_cons] at h; omega
  · rw [List.length_cons] at h; omega

/-! ## C54: encodings of `G2` -/

/-- **C54** what the encoder of a `G2` point with `x = x1 u + x0`, `y = y1 u + y0` leaves in the caller's 129-octet
buffer: `x0` is missing and the last 32 octets are not written. -/
theorem C54_encode (buf : List Byte) (hb : buf.length = 129) (A : Sm9.A2) (hx : All2 (Reduced sm9p) A.x)
    (hy : All2 (Reduced sm9p) A.y) :
    Sm9.ec2ToUncompressed buf A = 0x04 :: (sm9Octets (montVal sm9p A.x.c1) ++ sm9Octets (montVal sm9p A.y.c1) ++
      sm9Octets (montVal sm9p A.y.c0) ++ buf.drop 97) := by
  unfold Sm9.ec2ToUncompressed Sm9.ec2ToBytes04 Sm9.fp2ToBytes
  rw [s9To_eq hx.1, s9To_eq hx.2, s9To_eq hy.1, s9To_eq hy.2]
  have l1 := sm9Octets_len (montVal sm9p A.x.c1)
  have l2 := sm9Octets_len (montVal sm9p A.x.c0)
  generalize sm9Octets (montVal sm9p A.x.c1) = a at *
  generalize sm9Octets (montVal sm9p A.x.c0) = b at *
  generalize sm9Octets (montVal sm9p A.y.c1) = c at *
  generalize sm9Octets (montVal sm9p A.y.c0) = d at *
  have t1 : (a ++ b ++ (buf.drop 1).drop 64).take 32 = a := by rw [List.append_assoc, List.take_left' l1]
  have t2 : (a ++ b ++ (buf.drop 1).drop 64).drop 96 = buf.drop 97 := by
    rw [List.drop_append, List.drop_of_length_le (by rw [List.length_append]; omega), List.nil_append,
      List.length_append, l1, l2, List.drop_drop, List.drop_drop]
  dsimp only
  rw [t1, t2]
  simp only [List.append_assoc]

/-- **C54** what encoding followed by decoding gives: `y` is kept and the `x0` coefficient is replaced by `y1`. -/
theorem C54_round_trip_result (buf : List Byte) (hb : buf.length = 129) (A : Sm9.A2) (hx : All2 (Reduced sm9p) A.x)
    (hy : All2 (Reduced sm9p) A.y) (inl : Nat) (hl : inl ≠ 0) :
    Sm9.ec2AFromBytes (Sm9.ec2ToUncompressed buf A) inl = .ok (⟨⟨A.y.c1, A.x.c1⟩, A.y⟩, 129) := by
  have h := C54_encode buf hb A hx hy
  rw [← s9To_eq hx.2, ← s9To_eq hy.2, ← s9To_eq hy.1] at h
  have l1 := fp_to_len _ hx.2
  have l2 := fp_to_len _ hy.2
  have l3 := fp_to_len _ hy.1
  rw [h]
  unfold Sm9.ec2AFromBytes
  rw [if_neg hl]
  simp only
  rw [if_pos (Or.inl trivial), if_neg (by simp only [List.length_append, l1, l2, l3, List.length_drop, hb]; omega)]
  unfold Sm9.ec2FromBytes04 Sm9.fp2FromBytes
  have e1 := fp_from_to _ hx.2
  have e2 := fp_from_to _ hy.2
  have e3 := fp_from_to _ hy.1
  generalize Sm9.fpToBytes A.x.c1 = a at *
  generalize Sm9.fpToBytes A.y.c1 = b at *
  generalize Sm9.fpToBytes A.y.c0 = c at *
  generalize buf.drop 97 = d at *
  have t1 : (a ++ b ++ c ++ d).take 64 = a ++ b := by
    rw [List.append_assoc (a ++ b), List.take_left' (by rw [List.length_append, l1, l2])]
  have t2 : ((a ++ b ++ c ++ d).drop 32).take 64 = b ++ c := by
    rw [List.append_assoc a, List.append_assoc a, List.drop_left' l1, List.take_left' (by rw [List.length_append, l2, l3])]
  rw [t1, t2, List.drop_left' l1, List.drop_left' l2, List.take_left' l1, List.take_left' l2,
    List.take_of_length_le (l := b) (by omega), List.take_of_length_le (l := c) (by omega), e1, e2, e3]

/-- **C54** the round trip, which the property asks for, works exactly for points whose `x0` happens to equal `y1`. -/
theorem C54_round_trip_iff_partial (buf : List Byte) (hb : buf.length = 129) (A : Sm9.A2)
    (hx : All2 (Reduced sm9p) A.x) (hy : All2 (Reduced sm9p) A.y) (inl : Nat) (hl : inl ≠ 0) :
    Sm9.ec2AFromBytes (Sm9.ec2ToUncompressed buf A) inl = .ok (A, 129) ↔ A.x.c0 = A.y.c1 := by
  rw [C54_round_trip_result buf hb A hx hy inl hl]
  constructor
  · intro h
    rw [Sm2.ParseRes.ok.injEq, Prod.mk.injEq] at h
    have := congrArg (fun P : Sm9.A2 => P.x.c0) h.1
    exact this.symm
  · intro h
    rw [← h]

/-- **C54** it fails for the generator, and what comes back is not on the curve. -/
theorem C54_violated (buf : List Byte) (hb : buf.length = 129) : ∃ R,
    Sm9.ec2AFromBytes (Sm9.ec2ToUncompressed buf Sm9.p2) 129 = .ok (R, 129) ∧ R ≠ Sm9.p2 ∧ Sm9.ec2Check R = false ∧
    Sm9.ec2Check Sm9.p2 = true := by
  obtain ⟨K, _, _, w, hw⟩ : ∃ (K : Type) (_ : Field K) (_ : Algebra (ZMod sm9p) K) (w : K), w ^ 12 = -2 :=
    sm9_field_exists
  obtain ⟨hx, hy, -⟩ := p2_ok hw
  refine ⟨_, C54_round_trip_result buf hb Sm9.p2 hx hy 129 (by decide), ?_, ?_, ?_⟩
  · decide +kernel
  · decide +kernel
  · decide +kernel

/-- **C54** the standard's encoding `04 ‖ x1 ‖ x0 ‖ y1 ‖ y0` of a point, as other programs produce it, is also misread:
`y` is taken from `x0` and `y1`. -/
theorem C54_standard_misread (a b c d : ZMod sm9p) (inl : Nat) (hl : inl ≠ 0) : ∃ R,
    Sm9.ec2AFromBytes (0x04 :: (sm9Octets a ++ sm9Octets b ++ sm9Octets c ++ sm9Octets d)) inl = .ok (R, 129) ∧
      montVal sm9p R.x.c1 = a ∧ montVal sm9p R.x.c0 = b ∧ montVal sm9p R.y.c1 = b ∧ montVal sm9p R.y.c0 = c := by
  have hv : ∀ Z : ZMod sm9p, (beVal (sm9Octets Z) : ZMod sm9p) = Z := fun Z => by
    unfold sm9Octets
    rw [beVal_toBE, Nat.mod_eq_of_lt ((ZMod.val_lt _).trans (by decide +kernel)), ZMod.natCast_val, ZMod.cast_id]
  have la := sm9Octets_len a
  have lb := sm9Octets_len b
  have lc := sm9Octets_len c
  have ld := sm9Octets_len d
  have ha := hv a
  have hb := hv b
  have hc := hv c
  have fa := (s9From_ok la).2
  have fb := (s9From_ok lb).2
  have fc := (s9From_ok lc).2
  unfold Sm9.ec2AFromBytes
  rw [if_neg hl]
  simp only
  rw [if_pos (Or.inl trivial), if_neg (by simp only [List.length_append, la, lb, lc, ld]; omega)]
  refine ⟨_, rfl, ?_⟩
  unfold Sm9.ec2FromBytes04 Sm9.fp2FromBytes
  generalize sm9Octets a = A at *
  generalize sm9Octets b = B at *
  generalize sm9Octets c = C at *
  generalize sm9Octets d = D at *
  have t1 : (A ++ B ++ C ++ D).take 64 = A ++ B := by
    rw [List.append_assoc (A ++ B), List.take_left' (by rw [List.length_append, la, lb])]
  have t2 : ((A ++ B ++ C ++ D).drop 32).take 64 = B ++ C := by
    rw [List.append_assoc A, List.append_assoc A, List.drop_left' la, List.take_left' (by rw [List.length_append, lb, lc])]
  rw [t1, t2, List.drop_left' la, List.drop_left' lb, List.take_left' la, List.take_left' lb,
    List.take_of_length_le (l := B) (by omega), List.take_of_length_le (l := C) (by omega)]
  exact ⟨fa.trans ha, fb.trans hb, fb.trans hb, fc.trans hc⟩

/-- **C54** nothing with tag 04, 06 or 07 is rejected, compressed points always are. -/
theorem C54_decode_decision (b : Byte) (rest : List Byte) (inl : Nat) (hl : inl ≠ 0) :
    ((b = 0x04 ∨ b = 0x06 ∨ b = 0x07) → 96 ≤ rest.length → ∃ R, Sm9.ec2AFromBytes (b :: rest) inl = .ok (R, 129)) ∧
    (¬ (b = 0x04 ∨ b = 0x06 ∨ b = 0x07) → Sm9.ec2AFromBytes (b :: rest) inl = .fail) := by
  unfold Sm9.ec2AFromBytes
  rw [if_neg hl]
  simp only
  refine ⟨fun h hr => ?_, fun h => ?_⟩
  · rw [if_pos h, if_neg (by omega)]
    exact ⟨_, rfl⟩
  · rw [if_neg h]

end Verif.Props
