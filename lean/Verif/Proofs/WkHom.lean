import Verif.Proofs.EcField
import Verif.Spec.Sm9Tower
/-!
# Field operations whose negation may leave the unreduced representative of zero

`ok` = fully reduced, `wk` = reduced or the modulus itself (in every component).
-/
set_option linter.unusedSectionVars false
namespace Verif
open Spec

variable {K : Type} [Field K] {α : Type}

/-- `F` computes in `K` through `φ`. -/
structure WkHom (F : FpOps α) (ok wk : α → Prop) (φ : α → K) : Prop where
  wk_of : ∀ {a}, ok a → wk a
  add_ow : ∀ {a b}, ok a → wk b → ok (F.add a b)
  add_wo : ∀ {a b}, wk a → ok b → ok (F.add a b)
  add_ww : ∀ {a b}, wk a → wk b → wk (F.add a b)
  add : ∀ {a b}, wk a → wk b → φ (F.add a b) = φ a + φ b
  sub_ow : ∀ {a b}, ok a → wk b → ok (F.sub a b)
  sub : ∀ {a b}, ok a → wk b → φ (F.sub a b) = φ a - φ b
  mul_ww : ∀ {a b}, wk a → wk b → ok (F.mul a b)
  mul : ∀ {a b}, wk a → wk b → φ (F.mul a b) = φ a * φ b
  sqr_w : ∀ {a}, wk a → ok (F.sqr a)
  sqr : ∀ {a}, wk a → φ (F.sqr a) = φ a ^ 2
  dbl_o : ∀ {a}, ok a → ok (F.dbl a)
  dbl_w : ∀ {a}, wk a → wk (F.dbl a)
  dbl : ∀ {a}, wk a → φ (F.dbl a) = 2 * φ a
  tpl : ∀ {a}, ok a → ∃ r, F.tpl a = some r ∧ ok r ∧ φ r = 3 * φ a
  neg_w : ∀ {a}, wk a → wk (F.neg a)
  neg : ∀ {a}, wk a → φ (F.neg a) = - φ a
  inv : ∀ {a}, ok a → ∃ r, F.inv a = some r ∧ wk r ∧ φ r = (φ a)⁻¹
  eq : ∀ {a b}, ok a → ok b → (F.eq a b = true ↔ φ a = φ b)
  isZero : ∀ {a}, ok a → (F.isZero a = true ↔ φ a = 0)
  one_ok : ok F.one
  one : φ F.one = 1
  zero_ok : ok F.zero
  zero : φ F.zero = 0

/-- What the base operations do to the unreduced zero `-0`: negation is reduced except at zero, subtracting a
non-zero value from an unreduced one is correct, but `-0 - 0` comes out as `-1`. -/
structure WkBase (F : FpOps α) (ok wk : α → Prop) (φ : α → K) : Prop where
  neg_o : ∀ {a}, ok a → φ a ≠ 0 → ok (F.neg a)
  sub_wo : ∀ {a b}, wk a → ok b → φ b ≠ 0 → ok (F.sub a b) ∧ φ (F.sub a b) = φ a - φ b
  sub_exc : ∀ {a b}, ok a → ok b → φ a = 0 → φ b = 0 → ok (F.sub (F.neg a) b) ∧ φ (F.sub (F.neg a) b) = -1

variable {F : FpOps α} {ok wk : α → Prop} {φ : α → K}

theorem WkHom.fpHom (h : WkHom F ok wk φ) : FpHom F ok φ where
  add_ok ha hb := h.add_ow ha (h.wk_of hb)
  add ha hb := h.add (h.wk_of ha) (h.wk_of hb)
  sub_ok ha hb := h.sub_ow ha (h.wk_of hb)
  sub ha hb := h.sub ha (h.wk_of hb)
  mul_ok ha hb := h.mul_ww (h.wk_of ha) (h.wk_of hb)
  mul ha hb := h.mul (h.wk_of ha) (h.wk_of hb)
  sqr_ok ha := h.sqr_w (h.wk_of ha)
  sqr ha := h.sqr (h.wk_of ha)
  dbl_ok ha := h.dbl_o ha
  dbl ha := h.dbl (h.wk_of ha)
  tpl ha := h.tpl ha
  eq ha hb := h.eq ha hb
  isZero ha := h.isZero ha
  one_ok := h.one_ok
  one := h.one
  zero_ok := h.zero_ok
  zero := h.zero

/-! ## As facts about denotations -/

section is
variable (h : WkHom F ok wk φ) {x y : α} {u v : K}
include h

theorem WkHom.w (hx : Is ok φ x u) : Is wk φ x u := ⟨h.wk_of hx.1, hx.2⟩
theorem WkHom.iAdd (hx : Is ok φ x u) (hy : Is ok φ y v) : Is ok φ (F.add x y) (u + v) :=
  ⟨h.add_ow hx.1 (h.wk_of hy.1), by rw [h.add (h.wk_of hx.1) (h.wk_of hy.1), hx.2, hy.2]⟩
theorem WkHom.iAddOW (hx : Is ok φ x u) (hy : Is wk φ y v) : Is ok φ (F.add x y) (u + v) :=
  ⟨h.add_ow hx.1 hy.1, by rw [h.add (h.wk_of hx.1) hy.1, hx.2, hy.2]⟩
theorem WkHom.iAddWO (hx : Is wk φ x u) (hy : Is ok φ y v) : Is ok φ (F.add x y) (u + v) :=
  ⟨h.add_wo hx.1 hy.1, by rw [h.add hx.1 (h.wk_of hy.1), hx.2, hy.2]⟩
theorem WkHom.iAddW (hx : Is wk φ x u) (hy : Is wk φ y v) : Is wk φ (F.add x y) (u + v) :=
  ⟨h.add_ww hx.1 hy.1, by rw [h.add hx.1 hy.1, hx.2, hy.2]⟩
theorem WkHom.iSub (hx : Is ok φ x u) (hy : Is ok φ y v) : Is ok φ (F.sub x y) (u - v) :=
  ⟨h.sub_ow hx.1 (h.wk_of hy.1), by rw [h.sub hx.1 (h.wk_of hy.1), hx.2, hy.2]⟩
theorem WkHom.iSubOW (hx : Is ok φ x u) (hy : Is wk φ y v) : Is ok φ (F.sub x y) (u - v) :=
  ⟨h.sub_ow hx.1 hy.1, by rw [h.sub hx.1 hy.1, hx.2, hy.2]⟩
theorem WkHom.iMul (hx : Is wk φ x u) (hy : Is wk φ y v) : Is ok φ (F.mul x y) (u * v) :=
  ⟨h.mul_ww hx.1 hy.1, by rw [h.mul hx.1 hy.1, hx.2, hy.2]⟩
theorem WkHom.iMulO (hx : Is ok φ x u) (hy : Is ok φ y v) : Is ok φ (F.mul x y) (u * v) :=
  h.iMul (h.w hx) (h.w hy)
theorem WkHom.iSqr (hx : Is wk φ x u) : Is ok φ (F.sqr x) (u ^ 2) := ⟨h.sqr_w hx.1, by rw [h.sqr hx.1, hx.2]⟩
theorem WkHom.iDbl (hx : Is ok φ x u) : Is ok φ (F.dbl x) (2 * u) :=
  ⟨h.dbl_o hx.1, by rw [h.dbl (h.wk_of hx.1), hx.2]⟩
theorem WkHom.iDblW (hx : Is wk φ x u) : Is wk φ (F.dbl x) (2 * u) := ⟨h.dbl_w hx.1, by rw [h.dbl hx.1, hx.2]⟩
theorem WkHom.iNeg (hx : Is wk φ x u) : Is wk φ (F.neg x) (-u) := ⟨h.neg_w hx.1, by rw [h.neg hx.1, hx.2]⟩
theorem WkHom.iInv (hx : Is ok φ x u) : ∃ r, F.inv x = some r ∧ Is wk φ r u⁻¹ := by
  obtain ⟨r, r1, r2, r3⟩ := h.inv hx.1
  exact ⟨r, r1, r2, by rw [r3, hx.2]⟩
end is

theorem Is.val {ok : α → Prop} {x : α} {u v : K} (h : Is ok φ x u) (e : u = v) : Is ok φ x v := e ▸ h
theorem is_rfl {ok : α → Prop} {x : α} (h : ok x) : Is ok φ x (φ x) := ⟨h, rfl⟩

/-! ## The quadratic extension `u² = -2` -/

section quad
variable (h : WkHom F ok wk φ) {u : K} (hu : u ^ 2 = -2)
  (hind : ∀ {a b}, ok a → ok b → φ a + φ b * u = 0 → φ a = 0 ∧ φ b = 0)

/-- Component-wise facts give a fact about the pair. -/
theorem is2 {q : α → Prop} {x y : α} {s t : K} (hx : Is q φ x s) (hy : Is q φ y t) :
    Is (All2 q) (den2 φ u) ⟨x, y⟩ (s + t * u) := ⟨⟨hx.1, hy.1⟩, by simp only [den2]; rw [hx.2, hy.2]⟩

include h

include hu in
theorem fp2MulU_is {a : Fp2 α} {s : K} (ha : Is (All2 wk) (den2 φ u) a s) :
    Is (All2 wk) (den2 φ u) (fp2MulU F a) (s * u) := by
  obtain ⟨⟨a0, a1⟩, rfl⟩ := ha
  refine (is2 (h.iNeg (h.iDblW (is_rfl a1))) (is_rfl a0)).val ?_
  simp only [den2]
  linear_combination (- φ a.c1) * hu

theorem fp2MulFp_is {a : Fp2 α} {s : K} (ha : Is (All2 wk) (den2 φ u) a s) {b : α} {t : K} (hb : Is wk φ b t) :
    Is (All2 ok) (den2 φ u) (fp2MulFp F a b) (s * t) := by
  obtain ⟨⟨a0, a1⟩, rfl⟩ := ha
  refine (is2 (h.iMul (is_rfl a0) hb) (h.iMul (is_rfl a1) hb)).val ?_
  simp only [den2]
  ring

include hu in
theorem fp2Mul_is {a b : Fp2 α} {s t : K} (ha : Is (All2 wk) (den2 φ u) a s) (hb : Is (All2 wk) (den2 φ u) b t) :
    Is (All2 ok) (den2 φ u) (fp2Mul F a b) (s * t) := by
  obtain ⟨⟨a0, a1⟩, rfl⟩ := ha
  obtain ⟨⟨b0, b1⟩, rfl⟩ := hb
  have p0 := h.iMul (is_rfl (φ := φ) a0) (is_rfl b0)
  have p1 := h.iMul (is_rfl (φ := φ) a1) (is_rfl b1)
  have r1 := h.iSub (h.iSub (h.iMul (h.iAddW (is_rfl a0) (is_rfl a1)) (h.iAddW (is_rfl b0) (is_rfl b1))) p0) p1
  refine (is2 (h.iSub p0 (h.iDbl p1)) r1).val ?_
  simp only [den2]
  linear_combination (-(φ a.c1 * φ b.c1)) * hu

include hu in
theorem fp2Sqr_is {a : Fp2 α} {s : K} (ha : Is (All2 wk) (den2 φ u) a s) :
    Is (All2 ok) (den2 φ u) (fp2Sqr F a) (s ^ 2) := by
  obtain ⟨⟨a0, a1⟩, rfl⟩ := ha
  have p0 := h.iSqr (is_rfl (φ := φ) a0)
  have p1 := h.iSqr (is_rfl (φ := φ) a1)
  have r1 := h.iSub (h.iSub (h.iSqr (h.iAddW (is_rfl a0) (is_rfl a1))) p0) p1
  refine (is2 (h.iSub p0 (h.iDbl p1)) r1).val ?_
  simp only [den2]
  linear_combination (-(φ a.c1 ^ 2)) * hu

/-- The norm of a non-zero element is not zero. -/
theorem norm_ne {c : K} {x y : α} (hx : ok x) (hy : ok y) (hu : u ^ 2 = c)
    (hind : ∀ {a b}, ok a → ok b → φ a + φ b * u = 0 → φ a = 0 ∧ φ b = 0)
    (hneg : ∀ {a}, ok a → ∃ b, ok b ∧ φ b = - φ a)
    (hne : φ x + φ y * u ≠ 0) : φ x ^ 2 - φ y ^ 2 * c ≠ 0 := by
  rw [show φ x ^ 2 - φ y ^ 2 * c = (φ x + φ y * u) * (φ x - φ y * u) by rw [← hu]; ring]
  refine mul_ne_zero hne ?_
  intro hc
  obtain ⟨z, z1, z2⟩ := hneg hy
  obtain ⟨e1, e2⟩ := hind hx z1 (by rw [z2]; linear_combination hc)
  apply hne
  rw [e1, show φ y = 0 by rw [z2] at e2; linear_combination -e2]
  ring

/-- Every reduced element has a reduced negative. -/
theorem WkHom.exNeg {a : α} (ha : ok a) : ∃ b, ok b ∧ φ b = - φ a :=
  ⟨F.sub F.zero a, h.sub_ow h.zero_ok (h.wk_of ha), by
    rw [h.sub h.zero_ok (h.wk_of ha), h.zero, zero_sub]⟩

include hu hind in
theorem fp2Inv_is {a : Fp2 α} {s : K} (ha : Is (All2 ok) (den2 φ u) a s) :
    ∃ r, fp2Inv F a = some r ∧ Is (All2 wk) (den2 φ u) r s⁻¹ := by
  obtain ⟨⟨a0, a1⟩, rfl⟩ := ha
  have w0 := h.w (is_rfl (φ := φ) a0)
  have w1 := h.w (is_rfl (φ := φ) a1)
  obtain ⟨r, r1, r2⟩ := h.iInv (h.iAdd (h.iSqr w0) (h.iDbl (h.iSqr w1)))
  refine ⟨_, by simp only [fp2Inv, r1], (is2 (h.w (h.iMul w0 r2)) (h.iNeg (h.w (h.iMul w1 r2)))).val ?_⟩
  simp only [den2]
  by_cases h0 : φ a.c0 + φ a.c1 * u = 0
  · obtain ⟨e1, e2⟩ := hind a0 a1 h0
    rw [h0, e1, e2]; simp
  · have hn := norm_ne h a0 a1 hu hind h.exNeg h0
    rw [show φ a.c0 ^ 2 - φ a.c1 ^ 2 * -2 = φ a.c0 ^ 2 + 2 * φ a.c1 ^ 2 by ring] at hn
    apply eq_inv_of_mul_eq_one_left
    field_simp
    linear_combination (- φ a.c1 ^ 2) * hu

include hu hind in
theorem fp2_wkHom : WkHom (fp2Ops F) (All2 ok) (All2 wk) (den2 φ u) where
  wk_of ha := ⟨h.wk_of ha.1, h.wk_of ha.2⟩
  add_ow ha hb := ⟨h.add_ow ha.1 hb.1, h.add_ow ha.2 hb.2⟩
  add_wo ha hb := ⟨h.add_wo ha.1 hb.1, h.add_wo ha.2 hb.2⟩
  add_ww ha hb := ⟨h.add_ww ha.1 hb.1, h.add_ww ha.2 hb.2⟩
  add {a b} ha hb := by
    show φ (F.add a.c0 b.c0) + φ (F.add a.c1 b.c1) * u = _
    rw [h.add ha.1 hb.1, h.add ha.2 hb.2]; simp only [den2]; ring
  sub_ow ha hb := ⟨h.sub_ow ha.1 hb.1, h.sub_ow ha.2 hb.2⟩
  sub {a b} ha hb := by
    show φ (F.sub a.c0 b.c0) + φ (F.sub a.c1 b.c1) * u = _
    rw [h.sub ha.1 hb.1, h.sub ha.2 hb.2]; simp only [den2]; ring
  mul_ww ha hb := (fp2Mul_is h hu (is_rfl ha) (is_rfl hb)).1
  mul ha hb := (fp2Mul_is h hu (is_rfl ha) (is_rfl hb)).2
  sqr_w ha := (fp2Sqr_is h hu (is_rfl ha)).1
  sqr ha := (fp2Sqr_is h hu (is_rfl ha)).2
  dbl_o ha := ⟨h.dbl_o ha.1, h.dbl_o ha.2⟩
  dbl_w ha := ⟨h.dbl_w ha.1, h.dbl_w ha.2⟩
  dbl {a} ha := by
    show φ (F.dbl a.c0) + φ (F.dbl a.c1) * u = _
    rw [h.dbl ha.1, h.dbl ha.2]; simp only [den2]; ring
  tpl {a} ha := by
    obtain ⟨r, r1, r2, r3⟩ := h.tpl ha.1
    obtain ⟨s, s1, s2, s3⟩ := h.tpl ha.2
    refine ⟨⟨r, s⟩, by show fp2Tpl F a = _; simp only [fp2Tpl, r1, s1], ⟨r2, s2⟩, ?_⟩
    simp only [den2]; rw [r3, s3]; ring
  neg_w ha := ⟨h.neg_w ha.1, h.neg_w ha.2⟩
  neg {a} ha := by
    show φ (F.neg a.c0) + φ (F.neg a.c1) * u = _
    rw [h.neg ha.1, h.neg ha.2]; simp only [den2]; ring
  inv ha := by
    obtain ⟨r, r1, r2, r3⟩ := fp2Inv_is h hu hind (is_rfl ha)
    exact ⟨r, r1, r2, r3⟩
  eq {a b} ha hb := by
    show (F.eq a.c0 b.c0 && F.eq a.c1 b.c1) = true ↔ _
    rw [Bool.and_eq_true, h.eq ha.1 hb.1, h.eq ha.2 hb.2]
    simp only [den2]
    constructor
    · rintro ⟨e1, e2⟩; rw [e1, e2]
    · intro e
      have w3 := h.wk_of hb.1
      have w4 := h.wk_of hb.2
      have := hind (h.sub_ow ha.1 w3) (h.sub_ow ha.2 w4) (by
        rw [h.sub ha.1 w3, h.sub ha.2 w4]; linear_combination e)
      rw [h.sub ha.1 w3, h.sub ha.2 w4] at this
      exact ⟨sub_eq_zero.mp this.1, sub_eq_zero.mp this.2⟩
  isZero {a} ha := by
    show (F.isZero a.c0 && F.isZero a.c1) = true ↔ _
    rw [Bool.and_eq_true, h.isZero ha.1, h.isZero ha.2]
    simp only [den2]
    constructor
    · rintro ⟨e1, e2⟩; rw [e1, e2]; ring
    · exact hind ha.1 ha.2
  one_ok := ⟨h.one_ok, h.zero_ok⟩
  one := by show φ F.one + φ F.zero * u = 1; rw [h.one, h.zero]; ring
  zero_ok := ⟨h.zero_ok, h.zero_ok⟩
  zero := by show φ F.zero + φ F.zero * u = 0; rw [h.zero]; ring

end quad
end Verif
