import Verif.Proofs.WkHom
/-! # The quartic and the twelfth-degree extension over an abstract base -/
set_option linter.unusedSectionVars false
namespace Verif
open Spec

variable {K : Type} [Field K] {α : Type} {F : FpOps α} {ok wk : α → Prop} {φ : α → K}

/-- The `sm9_fp4_*` functions as a record (proof device: `dbl`, `tpl` do not exist at this level and are given by
components). -/
def fp4Ops (F : FpOps α) : FpOps (Fp4 α) where
  add := fp4Add F
  sub := fp4Sub F
  mul := fp4Mul F
  sqr := fp4Sqr F
  dbl a := ⟨fp2Dbl F a.c0, fp2Dbl F a.c1⟩
  tpl a := match fp2Tpl F a.c0, fp2Tpl F a.c1 with
    | some x, some y => some ⟨x, y⟩
    | _, _ => none
  neg := fp4Neg F
  inv := fp4Inv F
  eq := fp4Eq F
  isZero := fp4IsZero F
  one := fp4One F
  zero := fp4Zero F

section quart
variable (h : WkHom F ok wk φ) {u v : K} (hu : u ^ 2 = -2) (hv : v ^ 2 = u)
  (hind2 : ∀ {a b}, ok a → ok b → φ a + φ b * u = 0 → φ a = 0 ∧ φ b = 0)
  (hind4 : ∀ {a b}, All2 ok a → All2 ok b → den2 φ u a + den2 φ u b * v = 0 → den2 φ u a = 0 ∧ den2 φ u b = 0)

theorem is4 {q : α → Prop} {x y : Fp2 α} {s t : K} (hx : Is (All2 q) (den2 φ u) x s)
    (hy : Is (All2 q) (den2 φ u) y t) : Is (All4 q) (den4 φ u v) ⟨x, y⟩ (s + t * v) :=
  ⟨⟨hx.1, hy.1⟩, by simp only [den4]; rw [hx.2, hy.2]⟩

include h hu hv hind2

theorem fp4MulV_is {a : Fp4 α} {s : K} (ha : Is (All4 wk) (den4 φ u v) a s) :
    Is (All4 wk) (den4 φ u v) (fp4MulV F a) (s * v) := by
  obtain ⟨⟨a0, a1⟩, rfl⟩ := ha
  refine (is4 (fp2MulU_is h hu (is_rfl a1)) (is_rfl a0)).val ?_
  simp only [den4]
  linear_combination (- den2 φ u a.c1) * hv

theorem fp4MulFp_is {a : Fp4 α} {s : K} (ha : Is (All4 wk) (den4 φ u v) a s) {b : α} {t : K} (hb : Is wk φ b t) :
    Is (All4 ok) (den4 φ u v) (fp4MulFp F a b) (s * t) := by
  obtain ⟨⟨a0, a1⟩, rfl⟩ := ha
  refine (is4 (fp2MulFp_is h (is_rfl a0) hb) (fp2MulFp_is h (is_rfl a1) hb)).val ?_
  simp only [den4]
  ring

theorem fp4MulFp2_is {a : Fp4 α} {s : K} (ha : Is (All4 wk) (den4 φ u v) a s) {b : Fp2 α} {t : K}
    (hb : Is (All2 wk) (den2 φ u) b t) : Is (All4 ok) (den4 φ u v) (fp4MulFp2 F a b) (s * t) := by
  obtain ⟨⟨a0, a1⟩, rfl⟩ := ha
  refine (is4 (fp2Mul_is h hu (is_rfl a0) hb) (fp2Mul_is h hu (is_rfl a1) hb)).val ?_
  simp only [den4]
  ring

theorem fp4Mul_is {a b : Fp4 α} {s t : K} (ha : Is (All4 wk) (den4 φ u v) a s)
    (hb : Is (All4 wk) (den4 φ u v) b t) : Is (All4 ok) (den4 φ u v) (fp4Mul F a b) (s * t) := by
  have H := fp2_wkHom h hu hind2
  obtain ⟨⟨a0, a1⟩, rfl⟩ := ha
  obtain ⟨⟨b0, b1⟩, rfl⟩ := hb
  have p0 := H.iMul (is_rfl (φ := den2 φ u) a0) (is_rfl b0)
  have p1 := H.iMul (is_rfl (φ := den2 φ u) a1) (is_rfl b1)
  have r1 := H.iSub (H.iSub (H.iMul (H.iAddW (is_rfl a0) (is_rfl a1)) (H.iAddW (is_rfl b0) (is_rfl b1))) p0) p1
  refine (is4 (H.iAddOW p0 (fp2MulU_is h hu (H.w p1))) r1).val ?_
  simp only [den4]
  linear_combination (-(den2 φ u a.c1 * den2 φ u b.c1)) * hv

theorem fp4Sqr_is {a : Fp4 α} {s : K} (ha : Is (All4 wk) (den4 φ u v) a s) :
    Is (All4 ok) (den4 φ u v) (fp4Sqr F a) (s ^ 2) := by
  have H := fp2_wkHom h hu hind2
  obtain ⟨⟨a0, a1⟩, rfl⟩ := ha
  have p0 := H.iSqr (is_rfl (φ := den2 φ u) a0)
  have p1 := H.iSqr (is_rfl (φ := den2 φ u) a1)
  have r1 := H.iSub (H.iSub (H.iSqr (H.iAddW (is_rfl a0) (is_rfl a1))) p0) p1
  refine (is4 (H.iAddOW p0 (fp2MulU_is h hu (H.w p1))) r1).val ?_
  simp only [den4]
  linear_combination (-(den2 φ u a.c1 ^ 2)) * hv

include hind4

theorem fp4Inv_is {a : Fp4 α} {s : K} (ha : Is (All4 ok) (den4 φ u v) a s) :
    ∃ r, fp4Inv F a = some r ∧ Is (All4 wk) (den4 φ u v) r s⁻¹ := by
  have H := fp2_wkHom h hu hind2
  obtain ⟨⟨a0, a1⟩, rfl⟩ := ha
  have w0 := H.w (is_rfl (φ := den2 φ u) a0)
  have w1 := H.w (is_rfl (φ := den2 φ u) a1)
  obtain ⟨r, r1, r2⟩ := H.iInv (H.iSubOW (H.iSqr w0) (fp2MulU_is h hu (H.w (H.iSqr w1))))
  change fp2Inv F (fp2Sub F (fp2Sqr F a.c0) (fp2MulU F (fp2Sqr F a.c1))) = some r at r1
  refine ⟨_, by simp only [fp4Inv, r1]; rfl, (is4 (H.w (H.iMul w0 r2)) (H.iNeg (H.w (H.iMul w1 r2)))).val ?_⟩
  simp only [den4]
  by_cases h0 : den2 φ u a.c0 + den2 φ u a.c1 * v = 0
  · obtain ⟨e1, e2⟩ := hind4 a0 a1 h0
    rw [h0, e1, e2]; simp
  · have hn := norm_ne H a0 a1 hv hind4 H.exNeg h0
    apply eq_inv_of_mul_eq_one_left
    field_simp
    linear_combination (- den2 φ u a.c1 ^ 2) * hv

theorem fp4_wkHom : WkHom (fp4Ops F) (All4 ok) (All4 wk) (den4 φ u v) := by
  have H := fp2_wkHom h hu hind2
  exact {
  wk_of := fun ha => ⟨H.wk_of ha.1, H.wk_of ha.2⟩
  add_ow := fun ha hb => ⟨H.add_ow ha.1 hb.1, H.add_ow ha.2 hb.2⟩
  add_wo := fun ha hb => ⟨H.add_wo ha.1 hb.1, H.add_wo ha.2 hb.2⟩
  add_ww := fun ha hb => ⟨H.add_ww ha.1 hb.1, H.add_ww ha.2 hb.2⟩
  add := fun {a b} ha hb => by
    show den2 φ u ((fp2Ops F).add a.c0 b.c0) + den2 φ u ((fp2Ops F).add a.c1 b.c1) * v = _
    rw [H.add ha.1 hb.1, H.add ha.2 hb.2]; simp only [den4]; ring
  sub_ow := fun ha hb => ⟨H.sub_ow ha.1 hb.1, H.sub_ow ha.2 hb.2⟩
  sub := fun {a b} ha hb => by
    show den2 φ u ((fp2Ops F).sub a.c0 b.c0) + den2 φ u ((fp2Ops F).sub a.c1 b.c1) * v = _
    rw [H.sub ha.1 hb.1, H.sub ha.2 hb.2]; simp only [den4]; ring
  mul_ww := fun ha hb => (fp4Mul_is h hu hv hind2 (is_rfl ha) (is_rfl hb)).1
  mul := fun ha hb => (fp4Mul_is h hu hv hind2 (is_rfl ha) (is_rfl hb)).2
  sqr_w := fun ha => (fp4Sqr_is h hu hv hind2 (is_rfl ha)).1
  sqr := fun ha => (fp4Sqr_is h hu hv hind2 (is_rfl ha)).2
  dbl_o := fun ha => ⟨H.dbl_o ha.1, H.dbl_o ha.2⟩
  dbl_w := fun ha => ⟨H.dbl_w ha.1, H.dbl_w ha.2⟩
  dbl := fun {a} ha => by
    show den2 φ u ((fp2Ops F).dbl a.c0) + den2 φ u ((fp2Ops F).dbl a.c1) * v = _
    rw [H.dbl ha.1, H.dbl ha.2]; simp only [den4]; ring
  tpl := fun {a} ha => by
    obtain ⟨r, r1, r2, r3⟩ := H.tpl ha.1
    obtain ⟨s, s1, s2, s3⟩ := H.tpl ha.2
    change fp2Tpl F a.c0 = _ at r1
    change fp2Tpl F a.c1 = _ at s1
    refine ⟨⟨r, s⟩, by simp only [fp4Ops, r1, s1], ⟨r2, s2⟩, ?_⟩
    simp only [den4]; rw [r3, s3]; ring
  neg_w := fun ha => ⟨H.neg_w ha.1, H.neg_w ha.2⟩
  neg := fun {a} ha => by
    show den2 φ u ((fp2Ops F).neg a.c0) + den2 φ u ((fp2Ops F).neg a.c1) * v = _
    rw [H.neg ha.1, H.neg ha.2]; simp only [den4]; ring
  inv := fun ha => by
    obtain ⟨r, r1, r2, r3⟩ := fp4Inv_is h hu hv hind2 hind4 (is_rfl ha)
    exact ⟨r, r1, r2, r3⟩
  eq := fun {a b} ha hb => by
    show ((fp2Ops F).eq a.c0 b.c0 && (fp2Ops F).eq a.c1 b.c1) = true ↔ _
    rw [Bool.and_eq_true, H.eq ha.1 hb.1, H.eq ha.2 hb.2]
    simp only [den4]
    constructor
    · rintro ⟨e1, e2⟩; rw [e1, e2]
    · intro e
      have w3 := H.wk_of hb.1
      have w4 := H.wk_of hb.2
      have := hind4 (H.sub_ow ha.1 w3) (H.sub_ow ha.2 w4) (by
        rw [H.sub ha.1 w3, H.sub ha.2 w4]; linear_combination e)
      rw [H.sub ha.1 w3, H.sub ha.2 w4] at this
      exact ⟨sub_eq_zero.mp this.1, sub_eq_zero.mp this.2⟩
  isZero := fun {a} ha => by
    show ((fp2Ops F).isZero a.c0 && (fp2Ops F).isZero a.c1) = true ↔ _
    rw [Bool.and_eq_true, H.isZero ha.1, H.isZero ha.2]
    simp only [den4]
    constructor
    · rintro ⟨e1, e2⟩; rw [e1, e2]; ring
    · exact hind4 ha.1 ha.2
  one_ok := ⟨H.one_ok, H.zero_ok⟩
  one := by show den2 φ u (fp2Ops F).one + den2 φ u (fp2Ops F).zero * v = 1; rw [H.one, H.zero]; ring
  zero_ok := ⟨H.zero_ok, H.zero_ok⟩
  zero := by show den2 φ u (fp2Ops F).zero + den2 φ u (fp2Ops F).zero * v = 0; rw [H.zero]; ring }

end quart

section twelve
variable {u v w : K} (H : WkHom (fp4Ops F) (All4 ok) (All4 wk) (den4 φ u v)) (hw : w ^ 3 = v)
  (hV : ∀ {a : Fp4 α} {s : K}, Is (All4 wk) (den4 φ u v) a s → Is (All4 wk) (den4 φ u v) (fp4MulV F a) (s * v))
  (hind : ∀ {a b c}, All4 ok a → All4 ok b → All4 ok c → den4 φ u v a + den4 φ u v b * w + den4 φ u v c * w ^ 2 = 0 →
    den4 φ u v a = 0 ∧ den4 φ u v b = 0 ∧ den4 φ u v c = 0)

theorem is12 {q : α → Prop} {x y z : Fp4 α} {r s t : K} (hx : Is (All4 q) (den4 φ u v) x r)
    (hy : Is (All4 q) (den4 φ u v) y s) (hz : Is (All4 q) (den4 φ u v) z t) :
    Is (All12 q) (den12 φ u v w) ⟨x, y, z⟩ (r + s * w + t * w ^ 2) :=
  ⟨⟨hx.1, hy.1, hz.1⟩, by simp only [den12]; rw [hx.2, hy.2, hz.2]⟩

include H

theorem fp12_wk {a : Fp12 α} (ha : All12 ok a) : All12 wk a := ⟨H.wk_of ha.1, H.wk_of ha.2.1, H.wk_of ha.2.2⟩

theorem fp12Add_is {a b : Fp12 α} {s t : K} (ha : Is (All12 ok) (den12 φ u v w) a s)
    (hb : Is (All12 ok) (den12 φ u v w) b t) : Is (All12 ok) (den12 φ u v w) (fp12Add F a b) (s + t) := by
  obtain ⟨⟨a0, a1, a2⟩, rfl⟩ := ha
  obtain ⟨⟨b0, b1, b2⟩, rfl⟩ := hb
  refine (is12 (H.iAdd (is_rfl a0) (is_rfl b0)) (H.iAdd (is_rfl a1) (is_rfl b1))
    (H.iAdd (is_rfl a2) (is_rfl b2))).val ?_
  simp only [den12]; ring

theorem fp12Sub_is {a b : Fp12 α} {s t : K} (ha : Is (All12 ok) (den12 φ u v w) a s)
    (hb : Is (All12 ok) (den12 φ u v w) b t) : Is (All12 ok) (den12 φ u v w) (fp12Sub F a b) (s - t) := by
  obtain ⟨⟨a0, a1, a2⟩, rfl⟩ := ha
  obtain ⟨⟨b0, b1, b2⟩, rfl⟩ := hb
  refine (is12 (H.iSub (is_rfl a0) (is_rfl b0)) (H.iSub (is_rfl a1) (is_rfl b1))
    (H.iSub (is_rfl a2) (is_rfl b2))).val ?_
  simp only [den12]; ring

theorem fp12Neg_is {a : Fp12 α} {s : K} (ha : Is (All12 wk) (den12 φ u v w) a s) :
    Is (All12 wk) (den12 φ u v w) (fp12Neg F a) (-s) := by
  obtain ⟨⟨a0, a1, a2⟩, rfl⟩ := ha
  refine (is12 (H.iNeg (is_rfl a0)) (H.iNeg (is_rfl a1)) (H.iNeg (is_rfl a2))).val ?_
  simp only [den12]; ring

theorem fp12MulFp4_is {a : Fp12 α} {s : K} (ha : Is (All12 wk) (den12 φ u v w) a s) {b : Fp4 α} {t : K}
    (hb : Is (All4 wk) (den4 φ u v) b t) : Is (All12 ok) (den12 φ u v w) (fp12MulFp4 F a b) (s * t) := by
  obtain ⟨⟨a0, a1, a2⟩, rfl⟩ := ha
  refine (is12 (H.iMul (is_rfl a0) hb) (H.iMul (is_rfl a1) hb) (H.iMul (is_rfl a2) hb)).val ?_
  simp only [den12]; ring

include hw hV in
theorem fp12Mul_is {a b : Fp12 α} {s t : K} (ha : Is (All12 wk) (den12 φ u v w) a s)
    (hb : Is (All12 wk) (den12 φ u v w) b t) : Is (All12 ok) (den12 φ u v w) (fp12Mul F a b) (s * t) := by
  obtain ⟨⟨a0, a1, a2⟩, rfl⟩ := ha
  obtain ⟨⟨b0, b1, b2⟩, rfl⟩ := hb
  have i0 := is_rfl (φ := den4 φ u v) a0
  have i1 := is_rfl (φ := den4 φ u v) a1
  have i2 := is_rfl (φ := den4 φ u v) a2
  have j0 := is_rfl (φ := den4 φ u v) b0
  have j1 := is_rfl (φ := den4 φ u v) b1
  have j2 := is_rfl (φ := den4 φ u v) b2
  have p0 := H.iMul i0 j0
  have p1 := H.iMul i1 j1
  have p2 := H.iMul i2 j2
  have r0 := H.iAddWO (hV (H.w (H.iSub (H.iSub (H.iMul (H.iAddW i1 i2) (H.iAddW j1 j2)) p1) p2))) p0
  have r2 := H.iAdd (H.iSub (H.iSub (H.iMul (H.iAddW i0 i2) (H.iAddW j0 j2)) p0) p2) p1
  have r1 := H.iAddOW (H.iSub (H.iSub (H.iMul (H.iAddW i0 i1) (H.iAddW j0 j1)) p0) p1) (hV (H.w p2))
  refine (is12 r0 r1 r2).val ?_
  simp only [den12]
  linear_combination (-(den4 φ u v a.c1 * den4 φ u v b.c2 + den4 φ u v a.c2 * den4 φ u v b.c1)
    - den4 φ u v a.c2 * den4 φ u v b.c2 * w) * hw

omit H in
/-- `s v - m` at the place where the library subtracts from `sm9_fp4_mul_v`. -/
theorem mulVSub_is (h : WkHom F ok wk φ) (hb : WkBase F ok wk φ) (hu : u ^ 2 = -2) (hv : v ^ 2 = u)
    (h2 : (2 : K) ≠ 0) {S M : Fp4 α} {s m : K} (hS : Is (All4 ok) (den4 φ u v) S s)
    (hM : Is (All4 ok) (den4 φ u v) M m) :
    (¬ (φ S.c1.c1 = 0 ∧ φ M.c0.c0 = 0) → Is (All4 ok) (den4 φ u v) (fp4Sub F (fp4MulV F S) M) (s * v - m)) ∧
    (φ S.c1.c1 = 0 ∧ φ M.c0.c0 = 0 → Is (All4 ok) (den4 φ u v) (fp4Sub F (fp4MulV F S) M) (s * v - m - 1)) := by
  obtain ⟨⟨⟨s00, s01⟩, ⟨s10, s11⟩⟩, rfl⟩ := hS
  obtain ⟨⟨⟨m00, m01⟩, ⟨m10, m11⟩⟩, rfl⟩ := hM
  have d := h.iDbl (is_rfl (φ := φ) s11)
  have e01 := h.iSub (is_rfl (φ := φ) s10) (is_rfl m01)
  have e10 := h.iSub (is_rfl (φ := φ) s00) (is_rfl m10)
  have e11 := h.iSub (is_rfl (φ := φ) s01) (is_rfl m11)
  have fin : ∀ {c : K}, Is ok φ (F.sub (F.neg (F.dbl S.c1.c1)) M.c0.c0) c →
      Is (All4 ok) (den4 φ u v) (fp4Sub F (fp4MulV F S) M)
        (den4 φ u v S * v - den4 φ u v M + (c - (-(2 * φ S.c1.c1) - φ M.c0.c0))) := by
    intro c hc
    refine (is4 (is2 hc e01) (is2 e10 e11)).val ?_
    simp only [den4, den2]
    linear_combination (-(φ S.c1.c1)) * hu - (φ S.c1.c0 + φ S.c1.c1 * u) * hv
  constructor
  · intro hne
    have key : Is ok φ (F.sub (F.neg (F.dbl S.c1.c1)) M.c0.c0) (-(2 * φ S.c1.c1) - φ M.c0.c0) := by
      by_cases c : φ M.c0.c0 = 0
      · have : φ S.c1.c1 ≠ 0 := fun e => hne ⟨e, c⟩
        have n1 : Is ok φ (F.neg (F.dbl S.c1.c1)) (-(2 * φ S.c1.c1)) :=
          ⟨hb.neg_o d.1 (by rw [d.2]; exact mul_ne_zero h2 this), (h.iNeg (h.w d)).2⟩
        exact h.iSub n1 (is_rfl m00)
      · have n := h.iNeg (h.w d)
        obtain ⟨q1, q2⟩ := hb.sub_wo n.1 m00 c
        exact ⟨q1, by rw [q2, n.2]⟩
    exact (fin key).val (by ring)
  · rintro ⟨c1, c2⟩
    obtain ⟨q1, q2⟩ := hb.sub_exc d.1 m00 (by rw [d.2, c1, mul_zero]) c2
    refine (fin ⟨q1, q2⟩).val ?_
    rw [c1, c2]; ring

omit H in
/-- The algebra behind the inverse. -/
theorem inv12_aux {x0 x1 x2 : K} (hw : w ^ 3 = v) :
    (x0 + x1 * w + x2 * w ^ 2) * ((x0 ^ 2 - x1 * x2 * v) + (x2 ^ 2 * v - x0 * x1) * w
          + (x1 ^ 2 - x0 * x2) * w ^ 2) = (x1 * (x1 ^ 2 - x0 * x2) + x2 * (x2 ^ 2 * v - x0 * x1)) * v
            + x0 * (x0 ^ 2 - x1 * x2 * v) := by
  linear_combination (x1 ^ 3 - 2 * x0 * x1 * x2 + x2 ^ 3 * v + (x1 ^ 2 * x2 - x0 * x2 ^ 2) * w) * hw

include hw hind in
/-- The norm of a non-zero element is not zero. -/
theorem norm12_ne (h : WkHom F ok wk φ) {a : Fp12 α} (ha : All12 ok a) (h0 : den12 φ u v w a ≠ 0) :
    (den4 φ u v a.c1 * (den4 φ u v a.c1 ^ 2 - den4 φ u v a.c0 * den4 φ u v a.c2)
      + den4 φ u v a.c2 * (den4 φ u v a.c2 ^ 2 * v - den4 φ u v a.c0 * den4 φ u v a.c1)) * v
      + den4 φ u v a.c0 * (den4 φ u v a.c0 ^ 2 - den4 φ u v a.c1 * den4 φ u v a.c2 * v) ≠ 0 := by
  obtain ⟨a0, a1, a2⟩ := ha
  have i0 := is_rfl (φ := den4 φ u v) a0
  have i1 := is_rfl (φ := den4 φ u v) a1
  have i2 := is_rfl (φ := den4 φ u v) a2
  -- every polynomial expression in the coefficients is the value of a reduced array
  have V : ∃ x : Fp4 α, Is (All4 ok) (den4 φ u v) x v :=
    ⟨⟨⟨F.zero, F.zero⟩, ⟨F.one, F.zero⟩⟩, ⟨⟨⟨h.zero_ok, h.zero_ok⟩, ⟨h.one_ok, h.zero_ok⟩⟩, by
      simp only [den4, den2]; rw [h.zero, h.one]; ring⟩⟩
  obtain ⟨V, hV⟩ := V
  have A := H.iSub (H.iSqr (H.w i0)) (H.iMulO (H.iMulO i1 i2) hV)
  have B := H.iSub (H.iMulO (H.iSqr (H.w i2)) hV) (H.iMulO i0 i1)
  have C := H.iSub (H.iSqr (H.w i1)) (H.iMulO i0 i2)
  have key := hind A.1 B.1 C.1
  rw [A.2, B.2, C.2] at key
  have hneg := H.exNeg a1
  have hm12 := H.iMulO i1 i2
  have hm11 := H.iMulO i1 i1
  have hm22 := H.iMulO i2 i2
  have hq := hind hm11.1 hm12.1 hm22.1
  rw [hm11.2, hm12.2, hm22.2] at hq
  have hl : ∀ x, All4 ok x → den4 φ u v x + den4 φ u v a.c2 * w = 0 → den4 φ u v a.c2 = 0 := by
    intro x hx e
    exact (hind hx a2 H.zero_ok (by rw [H.zero]; linear_combination e)).2.1
  simp only [den12] at h0
  clear A B C hm12 hm11 hm22
  generalize den4 φ u v a.c0 = x0 at *
  generalize den4 φ u v a.c1 = x1 at *
  generalize den4 φ u v a.c2 = x2 at *
  rw [← inv12_aux hw]
  refine mul_ne_zero h0 ?_
  intro hc
  obtain ⟨k0, k1, k2⟩ := key hc
  have x2z : x2 = 0 := by
    by_contra hne
    have cube : (x2 * w - x1) * (x1 * x1 + x1 * x2 * w + x2 * x2 * w ^ 2) = 0 := by
      have : x2 * (x2 ^ 2 * v - x1 ^ 3 / x2) = 0 := by
        have e : x0 = x1 ^ 2 / x2 := by field_simp; linear_combination -k2
        rw [e] at k1
        have : x1 ^ 2 / x2 * x1 = x1 ^ 3 / x2 := by ring
        rw [← this, k1, mul_zero]
      field_simp at this
      linear_combination this + x2 ^ 3 * hw
    rcases mul_eq_zero.mp cube with c | c
    · obtain ⟨n, n1, n2⟩ := hneg
      exact hne (hl n n1 (by rw [n2]; linear_combination c))
    · have := (hq c).2.2
      exact hne (by simpa using this)
  have x1z : x1 = 0 := by rw [x2z] at k2; simpa using k2
  have x0z : x0 = 0 := by rw [x2z, x1z] at k0; simpa using k0
  exact h0 (by rw [x0z, x1z, x2z]; ring)

include hw hV hind in
/-- `sm9_fp12_inv`: right exactly outside the case where `-0 - 0` is computed, and inside it for `a = c2 w²`. -/
theorem fp12Inv_is (h : WkHom F ok wk φ) (hb : WkBase F ok wk φ) (hu : u ^ 2 = -2) (hv : v ^ 2 = u)
    (h2 : (2 : K) ≠ 0) {a : Fp12 α} (ha : All12 ok a) :
    ∃ r, fp12Inv F a = some r ∧ All12 ok r ∧
      (den12 φ u v w r = (den12 φ u v w a)⁻¹ ↔ den12 φ u v w a = 0 ∨
        ¬ (φ (fp4Sqr F a.c2).c1.c1 = 0 ∧ φ (fp4Mul F a.c0 a.c1).c0.c0 = 0) ∨
          den4 φ u v a.c0 = 0 ∧ den4 φ u v a.c1 = 0) := by
  have hnorm := norm12_ne H hw hind h ha
  obtain ⟨a0, a1, a2⟩ := ha
  have i0 := is_rfl (φ := den4 φ u v) a0
  have i1 := is_rfl (φ := den4 φ u v) a1
  have i2 := is_rfl (φ := den4 φ u v) a2
  have A := H.iSubOW (H.iSqr (H.w i0)) (hV (H.w (H.iMulO i1 i2)))
  have C := H.iSub (H.iSqr (H.w i1)) (H.iMulO i0 i2)
  obtain ⟨B1, B2⟩ := mulVSub_is (u := u) (v := v) h hb hu hv h2 (H.iSqr (H.w i2)) (H.iMulO i0 i1)
  -- the rest, for any outcome of the subtraction
  have rest : ∀ {B : K}, Is (All4 ok) (den4 φ u v) (fp4Sub F (fp4MulV F (fp4Sqr F a.c2)) (fp4Mul F a.c0 a.c1)) B →
      ∃ r, fp12Inv F a = some r ∧ Is (All12 ok) (den12 φ u v w) r
        (((den4 φ u v a.c0 ^ 2 - den4 φ u v a.c1 * den4 φ u v a.c2 * v) + B * w
          + (den4 φ u v a.c1 ^ 2 - den4 φ u v a.c0 * den4 φ u v a.c2) * w ^ 2) *
        ((den4 φ u v a.c1 * (den4 φ u v a.c1 ^ 2 - den4 φ u v a.c0 * den4 φ u v a.c2) + den4 φ u v a.c2 * B) * v
          + den4 φ u v a.c0 * (den4 φ u v a.c0 ^ 2 - den4 φ u v a.c1 * den4 φ u v a.c2 * v))⁻¹) := by
    intro B hB
    have N := H.iAddWO (hV (H.w (H.iAdd (H.iMulO i1 C) (H.iMulO i2 hB)))) (H.iMulO i0 A)
    obtain ⟨r, r1, r2⟩ := H.iInv N
    refine ⟨_, ?_, (is12 (H.iMul (H.w A) r2) (H.iMul (H.w hB) r2) (H.iMul (H.w C) r2)).val ?_⟩
    · unfold fp12Inv
      dsimp only [fp4Ops] at r1 ⊢
      rw [r1]
    · ring
  have hz := hind a0 a1 a2
  have h12 : den12 φ u v w a = den4 φ u v a.c0 + den4 φ u v a.c1 * w + den4 φ u v a.c2 * w ^ 2 := rfl
  have hsq := H.iSqr (H.w i2)
  have S2 : den4 φ u v (fp4Sqr F a.c2) = den4 φ u v a.c2 ^ 2 := hsq.2
  have hSok : All4 ok (fp4Sqr F a.c2) := hsq.1
  have hzl : den4 φ u v a.c0 + den4 φ u v a.c1 * w = 0 → den4 φ u v a.c0 = 0 ∧ den4 φ u v a.c1 = 0 := by
    intro e
    have := hind a0 a1 H.zero_ok (by rw [H.zero]; linear_combination e)
    exact ⟨this.1, this.2.1⟩
  by_cases hexc : φ (fp4Sqr F a.c2).c1.c1 = 0 ∧ φ (fp4Mul F a.c0 a.c1).c0.c0 = 0
  · obtain ⟨r, r1, r2, r3⟩ := rest (B2 hexc)
    refine ⟨r, r1, r2, ?_⟩
    rw [r3]
    have hexc1 := hexc.1
    have nexc := not_not_intro hexc
    simp only [nexc, false_or]
    rw [h12] at hnorm ⊢
    have wne : w ≠ 0 := by
      rintro rfl
      have e1 : v = 0 := by rw [← hw]; ring
      have e2 : u = 0 := by rw [← hv, e1]; ring
      rw [e2] at hu
      apply h2
      linear_combination hu
    have a2v : den4 φ u v a.c0 = 0 → den4 φ u v a.c1 = 0 → den4 φ u v a.c2 ^ 2 * v - 1 ≠ 0 := by
      intro _ _ hc
      -- `c2² v` has no constant term
      have hS11 := hexc1
      have m : Is (All4 ok) (den4 φ u v) ⟨⟨F.zero, (fp4Sqr F a.c2).c1.c0⟩, (fp4Sqr F a.c2).c0⟩
          (den4 φ u v a.c2 ^ 2 * v) := by
        refine ⟨⟨⟨h.zero_ok, hSok.2.1⟩, hSok.1⟩, ?_⟩
        rw [← S2]
        simp only [den4, den2, h.zero, hS11]
        linear_combination (-(φ (fp4Sqr F a.c2).c1.c0)) * hv
      have := (H.eq m.1 H.one_ok).mpr (by rw [m.2, H.one]; linear_combination hc)
      change (F.eq F.zero F.one && F.eq (fp4Sqr F a.c2).c1.c0 F.zero && fp2Eq F (fp4Sqr F a.c2).c0 _) = true at this
      simp only [Bool.and_eq_true] at this
      have := (h.eq h.zero_ok h.one_ok).mp this.1.1
      rw [h.zero, h.one] at this
      exact zero_ne_one this
    generalize den4 φ u v a.c0 = x0 at *
    generalize den4 φ u v a.c1 = x1 at *
    generalize den4 φ u v a.c2 = x2 at *
    have id := inv12_aux (x0 := x0) (x1 := x1) (x2 := x2) hw
    constructor
    · intro e
      by_cases h0 : x0 + x1 * w + x2 * w ^ 2 = 0
      · exact Or.inl h0
      · right
        have m1 := mul_inv_cancel₀ h0
        rw [← e] at m1
        have hne : (x1 * (x1 ^ 2 - x0 * x2) + x2 * (x2 ^ 2 * v - x0 * x1 - 1)) * v
            + x0 * (x0 ^ 2 - x1 * x2 * v) ≠ 0 := by
          intro hc
          rw [hc, inv_zero, mul_zero, mul_zero] at m1
          exact zero_ne_one m1
        rw [← mul_assoc, mul_inv_eq_one₀ hne] at m1
        have : w * (x0 + x1 * w) = 0 := by
          linear_combination id - m1 - x2 * hw
        exact hzl ((mul_eq_zero.mp this).resolve_left wne)
    · rintro (h0 | ⟨e0, e1⟩)
      · obtain ⟨e0, e1, e2⟩ := hz h0
        rw [e0, e1, e2]; simp
      · have := a2v e0 e1
        subst e0 e1
        by_cases x2z : x2 = 0
        · rw [x2z]; simp
        · have vne : v ≠ 0 := by rw [← hw]; exact pow_ne_zero 3 wne
          apply eq_inv_of_mul_eq_one_left
          have hN : x2 * (x2 ^ 2 * v - 1) * v ≠ 0 := mul_ne_zero (mul_ne_zero x2z this) vne
          rw [show (0 * (0 ^ 2 - 0 * x2) + x2 * (x2 ^ 2 * v - 0 * 0 - 1)) * v + 0 * (0 ^ 2 - 0 * x2 * v)
            = x2 * (x2 ^ 2 * v - 1) * v by ring]
          rw [mul_right_comm, mul_inv_eq_one₀ hN]
          linear_combination (x2 ^ 2 * v - 1) * x2 * hw
  · obtain ⟨r, r1, r2, r3⟩ := rest (B1 hexc)
    refine ⟨r, r1, r2, ?_⟩
    simp only [hexc, not_false_eq_true, true_or, or_true, iff_true]
    rw [r3]
    rw [h12] at hnorm ⊢
    generalize den4 φ u v a.c0 = x0 at *
    generalize den4 φ u v a.c1 = x1 at *
    generalize den4 φ u v a.c2 = x2 at *
    by_cases h0 : x0 + x1 * w + x2 * w ^ 2 = 0
    · obtain ⟨e0, e1, e2⟩ := hz h0
      rw [e0, e1, e2]; simp
    · apply eq_inv_of_mul_eq_one_left
      rw [mul_right_comm, mul_comm _ (x0 + x1 * w + x2 * w ^ 2), inv12_aux hw]
      exact mul_inv_cancel₀ (hnorm h0)

end twelve
end Verif
