import Verif.Spec.Sm2Den
import Verif.Proofs.Sm2Curve
import Verif.Props.Number
/-! # Scalar multiplication on the SM2 curve -/
set_option linter.constructorNameAsVariable false
namespace Verif
open Spec WeierstrassCurve.Affine

/-! ## The limb operations compute in the field -/

theorem sm2_montVal_zero {a : List W32} (ha : Reduced sm2p a) : montVal sm2p a = 0 ↔ val a = 0 := by
  have hz : Reduced sm2p u256Zero := by unfold Reduced; decide +kernel
  have h0 : montVal sm2p u256Zero = 0 := by unfold montVal; rw [show val u256Zero = 0 by decide]; simp
  rw [← h0, Props.C34_unique Sm2.fpCtx_wf a u256Zero ha hz]
  constructor
  · rintro rfl; decide
  · intro h
    exact val_inj _ _ (by rw [ha.1, hz.1]) (by rw [h]; decide)

theorem sm2_unit_pow : (((2 ^ 256 : Nat) : ZMod sm2p)) * (((2 ^ 256 : Nat) : ZMod sm2p))⁻¹ = 1 := by
  apply mul_inv_cancel₀
  rw [Nat.cast_pow]
  exact pow_ne_zero _ (by exact_mod_cast sm2_two_ne)

set_option exponentiation.threshold 300 in
theorem sm2fp_hom : FpHom Sm2.fp (Reduced sm2p) (montVal sm2p) := by
  have wf := Sm2.fpCtx_wf
  have hr : Reduced sm2p Sm2.fpCtx.R := by unfold Reduced; decide +kernel
  have hz : Reduced sm2p u256Zero := by unfold Reduced; decide +kernel
  constructor
  · intro a b ha hb; exact (Props.C35_mont_linear wf a b ha hb).1.1
  · intro a b ha hb; exact (Props.C35_mont_linear wf a b ha hb).1.2.2
  · intro a b ha hb; exact (Props.C35_mont_linear wf a b ha hb).2.1.1
  · intro a b ha hb; exact (Props.C35_mont_linear wf a b ha hb).2.1.2.2
  · intro a b ha hb; exact (Props.C34_mont_mul_sqr wf a b ha hb).1
  · intro a b ha hb; exact (Props.C34_mont_mul_sqr wf a b ha hb).2.1
  · intro a ha; exact (Props.C34_mont_mul_sqr wf a a ha ha).2.2.1
  · intro a ha; exact (Props.C34_mont_mul_sqr wf a a ha ha).2.2.2
  · intro a ha; exact (Props.C35_mont_linear wf a a ha ha).2.2.1.1
  · intro a ha; exact (Props.C35_mont_linear wf a a ha ha).2.2.1.2.2
  · intro a ha
    obtain ⟨r, r1, r2, -, r4⟩ := Props.C35_mont_tpl wf (by unfold sm2p; norm_num) a ha
    exact ⟨r, r1, r2, r4⟩
  · intro a b ha hb
    rw [Props.C34_unique wf a b ha hb]
    show u256Equal a b = true ↔ _
    rw [(Props.C31_cmp a b ha.1 hb.1).2]
    exact ⟨val_inj a b (by rw [ha.1, hb.1]), fun h => h ▸ rfl⟩
  · intro a ha
    show u256EqualZero a = true ↔ _
    rw [u256EqualZero_iff, sm2_montVal_zero ha]
  · exact hr
  · show montVal sm2p Sm2.fpCtx.R = 1
    unfold montVal
    rw [wf.R.2, ZMod.natCast_mod]
    exact sm2_unit_pow
  · exact hz
  · show montVal sm2p u256Zero = 0
    rw [sm2_montVal_zero hz]; decide

theorem sm2fp_inv : InvHom Sm2.fp (Reduced sm2p) (montVal sm2p) := by
  intro a ha
  obtain ⟨r, r1, r2, r3⟩ := Props.C37_mont_inv Sm2.fpCtx_wf sm2p_prime a ha
  refine ⟨r, r1, r2, ?_⟩
  by_cases h0 : val a = 0
  · rw [(sm2_montVal_zero ha).mpr h0, (sm2_montVal_zero r2).mpr (r3.2 h0), inv_zero]
  · exact eq_inv_of_mul_eq_one_left (r3.1 h0)

theorem sm2fp_neg : NegHom Sm2.fp (Reduced sm2p) (montVal sm2p) := by
  intro a ha hne
  have := Props.C36_mont_neg_partial Sm2.fpCtx_wf a ha (fun h => hne ((sm2_montVal_zero ha).mpr h))
  exact ⟨this.1, this.2.1⟩

/-! ## Denotations as `Is` facts -/

abbrev IsFp := Is (Reduced sm2p) (montVal sm2p)

theorem isJacobian_iff {P : Sm2.J} {Q : Sm2Point} :
    Sm2IsJacobian P Q ↔ ∃ J, IsJ (Reduced sm2p) (montVal sm2p) P J ∧ IsJac J Q := by
  constructor
  · rintro ⟨hx, hy, hz, h⟩
    exact ⟨_, ⟨⟨hx, rfl⟩, ⟨hy, rfl⟩, ⟨hz, rfl⟩⟩, h⟩
  · rintro ⟨⟨x, y, z⟩, ⟨⟨hx, rfl⟩, ⟨hy, rfl⟩, ⟨hz, rfl⟩⟩, h⟩
    exact ⟨hx, hy, hz, h⟩

theorem isAffine_isA {P : Sm2.A} {Q : Sm2Point} (h : Sm2IsAffine P Q) :
    IsA (Reduced sm2p) (montVal sm2p) P ⟨fpVal P.x, fpVal P.y⟩ := ⟨⟨h.1, rfl⟩, ⟨h.2.1, rfl⟩⟩

theorem jDbl_ok {P : Sm2.J} {Q : Sm2Point} (h : Sm2IsJacobian P Q) :
    ∃ R, Sm2.jDbl P = some R ∧ Sm2IsJacobian R (Q + Q) := by
  obtain ⟨J, j1, j2⟩ := isJacobian_iff.mp h
  obtain ⟨R, S, r1, r2, r3⟩ := hom_dbl sm2fp_hom j1
  obtain ⟨S', s1, s2⟩ := rep_dbl sm2_two_ne j2
  rw [r3] at s1
  cases s1
  exact ⟨R, r1, isJacobian_iff.mpr ⟨S, r2, s2⟩⟩

theorem jAddA_ok {P : Sm2.J} {A : Sm2.A} {Q S : Sm2Point} (h : Sm2IsJacobian P Q) (hA : Sm2IsAffine A S)
    (h0 : Q ≠ 0) (hne : Q ≠ S) : Sm2IsJacobian (Sm2.jAddA P A) (Q + S) := by
  obtain ⟨J, j1, j2⟩ := isJacobian_iff.mp h
  have r := hom_addA sm2fp_hom j1 (isAffine_isA hA)
  obtain ⟨-, -, hs, rfl⟩ := hA
  exact isJacobian_iff.mpr ⟨_, r, rep_addA sm2_two_ne j2 hs h0 hne⟩

theorem jAdd_ok {P P' : Sm2.J} {Q Q' : Sm2Point} (h : Sm2IsJacobian P Q) (h' : Sm2IsJacobian P' Q')
    (hne : Q = 0 ↔ Q' = 0) : ∃ R, Sm2.jAdd P P' = some R ∧ Sm2IsJacobian R (Q + Q') := by
  obtain ⟨J, j1, j2⟩ := isJacobian_iff.mp h
  obtain ⟨J', j1', j2'⟩ := isJacobian_iff.mp h'
  obtain ⟨R, S, r1, r2, r3⟩ := hom_add sm2fp_hom j1 j1'
  obtain ⟨S', s1, s2⟩ := rep_add sm2_two_ne j2 j2' hne
  rw [r3] at s1
  cases s1
  exact ⟨R, r1, isJacobian_iff.mpr ⟨S, r2, s2⟩⟩

theorem jInf_ok : Sm2IsJacobian (ecJInf Sm2.fp) 0 :=
  isJacobian_iff.mpr ⟨_, hom_inf sm2fp_hom, rep_inf⟩

theorem jFromA_ok {A : Sm2.A} {Q : Sm2Point} (hA : Sm2IsAffine A Q) : Sm2IsJacobian (ecJFromA Sm2.fp A) Q := by
  have r := hom_fromA sm2fp_hom (isAffine_isA hA)
  obtain ⟨-, -, hs, rfl⟩ := hA
  exact isJacobian_iff.mpr ⟨_, r, rep_fromA hs⟩

theorem jToA_ok {P : Sm2.J} {Q : Sm2Point} (h : Sm2IsJacobian P Q) (h0 : Q ≠ 0) :
    ∃ R, Sm2.jToA P = some R ∧ Sm2IsAffine R Q := by
  obtain ⟨J, j1, j2⟩ := isJacobian_iff.mp h
  obtain ⟨R, S, r1, r2, r3⟩ := hom_toA sm2fp_hom sm2fp_inv j1
  cases Q with
  | zero => exact absurd rfl h0
  | some x y hs =>
    have := rep_toA j2
    rw [r3] at this
    cases this
    obtain ⟨⟨rx, ex⟩, ⟨ry, ey⟩⟩ := r2
    have ex' : fpVal R.x = x := ex
    have ey' : fpVal R.y = y := ey
    refine ⟨R, r1, rx, ry, ?_⟩
    subst ex' ey'
    exact ⟨hs, rfl⟩

theorem neg_affine {A : Sm2.A} {Q : Sm2Point} (hA : Sm2IsAffine A Q) : Sm2IsAffine (ecANeg Sm2.fp A) (-Q) := by
  obtain ⟨hx, hy, hs, rfl⟩ := hA
  obtain ⟨n1, n2⟩ := sm2fp_neg hy (sm2_y_ne (sm2_onCurve hs))
  refine ⟨hx, n1, ?_⟩
  rw [Point.neg_some]
  refine some_congr rfl rfl ?_
  show sm2Curve.negY _ _ = montVal sm2p _
  rw [show (ecANeg Sm2.fp A).y = Sm2.fp.neg A.y from rfl, n2]
  simp [negY, sm2Curve, shortCurve]

/-! ## Digits of `3e - e` -/

/-- The prefix value after bit `i`: `⌊3e/2^i⌋ - ⌊e/2^i⌋`. -/
def wPre (e i : Nat) : Nat := 3 * e / 2 ^ i - e / 2 ^ i

theorem wPre_one (e : Nat) : wPre e 1 = e := by unfold wPre; omega

theorem div_pow_succ (e i : Nat) : e / 2 ^ i = 2 * (e / 2 ^ (i + 1)) + (e.testBit i).toNat := by
  rw [pow_succ, ← Nat.div_div_eq_div_mul, Nat.testBit_eq_decide_div_mod_eq]
  by_cases h : e / 2 ^ i % 2 = 1 <;> simp [h] <;> omega

theorem le_three (e i : Nat) : 3 * (e / 2 ^ i) ≤ 3 * e / 2 ^ i := by
  rw [Nat.le_div_iff_mul_le (Nat.two_pow_pos i)]
  have := Nat.div_mul_le_self e (2 ^ i)
  calc 3 * (e / 2 ^ i) * 2 ^ i = 3 * (e / 2 ^ i * 2 ^ i) := by ring
    _ ≤ 3 * e := by omega

theorem wPre_step (e i : Nat) :
    wPre e i + (e.testBit i).toNat = 2 * wPre e (i + 1) + ((3 * e).testBit i).toNat := by
  have h1 := div_pow_succ e i
  have h2 := div_pow_succ (3 * e) i
  have h3 := le_three e i
  have h4 := le_three e (i + 1)
  unfold wPre
  omega

theorem wPre_pos {e i : Nat} (h : 2 ^ i ≤ 3 * e) : 1 ≤ wPre e i := by
  have h1 := le_three e i
  have h2 : 1 ≤ 3 * e / 2 ^ i := (Nat.one_le_div_iff (Nat.two_pow_pos i)).mpr h
  unfold wPre
  omega

theorem wPre_lt (e i : Nat) : wPre e (i + 1) * 2 ^ i < e + 2 ^ i := by
  unfold wPre
  rw [Nat.sub_mul]
  have hp := Nat.two_pow_pos i
  have h1 := Nat.div_mul_le_self (3 * e) (2 ^ (i + 1))
  have h2 := Nat.lt_div_mul_add (a := e) (Nat.two_pow_pos (i + 1))
  rw [pow_succ] at *
  generalize 2 ^ i = s at *
  have e1 : 3 * e / (s * 2) * (s * 2) = 2 * (3 * e / (s * 2) * s) := by ring
  have e2 : e / (s * 2) * (s * 2) = 2 * (e / (s * 2) * s) := by ring
  omega

theorem wPre_le (e i : Nat) : wPre e (i + 1) ≤ e := by
  have h1 := wPre_lt e i
  have hp := Nat.two_pow_pos i
  by_contra hc
  push Not at hc
  have : (e + 1) * 2 ^ i ≤ wPre e (i + 1) * 2 ^ i := Nat.mul_le_mul_right _ hc
  have : e ≤ e * 2 ^ i := Nat.le_mul_of_pos_right e hp
  rw [Nat.add_mul, Nat.one_mul] at *
  omega

theorem wPre_top {e t : Nat} (h1 : 2 ^ t ≤ 3 * e) (h2 : 3 * e < 2 ^ (t + 1)) : wPre e t = 1 := by
  have hp := Nat.two_pow_pos t
  rw [pow_succ] at h2
  have a1 : 3 * e / 2 ^ t = 1 := Nat.div_eq_of_lt_le (by omega) (by omega)
  have a2 : e / 2 ^ t = 0 := Nat.div_eq_of_lt (by omega)
  unfold wPre
  omega

/-! ## Multiples of a finite point -/

theorem sm2_nsmul_eq_zero {Q : Sm2Point} (hQ : Q ≠ 0) {k : Nat} : k • Q = 0 ↔ sm2n ∣ k := by
  rw [← sm2_order hQ]
  exact addOrderOf_dvd_iff_nsmul_eq_zero.symm

theorem nsmul_ne_zero_of {Q : Sm2Point} (hQ : Q ≠ 0) {k : Nat} (h0 : 0 < k) (hlt : k < sm2n) : k • Q ≠ 0 := by
  rw [Ne, sm2_nsmul_eq_zero hQ]
  exact fun h => absurd (Nat.le_of_dvd h0 h) (by omega)

/-- One step of the loop: from `[2w]` to `[2w + d]`. -/
theorem mulAStep_ok {e3 eL : List W32} {e : Nat} (he : u256BitTest eL (i + 1) = some (e.testBit (i + 1)))
    (he3 : u256BitTest e3 (i + 1) = some ((3 * e).testBit (i + 1))) (hlt : e < sm2n)
    (hi : 2 ^ (i + 2) ≤ 3 * e) {A : Sm2.A} {Q : Sm2Point} (hA : Sm2IsAffine A Q) {T : Sm2.J}
    (hT : Sm2IsJacobian T (wPre e (i + 2) • Q)) :
    ∃ R, mulAStep Sm2.fp eL e3 A (ecANeg Sm2.fp A) (i + 1) T = some R ∧ Sm2IsJacobian R (wPre e (i + 1) • Q) := by
  have hQ0 : Q ≠ 0 := by obtain ⟨-, -, hs, rfl⟩ := hA; exact Point.some_ne_zero hs
  have hN := neg_affine hA
  obtain ⟨D, d1, d2⟩ := jDbl_ok hT
  rw [← add_nsmul, ← two_mul] at d2
  have hstep : wPre e (i + 1) + (e.testBit (i + 1)).toNat = 2 * wPre e (i + 2) + ((3 * e).testBit (i + 1)).toNat :=
    wPre_step e (i + 1)
  have hw := wPre_pos hi
  have hle := wPre_le e i
  have hodd : sm2n % 4 = 3 := by decide +kernel
  have hbig : 100 < sm2n := by decide +kernel
  unfold mulAStep
  rw [show ecJDbl Sm2.fp T = some D from d1]
  simp only [he, he3]
  rcases Bool.eq_false_or_eq_true (e.testBit (i + 1)) with b1 | b1 <;>
  rcases Bool.eq_false_or_eq_true ((3 * e).testBit (i + 1)) with b3 | b3 <;>
  rw [b1, b3] at hstep <;> simp only [b1, b3, Bool.toNat_true, Bool.toNat_false] at hstep ⊢
  · refine ⟨D, by simp, ?_⟩
    rw [show wPre e (i + 1) = 2 * wPre e (i + 2) by omega]; exact d2
  · -- digit -1
    refine ⟨_, by simp; rfl, ?_⟩
    have hw2 : 2 * wPre e (i + 2) ≠ sm2n := by omega
    have h1 : (2 * wPre e (i + 2)) • Q ≠ 0 := nsmul_ne_zero_of hQ0 (by omega) (by omega)
    have h2 : (2 * wPre e (i + 2)) • Q ≠ -Q := by
      intro hc
      have : (2 * wPre e (i + 2) + 1) • Q = 0 := by rw [add_nsmul, hc, one_nsmul, neg_add_cancel]
      rw [sm2_nsmul_eq_zero hQ0] at this
      have hd := Nat.le_of_dvd (by omega) this
      have hub : 2 * wPre e (i + 2) + 1 ≤ sm2n + 1 := by omega
      have heq : 2 * wPre e (i + 2) + 1 = sm2n := by
        obtain ⟨k, hk⟩ := this
        have : k < 2 := by
          by_contra hc
          have : sm2n * 2 ≤ sm2n * k := Nat.mul_le_mul_left _ (by omega)
          omega
        interval_cases k <;> omega
      -- wPre e (i+1) = n - 2
      rcases Nat.eq_zero_or_pos i with rfl | hipos
      · have hw1 : wPre e (0 + 1) = e := wPre_one e
        have he1 : e = sm2n - 2 := by omega
        have : e.testBit 1 = decide (e / 2 % 2 = 1) := by rw [Nat.testBit_eq_decide_div_mod_eq]
        rw [this] at b1
        simp only [decide_eq_true_eq] at b1
        omega
      · obtain ⟨j, rfl⟩ : ∃ j, i = j + 1 := ⟨i - 1, by omega⟩
        have hl := wPre_lt e (j + 1)
        have hp : 2 ≤ 2 ^ (j + 1) := by rw [pow_succ]; have := Nat.two_pow_pos j; omega
        generalize 2 ^ (j + 1) = s at *
        have : (sm2n - 2) * s < e + s := by
          rw [show wPre e (j + 1 + 1) = sm2n - 2 by omega] at hl; exact hl
        have h3 : (sm2n - 3) * s < e := by
          rw [show sm2n - 2 = (sm2n - 3) + 1 by omega, Nat.add_mul, Nat.one_mul] at this
          omega
        have : (sm2n - 3) * 2 ≤ (sm2n - 3) * s := Nat.mul_le_mul_left _ hp
        omega
    have := jAddA_ok d2 hN h1 h2
    rw [← sub_eq_add_neg] at this
    convert this using 1
    rw [show 2 * wPre e (i + 2) = wPre e (i + 1) + 1 by omega, add_nsmul, one_nsmul, add_sub_cancel_right]
  · -- digit 1
    refine ⟨_, by simp; rfl, ?_⟩
    have h1 : (2 * wPre e (i + 2)) • Q ≠ 0 := nsmul_ne_zero_of hQ0 (by omega) (by omega)
    have h2 : (2 * wPre e (i + 2)) • Q ≠ Q := by
      intro hc
      apply nsmul_ne_zero_of hQ0 (k := 2 * wPre e (i + 2) - 1) (by omega) (by omega)
      have : (2 * wPre e (i + 2) - 1) • Q + Q = 0 + Q := by
        rw [zero_add, ← succ_nsmul, Nat.sub_add_cancel (by omega)]; exact hc
      exact add_right_cancel this
    have := jAddA_ok d2 hA h1 h2
    rw [← succ_nsmul] at this
    convert this using 2
    omega
  · refine ⟨D, by simp, ?_⟩
    rw [show wPre e (i + 1) = 2 * wPre e (i + 2) by omega]; exact d2

theorem mulALoop_ok {e3 eL : List W32} {e : Nat} (hlt : e < sm2n)
    {A : Sm2.A} {Q : Sm2Point} (hA : Sm2IsAffine A Q) :
    ∀ (i : Nat) (T : Sm2.J), (∀ j ≤ i, u256BitTest eL j = some (e.testBit j)) →
      (∀ j ≤ i, u256BitTest e3 j = some ((3 * e).testBit j)) → 2 ^ (i + 1) ≤ 3 * e →
      Sm2IsJacobian T (wPre e (i + 1) • Q) →
      ∃ R, mulALoop Sm2.fp eL e3 A (ecANeg Sm2.fp A) i T = some R ∧ Sm2IsJacobian R (e • Q)
  | 0, T, _, _, _, hT => by
    refine ⟨T, rfl, ?_⟩
    rwa [wPre_one] at hT
  | i + 1, T, he, he3, hi, hT => by
    obtain ⟨S, s1, s2⟩ := mulAStep_ok (he (i + 1) le_rfl) (he3 (i + 1) le_rfl) hlt hi hA hT
    unfold mulALoop
    rw [s1]
    refine mulALoop_ok hlt hA i S (fun j hj => he j (by omega)) (fun j hj => he3 j (by omega)) ?_ s2
    have := Nat.two_pow_pos (i + 1)
    rw [pow_succ] at hi
    omega

theorem topBit_ok {x : List W32} (hx : x.length = 8) : ∀ i, i < 256 → val x ≠ 0 → val x < 2 ^ (i + 1) →
    ∃ t, topBit x i = some t ∧ t ≤ i ∧ 2 ^ t ≤ val x ∧ val x < 2 ^ (t + 1)
  | 0, _, h0, h1 => by
    have : val x = 1 := by simp at h1; omega
    refine ⟨0, ?_, le_rfl, by omega, by omega⟩
    unfold topBit
    rw [Props.C31_bittest x hx 0 (by omega), this]; rfl
  | i + 1, hi, h0, h1 => by
    unfold topBit
    rw [Props.C31_bittest x hx (i + 1) hi]
    by_cases hb : 2 ^ (i + 1) ≤ val x
    · have : (val x).testBit (i + 1) = true := by
        rw [Nat.testBit_eq_decide_div_mod_eq]
        have : val x / 2 ^ (i + 1) = 1 := Nat.div_eq_of_lt_le (by omega) (by rw [pow_succ] at h1; omega)
        rw [this]; rfl
      rw [this]
      exact ⟨i + 1, rfl, le_rfl, hb, h1⟩
    · have : (val x).testBit (i + 1) = false := Nat.testBit_lt_two_pow (by omega)
      rw [this]
      obtain ⟨t, t1, t2, t3⟩ := topBit_ok hx i (by omega) h0 (by omega)
      exact ⟨t, t1, by omega, t3⟩

theorem jMulA_ok {k : List Byte} (hk : k.length = 32) {A : Sm2.A} {Q : Sm2Point} (hA : Sm2IsAffine A Q) :
    ∃ R, Sm2.jMulA k A = some R ∧ Sm2IsJacobian R (beVal k • Q) := by
  have hn8 : Sm2.nLimbs.length = 8 := by decide +kernel
  have hnv : val Sm2.nLimbs = sm2n := by decide +kernel
  obtain ⟨hl, hv⟩ := u256FromBytes_spec k hk
  have hkl : beVal k < 2 ^ 256 := by have := beVal_lt k; rw [hk] at this; omega
  have hn2 : 2 ^ 256 < 2 * sm2n := by decide +kernel
  have hn3 : sm2n < 2 ^ 256 := by decide +kernel
  unfold Sm2.jMulA ecJMulA
  dsimp only
  -- the reduced scalar
  obtain ⟨eL, e1, e2, e3⟩ : ∃ eL, (if u256Cmp (u256FromBytes k) Sm2.nLimbs ≥ 0
      then (u256SubBorrow (u256FromBytes k) Sm2.nLimbs).1 else u256FromBytes k) = eL ∧ eL.length = 8 ∧
        val eL = beVal k % sm2n := by
    refine ⟨_, rfl, ?_⟩
    rw [(Props.C31_cmp _ _ hl hn8).1, hv, hnv]
    by_cases hc : beVal k < sm2n
    · rw [if_neg, Nat.mod_eq_of_lt hc]
      · exact ⟨hl, hv⟩
      · rw [if_neg (by omega), if_pos hc]; omega
    · rw [if_pos]
      · obtain ⟨s1, s2, -⟩ := u256Sub_spec _ _ hl hn8
        refine ⟨s1, ?_⟩
        rw [(s2 (by omega)).1, hv, hnv, Nat.mod_eq_sub_mod (by omega), Nat.mod_eq_of_lt (by omega)]
      · split_ifs <;> omega
  rw [e1]
  have hkQ : beVal k • Q = (beVal k % sm2n) • Q := by
    conv_lhs => rw [← Nat.div_add_mod (beVal k) sm2n, add_nsmul, mul_nsmul', sm2_nsmul, zero_add]
  rw [hkQ]
  have helt : beVal k % sm2n < sm2n := Nat.mod_lt _ (by omega)
  generalize beVal k % sm2n = e at *
  clear e1
  by_cases hz : u256EqualZero eL = true
  · simp only [if_pos hz]
    rw [u256EqualZero_iff] at hz
    refine ⟨_, rfl, ?_⟩
    rw [show e = 0 by omega, zero_nsmul]
    exact jInf_ok
  · simp only [if_neg hz]
    rw [u256EqualZero_iff, e3] at hz
    obtain ⟨-, -, t3, -, -, t6⟩ := Props.C31_add_dbl_tpl eL eL e2 e2
    rw [e3] at t3
    have hT := jFromA_ok hA
    have hbe : ∀ j < 256, u256BitTest eL j = some (e.testBit j) := by
      intro j hj; rw [Props.C31_bittest eL e2 j hj, e3]
    generalize hr : u256TplCarry eL = r at *
    obtain ⟨e3L, c⟩ := r
    dsimp only at t3 t6 ⊢
    have h3l := len8_lt t6
    have hbe3 : ∀ j < 256, u256BitTest e3L j = some ((3 * e).testBit j) := by
      intro j hj
      rw [Props.C31_bittest e3L t6 j hj]
      congr 1
      rw [← t3, Nat.add_comm, Nat.testBit_two_pow_mul_add _ h3l, if_pos hj]
    have hlow : val e3L = 3 * e - 2 ^ 256 * c.toNat := by omega
    have hcle : c.toNat ≤ 2 := by omega
    by_cases c1 : c = 1
    · rw [if_pos c1]
      have hc : c.toNat = 1 := by rw [c1]; rfl
      refine mulALoop_ok helt hA 255 _ (fun j hj => hbe j (by omega)) (fun j hj => hbe3 j (by omega)) (by omega) ?_
      rw [wPre_top (by omega) (by omega), one_nsmul]
      exact hT
    · rw [if_neg c1]
      by_cases c2 : c = 2
      · rw [if_pos c2]
        have hc : c.toNat = 2 := by rw [c2]; rfl
        obtain ⟨D, d1, d2⟩ := jDbl_ok hT
        rw [show ecJDbl Sm2.fp (ecJFromA Sm2.fp A) = some D from d1]
        refine mulALoop_ok helt hA 255 _ (fun j hj => hbe j (by omega)) (fun j hj => hbe3 j (by omega)) (by omega) ?_
        have : wPre e 256 = 2 := by
          have a1 : 3 * e / 2 ^ 256 = 2 := Nat.div_eq_of_lt_le (by omega) (by omega)
          have a2 : e / 2 ^ 256 = 0 := Nat.div_eq_of_lt (by omega)
          unfold wPre; rw [a1, a2]
        rw [this, two_nsmul]
        exact d2
      · rw [if_neg c2]
        have hc : c.toNat = 0 := by
          have h1 : c.toNat ≠ 1 := fun h => c1 (BitVec.eq_of_toNat_eq h)
          have h2 : c.toNat ≠ 2 := fun h => c2 (BitVec.eq_of_toNat_eq h)
          omega
        rw [hc] at t3
        obtain ⟨t, u1, u2, u3, u4⟩ := topBit_ok t6 255 (by omega) (by omega) (by omega)
        rw [u1]
        have ht : 1 ≤ t := by
          rcases Nat.eq_zero_or_pos t with rfl | h
          · simp at u4; omega
          · exact h
        obtain ⟨t', rfl⟩ : ∃ t', t = t' + 1 := ⟨t - 1, by omega⟩
        refine mulALoop_ok helt hA t' _ (fun j hj => hbe j (by omega)) (fun j hj => hbe3 j (by omega)) (by omega) ?_
        rw [wPre_top (by omega) (by omega), one_nsmul]
        exact hT

end Verif
