import Verif.Proofs.Sm9Lines
/-! # `sm9_pairing` up to the final exponentiation computes the optimal-ate function -/
set_option linter.unusedSectionVars false
set_option linter.constructorNameAsVariable false
open WeierstrassCurve WeierstrassCurve.Affine
namespace Verif
open Spec

section
variable {K : Type} [Field K] [DecidableEq K] {α : Type} {F : FpOps α} {ok wk : α → Prop} {φ : α → K}

/-- Addition with an unreduced second operand. -/
theorem hom_add0_wk (h : WkHom F ok wk φ) {P Q : EcJ α} {J I : EcJ K} (hP : IsJ ok φ P J)
    (qx : Is wk φ Q.x I.x) (qy : Is wk φ Q.y I.y) (qz : Is ok φ Q.z I.z) :
    ∃ R S, ecJAdd0 F P Q = some R ∧ IsJ ok φ R S ∧ ecJAdd0 (fieldOps K) J I = some S := by
  obtain ⟨D, D', d1, d2, d3⟩ := hom_dbl0 h.fpHom hP
  have i1 := hom_inf h.fpHom
  obtain ⟨hx, hy, hz⟩ := hP
  have H := h.fpHom
  have x1 : Is ok φ (F.mul Q.x (F.sqr P.z)) (I.x * J.z ^ 2) := h.iMul qx (h.w (h.iSqr (h.w hz)))
  have y1 : Is ok φ (F.mul (F.mul Q.y P.z) (F.sqr P.z)) (I.y * J.z * J.z ^ 2) :=
    h.iMulO (h.iMul qy (h.w hz)) (h.iSqr (h.w hz))
  have e1 := H.is_eq (x := F.mul P.x (F.sqr Q.z)) (y := F.mul Q.x (F.sqr P.z))
    (u := J.x * I.z ^ 2) (v := I.x * J.z ^ 2) (by is_tac H) x1
  have e2 := H.is_eq (x := F.mul (F.mul P.y Q.z) (F.sqr Q.z)) (y := F.mul (F.mul Q.y P.z) (F.sqr P.z))
    (u := J.y * I.z * I.z ^ 2) (v := I.y * J.z * J.z ^ 2) (by is_tac H) y1
  unfold ecJAdd0
  simp only [e1, e2]
  by_cases c1 : J.x * I.z ^ 2 = I.x * J.z ^ 2
  · have f1 : (fieldOps K).eq (J.x * I.z ^ 2) (I.x * J.z ^ 2) = true := by simp [fieldOps, c1]
    have f1' : (fieldOps K).eq ((fieldOps K).mul J.x ((fieldOps K).sqr I.z))
      ((fieldOps K).mul I.x ((fieldOps K).sqr J.z)) = true := f1
    simp only [if_pos f1, if_pos f1']
    by_cases c2 : J.y * I.z * I.z ^ 2 = I.y * J.z * J.z ^ 2
    · have f2 : (fieldOps K).eq (J.y * I.z * I.z ^ 2) (I.y * J.z * J.z ^ 2) = true := by simp [fieldOps, c2]
      have f2' : (fieldOps K).eq ((fieldOps K).mul ((fieldOps K).mul J.y I.z) ((fieldOps K).sqr I.z))
        ((fieldOps K).mul ((fieldOps K).mul I.y J.z) ((fieldOps K).sqr J.z)) = true := f2
      simp only [if_pos f2, if_pos f2']
      exact ⟨D, D', d1, d2, d3⟩
    · have f2 : ¬ (fieldOps K).eq (J.y * I.z * I.z ^ 2) (I.y * J.z * J.z ^ 2) = true := by simp [fieldOps, c2]
      have f2' : ¬ (fieldOps K).eq ((fieldOps K).mul ((fieldOps K).mul J.y I.z) ((fieldOps K).sqr I.z))
        ((fieldOps K).mul ((fieldOps K).mul I.y J.z) ((fieldOps K).sqr J.z)) = true := f2
      simp only [if_neg f2, if_neg f2']
      exact ⟨_, _, rfl, i1, rfl⟩
  · have f1 : ¬ (fieldOps K).eq (J.x * I.z ^ 2) (I.x * J.z ^ 2) = true := by simp [fieldOps, c1]
    have f1' : ¬ (fieldOps K).eq ((fieldOps K).mul J.x ((fieldOps K).sqr I.z))
      ((fieldOps K).mul I.x ((fieldOps K).sqr J.z)) = true := f1
    simp only [if_neg f1, if_neg f1']
    refine ⟨_, _, rfl, ⟨?_, ?_, ?_⟩, rfl⟩
    all_goals simp only [fieldOps]; is_tac H

theorem add0_wk (h : WkHom F ok wk φ) (h2 : (2 : K) ≠ 0) {b : K} {P P' : EcJ α} {Q Q' : (shortCurve 0 b).Point}
    (hP : IsJacobianOf ok φ P Q) (hP' : IsJacobianOf wk φ P' Q') (hz : ok P'.z) (hne : Q = 0 ↔ Q' = 0) :
    ∃ R, ecJAdd0 F P P' = some R ∧ IsJacobianOf ok φ R (Q + Q') := by
  obtain ⟨J, j1, j2⟩ := isJacobianOf_iff.mp hP
  obtain ⟨q1, q2, q3, q4⟩ := hP'
  obtain ⟨R, S, r1, r2, r3⟩ := hom_add0_wk h (I := ⟨φ P'.x, φ P'.y, φ P'.z⟩) j1 ⟨q1, rfl⟩ ⟨q2, rfl⟩ ⟨hz, rfl⟩
  obtain ⟨S', s1, s2⟩ := rep_add0 h2 j2 q4 hne
  rw [r3] at s1
  cases s1
  exact ⟨R, r1, isJacobianOf_iff.mpr ⟨S, r2, s2⟩⟩

end

/-- The integer a digit string stands for. -/
def nafStep (m : ℤ) (c : Char) : ℤ := if c = '1' then 2 * m + 1 else if c = '2' then 2 * m - 1 else 2 * m

theorem naf_val : Sm9.nafA.foldl nafStep 1 = sm9L := by decide +kernel

section
variable {K : Type} [Field K] [Algebra (ZMod sm9p) K] [DecidableEq K] {w : K} (hw : w ^ 12 = -2)
include hw

local notation "ok2" => All2 (Reduced sm9p)
local notation "wk2" => All2 (AtMost sm9p)
local notation "ok12" => All12 (Reduced sm9p)
local notation "wk12" => All12 (AtMost sm9p)
local notation "E₁" => (shortCurve (0 : ZMod sm9p) 5)
local notation "E₂" => (shortCurve (0 : K) (5 * w ^ 6))

theorem killNeg {k l v : K} (k0 : k ≠ 0) (hk : fK K 2 k = k) (h : v = -k * l) : v ^ sm9D = l ^ sm9D := by
  rw [h, mul_pow, kill2 hw (neg_ne_zero.mpr k0) (by rw [map_neg, hk]), one_mul]

/-- Multiples of a point of order `N`. -/
theorem InG.z_iff {Q : (E₂).Point} (hQ : InG hw Q) (h0 : Q ≠ 0) (m : ℤ) : m • Q = 0 ↔ (sm9n : ℤ) ∣ m := by
  have ho : addOrderOf Q = sm9n := addOrderOf_eq_prime hQ.ord h0
  rw [← ho, addOrderOf_dvd_iff_zsmul_eq_zero]

/-- What the loop keeps: `T` holds `m • Q` and `f` the Miller function of `m` at `P`. -/
structure MI (Q : (E₂).Point) (P : (E₁).Point) (m : ℤ) (f : Sm9.F12) (T : Sm9.J2) : Prop where
  pt : IsJacobianOf ok2 (fp2Den w) T (m • Q)
  red : ok12 f
  ne : fp12Den w f ≠ 0
  val : toV (fp12Den w f ^ sm9D) = mill (gam hw Q P) m

variable {Q : (shortCurve (0 : K) (5 * w ^ 6)).Point} (hQ : InG hw Q) (Q0 : Q ≠ 0)
  {P : (shortCurve (0 : ZMod sm9p) 5).Point} {p : Sm9.A} (hp : IsAffineOf (Reduced sm9p) (montVal sm9p) p P)
include hQ hp

theorem aff_ne : P ≠ 0 := by
  obtain ⟨-, -, hs, e⟩ := hp
  rw [e]; exact Point.some_ne_zero _

/-- Multiplication of the accumulator by a line value. -/
theorem acc_mul {f g : Sm9.F12} {m k l : ℤ} {s : K} (hf : ok12 f) (f0 : fp12Den w f ≠ 0)
    (fv : toV (fp12Den w f ^ sm9D) = mill (gam hw Q P) m) (hg : Is wk12 (fp12Den w) g s)
    (gv : s ^ sm9D = lv (m • Q) (k • Q) (emb hw P) ^ sm9D) (hk : mill (gam hw Q P) k = 0) (e : l = m + k) :
    ok12 (fp12Mul Sm9.fp f g) ∧ fp12Den w (fp12Mul Sm9.fp f g) ≠ 0 ∧
      toV (fp12Den w (fp12Mul Sm9.fp f g) ^ sm9D) = mill (gam hw Q P) l := by
  have l0 := (lvM hw (hQ.zsmul hw m) (hQ.zsmul hw k) (aff_ne hw hQ hp)).1
  have s0 : s ≠ 0 := by
    rintro rfl
    rw [zero_pow (by decide +kernel)] at gv
    exact pow_ne_zero sm9D l0 gv.symm
  obtain ⟨r1, r2⟩ := f12Mul hw (f12w hw (is_rfl hf)) hg
  refine ⟨r1, by rw [r2]; exact mul_ne_zero f0 s0, ?_⟩
  rw [r2, mul_pow, toV_mul (pow_ne_zero _ f0) (pow_ne_zero _ s0), fv, gv, e, (gam_coc hw hQ (aff_ne hw hQ hp)).add, hk, add_zero]
  rfl

theorem lineA_val {T : Sm9.J2} {A : Sm9.A2} {R S : (E₂).Point} (hT : IsJacobianOf ok2 (fp2Den w) T R)
    (hA : IsAffineOf wk2 (fp2Den w) A S) (R0 : R ≠ 0) (n1 : R ≠ S) (n2 : R ≠ -S) :
    ∃ s, Is wk12 (fp12Den w) (Sm9.gLineA T A p) s ∧ s ^ sm9D = lv R S (emb hw P) ^ sm9D := by
  obtain ⟨px, py, hs, e⟩ := hp
  obtain ⟨J, j1, j2⟩ := isJacobianOf_iff.mp hT
  obtain ⟨a1, a2, hs2, e2⟩ := hA
  have g := gLineA_is hw j1 (A := ⟨fp2Den w A.x, fp2Den w A.y⟩) ⟨⟨a1, rfl⟩, ⟨a2, rfl⟩⟩
    (show Is (Reduced sm9p) (fpDen (K := K)) p.x _ from ⟨px, rfl⟩) (show Is (Reduced sm9p) (fpDen (K := K)) p.y _ from ⟨py, rfl⟩)
  refine ⟨_, g, ?_⟩
  rw [e2] at n1 n2 ⊢
  rw [e]
  obtain ⟨v, k0⟩ := linAK_lv (w := w) j2 R0 n1 n2
    (hX := tw_ns _ _ (sm9w_ne hw) (emb_b hw) hs)
  refine killNeg hw k0 ?_ v
  rw [← j1.1.2, ← j1.2.2.2]
  simp only [map_mul, map_sub, map_pow, fix2 hw]

theorem lineJ_val {T A : Sm9.J2} {R S : (E₂).Point} (hT : IsJacobianOf ok2 (fp2Den w) T R)
    (hA : IsJacobianOf wk2 (fp2Den w) A S) (R0 : R ≠ 0) (S0 : S ≠ 0) (n1 : R ≠ S) (n2 : R ≠ -S) :
    ∃ s, Is wk12 (fp12Den w) (Sm9.gLineJ T A p) s ∧ s ^ sm9D = lv R S (emb hw P) ^ sm9D := by
  obtain ⟨px, py, hs, e⟩ := hp
  obtain ⟨J, j1, j2⟩ := isJacobianOf_iff.mp hT
  obtain ⟨I, i1, i2⟩ := isJacobianOf_iff.mp hA
  have g := gLineJ_is hw j1 i1
    (show Is (Reduced sm9p) (fpDen (K := K)) p.x _ from ⟨px, rfl⟩) (show Is (Reduced sm9p) (fpDen (K := K)) p.y _ from ⟨py, rfl⟩)
  refine ⟨_, g, ?_⟩
  rw [e]
  obtain ⟨v, k0⟩ := linJK_lv (w := w) j2 i2 R0 S0 n1 n2
    (hX := tw_ns _ _ (sm9w_ne hw) (emb_b hw) hs)
  refine killNeg hw k0 ?_ v
  rw [← j1.1.2, ← j1.2.2.2, ← i1.1.2, ← i1.2.2.2]
  simp only [map_mul, map_sub, map_pow, fix2 hw]

theorem tan_val {T : Sm9.J2} {R : (E₂).Point} (hT : IsJacobianOf ok2 (fp2Den w) T R) (R0 : R ≠ 0) (n2 : R + R ≠ 0) :
    ∃ f s, Sm9.gTangent T p = some f ∧ Is wk12 (fp12Den w) f s ∧ s ^ sm9D = lv R R (emb hw P) ^ sm9D := by
  obtain ⟨px, py, hs, e⟩ := hp
  obtain ⟨J, j1, j2⟩ := isJacobianOf_iff.mp hT
  obtain ⟨f, f1, f2⟩ := gTangent_is hw j1
    (show Is (Reduced sm9p) (fpDen (K := K)) p.x _ from ⟨px, rfl⟩) (show Is (Reduced sm9p) (fpDen (K := K)) p.y _ from ⟨py, rfl⟩)
  refine ⟨f, _, f1, f2, ?_⟩
  rw [e]
  obtain ⟨v, y0, z0⟩ := tanK_lv (w := w) j2 R0 n2 (sm9K_two (K := K))
    (hX := tw_ns _ _ (sm9w_ne hw) (emb_b hw) hs)
  refine killNeg hw (mul_ne_zero (mul_ne_zero (sm9K_two (K := K)) y0) (pow_ne_zero 3 z0)) ?_ v
  rw [← j1.2.1.2, ← j1.2.2.2]
  simp only [map_mul, map_pow, fix2 hw, map_ofNat]

/-- A point given by an affine array is finite. -/
theorem aff2_ne {A : Sm9.A2} {S : (E₂).Point} (hA : IsAffineOf wk2 (fp2Den w) A S) : S ≠ 0 := by
  obtain ⟨-, -, hs, e⟩ := hA
  rw [e]; exact Point.some_ne_zero _

include Q0

theorem ndvd {m : ℤ} (h1 : 1 ≤ m) (h2 : m < sm9n) : m • Q ≠ 0 := fun h => by
  have := Int.le_of_dvd (by omega) ((hQ.z_iff hw Q0 m).mp h)
  omega

/-- One pass of the loop. -/
theorem millerStep_ok {A nA : Sm9.A2} (hA : IsAffineOf wk2 (fp2Den w) A Q) (hnA : IsAffineOf wk2 (fp2Den w) nA (-Q))
    {m : ℤ} {f : Sm9.F12} {T : Sm9.J2} (h : MI hw Q P m f T) (m1 : 1 ≤ m) (m2 : 2 * m + 1 < sm9n) (c : Char) :
    ∃ f' T', Sm9.millerStep p A nA c f T = some (f', T') ∧ MI hw Q P (nafStep m c) f' T' := by
  have C := gam_coc hw hQ (aff_ne hw hQ hp)
  have H := sm9fp2_wk hw
  have dd : m • Q + m • Q = (2 * m) • Q := by rw [← add_zsmul, two_mul]
  have e0 := ndvd hw hQ Q0 hp m1 (by omega)
  have e2 := ndvd hw hQ Q0 hp (m := 2 * m) (by omega) (by omega)
  obtain ⟨g, s, g1, g2, g3⟩ := tan_val hw hQ hp h.pt e0 (by rw [dd]; exact e2)
  obtain ⟨T2, t1, t2⟩ := dbl0_ok H h.pt
  rw [dd] at t2
  -- the square of the accumulator has the value of `m` twice
  obtain ⟨q1, q2⟩ := f12Sqr hw (f12w hw (is_rfl (φ := fp12Den w) h.red))
  have l0 := (lvM hw (hQ.zsmul hw m) (hQ.zsmul hw m) (aff_ne hw hQ hp)).1
  have s0 : s ≠ 0 := by
    rintro rfl
    rw [zero_pow (by decide +kernel)] at g3
    exact pow_ne_zero sm9D l0 g3.symm
  obtain ⟨r1, r2⟩ := f12Mul hw (f12w hw (⟨q1, q2⟩ : Is ok12 (fp12Den w) _ _)) g2
  have r0 : fp12Den w (fp12Mul Sm9.fp (fp12Sqr Sm9.fp f) g) ≠ 0 := by
    rw [r2]; exact mul_ne_zero (pow_ne_zero 2 h.ne) s0
  have rv : toV (fp12Den w (fp12Mul Sm9.fp (fp12Sqr Sm9.fp f) g) ^ sm9D) = mill (gam hw Q P) (2 * m) := by
    have ga : toV (s ^ sm9D) = gam hw Q P m m := by rw [g3]; rfl
    rw [r2, mul_pow, ← pow_mul, mul_comm 2, pow_mul, toV_mul (pow_ne_zero _ (pow_ne_zero _ h.ne)) (pow_ne_zero _ s0),
      toV_pow (pow_ne_zero _ h.ne), h.val, ga, two_mul, C.add, two_nsmul]
  have step : ∀ {B : Sm9.A2} {k : ℤ}, IsAffineOf wk2 (fp2Den w) B (k • Q) → mill (gam hw Q P) k = 0 →
      (k = 1 ∨ k = -1) →
      MI hw Q P (2 * m + k) (fp12Mul Sm9.fp (fp12Mul Sm9.fp (fp12Sqr Sm9.fp f) g) (Sm9.gLineA T2 B p)) (Sm9.j2AddA T2 B) := by
    intro B k hB hk hc
    have n1 : (2 * m) • Q ≠ k • Q := fun h => by
      have : (2 * m - k) • Q = 0 := by rw [sub_zsmul, h]; exact add_neg_cancel _
      exact ndvd hw hQ Q0 hp (by omega) (by omega) this
    have n2 : (2 * m) • Q ≠ -(k • Q) := fun h => by
      have : (2 * m + k) • Q = 0 := by rw [add_zsmul, h]; exact neg_add_cancel _
      exact ndvd hw hQ Q0 hp (by omega) (by omega) this
    obtain ⟨s, a1, a2⟩ := lineA_val hw hQ hp t2 hB e2 n1 n2
    obtain ⟨b1, b2, b3⟩ := acc_mul hw hQ hp r1 r0 rv a1 a2 hk rfl
    have ad := addA_wk H (sm9K_two (K := K)) t2 hB
    rw [if_neg (by rintro (h | h); exacts [e2 h, n1 h]), ← add_zsmul] at ad
    exact ⟨ad, b1, b2, b3⟩
  unfold Sm9.millerStep nafStep
  rw [g1]
  dsimp only [Option.bind_eq_bind, Option.bind_some]
  rw [show Sm9.j2Dbl T = some T2 from t1]
  dsimp only [Option.bind_some]
  by_cases c1 : c = '1'
  · simp only [if_pos c1]
    exact ⟨_, _, rfl, step (by rw [one_zsmul]; exact hA) C.one (Or.inl rfl)⟩
  · simp only [if_neg c1]
    by_cases c2 : c = '2'
    · simp only [if_pos c2]
      exact ⟨_, _, rfl, step (k := -1) (by rw [neg_zsmul, one_zsmul]; exact hnA) (by rw [C.negV, C.one, neg_zero])
        (Or.inr rfl)⟩
    · simp only [if_neg c2]
      exact ⟨_, _, rfl, t2, r1, r0, rv⟩

/-- The loop. -/
theorem millerLoop_ok {A nA : Sm9.A2} (hA : IsAffineOf wk2 (fp2Den w) A Q) (hnA : IsAffineOf wk2 (fp2Den w) nA (-Q))
    (cs : List Char) : ∀ {m : ℤ} {f : Sm9.F12} {T : Sm9.J2}, MI hw Q P m f T → 1 ≤ m →
      (m + 1) * 2 ^ cs.length ≤ sm9n →
      ∃ f' T', Sm9.millerLoop p A nA cs f T = some (f', T') ∧ MI hw Q P (cs.foldl nafStep m) f' T' := by
  induction cs with
  | nil => intro m f T h _ _; exact ⟨f, T, rfl, h⟩
  | cons c cs ih =>
    intro m f T h m1 m2
    rw [List.length_cons, pow_succ] at m2
    have hp2 : (1 : ℤ) ≤ 2 ^ cs.length := one_le_pow₀ (by norm_num)
    have hm : 2 * m + 1 < sm9n := by nlinarith
    obtain ⟨f', T', e, h'⟩ := millerStep_ok hw hQ Q0 hp hA hnA h m1 hm c
    have b1 : 1 ≤ nafStep m c := by unfold nafStep; split_ifs <;> omega
    have b2 : nafStep m c + 1 ≤ 2 * (m + 1) := by unfold nafStep; split_ifs <;> omega
    obtain ⟨f'', T'', e', h''⟩ := ih h' b1 (by nlinarith)
    refine ⟨f'', T'', ?_, h''⟩
    unfold Sm9.millerLoop
    rw [e]
    exact e'

/-- **`sm9_pairing` before the final exponentiation.** -/
theorem miller_ok {A : Sm9.A2} (hA : IsAffineOf ok2 (fp2Den w) A Q) :
    ∃ f, Sm9.miller p A = some f ∧ ok12 f ∧ fp12Den w f ≠ 0 ∧ toV (fp12Den w f ^ sm9D) = ateV hw Q P := by
  have C := gam_coc hw hQ (aff_ne hw hQ hp)
  have H := sm9fp2_wk hw
  have h := sm9fp_wk (K := K)
  have hA' := wk_affine H hA
  have hn := neg_wk H hA
  have i1 : MI hw Q P 1 (fp12One Sm9.fp) (ecJFromA Sm9.fp2 A) := by
    obtain ⟨o1, o2⟩ := f12One hw
    refine ⟨by rw [one_zsmul]; exact fromA_ok H hA, o1, by rw [o2]; exact one_ne_zero, ?_⟩
    rw [o2, one_pow, toV_one, C.one]
  obtain ⟨f, T, e, hl⟩ := millerLoop_ok hw hQ Q0 hp hA' hn Sm9.nafA i1 le_rfl (by decide +kernel)
  rw [naf_val] at hl
  have nz : ∀ m : ℤ, ¬ (sm9n : ℤ) ∣ m → m • Q ≠ 0 := fun m hm h => hm ((hQ.z_iff hw Q0 m).mp h)
  have nd : ∀ m k : ℤ, ¬ (sm9n : ℤ) ∣ m - k → m • Q ≠ k • Q := fun m k hm h =>
    nz _ hm (by rw [sub_zsmul, h]; exact add_neg_cancel _)
  have na : ∀ m k : ℤ, ¬ (sm9n : ℤ) ∣ m + k → m • Q ≠ -(k • Q) := fun m k hm h =>
    nz _ hm (by rw [add_zsmul, h]; exact neg_add_cancel _)
  have pQ : frb hw Q = (sm9p : ℤ) • Q := by rw [hQ.frob, natCast_zsmul]
  have ppQ : frb hw (frb hw Q) = ((sm9p : ℤ) * sm9p) • Q := by
    have := zfrb hw hQ (sm9p : ℤ)
    rwa [← pQ] at this
  obtain ⟨ax, ay, hs, eA⟩ := hA
  have k0 := kA_ne (K := K)
  have zc : ∀ {bs : List Byte} {n : Nat}, Is (Reduced sm9p) (fpDen (K := K)) (Sm9.fpFromBytes bs) (kA K ^ n) →
      Is ok2 (fp2Den w) (⟨Sm9.fpFromBytes bs, Sm9.fp.zero⟩ : Sm9.F2) (kA K ^ n) := fun hb =>
    (is2 hb ⟨h.zero_ok, h.zero⟩).val (by ring)
  have z1 := zc (cL1835_is (K := K))
  have z2 := zc (cL1850_is (K := K))
  have j1 : IsJacobianOf wk2 (fp2Den w) (Sm9.j2FrobA A) ((sm9p : ℤ) • Q) := by
    obtain ⟨x1, x2⟩ := f2Conj hw (fun x hx => h.wk_of hx) ax
    obtain ⟨y1, y2⟩ := f2Conj hw (fun x hx => h.wk_of hx) ay
    refine ⟨x1, y1, H.wk_of z1.1, ?_⟩
    rw [← pQ, eA]
    show _ ≠ (0 : K) ∧ _ = _ * _ ∧ _ = _ * _
    simp only [show fp2Den w (Sm9.j2FrobA A).z = _ from z1.2, show fp2Den w (Sm9.j2FrobA A).x = _ from x2,
      show fp2Den w (Sm9.j2FrobA A).y = _ from y2, pow_one]
    refine ⟨k0, ?_, ?_⟩ <;> · rw [inv_pow]; field_simp
  have j2 : IsJacobianOf ok2 (fp2Den w) (Sm9.j2Frob2A A) (((sm9p : ℤ) * sm9p) • Q) := by
    refine ⟨ax, ay, z2.1, ?_⟩
    rw [← ppQ, eA]
    show _ ≠ (0 : K) ∧ _ = _ * _ ∧ _ = _ * _
    simp only [show fp2Den w (Sm9.j2Frob2A A).z = _ from z2.2, show (Sm9.j2Frob2A A).x = A.x from rfl,
      show (Sm9.j2Frob2A A).y = A.y from rfl, map_mul, map_pow, map_inv₀, sm9Frob_kA]
    have fx := fix2 hw A.x
    have fy := fix2 hw A.y
    rw [fK_two] at fx fy
    rw [fx, fy]
    refine ⟨pow_ne_zero 2 k0, ?_, ?_⟩ <;> · rw [inv_pow]; field_simp
  have j3 := jneg_wk H j2
  rw [← neg_zsmul] at j3
  -- first line
  obtain ⟨s, a1, a2⟩ := lineJ_val hw hQ hp hl.pt j1 (nz _ (by decide +kernel)) (nz _ (by decide +kernel))
    (nd _ _ (by decide +kernel)) (na _ _ (by decide +kernel))
  obtain ⟨b1, b2⟩ := f12Mul hw (f12w hw (is_rfl (φ := fp12Den w) hl.red)) a1
  have l1 := (lvM hw (hQ.zsmul hw sm9L) (hQ.zsmul hw sm9p) (aff_ne hw hQ hp)).1
  have s0 : s ≠ 0 := by
    rintro rfl
    rw [zero_pow (by decide +kernel)] at a2
    exact pow_ne_zero sm9D l1 a2.symm
  obtain ⟨T', t1, t2⟩ := add0_wk H (sm9K_two (K := K)) hl.pt j1 z1.1
    ⟨fun h => absurd h (nz _ (by decide +kernel)), fun h => absurd h (nz _ (by decide +kernel))⟩
  rw [← add_zsmul] at t2
  -- second line
  obtain ⟨s', a1', a2'⟩ := lineJ_val hw hQ hp t2 j3 (nz _ (by decide +kernel)) (nz _ (by decide +kernel))
    (nd _ _ (by decide +kernel)) (na _ _ (by decide +kernel))
  obtain ⟨c1, c2⟩ := f12Mul hw (f12w hw (⟨b1, b2⟩ : Is ok12 (fp12Den w) _ _)) a1'
  have l2 := (lvM hw (hQ.zsmul hw (sm9L + sm9p)) (hQ.zsmul hw (-((sm9p : ℤ) * sm9p))) (aff_ne hw hQ hp)).1
  have s0' : s' ≠ 0 := by
    rintro rfl
    rw [zero_pow (by decide +kernel)] at a2'
    exact pow_ne_zero sm9D l2 a2'.symm
  refine ⟨_, ?_, c1, ?_, ?_⟩
  · unfold Sm9.miller
    dsimp only
    rw [e]
    dsimp only [Option.bind_eq_bind, Option.bind_some]
    rw [show Sm9.j2Add T (Sm9.j2FrobA A) = some T' from t1]
    rfl
  · rw [c2]; exact mul_ne_zero (mul_ne_zero hl.ne s0) s0'
  · rw [c2, mul_pow, mul_pow, toV_mul (mul_ne_zero (pow_ne_zero _ hl.ne) (pow_ne_zero _ s0)) (pow_ne_zero _ s0'),
      toV_mul (pow_ne_zero _ hl.ne) (pow_ne_zero _ s0), hl.val, a2, a2']
    rfl

end
end Verif
