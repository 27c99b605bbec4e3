import Verif.Proofs.Sm9Bil
/-! # Bilinearity of the optimal-ate pairing of SM9 (mathematical side) -/
set_option linter.unusedSectionVars false
set_option linter.constructorNameAsVariable false
open WeierstrassCurve WeierstrassCurve.Affine
namespace Verif
open Spec

section
variable {K : Type} [Field K] [DecidableEq K]

/-- A non-zero element as an element of the multiplicative group, written additively. -/
noncomputable def toV (x : K) : Additive Kˣ := if h : x = 0 then 0 else Additive.ofMul (Units.mk0 x h)

theorem toV_ne {x : K} (h : x ≠ 0) : toV x = Additive.ofMul (Units.mk0 x h) := dif_neg h

theorem toV_one : toV (1 : K) = 0 := by
  rw [toV_ne one_ne_zero, Units.mk0_one]; rfl

theorem toV_mul {x y : K} (hx : x ≠ 0) (hy : y ≠ 0) : toV (x * y) = toV x + toV y := by
  rw [toV_ne hx, toV_ne hy, toV_ne (mul_ne_zero hx hy), Units.mk0_mul]; rfl

theorem toV_pow {x : K} (hx : x ≠ 0) (n : Nat) : toV (x ^ n) = n • toV x := by
  induction n with
  | zero => rw [pow_zero, zero_nsmul, toV_one]
  | succ n ih => rw [pow_succ, toV_mul (pow_ne_zero n hx) hx, ih, succ_nsmul]

theorem toV_inj {x y : K} (hx : x ≠ 0) (hy : y ≠ 0) (h : toV x = toV y) : x = y := by
  rw [toV_ne hx, toV_ne hy] at h
  have := congrArg (fun u : Additive Kˣ => ((Additive.toMul u : Kˣ) : K)) h
  simpa using this

end

/-- `6t + 2`. -/
def sm9L : ℤ := 0x2400000000215d93e

theorem sm9L_dvd : (sm9n : ℤ) ∣ sm9L + sm9p - (sm9p : ℤ) ^ 2 + (sm9p : ℤ) ^ 3 := by decide +kernel

/-- `p mod N`. -/
def sm9pN : Nat := sm9p - sm9n
theorem sm9pN_eq : sm9p = sm9pN + sm9n := by decide +kernel

section
variable {K : Type} [Field K] [Algebra (ZMod sm9p) K] {w : K} (hw : w ^ 12 = -2)

/-- The constant of the twisted Frobenius map. -/
def kAnat : Nat × Nat := (0x3f23ea58e5720bdb843c6cfa9c08674947c5c86e0ddd04eda91d8354377b698b, 0)

/-- The check `kA² X = conj(x) Z²`, `kA³ Y = conj(y) Z³` on natural numbers. -/
def frobCheck (T : EcJ (Nat × Nat)) : Bool :=
  let F := nat2Ops sm9p
  let a2 := F.mul kAnat kAnat
  let a3 := F.mul a2 kAnat
  let z2 := F.mul T.z T.z
  let z3 := F.mul z2 T.z
  !F.isZero T.z && F.isZero (F.sub (F.mul a2 T.x) (F.mul (g2nat.x.1, sm9p - g2nat.x.2) z2)) &&
    F.isZero (F.sub (F.mul a3 T.y) (F.mul (g2nat.y.1, sm9p - g2nat.y.2) z3))

theorem sm9_ladder_frob : ((ladder2 sm9p g2nat (bitsBelow sm9pN 127) ⟨g2nat.x, g2nat.y, (1, 0)⟩).map frobCheck) =
    some true := by decide +kernel

theorem sm9_bits_frob : bitsVal 1 (bitsBelow sm9pN 127) = sm9pN := by decide +kernel

include hw

theorem frob_ev2 (a : Nat × Nat) (h : a.2 ≤ sm9p) : sm9Frob K (ev2 w a) = ev2 w (a.1, sm9p - a.2) := by
  have := sm9K_char K
  simp only [ev2, map_add, map_mul, map_natCast, sm9Frob_w6 hw]
  rw [Nat.cast_sub h, CharP.cast_eq_zero K sm9p]
  ring

variable [DecidableEq K]

local notation "E₁" => (shortCurve (0 : ZMod sm9p) 5)
local notation "E₂" => (shortCurve (0 : K) (5 * w ^ 6))

/-- The generator, as a point of the short curve. -/
noncomputable def gen2 : (E₂).Point := sm9G2 hw

/-- **The Frobenius map is multiplication by `p` on the generator.** -/
theorem gen2_frob : frb hw (gen2 hw) = sm9p • gen2 hw := by
  have hn : (E₂).Nonsingular (ev2 w g2nat.x) (ev2 w g2nat.y) := sm9_nonsing2 hw (sm9_g2_eq hw)
  obtain ⟨R, hR, hc⟩ := Option.map_eq_some_iff.mp sm9_ladder_frob
  have h1 : IsJ (fun _ => True) (ev2 w) ⟨g2nat.x, g2nat.y, (1, 0)⟩
      (⟨ev2 w g2nat.x, ev2 w g2nat.y, 1⟩ : EcJ K) :=
    ⟨⟨trivial, rfl⟩, ⟨trivial, rfl⟩, ⟨trivial, by simp [ev2]⟩⟩
  obtain ⟨J', j1, j2⟩ := ladder2_spec hw hn (bitsBelow sm9pN 127) _ R _ 1 h1
    (by rw [one_nsmul]; exact rep_fromA hn) hR
  rw [sm9_bits_frob] at j2
  have e0 : sm9p • gen2 hw = sm9pN • (Point.some _ _ hn : (E₂).Point) := by
    have : sm9n • (Point.some _ _ hn : (E₂).Point) = 0 := sm9_nG2 hw
    show sm9p • (Point.some _ _ hn : (E₂).Point) = _
    rw [sm9pN_eq, add_nsmul, this, add_zero]
  rw [e0]
  have H := nat2Ops_hom hw
  obtain ⟨ex, ey, ez⟩ := j1
  have ea : Is (fun _ => True) (ev2 w)
      kAnat (kA K) := by
    refine ⟨trivial, ?_⟩
    simp only [kAnat, ev2, Nat.cast_zero, zero_mul, add_zero]
    rw [kA, sm9a1, map_natCast]
  have gx : Is (fun _ => True) (ev2 w) (g2nat.x.1, sm9p - g2nat.x.2) (sm9Frob K (ev2 w g2nat.x)) :=
    ⟨trivial, (frob_ev2 hw _ (by decide +kernel)).symm⟩
  have gy : Is (fun _ => True) (ev2 w) (g2nat.y.1, sm9p - g2nat.y.2) (sm9Frob K (ev2 w g2nat.y)) :=
    ⟨trivial, (frob_ev2 hw _ (by decide +kernel)).symm⟩
  unfold frobCheck at hc
  simp only [Bool.and_eq_true, Bool.not_eq_true', Bool.eq_false_iff, Ne] at hc
  obtain ⟨⟨c1, c2⟩, c3⟩ := hc
  rw [H.isZero trivial] at c1 c2 c3
  rw [ez.2] at c1
  have f2 := (show Is (fun _ => True) (ev2 w) _ (kA K * kA K * J'.x - sm9Frob K (ev2 w g2nat.x) * (J'.z * J'.z)) from
    (by is_tac H)).2.symm.trans c2
  have f3 := (show Is (fun _ => True) (ev2 w) _ (kA K * kA K * kA K * J'.y -
    sm9Frob K (ev2 w g2nat.y) * (J'.z * J'.z * J'.z)) from (by is_tac H)).2.symm.trans c3
  generalize sm9pN • (Point.some _ _ hn) = Q at *
  cases Q with
  | zero => exact absurd j2 c1
  | some x y h =>
    obtain ⟨-, x2, y2⟩ := j2
    have k0 := kA_ne (K := K)
    show Point.some _ _ _ = Point.some _ _ _
    rw [Point.some.injEq]
    rw [x2] at f2
    rw [y2] at f3
    have z2 : J'.z ^ 2 ≠ 0 := pow_ne_zero 2 c1
    have z3 : J'.z ^ 3 ≠ 0 := pow_ne_zero 3 c1
    constructor
    · rw [inv_pow]
      field_simp
      apply mul_right_cancel₀ z2
      linear_combination -f2
    · rw [inv_pow]
      field_simp
      apply mul_right_cancel₀ z3
      linear_combination -f3

theorem gen2_in : InG hw (gen2 hw) := by
  refine ⟨?_, gen2_frob hw, sm9_nG2 hw⟩
  have hn : (E₂).Nonsingular (ev2 w g2nat.x) (ev2 w g2nat.y) := sm9_nonsing2 hw (sm9_g2_eq hw)
  show sig hw 1 (Point.some _ _ hn) = Point.some _ _ hn
  unfold sig twPt
  have f : ∀ a : Nat × Nat, fK K (2 * 1) (ev2 w a) = ev2 w a := fun a => by
    rw [mul_one, fK_two]
    simp only [ev2, map_add, map_mul, map_natCast, sm9Frob_w6 hw, map_neg, neg_neg]
  simp only [Point.some.injEq, f]
  simp

/-- The value of the line through `m • Q` and `n • Q` at `P`, after the final exponentiation. -/
noncomputable def gam (Q : (E₂).Point) (P : (E₁).Point) (m n : ℤ) : Additive Kˣ :=
  toV (lv (m • Q) (n • Q) (emb hw P) ^ sm9D)

variable {Q : (shortCurve (0 : K) (5 * w ^ 6)).Point} (hQ : InG hw Q)
include hQ

theorem gam_coc {P : (E₁).Point} (hP : P ≠ 0) : Coc (gam hw Q P) := by
  have ne : ∀ m n : ℤ, lv (m • Q) (n • Q) (emb hw P) ^ sm9D ≠ 0 := fun m n =>
    pow_ne_zero _ (lvM hw (hQ.zsmul hw m) (hQ.zsmul hw n) hP).1
  refine ⟨fun m n => by unfold gam; rw [lv_comm], fun l m n => ?_, fun n => ?_, fun m => ?_⟩
  · obtain ⟨c, c4, hc⟩ := lv_assoc (l • Q) (m • Q) (n • Q) (emb hw P)
    rw [← add_zsmul, ← add_zsmul] at hc
    have h := congrArg (· ^ sm9D) hc
    simp only [mul_pow] at h
    rw [(vvD hw (hQ.zsmul hw _) P).2, (vvD hw (hQ.zsmul hw _) P).2, kill4 c4, mul_one, mul_one, one_mul] at h
    have h2 := congrArg toV h
    rw [toV_mul (ne _ _) (ne _ _), toV_mul (ne _ _) (ne _ _)] at h2
    exact h2
  · unfold gam
    rw [zero_zsmul, lv_zero_left, (vvD hw (hQ.zsmul hw _) P).2, toV_one]
  · unfold gam
    rw [neg_zsmul, lv_neg_self, (vvD hw (hQ.zsmul hw _) P).2, toV_one]

theorem zN : (sm9n : ℤ) • Q = 0 := by rw [natCast_zsmul]; exact hQ.ord

theorem gam_per (P : (E₁).Point) (m n : ℤ) : gam hw Q P (m + sm9n) n = gam hw Q P m n := by
  unfold gam; rw [add_zsmul, zN hw hQ, add_zero]

theorem zfrb (m : ℤ) : frb hw (m • Q) = (sm9p * m : ℤ) • Q := by
  rw [(hQ.zsmul hw m).frob, ← natCast_zsmul, smul_smul]

theorem gam_frob {P : (E₁).Point} (hP : P ≠ 0) (m n : ℤ) :
    gam hw Q P (sm9p * m) (sm9p * n) = (sm9p : ℤ) • gam hw Q P m n := by
  unfold gam
  have h := lvF hw (m • Q) (n • Q) (emb hw P)
  rw [zfrb hw hQ, zfrb hw hQ, emb_frb] at h
  rw [h, toV_pow (pow_ne_zero _ (lvM hw (hQ.zsmul hw m) (hQ.zsmul hw n) hP).1), natCast_zsmul]

theorem gam_N {P : (E₁).Point} (hP : P ≠ 0) (m n : ℤ) : (sm9n : ℤ) • gam hw Q P m n = 0 := by
  have h0 := (lvM hw (hQ.zsmul hw m) (hQ.zsmul hw n) hP).1
  have h := lvN hw ((hQ.zsmul hw m).sig hw 6) ((hQ.zsmul hw n).sig hw 6) (emb_sig hw P) h0
  unfold gam
  rw [natCast_zsmul, ← toV_pow (pow_ne_zero _ h0), h, toV_one]

/-- The pairing after the final exponentiation. -/
noncomputable def ateV (Q : (E₂).Point) (P : (E₁).Point) : Additive Kˣ := optA (gam hw Q P) sm9L sm9p

/-- **Linearity in the second argument.** -/
theorem ateV_smul {P : (E₁).Point} (hP : P ≠ 0) (b : ℤ) : ateV hw (b • Q) P = b • ateV hw Q P := by
  have := (gam_coc hw hQ hP).optA_scale sm9L_dvd (gam_per hw hQ P) (gam_frob hw hQ hP) (gam_N hw hQ hP) b
  rw [← show gam hw (b • Q) P = fun m n => gam hw Q P (b * m) (b * n) from by
    funext m n
    unfold gam
    rw [← mul_zsmul, ← mul_zsmul, mul_comm m b, mul_comm n b]] at this
  exact this

/-- The defect of a sum in the first argument. -/
noncomputable def kap (Q : (E₂).Point) (P R : (E₁).Point) (m : ℤ) : Additive Kˣ :=
  if m • Q = 0 then 0 else toV (lv (emb hw P) (emb hw R) (m • Q) ^ sm9D)

/-- **Additivity in the first argument.** -/
theorem ateV_add {P R : (E₁).Point} (hP : P ≠ 0) (hR : R ≠ 0) (hPR : P + R ≠ 0) :
    ateV hw Q P + ateV hw Q R = ateV hw Q (P + R) := by
  have G := fun m => hQ.zsmul hw m
  have kne : ∀ m : ℤ, m • Q ≠ 0 → lv (emb hw P) (emb hw R) (m • Q) ^ sm9D ≠ 0 := fun m h =>
    pow_ne_zero _ (lvM' hw (G m) h P R).1
  have kneg : ∀ m, kap hw Q P R (-m) = -kap hw Q P R m := fun m => by
    unfold kap
    by_cases h : m • Q = 0
    · rw [if_pos h, if_pos (by rw [neg_zsmul, h, neg_zero]), neg_zero]
    · have h' : (-m) • Q ≠ 0 := by rw [neg_zsmul]; exact neg_ne_zero.mpr h
      rw [if_neg h, if_neg h', eq_neg_iff_add_eq_zero, ← toV_mul (kne _ h') (kne _ h), neg_zsmul, mul_comm,
        (lvM' hw (G m) h P R).2, toV_one]
  refine (gam_coc hw hQ hP).optA_add (gam_coc hw hQ hR) (gam_coc hw hQ hPR) sm9L_dvd (kap hw Q P R) (fun m n => ?_)
    (fun m => ?_) (fun m => ?_) kneg ?_
  · have z := fun (P : (E₁).Point) => (gam_coc hw hQ (P := P))
    by_cases hm : m • Q = 0
    · have hz : ∀ X : (E₁).Point, gam hw Q X m n = 0 := fun X => by
        unfold gam; rw [hm, lv_zero_left, (vvD hw (G n) X).2, toV_one]
      have k1 : kap hw Q P R m = 0 := if_pos hm
      have k2 : kap hw Q P R (m + n) = kap hw Q P R n := by unfold kap; rw [add_zsmul, hm, zero_add]
      rw [hz, hz, hz, k1, k2]; abel
    by_cases hn : n • Q = 0
    · have hz : ∀ X : (E₁).Point, gam hw Q X m n = 0 := fun X => by
        unfold gam; rw [hn, lv_zero_right, (vvD hw (G m) X).2, toV_one]
      have k1 : kap hw Q P R n = 0 := if_pos hn
      have k2 : kap hw Q P R (m + n) = kap hw Q P R m := by unfold kap; rw [add_zsmul, hn, add_zero]
      rw [hz, hz, hz, k1, k2]; abel
    by_cases hs : (m + n) • Q = 0
    · have e : n • Q = -(m • Q) := by
        rw [add_zsmul] at hs; exact (neg_eq_of_add_eq_zero_right hs).symm
      have hz : ∀ X : (E₁).Point, gam hw Q X m n = 0 := fun X => by
        unfold gam; rw [e, lv_neg_self, (vvD hw (G m) X).2, toV_one]
      have k1 : kap hw Q P R (m + n) = 0 := if_pos hs
      have k2 : kap hw Q P R n = -kap hw Q P R m := by
        rw [← kneg]; unfold kap; rw [neg_zsmul, e]
      rw [hz, hz, hz, k1, k2]; abel
    · have hs' : m • Q + n • Q ≠ 0 := by rw [← add_zsmul]; exact hs
      have hrc := lv_recip hm hn hs' (emb_ne hw hP) (emb_ne hw hR) (by rw [← emb_add]; exact emb_ne hw hPR)
      rw [← emb_add, ← add_zsmul, ← neg_zsmul] at hrc
      have hd := congrArg (· ^ sm9D) hrc
      rw [neg_pow, kill4 (by norm_num : (-1 : K) ^ 4 = 1), one_mul] at hd
      simp only [mul_pow] at hd
      have mir := (lvM hw (G m) (G n) hPR).2
      have l0 : ∀ {X : (E₁).Point}, X ≠ 0 → lv (m • Q) (n • Q) (emb hw X) ^ sm9D ≠ 0 := fun hX =>
        pow_ne_zero _ (lvM hw (G m) (G n) hX).1
      have n0 : lv (m • Q) (n • Q) (-emb hw (P + R)) ^ sm9D ≠ 0 := right_ne_zero_of_mul (by rw [mir]; exact one_ne_zero)
      have h' : (-(m + n)) • Q ≠ 0 := by rw [neg_zsmul]; exact neg_ne_zero.mpr hs
      have t1 := congrArg toV hd
      rw [toV_mul (mul_ne_zero (l0 hP) (l0 hR)) n0, toV_mul (l0 hP) (l0 hR),
        toV_mul (mul_ne_zero (kne _ hm) (kne _ hn)) (kne _ h'), toV_mul (kne _ hm) (kne _ hn)] at t1
      have t2 := congrArg toV mir
      rw [toV_mul (l0 hPR) n0, toV_one] at t2
      have q1 : kap hw Q P R m = _ := if_neg hm
      have q2 : kap hw Q P R n = _ := if_neg hn
      have q3 : kap hw Q P R (-(m + n)) = _ := if_neg h'
      rw [← q1, ← q2, ← q3, kneg] at t1
      unfold gam
      linear_combination (norm := module) t1 - t2
  · unfold kap; rw [add_zsmul, zN hw hQ, add_zero]
  · unfold kap
    by_cases h : m • Q = 0
    · rw [if_pos h, if_pos (by rw [mul_zsmul, h, zsmul_zero]), smul_zero]
    · have h' : (sm9p * m : ℤ) • Q ≠ 0 := by
        rw [← zfrb hw hQ]
        exact fun k => h ((tw_eq_zero _ _ _).mp k)
      rw [if_neg h, if_neg h']
      have e := lvF hw (emb hw P) (emb hw R) (m • Q)
      rw [zfrb hw hQ, emb_frb, emb_frb] at e
      rw [e, toV_pow (kne _ h), natCast_zsmul]
  · unfold kap
    by_cases h : (1 : ℤ) • Q = 0
    · rw [if_pos h, smul_zero]
    · rw [if_neg h, natCast_zsmul, ← toV_pow (kne _ h),
        lvN hw (emb_sig hw P) (emb_sig hw R) ((G 1).sig hw 6) (lvM' hw (G 1) h P R).1, toV_one]

/-- **Linearity in the first argument.** -/
theorem ateV_nsmul {P : (E₁).Point} (hP : ∀ a : Nat, 1 ≤ a → a < sm9n → a • P ≠ 0) (a : Nat) (h1 : 1 ≤ a) (h2 : a < sm9n) :
    ateV hw Q (a • P) = a • ateV hw Q P := by
  induction a, h1 using Nat.le_induction with
  | base => rw [one_nsmul, one_nsmul]
  | succ a ha ih =>
    have hP1 : P ≠ 0 := by have := hP 1 le_rfl (by omega); rwa [one_nsmul] at this
    rw [succ_nsmul, succ_nsmul, ← ih (by omega)]
    exact (ateV_add hw hQ (hP a ha (by omega)) hP1 (by rw [← succ_nsmul]; exact hP _ (by omega) h2)).symm

theorem ateV_N {P : (E₁).Point} (hP : P ≠ 0) : (sm9n : ℤ) • ateV hw Q P = 0 := by
  rw [← ateV_smul hw hQ hP, zN hw hQ]
  have : ateV hw (0 : (E₂).Point) P = (0 : ℤ) • ateV hw Q P := by
    rw [← ateV_smul hw hQ hP, zero_zsmul]
  rw [this, zero_zsmul]

end
end Verif
