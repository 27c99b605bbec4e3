import Verif.Proofs.Sm9EvalSig
import Verif.Proofs.Sm9Keys
import Verif.Proofs.Sm2Hash
/-!
# A signature, from the master key to its verification

The hypotheses of `C56_sign_verify_partial` and `C68_equation_partial` hold for the signature of Sm9EvalPts.lean.
-/
set_option linter.constructorNameAsVariable false
open WeierstrassCurve WeierstrassCurve.Affine
namespace Verif
open Spec

/-- The octets of a polynomial in `w`, as `sm9_fp12_to_bytes` orders them. -/
def twBytes (l : List Nat) : List Byte :=
  [2, 1, 0].flatMap fun i => [1, 0].flatMap fun j => [1, 0].flatMap fun m => toBE 32 (l.getD (i + 3 * j + 6 * m) 0 % sm9p)

/-- "Alice". -/
def alId : List Byte := [0x41, 0x6C, 0x69, 0x63, 0x65]
/-- "Chinese IBS standard". -/
def alMsg : List Byte := [0x43, 0x68, 0x69, 0x6E, 0x65, 0x73, 0x65, 0x20, 0x49, 0x42, 0x53, 0x20, 0x73, 0x74, 0x61, 0x6E,
  0x64, 0x61, 0x72, 0x64]

theorem al_h1 : Sm9.hn Sm3.cls alId [1] 1 = .ok (toBE 32 alH1) := by decide +kernel

theorem al_h : Sm9.hn Sm3.cls alMsg (twBytes genF7) 2 = .ok (toBE 32 alH) := by decide +kernel

/-- The check that a Jacobian result is the given affine point. -/
def atPoint (x y : Nat) (R : EcJ Nat) : Bool :=
  R.z % sm9p != 0 && R.x % sm9p == x * (R.z * R.z) % sm9p && R.y % sm9p == y * (R.z * R.z * R.z) % sm9p

def atPoint2 (A : EcA (Nat × Nat)) (R : EcJ (Nat × Nat)) : Bool :=
  let F := nat2Ops sm9p
  !F.isZero R.z && F.isZero (F.sub (F.mul A.x (F.sqr R.z)) R.x) && F.isZero (F.sub (F.mul A.y (F.mul R.z (F.sqr R.z))) R.y)

theorem al_ladder : ((ladder sm9p 0 sm9gx sm9gy (bitsBelow alA 248) ⟨sm9gx, sm9gy, 1⟩).map (atPoint alAx alAy)) =
    some true := by decide +kernel

theorem al_bits : bitsVal 1 (bitsBelow alA 248) = alA := by decide +kernel

theorem al_ladder2 : ((ladder2 sm9p g2nat (bitsBelow (alH1 + 1) 253) ⟨g2nat.x, g2nat.y, (1, 0)⟩).map (atPoint2 alQ)) =
    some true := by decide +kernel

theorem al_bits2 : bitsVal 1 (bitsBelow (alH1 + 1) 253) = alH1 + 1 := by decide +kernel

theorem beVal_inj32 {a b : Nat} (ha : a < sm9n) (hb : b < sm9n) (h : toBE 32 a = toBE 32 b) : a = b := by
  have := congrArg beVal h
  rwa [beVal_toBE_n ha, beVal_toBE_n hb] at this

/-- `H1` of the identity. -/
theorem al_H1 : sm9H SM3.hash Sm3.cls.DS 1 (alId ++ [1]) = alH1 := by
  have h := hn_ok sm3_isHash alId [1] 1
  rw [al_h1, if_pos (by decide)] at h
  exact (beVal_inj32 (by decide +kernel) (sm9H_range _ _ _).2 (Outcome.ok.inj h)).symm

/-- `[a]P1`. -/
theorem al_A : ∃ h, alA • sm9G = .some (alAx : ZMod sm9p) (alAy : ZMod sm9p) h := by
  have key0 : ∀ (a' b' : ZMod sm9p) (ha : a' = 0) (hb : b' = 5), (shortCurve a' b').Nonsingular
      ((sm9gx : Nat) : ZMod sm9p) ((sm9gy : Nat) : ZMod sm9p) := by
    rintro a' b' rfl rfl; exact sm9_nonsing sm9_g_eq
  have hn := key0 ((0 : Nat) : ZMod sm9p) ((5 : Nat) : ZMod sm9p) Nat.cast_zero (by norm_num)
  obtain ⟨R, hR, hz⟩ := Option.map_eq_some_iff.mp al_ladder
  have h1 : IsJ (fun _ => True) (fun x : Nat => (x : ZMod sm9p)) ⟨sm9gx, sm9gy, 1⟩
      (⟨(sm9gx : ZMod sm9p), (sm9gy : ZMod sm9p), 1⟩ : EcJ (ZMod sm9p)) :=
    ⟨⟨trivial, rfl⟩, ⟨trivial, rfl⟩, ⟨trivial, Nat.cast_one⟩⟩
  obtain ⟨J', j1, j2⟩ := ladder_spec sm9p sm9_two_ne hn (bitsBelow alA 248) _ R _ 1 h1
    (by rw [one_nsmul]; exact rep_fromA hn) hR
  rw [al_bits] at j2
  have key : ∀ (a' b' : ZMod sm9p) (ha : a' = 0) (hb : b' = 5) (hn : (shortCurve a' b').Nonsingular
      ((sm9gx : Nat) : ZMod sm9p) ((sm9gy : Nat) : ZMod sm9p)),
      (∃ h, alA • (Point.some _ _ hn) = .some (alAx : ZMod sm9p) (alAy : ZMod sm9p) h) →
      ∃ h, alA • sm9G = .some (alAx : ZMod sm9p) (alAy : ZMod sm9p) h := by
    rintro a' b' rfl rfl hn h
    exact h
  apply key _ _ Nat.cast_zero (by norm_num) hn
  unfold atPoint at hz
  simp only [Bool.and_eq_true, bne_iff_ne, beq_iff_eq] at hz
  obtain ⟨⟨z0, zx⟩, zy⟩ := hz
  have z0' : J'.z ≠ 0 := by
    rw [← j1.2.2.2]
    intro h
    exact z0 (Nat.mod_eq_zero_of_dvd ((ZMod.natCast_eq_zero_iff _ _).mp h))
  have zx' : J'.x = alAx * J'.z ^ 2 := by
    have := (ZMod.natCast_eq_natCast_iff' _ _ sm9p).mpr zx
    have e1 : ((R.x : Nat) : ZMod sm9p) = J'.x := j1.1.2
    have e2 : ((R.z : Nat) : ZMod sm9p) = J'.z := j1.2.2.2
    rw [Nat.cast_mul, Nat.cast_mul, e1, e2] at this
    rw [this]; ring
  have zy' : J'.y = alAy * J'.z ^ 3 := by
    have := (ZMod.natCast_eq_natCast_iff' _ _ sm9p).mpr zy
    have e1 : ((R.y : Nat) : ZMod sm9p) = J'.y := j1.2.1.2
    have e2 : ((R.z : Nat) : ZMod sm9p) = J'.z := j1.2.2.2
    rw [Nat.cast_mul, Nat.cast_mul, Nat.cast_mul, e1, e2] at this
    rw [this]; ring
  generalize alA • (Point.some _ _ hn) = Q at *
  cases Q with
  | zero => exact absurd j2 z0'
  | some x y h =>
    obtain ⟨-, x2, y2⟩ := j2
    have ex : x = alAx := mul_right_cancel₀ (pow_ne_zero 2 z0') (x2.symm.trans zx')
    have ey : y = alAy := mul_right_cancel₀ (pow_ne_zero 3 z0') (y2.symm.trans zy')
    subst ex ey
    exact ⟨h, rfl⟩

section
variable {K : Type} [Field K] [Algebra (ZMod sm9p) K] {w : K} (hw : w ^ 12 = -2)
include hw

/-- The octets of an element given by a polynomial. -/
theorem bytes_of_poly {W : Sm9.F12} (h1 : All12 (Reduced sm9p) W) {l : List Nat} (hl : l.length = 12)
    (e : fp12Den w W = twEv w l) : Sm9.fp12ToBytes W = twBytes l := by
  match l, hl with
  | [l0, l1, l2, l3, l4, l5, l6, l7, l8, l9, l10, l11], _ =>
    have sj := fun x : Nat => fp_surj (x : ZMod sm9p)
    obtain ⟨a0, r0, v0⟩ := sj l0
    obtain ⟨a1, r1, v1⟩ := sj l1
    obtain ⟨a2, r2, v2⟩ := sj l2
    obtain ⟨a3, r3, v3⟩ := sj l3
    obtain ⟨a4, r4, v4⟩ := sj l4
    obtain ⟨a5, r5, v5⟩ := sj l5
    obtain ⟨a6, r6, v6⟩ := sj l6
    obtain ⟨a7, r7, v7⟩ := sj l7
    obtain ⟨a8, r8, v8⟩ := sj l8
    obtain ⟨a9, r9, v9⟩ := sj l9
    obtain ⟨a10, r10, v10⟩ := sj l10
    obtain ⟨a11, r11, v11⟩ := sj l11
    have hb : W = ⟨⟨⟨a0, a6⟩, ⟨a3, a9⟩⟩, ⟨⟨a1, a7⟩, ⟨a4, a10⟩⟩, ⟨⟨a2, a8⟩, ⟨a5, a11⟩⟩⟩ := by
      refine f12_inj hw h1 ⟨⟨⟨r0, r6⟩, ⟨r3, r9⟩⟩, ⟨⟨r1, r7⟩, ⟨r4, r10⟩⟩, ⟨⟨r2, r8⟩, ⟨r5, r11⟩⟩⟩
        (e.trans ?_)
      unfold fp12Den den12 den4 den2 fpDen
      simp only [v0, v1, v2, v3, v4, v5, v6, v7, v8, v9, v10, v11, twEv, map_natCast]
      ring
    have t : ∀ {a : List W32} {x : Nat}, Reduced sm9p a → montVal sm9p a = x → Sm9.fpToBytes a = toBE 32 (x % sm9p) :=
      fun ha v => by rw [s9To_eq ha, v]; unfold sm9Octets; rw [ZMod.val_natCast]
    rw [hb]
    unfold Sm9.fp12ToBytes Sm9.fp4ToBytes Sm9.fp2ToBytes
    simp only [t r0 v0, t r1 v1, t r2 v2, t r3 v3, t r4 v4, t r5 v5, t r6 v6, t r7 v7, t r8 v8, t r9 v9, t r10 v10,
      t r11 v11]
    simp [twBytes]

variable [DecidableEq K]

/-- The value of the pairing at the generators. -/
theorem sm9g_poly : sm9g hw = twEv w genF7 := by
  have h1 : IsAffineOf (Reduced sm9p) (montVal sm9p) Sm9.p1 (1 • gen1) := by rw [one_nsmul]; exact p1_ok
  have h2 : IsAffineOf (All2 (Reduced sm9p)) (fp2Den w) Sm9.p2 (1 • gen2 hw) := by rw [one_nsmul]; exact p2_ok hw
  obtain ⟨f, f1, -, f3⟩ := miller_gen hw (a := 1) (b := 1) le_rfl (by decide +kernel) h1 h2
  obtain ⟨x, y, a, b⟩ := gen_coords hw p1_ok (p2_ok hw)
  obtain ⟨f', l', e1, e2, -, e4⟩ := nMiller_sim hw x y a b (by decide +kernel) (by decide +kernel)
  rw [gen_miller] at e2
  rw [← Option.some.inj e2] at e4
  rw [f1] at e1
  rw [← Option.some.inj e1, ] at e4
  rw [mul_one, pow_one, e4] at f3
  rw [gen_F hw, ev_easy hw gen_inv gen_base, ← pow_mul, ← f3]
  congr 1

/-- `[h1 + 1]P2`. -/
theorem al_Q : ∃ h, (alH1 + 1) • sm9G2 hw = .some (ev2 w alQ.x) (ev2 w alQ.y) h := by
  have hn : (shortCurve 0 (5 * w ^ 6)).Nonsingular (ev2 w g2nat.x) (ev2 w g2nat.y) :=
    sm9_nonsing2 hw (sm9_g2_eq hw)
  obtain ⟨R, hR, hz⟩ := Option.map_eq_some_iff.mp al_ladder2
  have h1 : IsJ (fun _ => True) (ev2 w) ⟨g2nat.x, g2nat.y, (1, 0)⟩
      (⟨ev2 w g2nat.x, ev2 w g2nat.y, 1⟩ : EcJ K) :=
    ⟨⟨trivial, rfl⟩, ⟨trivial, rfl⟩, ⟨trivial, by simp [ev2]⟩⟩
  obtain ⟨J', j1, j2⟩ := ladder2_spec hw hn (bitsBelow (alH1 + 1) 253) _ R _ 1 h1
    (by rw [one_nsmul]; exact rep_fromA hn) hR
  rw [al_bits2] at j2
  have hom := nat2Ops_hom hw
  unfold atPoint2 at hz
  simp only [Bool.and_eq_true, Bool.not_eq_true'] at hz
  obtain ⟨⟨z0, zx⟩, zy⟩ := hz
  obtain ⟨i1, i2, i3⟩ := j1
  have bx : Is (fun _ => True) (ev2 w) alQ.x (ev2 w alQ.x) := ⟨trivial, rfl⟩
  have bY : Is (fun _ => True) (ev2 w) alQ.y (ev2 w alQ.y) := ⟨trivial, rfl⟩
  have z0' : J'.z ≠ 0 := by
    rw [← i3.2]
    intro h
    rw [(hom.isZero trivial).mpr h] at z0
    cases z0
  have sx := (hom.is_sub (hom.is_mul bx (hom.is_sqr i3)) i1).2.symm.trans ((hom.isZero trivial).mp zx)
  have sy := (hom.is_sub (hom.is_mul bY (hom.is_mul i3 (hom.is_sqr i3))) i2).2.symm.trans ((hom.isZero trivial).mp zy)
  change ∃ h, (alH1 + 1) • (Point.some _ _ hn) = _
  generalize (alH1 + 1) • (Point.some _ _ hn) = Q at *
  cases Q with
  | zero => exact absurd j2 z0'
  | some x y h =>
    obtain ⟨-, x2, y2⟩ := j2
    have ex : x = ev2 w alQ.x := mul_right_cancel₀ (pow_ne_zero 2 z0') (by rw [← x2]; linear_combination -sx)
    have ey : y = ev2 w alQ.y := mul_right_cancel₀ (pow_ne_zero 3 z0') (by rw [← y2]; linear_combination -sy)
    subst ex ey
    exact ⟨h, rfl⟩

/-- The pairing of the verifier meets no wrong inversion. -/
theorem al_right {A : Sm9.A} {B : Sm9.A2} (hA : Sm9IsAffine A (alA • sm9G))
    (hB : Sm9IsAffine2 w B ((alH1 + 1) • sm9G2 hw)) : PairRight w A B := by
  obtain ⟨ha, ea⟩ := al_A
  obtain ⟨hb, eb⟩ := al_Q hw
  obtain ⟨a1, a2, h, e⟩ := hA
  rw [ea, Point.some.injEq] at e
  obtain ⟨b1, b2, h', e'⟩ := hB
  rw [eb, Point.some.injEq] at e'
  refine sig_right hw ⟨a1, ?_⟩ ⟨a2, ?_⟩ ⟨b1, e'.1.symm⟩ ⟨b2, e'.2.symm⟩
  · unfold fpDen; rw [← e.1, map_natCast]
  · unfold fpDen; rw [← e.2, map_natCast]

/-- **The signature.** -/
theorem al_sign : ∃ mk sk sig, Sm9.setPriv (toBE 32 1) = .ok mk ∧ Sm9.genSignPriv Sm3.cls mk alId 1 = .ok sk ∧
    Sm9.sign Sm3.cls sk alMsg [toBE 32 0] .compressed = .ok (some sig) ∧
    (sig.drop 33).take 32 = toBE 32 alAx ∧ PairRight w Sm9.p1 mk.pub.P ∧ Sm9PubIs w mk.pub (sm9G2 hw) (sm9g hw) ∧
    ∃ A, sig = toBE 32 alH ++ Sm9.encPoint .compressed A ∧ Sm9IsAffine A (alA • sm9G) ∧
      ∀ A' n, Sm9.ecAFromBytes (sig.drop 32) (sig.length - 32) = .ok (A', n) → A' = A := by
  have hv : beVal (toBE 32 1) = 1 := by decide +kernel
  obtain ⟨P, e, m1, m2, m3, -, m5⟩ := setPriv_ok hw (key := toBE 32 1) (toBE_len _ _) (by rw [hv])
    (by rw [hv]; decide +kernel) (by rw [hv]; decide +kernel)
  rw [hv, one_nsmul] at m2
  have pr := genPts_right hw p1_ok m2
  have m5' := m5 pr
  rw [hv, pow_one] at m5'
  obtain ⟨-, g2⟩ := genSignPriv_ok hw sm3_isHash (mk := ⟨toBE 32 1, ⟨P, e⟩⟩) (toBE_len _ _) alId 1 (by decide)
  rw [al_H1, hv, Nat.cast_one] at g2
  have nz : ((alH1 : Nat) : ZMod sm9n) + 1 ≠ 0 := by
    rw [← Nat.cast_one, ← Nat.cast_add, Ne, ZMod.natCast_eq_zero_iff]
    exact fun h => absurd (Nat.mod_eq_zero_of_dvd h) (by decide +kernel)
  have tne := s9t2_ne (ks := 1) (h1 := alH1) (by rw [Nat.cast_one]; exact nz) (by decide +kernel)
  rw [Nat.cast_one] at tne
  obtain ⟨D, d1, d2⟩ := g2 nz one_ne_zero tne
  obtain ⟨W, w1, w2, w3⟩ := s9signStep_ok hw sm3_isHash (key := ⟨D, ⟨P, e⟩⟩) d2 m3 alMsg (toBE 32 0) (toBE_len _ _)
    .compressed (by decide)
  have hr : beVal (toBE 32 0) % (sm9n - 1) + 1 = 1 := by decide +kernel
  rw [hr, pow_one, m5', sm9g_poly hw] at w2
  rw [hr, bytes_of_poly hw w1 rfl w2] at w3
  have hh : sm9H SM3.hash Sm3.cls.DS 2 (alMsg ++ twBytes genF7) = alH := by
    have h := hn_ok sm3_isHash alMsg (twBytes genF7) 2
    rw [al_h, if_pos (by decide +kernel)] at h
    exact (beVal_inj32 (by decide +kernel) (sm9H_range _ _ _).2 (Outcome.ok.inj h)).symm
  rw [hh] at w3
  obtain ⟨-, c2, -⟩ := w3
  have hl : (((1 : Nat) : ZMod sm9n) - (alH : ZMod sm9n)).val = (1 + (sm9n - alH)) % sm9n := by
    rw [show ((1 : Nat) : ZMod sm9n) - (alH : ZMod sm9n) = ((1 + (sm9n - alH) : Nat) : ZMod sm9n) by
      rw [Nat.cast_add, Nat.cast_sub (show alH ≤ sm9n by decide +kernel), ZMod.natCast_self]; ring, ZMod.val_natCast]
  obtain ⟨-, A, hA, hs⟩ := c2 (by decide +kernel) (by rw [hl]; decide +kernel)
  have hA' : Sm9IsAffine A (alA • sm9G) := by
    rw [hl, ← mul_nsmul'] at hA
    have : alA = ((1 + (sm9n - alH)) % sm9n * ((1 : ZMod sm9n) * ((alH1 : ZMod sm9n) + 1)⁻¹).val) % sm9n := by
      have lt : alA < sm9n := by decide +kernel
      rw [← Nat.mod_eq_of_lt lt]
      refine (ZMod.natCast_eq_natCast_iff' _ _ _).mp ?_
      rw [Nat.cast_mul, ZMod.natCast_zmod_val, one_mul]
      refine mul_right_cancel₀ nz ?_
      rw [mul_assoc, inv_mul_cancel₀ nz, mul_one, ← Nat.cast_one, ← Nat.cast_add, ← Nat.cast_mul]
      exact (ZMod.natCast_eq_natCast_iff' _ _ _).mpr (by decide +kernel)
    rw [this, ← nsmul_mod]
    exact hA
  have hd : (toBE 32 alH ++ Sm9.encPoint .compressed A).drop 32 = Sm9.encPoint .compressed A := List.drop_left' (toBE_len 32 _)
  refine ⟨⟨toBE 32 1, ⟨P, e⟩⟩, ⟨D, ⟨P, e⟩⟩, _, m1, d1, ?_, ?_, pr, ⟨m2, m3, m5'⟩, A, rfl, hA', fun A' n h => ?_⟩
  · unfold Sm9.sign Sm9.signLoop
    rw [hs, o_bind]
  · rw [show ∀ l : List Byte, l.drop 33 = (l.drop 32).drop 1 from fun l => by rw [List.drop_drop], hd]
    show (Sm9.fpToBytes A.x).take 32 = _
    obtain ⟨h, ea⟩ := al_A
    obtain ⟨a1, a2, h, e⟩ := hA'
    rw [ea, Point.some.injEq] at e
    have : Sm9.fpToBytes A.x = toBE 32 alAx := by
      rw [s9To_eq a1, ← e.1]; unfold sm9Octets; rw [ZMod.val_natCast, Nat.mod_eq_of_lt (by decide +kernel)]
    rw [this, List.take_of_length_le (by rw [toBE_len])]
  · rw [hd, List.length_append, toBE_len, Nat.add_sub_cancel_left, enc_len hw .compressed hA'] at h
    cases h
    rfl

end
end Verif
