import Verif.Proofs.Sm9Curve
import Verif.Proofs.Sm2Enc
import Mathlib.FieldTheory.IsAlgClosed.AlgebraicClosure
/-! # Membership tests and point encodings of the SM9 groups -/
set_option linter.constructorNameAsVariable false
namespace Verif
open Spec WeierstrassCurve.Affine

theorem sm9_field_exists : ∃ (K : Type) (_ : Field K) (_ : Algebra (ZMod sm9p) K) (w : K), w ^ 12 = -2 := by
  obtain ⟨w, h⟩ := IsAlgClosed.exists_pow_nat_eq (-2 : AlgebraicClosure (ZMod sm9p)) (n := 12) (by decide)
  exact ⟨_, inferInstance, inferInstance, w, h⟩

theorem s9To_eq {a : List W32} (ha : Reduced sm9p a) : Sm9.fpToBytes a = sm9Octets (montVal sm9p a) := by
  obtain ⟨x, x1, x2, x3, -⟩ := Props.C39_to_bytes Sm9.fpCtx_wf a ha
  unfold Sm9.fpToBytes sm9Octets
  rw [x3, ← x2, ZMod.val_natCast, Nat.mod_eq_of_lt x1]

theorem s9From_ok {bs : List Byte} (h : bs.length = 32) :
    Reduced sm9p (Sm9.fpFromBytes bs) ∧ montVal sm9p (Sm9.fpFromBytes bs) = (beVal bs : ZMod sm9p) := by
  obtain ⟨h1, h2, -⟩ := Props.C39_from_to_bytes Sm9.fpCtx_wf bs h
  exact ⟨h1, h2⟩

theorem sm9Octets_len (x : ZMod sm9p) : (sm9Octets x).length = 32 := toBE_len _ _

theorem sm9Octets_ne (x : ZMod sm9p) : sm9Octets x ≠ [] := by
  intro h; have := sm9Octets_len x; rw [h] at this; simp at this

theorem s9B_ok : Is (Reduced sm9p) (montVal sm9p) (Sm9.fpFromBytes Sm9.sm9CurveB) 5 := by
  obtain ⟨h1, h2⟩ := s9From_ok (bs := Sm9.sm9CurveB) (by decide)
  refine ⟨h1, h2.trans ?_⟩
  rw [show beVal Sm9.sm9CurveB = 5 by decide +kernel]
  norm_num

theorem p1_ok : Sm9IsAffine Sm9.p1 sm9G := by
  obtain ⟨h1, h2⟩ := s9From_ok (bs := Sm9.sm9CurveGx) (by decide)
  obtain ⟨h3, h4⟩ := s9From_ok (bs := Sm9.sm9CurveGy) (by decide)
  rw [show beVal Sm9.sm9CurveGx = sm9gx by decide +kernel] at h2
  rw [show beVal Sm9.sm9CurveGy = sm9gy by decide +kernel] at h4
  unfold Sm9.p1
  generalize Sm9.fpFromBytes Sm9.sm9CurveGx = X at *
  generalize Sm9.fpFromBytes Sm9.sm9CurveGy = Y at *
  have e : sm9G = .some ((sm9gx : Nat) : ZMod sm9p) ((sm9gy : Nat) : ZMod sm9p) (sm9_nonsing sm9_g_eq) := rfl
  exact ⟨h1, h3, some_congr e h2.symm h4.symm⟩

theorem s9Check_iff {P : Sm9.A} (hx : Reduced sm9p P.x) (hy : Reduced sm9p P.y) :
    Sm9.ecCheck P = true ↔ ∃ Q, Sm9IsAffine P Q := by
  unfold Sm9.ecCheck
  rw [hom_check0 sm9fp_wk0.fpHom (Q := ⟨montVal sm9p P.x, montVal sm9p P.y⟩) ⟨⟨hx, rfl⟩, ⟨hy, rfl⟩⟩ s9B_ok]
  constructor
  · intro h
    exact ⟨_, hx, hy, sm9_nonsing h, rfl⟩
  · rintro ⟨Q, -, -, h, -⟩
    exact sm9_onCurve h

section g2
variable {K : Type} [Field K] [Algebra (ZMod sm9p) K] {w : K} (hw : w ^ 12 = -2)
include hw

omit hw in
theorem fpDen_natCast {a : List W32} {n : Nat} (h : montVal sm9p a = (n : ZMod sm9p)) : (fpDen a : K) = n := by
  unfold fpDen; rw [h, map_natCast]

theorem p2_ok : Sm9IsAffine2 w Sm9.p2 (sm9G2 hw) := by
  classical
  obtain ⟨h1, h2⟩ := s9From_ok (bs := (Sm9.sm9Curve2Gx.drop 32).take 32) (by decide)
  obtain ⟨h3, h4⟩ := s9From_ok (bs := Sm9.sm9Curve2Gx.take 32) (by decide)
  obtain ⟨h5, h6⟩ := s9From_ok (bs := (Sm9.sm9Curve2Gy.drop 32).take 32) (by decide)
  obtain ⟨h7, h8⟩ := s9From_ok (bs := Sm9.sm9Curve2Gy.take 32) (by decide)
  rw [show beVal ((Sm9.sm9Curve2Gx.drop 32).take 32) = sm9g2x0 by decide +kernel] at h2
  rw [show beVal (Sm9.sm9Curve2Gx.take 32) = sm9g2x1 by decide +kernel] at h4
  rw [show beVal ((Sm9.sm9Curve2Gy.drop 32).take 32) = sm9g2y0 by decide +kernel] at h6
  rw [show beVal (Sm9.sm9Curve2Gy.take 32) = sm9g2y1 by decide +kernel] at h8
  unfold Sm9.p2 Sm9.fp2FromBytes
  generalize Sm9.fpFromBytes ((Sm9.sm9Curve2Gx.drop 32).take 32) = X0 at *
  generalize Sm9.fpFromBytes (Sm9.sm9Curve2Gx.take 32) = X1 at *
  generalize Sm9.fpFromBytes ((Sm9.sm9Curve2Gy.drop 32).take 32) = Y0 at *
  generalize Sm9.fpFromBytes (Sm9.sm9Curve2Gy.take 32) = Y1 at *
  have e : sm9G2 hw = .some (ev2 w g2nat.x) (ev2 w g2nat.y) (sm9_nonsing2 hw (sm9_g2_eq hw)) := rfl
  refine ⟨⟨h1, h3⟩, ⟨h5, h7⟩, some_congr e ?_ ?_⟩
  · unfold ev2 fp2Den den2
    rw [fpDen_natCast h2, fpDen_natCast h4]; rfl
  · unfold ev2 fp2Den den2
    rw [fpDen_natCast h6, fpDen_natCast h8]; rfl

theorem s9Check2_iff {P : Sm9.A2} (hx : All2 (Reduced sm9p) P.x) (hy : All2 (Reduced sm9p) P.y) :
    Sm9.ec2Check P = true ↔ ∃ Q, Sm9IsAffine2 w P Q := by
  classical
  have hb : Is (All2 (Reduced sm9p)) (fp2Den w) ⟨Sm9.fp.zero, Sm9.fpFromBytes Sm9.sm9CurveB⟩ (5 * w ^ 6) := by
    obtain ⟨b1, b2⟩ := s9B_ok
    have b3 : montVal sm9p (Sm9.fpFromBytes Sm9.sm9CurveB) = ((5 : Nat) : ZMod sm9p) := b2.trans Nat.cast_ofNat.symm
    have b4 : (fpDen (Sm9.fpFromBytes Sm9.sm9CurveB) : K) = ((5 : Nat) : K) := fpDen_natCast b3
    have z1 := (sm9fp_wk (K := K)).zero_ok
    have z2 := (sm9fp_wk (K := K)).zero
    generalize Sm9.fpFromBytes Sm9.sm9CurveB = B at *
    generalize Sm9.fp.zero = Z at *
    refine ⟨⟨z1, b1⟩, ?_⟩
    unfold fp2Den den2
    rw [z2, b4, Nat.cast_ofNat, zero_add, mul_comm]
  unfold Sm9.ec2Check
  rw [hom_check0 (sm9fp2_wk hw).fpHom (Q := ⟨fp2Den w P.x, fp2Den w P.y⟩) ⟨⟨hx, rfl⟩, ⟨hy, rfl⟩⟩ hb]
  constructor
  · intro h
    exact ⟨_, hx, hy, sm9_nonsing2 hw h, rfl⟩
  · rintro ⟨Q, -, -, h, -⟩
    exact sm9_onCurve2 h

end g2

/-! ## Recovering `y` -/

theorem s9RecoverY {x : List W32} (hx : Reduced sm9p x) {yHat : Byte} (hb : yHat = 0 ∨ yHat = 1) :
    (∃ y, Sm9.recoverY x yHat = some (some y) ∧ Reduced sm9p y ∧
        montVal sm9p y ^ 2 = montVal sm9p x ^ 3 + 5 ∧ (montVal sm9p y).val % 2 = yHat.toNat) ∨
      (Sm9.recoverY x yHat = some none ∧ ¬ ∃ y : ZMod sm9p, y ^ 2 = montVal sm9p x ^ 3 + 5) := by
  have H := sm9fp_wk0
  have hB := s9B_ok
  have hx' : Is (Reduced sm9p) (montVal sm9p) x (montVal sm9p x) := ⟨hx, rfl⟩
  unfold Sm9.recoverY
  generalize Sm9.fpFromBytes Sm9.sm9CurveB = cB at *
  have h2 : Is (Reduced sm9p) (montVal sm9p) (Sm9.fp.add cB (Sm9.fp.mul (Sm9.fp.sqr x) x))
      (5 + montVal sm9p x ^ 2 * montVal sm9p x) := H.iAdd hB (H.iMulO (H.iSqr (H.w hx')) hx')
  have e : 5 + montVal sm9p x ^ 2 * montVal sm9p x = montVal sm9p x ^ 3 + 5 := by ring
  rw [e] at h2
  simp only
  rcases sm9_fpSqrt h2.1 with ⟨t, t1, t2, t3, t4⟩ | ⟨t1, t2⟩
  · left
    rw [t1]
    have h3 : montVal sm9p t ^ 2 = montVal sm9p x ^ 3 + 5 := t3.trans h2.2
    have hne := sm9_y_ne h3
    simp only
    rw [s9To_eq t2]
    unfold sm9Octets
    rw [lsb_toBE 32 _ (by omega)]
    by_cases hc : (montVal sm9p t).val % 2 ≠ yHat.toNat
    · rw [if_pos ((yhat_eq _ _ hb).mpr hc)]
      have n1 : Reduced sm9p (Sm9.fp.neg t) := (Props.C36_mont_neg_partial Sm9.fpCtx_wf t t2
        (fun h => hne ((montVal_zero_iff Sm9.fpCtx_wf t2).mpr h))).1
      have n2 := H.neg (H.wk_of t2)
      refine ⟨_, rfl, n1, ?_, ?_⟩
      · rw [n2, neg_sq]; exact h3
      · rw [n2]
        have := neg_parity sm9p (by decide +kernel) hne
        rcases hb with rfl | rfl <;> simp at hc ⊢ <;> omega
    · rw [if_neg (fun h => hc ((yhat_eq _ _ hb).mp h))]
      push Not at hc
      exact ⟨t, rfl, t2, h3, hc⟩
  · right
    rw [t1]
    refine ⟨rfl, ?_⟩
    rintro ⟨y, hy⟩
    rw [h2.2] at t2
    rcases t2 with t2 | t2
    · exact sm9_noRoot _ (by rw [zero_mul, add_zero]; exact t2)
    · exact t2 ⟨y, by rw [← hy, pow_two]⟩

/-- A point is determined by `x` and the parity of `y`. -/
theorem s9y_unique {x y y' : ZMod sm9p} (h : y ^ 2 = x ^ 3 + 5) (h' : y' ^ 2 = x ^ 3 + 5)
    (hp : y.val % 2 = y'.val % 2) : y = y' := by
  rcases sq_eq_sq_iff_eq_or_eq_neg.mp (h.trans h'.symm) with e | e
  · exact e
  · exfalso
    apply neg_parity sm9p (by decide +kernel) (sm9_y_ne h')
    rw [← e, hp]

/-! ## Decoding, case by case -/

theorem s9From04_ok {rest : List Byte} (hr : 64 ≤ rest.length) :
    Reduced sm9p (Sm9.fromBytes04 rest).x ∧ Reduced sm9p (Sm9.fromBytes04 rest).y ∧
      montVal sm9p (Sm9.fromBytes04 rest).x = (beVal (rest.take 32) : ZMod sm9p) ∧
      montVal sm9p (Sm9.fromBytes04 rest).y = (beVal ((rest.drop 32).take 32) : ZMod sm9p) := by
  obtain ⟨h1, h2⟩ := s9From_ok (bs := rest.take 32) (by simp; omega)
  obtain ⟨h3, h4⟩ := s9From_ok (bs := (rest.drop 32).take 32) (by simp; omega)
  exact ⟨h1, h3, h2, h4⟩

theorem s9From04_to {A : Sm9.A} (hx : Reduced sm9p A.x) (hy : Reduced sm9p A.y) (rest : List Byte) :
    Sm9.fromBytes04 (Sm9.toBytes04 A ++ rest) = A := by
  have lx := fp_to_len _ hx
  have ly := fp_to_len _ hy
  unfold Sm9.fromBytes04 Sm9.toBytes04
  rw [List.append_assoc, List.take_left' lx, List.drop_left' lx, List.take_left' ly, fp_from_to _ hx, fp_from_to _ hy]

theorem s9Full_iff {b : Byte} (hb : b = 0x04 ∨ b = 0x06 ∨ b = 0x07) {rest : List Byte} {inl : Nat}
    (hl : inl ≠ 0) (hr : 64 ≤ rest.length) (R : Sm9.A) (n : Nat) :
    Sm9.ecAFromBytes (b :: rest) inl = .ok (R, n) ↔
      n = 65 ∧ ∃ Q, Sm9IsAffine R Q ∧ ∃ h, Q = .some (beVal (rest.take 32) : ZMod sm9p)
        (beVal ((rest.drop 32).take 32) : ZMod sm9p) h := by
  have hf : Sm9.ecAFromBytes (b :: rest) inl =
      if Sm9.ecCheck (Sm9.fromBytes04 rest) = true then .ok (Sm9.fromBytes04 rest, 65) else .fail := by
    unfold Sm9.ecAFromBytes
    rw [if_neg hl]
    simp only
    rw [if_pos hb, if_neg (by omega)]
  rw [hf]
  obtain ⟨h1, h2, h3, h4⟩ := s9From04_ok hr
  have hc := s9Check_iff h1 h2
  constructor
  · intro h
    by_cases c : Sm9.ecCheck (Sm9.fromBytes04 rest) = true
    · rw [if_pos c] at h
      obtain ⟨Q, q1, q2, q3, q4⟩ := hc.mp c
      cases h
      exact ⟨rfl, Q, ⟨q1, q2, q3, q4⟩, some_congr q4 h3 h4⟩
    · rw [if_neg c] at h
      cases h
  · rintro ⟨rfl, Q, ⟨q1, q2, q3, q4⟩, q5, q6⟩
    have e : R = Sm9.fromBytes04 rest := by
      rw [q4] at q6
      injection q6 with ex ey
      rw [← h3] at ex
      rw [← h4] at ey
      have e1 := (Props.C34_unique Sm9.fpCtx_wf _ _ q1 h1).mp ex
      have e2 := (Props.C34_unique Sm9.fpCtx_wf _ _ q2 h2).mp ey
      calc R = ⟨R.x, R.y⟩ := rfl
        _ = _ := by rw [e1, e2]
    subst e
    rw [if_pos (hc.mpr ⟨Q, q1, q2, q3, q4⟩)]

theorem s9Comp_iff {b : Byte} (hb : b = 0x02 ∨ b = 0x03) {rest : List Byte} {inl : Nat}
    (hl : inl ≠ 0) (hr : 32 ≤ rest.length) (R : Sm9.A) (n : Nat) :
    Sm9.ecAFromBytes (b :: rest) inl = .ok (R, n) ↔
      n = 33 ∧ ∃ Q, Sm9IsAffine R Q ∧ ∃ y h, Q = .some (beVal (rest.take 32) : ZMod sm9p) y h ∧
        y.val % 2 = b.toNat % 2 := by
  obtain ⟨x1, x2⟩ := s9From_ok (bs := rest.take 32) (by simp; omega)
  have hy : (if b = 0x02 then 0 else 1 : Byte) = 0 ∨ (if b = 0x02 then 0 else 1 : Byte) = 1 := by
    rcases hb with rfl | rfl <;> decide
  have hy' : (if b = 0x02 then 0 else 1 : Byte).toNat = b.toNat % 2 := by
    rcases hb with rfl | rfl <;> decide
  unfold Sm9.ecAFromBytes
  rw [if_neg hl]
  simp only
  rw [if_neg (by rcases hb with rfl | rfl <;> decide), if_pos hb, if_neg (by omega)]
  generalize Sm9.fpFromBytes (rest.take 32) = X at *
  generalize (beVal (rest.take 32) : ZMod sm9p) = xv at *
  rcases s9RecoverY x1 hy with ⟨y, y1, y2, y3, y4⟩ | ⟨y1, y2⟩
  · rw [y1]
    simp only
    have hc := s9Check_iff (P := ⟨X, y⟩) x1 y2
    have hQ : Sm9IsAffine ⟨X, y⟩ (.some _ _ (sm9_nonsing y3)) :=
      ⟨x1, y2, _, rfl⟩
    rw [if_pos (hc.mpr ⟨_, hQ⟩)]
    rw [hy'] at y4
    constructor
    · intro h
      rw [Sm2.ParseRes.ok.injEq, Prod.mk.injEq] at h
      obtain ⟨rfl, rfl⟩ := h
      have h' : sm9Curve.Nonsingular xv (montVal sm9p y) := by rw [← x2]; exact sm9_nonsing y3
      refine ⟨rfl, .some (montVal sm9p X) (montVal sm9p y) (sm9_nonsing y3), hQ, montVal sm9p y, h', ?_, y4⟩
      clear * - x2
      subst x2
      rfl
    · rintro ⟨rfl, Q, ⟨q1, q2, q3, q4⟩, y', h', q6, q7⟩
      rw [q4] at q6
      obtain ⟨ex, ey⟩ := (Point.some.injEq ..).mp q6
      rw [← x2] at ex
      have e1 := (Props.C34_unique Sm9.fpCtx_wf _ _ q1 x1).mp ex
      have e0 := sm9_onCurve q3
      rw [ex] at e0
      have ey' : montVal sm9p R.y = montVal sm9p y := by
        apply s9y_unique e0 y3
        rw [ey, q7, y4]
      have e2 := (Props.C34_unique Sm9.fpCtx_wf _ _ q2 y2).mp ey'
      have e : R = ⟨X, y⟩ := by rw [← e1, ← e2]
      rw [e]
  · rw [y1]
    simp only
    constructor
    · intro h; cases h
    · rintro ⟨rfl, Q, -, y', h', -⟩
      exfalso
      apply y2
      have := sm9_onCurve h'
      rw [← x2] at this
      exact ⟨_, this⟩

/-- Every other tag. -/
theorem s9Other {b : Byte} (h1 : ¬ (b = 0x04 ∨ b = 0x06 ∨ b = 0x07)) (h2 : ¬ (b = 0x02 ∨ b = 0x03))
    (rest : List Byte) (inl : Nat) : Sm9.ecAFromBytes (b :: rest) inl = .fail := by
  unfold Sm9.ecAFromBytes
  split_ifs <;> first | rfl | skip
  simp only
  rw [if_neg h1, if_neg h2]

end Verif
