import Verif.Spec.Sm2Enc
import Verif.Proofs.Sm2Mul
/-! # Point encodings -/
set_option linter.constructorNameAsVariable false
namespace Verif
open Spec WeierstrassCurve.Affine

theorem fpToBytes_eq {a : List W32} (ha : Reduced sm2p a) : Sm2.fpToBytes a = fieldOctets (fpVal a) := by
  obtain ⟨x, x1, x2, x3, -⟩ := Props.C39_to_bytes Sm2.fpCtx_wf a ha
  unfold Sm2.fpToBytes fieldOctets fpVal
  rw [x3, ← x2, ZMod.val_natCast, Nat.mod_eq_of_lt x1]

theorem fpFrom_to {a : List W32} (ha : Reduced sm2p a) : Sm2.fpFromBytes (Sm2.fpToBytes a) = a := by
  obtain ⟨x, x1, x2, x3, x4⟩ := Props.C39_to_bytes Sm2.fpCtx_wf a ha
  exact x4

theorem fpFromBytes_ok {bs : List Byte} (h : bs.length = 32) :
    Reduced sm2p (Sm2.fpFromBytes bs) ∧ fpVal (Sm2.fpFromBytes bs) = (beVal bs : ZMod sm2p) := by
  obtain ⟨h1, h2, -⟩ := Props.C39_from_to_bytes Sm2.fpCtx_wf bs h
  exact ⟨h1, h2⟩

theorem fieldOctets_len (x : ZMod sm2p) : (fieldOctets x).length = 32 := toBE_len _ _

theorem fieldOctets_ne (x : ZMod sm2p) : fieldOctets x ≠ [] := by
  intro h; have := fieldOctets_len x; rw [h] at this; simp at this

theorem lsb_toBE (n x : Nat) (hn : n ≠ 0) : Sm2.lsbOf (toBE n x) = if x % 2 = 0 then 0 else 1 := by
  cases n with
  | zero => exact absurd rfl hn
  | succ n =>
    unfold Sm2.lsbOf toBE
    rw [List.getLastD_concat]
    apply BitVec.eq_of_toNat_eq
    rw [BitVec.toNat_and, BitVec.toNat_ofNat]
    have h1 : (1 : Byte).toNat = 2 ^ 1 - 1 := rfl
    rw [h1, Nat.and_two_pow_sub_one_eq_mod]
    rcases Nat.mod_two_eq_zero_or_one x with h | h
    · rw [if_pos h]; show _ = 0; omega
    · rw [if_neg (by omega)]; show _ = 1; omega

theorem lsb_append (a b : List Byte) (hb : b ≠ []) : Sm2.lsbOf (a ++ b) = Sm2.lsbOf b := by
  unfold Sm2.lsbOf
  rw [List.getLastD_eq_getLast?, List.getLastD_eq_getLast?, List.getLast?_append_of_ne_nil _ hb]

theorem curveB_ok : IsFp (Sm2.fpFromBytes Sm2.sm2CurveB) ((sm2b : Nat) : ZMod sm2p) := by
  obtain ⟨h1, h2⟩ := fpFromBytes_ok (bs := Sm2.sm2CurveB) (by decide)
  refine ⟨h1, h2.trans ?_⟩
  rw [show beVal Sm2.sm2CurveB = sm2b by decide +kernel]

theorem curveA_ok : IsFp (Sm2.fpFromBytes Sm2.sm2CurveA) (-3 : ZMod sm2p) := by
  obtain ⟨h1, h2⟩ := fpFromBytes_ok (bs := Sm2.sm2CurveA) (by decide)
  refine ⟨h1, h2.trans ?_⟩
  rw [show beVal Sm2.sm2CurveA = sm2a by decide +kernel, sm2a_eq]

theorem g_ok : Sm2IsAffine ⟨Sm2.fpFromBytes Sm2.sm2CurveGx, Sm2.fpFromBytes Sm2.sm2CurveGy⟩ sm2G := by
  obtain ⟨h1, h2⟩ := fpFromBytes_ok (bs := Sm2.sm2CurveGx) (by decide)
  obtain ⟨h3, h4⟩ := fpFromBytes_ok (bs := Sm2.sm2CurveGy) (by decide)
  rw [show beVal Sm2.sm2CurveGx = sm2gx by decide +kernel] at h2
  rw [show beVal Sm2.sm2CurveGy = sm2gy by decide +kernel] at h4
  generalize Sm2.fpFromBytes Sm2.sm2CurveGx = X at *
  generalize Sm2.fpFromBytes Sm2.sm2CurveGy = Y at *
  have e : sm2G = .some ((sm2gx : Nat) : ZMod sm2p) ((sm2gy : Nat) : ZMod sm2p) (sm2_nonsing sm2_g_eq) := rfl
  exact ⟨h1, h3, some_congr e h2.symm h4.symm⟩

theorem ecCheck_iff {P : Sm2.A} (hx : Reduced sm2p P.x) (hy : Reduced sm2p P.y) :
    Sm2.ecCheck P = true ↔ ∃ Q, Sm2IsAffine P Q := by
  unfold Sm2.ecCheck
  rw [hom_check sm2fp_hom (Q := ⟨fpVal P.x, fpVal P.y⟩) ⟨⟨hx, rfl⟩, ⟨hy, rfl⟩⟩ curveA_ok curveB_ok]
  constructor
  · intro h
    exact ⟨_, hx, hy, sm2_nonsing h, rfl⟩
  · rintro ⟨Q, -, -, h, -⟩
    exact sm2_onCurve h

/-! ## Square root -/

theorem fpSqrt_ok {a : List W32} (ha : Reduced sm2p a) :
    (∃ t, Sm2.fpSqrt a = some (some t) ∧ Reduced sm2p t ∧ fpVal t ^ 2 = fpVal a) ∨
      (Sm2.fpSqrt a = some none ∧ ¬ ∃ y : ZMod sm2p, y ^ 2 = fpVal a) := by
  have hl : (setEpi8 Sm2.pSub3Div4Add1).length = 8 := by decide +kernel
  have hv : val (setEpi8 Sm2.pSub3Div4Add1) = (sm2p + 1) / 4 := by decide +kernel
  have h4 : 2 * ((sm2p + 1) / 4) * 2 = sm2p + 1 := by decide +kernel
  obtain ⟨t, t1, t2, t3⟩ := Props.C37_mont_pow_partial Sm2.fpCtx_wf a _ ha hl (by rw [hv]; decide +kernel)
  have ht2 := sm2fp_hom.is_sqr (x := t) ⟨t2, rfl⟩
  have heq : mont256Equal Sm2.fpCtx a (mont256Sqr Sm2.fpCtx t) = true ↔ fpVal a = fpVal t ^ 2 := by
    have := sm2fp_hom.eq ha ht2.1
    rw [ht2.2] at this
    exact this
  unfold Sm2.fpSqrt
  rw [t1]
  simp only
  by_cases hc : fpVal a = fpVal t ^ 2
  · left
    rw [heq.mpr hc]
    exact ⟨t, rfl, t2, hc.symm⟩
  · right
    have : mont256Equal Sm2.fpCtx a (mont256Sqr Sm2.fpCtx t) = false := by
      rw [Bool.eq_false_iff]; exact fun h => hc (heq.mp h)
    rw [this]
    refine ⟨rfl, ?_⟩
    rintro ⟨y, hy⟩
    apply hc
    show _ = montVal sm2p t ^ 2
    rw [t3, hv]
    show fpVal a = (fpVal a ^ ((sm2p + 1) / 4)) ^ 2
    have e : (y ^ 2) ^ ((sm2p + 1) / 4 * 2) = y ^ sm2p * y := by
      rw [← pow_mul, ← mul_assoc, h4, pow_succ]
    rw [← hy, ← pow_mul, e, ZMod.pow_card, pow_two]

/-! ## Recovering `y` -/

theorem yhat_eq (v : Nat) (b : Byte) (hb : b = 0 ∨ b = 1) :
    ((if v % 2 = 0 then 0 else 1 : Byte) ≠ b) ↔ v % 2 ≠ b.toNat := by
  rcases hb with rfl | rfl <;> rcases Nat.mod_two_eq_zero_or_one v with h | h <;> simp [h]

theorem recoverY_ok {x : List W32} (hx : Reduced sm2p x) {yHat : Byte} (hb : yHat = 0 ∨ yHat = 1) :
    (∃ y, Sm2.recoverY x yHat = some (some y) ∧ Reduced sm2p y ∧
        fpVal y ^ 2 = fpVal x ^ 3 + (-3) * fpVal x + (sm2b : ZMod sm2p) ∧ (fpVal y).val % 2 = yHat.toNat) ∨
      (Sm2.recoverY x yHat = some none ∧
        ¬ ∃ y : ZMod sm2p, y ^ 2 = fpVal x ^ 3 + (-3) * fpVal x + (sm2b : ZMod sm2p)) := by
  have hx' : IsFp x (fpVal x) := ⟨hx, rfl⟩
  have hA := curveA_ok
  have hB := curveB_ok
  unfold Sm2.recoverY
  generalize Sm2.fpFromBytes Sm2.sm2CurveA = cA at *
  generalize Sm2.fpFromBytes Sm2.sm2CurveB = cB at *
  have h2 : IsFp (Sm2.fp.add (Sm2.fp.add cB (Sm2.fp.mul cA x)) (Sm2.fp.mul (Sm2.fp.sqr x) x))
      (((sm2b : Nat) : ZMod sm2p) + (-3) * fpVal x + fpVal x ^ 2 * fpVal x) :=
    sm2fp_hom.is_add (sm2fp_hom.is_add hB (sm2fp_hom.is_mul hA hx')) (sm2fp_hom.is_mul (sm2fp_hom.is_sqr hx') hx')
  have e : ((sm2b : Nat) : ZMod sm2p) + (-3) * fpVal x + fpVal x ^ 2 * fpVal x
      = fpVal x ^ 3 + (-3) * fpVal x + (sm2b : ZMod sm2p) := by ring
  rw [e] at h2
  simp only
  rcases fpSqrt_ok h2.1 with ⟨t, t1, t2, t3⟩ | ⟨t1, t2⟩
  · left
    rw [t1]
    have h3 : fpVal t ^ 2 = fpVal x ^ 3 + (-3) * fpVal x + (sm2b : ZMod sm2p) := t3.trans h2.2
    have hne := sm2_y_ne h3
    simp only
    rw [fpToBytes_eq t2]
    unfold fieldOctets
    rw [lsb_toBE 32 _ (by omega)]
    by_cases hc : (fpVal t).val % 2 ≠ yHat.toNat
    · rw [if_pos ((yhat_eq _ _ hb).mpr hc)]
      obtain ⟨n1, n2⟩ := sm2fp_neg t2 hne
      refine ⟨_, rfl, n1, ?_, ?_⟩
      · show montVal sm2p (Sm2.fp.neg t) ^ 2 = _
        rw [n2, neg_sq]; exact h3
      · show (montVal sm2p (Sm2.fp.neg t)).val % 2 = _
        rw [n2]
        have := neg_parity sm2p (by decide +kernel) hne
        change (-fpVal t).val % 2 = _
        rcases hb with rfl | rfl <;> simp at hc ⊢ <;> omega
    · rw [if_neg (fun h => hc ((yhat_eq _ _ hb).mp h))]
      push Not at hc
      exact ⟨t, rfl, t2, h3, hc⟩
  · right
    rw [t1]
    refine ⟨rfl, ?_⟩
    rintro ⟨y, hy⟩
    exact t2 ⟨y, hy.trans h2.2.symm⟩

/-- A point is determined by `x` and the parity of `y`. -/
theorem y_unique {x y y' : ZMod sm2p} (h : y ^ 2 = x ^ 3 + (-3) * x + (sm2b : ZMod sm2p))
    (h' : y' ^ 2 = x ^ 3 + (-3) * x + (sm2b : ZMod sm2p)) (hp : y.val % 2 = y'.val % 2) : y = y' := by
  rcases sq_eq_sq_iff_eq_or_eq_neg.mp (h.trans h'.symm) with e | e
  · exact e
  · exfalso
    apply neg_parity sm2p (by decide +kernel) (sm2_y_ne h')
    rw [← e, hp]

/-! ## Decoding, case by case -/

/-- Uncompressed and mixed tags. -/
theorem fromBytes_full {b : Byte} (hb : b = 0x04 ∨ b = 0x06 ∨ b = 0x07) {rest : List Byte} {inl : Nat}
    (hl : inl ≠ 0) (hr : 64 ≤ rest.length) :
    Sm2.ecAFromBytes (b :: rest) inl =
      if Sm2.ecCheck (Sm2.fromBytes04 rest) = true then .ok (Sm2.fromBytes04 rest, 65) else .fail := by
  unfold Sm2.ecAFromBytes
  rw [if_neg hl]
  simp only
  rw [if_pos hb, if_neg (by omega)]

theorem fromBytes04_ok {rest : List Byte} (hr : 64 ≤ rest.length) :
    Reduced sm2p (Sm2.fromBytes04 rest).x ∧ Reduced sm2p (Sm2.fromBytes04 rest).y ∧
      fpVal (Sm2.fromBytes04 rest).x = (beVal (rest.take 32) : ZMod sm2p) ∧
      fpVal (Sm2.fromBytes04 rest).y = (beVal ((rest.drop 32).take 32) : ZMod sm2p) := by
  obtain ⟨h1, h2⟩ := fpFromBytes_ok (bs := rest.take 32) (by simp; omega)
  obtain ⟨h3, h4⟩ := fpFromBytes_ok (bs := (rest.drop 32).take 32) (by simp; omega)
  exact ⟨h1, h3, h2, h4⟩

theorem fromBytes04_toBytes {A : Sm2.A} (hx : Reduced sm2p A.x) (hy : Reduced sm2p A.y) (rest : List Byte) :
    Sm2.fromBytes04 (Sm2.toBytes04 A ++ rest) = A := by
  have lx : (Sm2.fpToBytes A.x).length = 32 := by rw [fpToBytes_eq hx, fieldOctets_len]
  have ly : (Sm2.fpToBytes A.y).length = 32 := by rw [fpToBytes_eq hy, fieldOctets_len]
  unfold Sm2.fromBytes04 Sm2.toBytes04
  rw [List.append_assoc, List.take_left' lx, List.drop_left' lx, List.take_left' ly, fpFrom_to hx, fpFrom_to hy]

theorem fromBytes_full_iff {b : Byte} (hb : b = 0x04 ∨ b = 0x06 ∨ b = 0x07) {rest : List Byte} {inl : Nat}
    (hl : inl ≠ 0) (hr : 64 ≤ rest.length) (R : Sm2.A) (n : Nat) :
    Sm2.ecAFromBytes (b :: rest) inl = .ok (R, n) ↔
      n = 65 ∧ ∃ Q, Sm2IsAffine R Q ∧ ∃ h, Q = .some (beVal (rest.take 32) : ZMod sm2p)
        (beVal ((rest.drop 32).take 32) : ZMod sm2p) h := by
  rw [fromBytes_full hb hl hr]
  obtain ⟨h1, h2, h3, h4⟩ := fromBytes04_ok hr
  have hc := ecCheck_iff h1 h2
  constructor
  · intro h
    by_cases c : Sm2.ecCheck (Sm2.fromBytes04 rest) = true
    · rw [if_pos c] at h
      obtain ⟨Q, q1, q2, q3, q4⟩ := hc.mp c
      cases h
      exact ⟨rfl, Q, ⟨q1, q2, q3, q4⟩, some_congr q4 h3 h4⟩
    · rw [if_neg c] at h
      cases h
  · rintro ⟨rfl, Q, ⟨q1, q2, q3, q4⟩, q5, q6⟩
    have e : R = Sm2.fromBytes04 rest := by
      rw [q4] at q6
      injection q6 with ex ey
      rw [← h3] at ex
      rw [← h4] at ey
      have e1 := (Props.C34_unique Sm2.fpCtx_wf _ _ q1 h1).mp ex
      have e2 := (Props.C34_unique Sm2.fpCtx_wf _ _ q2 h2).mp ey
      calc R = ⟨R.x, R.y⟩ := rfl
        _ = _ := by rw [e1, e2]
    subst e
    rw [if_pos (hc.mpr ⟨Q, q1, q2, q3, q4⟩)]

theorem fromBytes_comp_iff {b : Byte} (hb : b = 0x02 ∨ b = 0x03) {rest : List Byte} {inl : Nat}
    (hl : inl ≠ 0) (hr : 32 ≤ rest.length) (R : Sm2.A) (n : Nat) :
    Sm2.ecAFromBytes (b :: rest) inl = .ok (R, n) ↔
      n = 33 ∧ ∃ Q, Sm2IsAffine R Q ∧ ∃ y h, Q = .some (beVal (rest.take 32) : ZMod sm2p) y h ∧
        y.val % 2 = b.toNat % 2 := by
  obtain ⟨x1, x2⟩ := fpFromBytes_ok (bs := rest.take 32) (by simp; omega)
  have hy : (if b = 0x02 then 0 else 1 : Byte) = 0 ∨ (if b = 0x02 then 0 else 1 : Byte) = 1 := by
    rcases hb with rfl | rfl <;> decide
  have hy' : (if b = 0x02 then 0 else 1 : Byte).toNat = b.toNat % 2 := by
    rcases hb with rfl | rfl <;> decide
  unfold Sm2.ecAFromBytes
  rw [if_neg hl]
  simp only
  rw [if_neg (by rcases hb with rfl | rfl <;> decide), if_pos hb, if_neg (by omega)]
  generalize Sm2.fpFromBytes (rest.take 32) = X at *
  generalize (beVal (rest.take 32) : ZMod sm2p) = xv at *
  rcases recoverY_ok x1 hy with ⟨y, y1, y2, y3, y4⟩ | ⟨y1, y2⟩
  · rw [y1]
    simp only
    have hc := ecCheck_iff (P := ⟨X, y⟩) x1 y2
    have hQ : Sm2IsAffine ⟨X, y⟩ (.some _ _ (sm2_nonsing y3)) :=
      ⟨x1, y2, _, rfl⟩
    rw [if_pos (hc.mpr ⟨_, hQ⟩)]
    rw [hy'] at y4
    constructor
    · intro h
      rw [Sm2.ParseRes.ok.injEq, Prod.mk.injEq] at h
      obtain ⟨rfl, rfl⟩ := h
      have h' : sm2Curve.Nonsingular xv (fpVal y) := by rw [← x2]; exact sm2_nonsing y3
      refine ⟨rfl, .some (fpVal X) (fpVal y) (sm2_nonsing y3), hQ, fpVal y, h', ?_, y4⟩
      clear * - x2
      subst x2
      rfl
    · rintro ⟨rfl, Q, ⟨q1, q2, q3, q4⟩, y', h', q6, q7⟩
      rw [q4] at q6
      obtain ⟨ex, ey⟩ := (Point.some.injEq ..).mp q6
      rw [← x2] at ex
      have e1 := (Props.C34_unique Sm2.fpCtx_wf _ _ q1 x1).mp ex
      have e0 := sm2_onCurve q3
      rw [ex] at e0
      have ey' : fpVal R.y = fpVal y := by
        apply y_unique e0 y3
        rw [ey, q7, y4]
      have e2 := (Props.C34_unique Sm2.fpCtx_wf _ _ q2 y2).mp ey'
      have e : R = ⟨X, y⟩ := by rw [← e1, ← e2]
      rw [e]
  · rw [y1]
    simp only
    constructor
    · intro h; cases h
    · rintro ⟨rfl, Q, -, y', h', -⟩
      exfalso
      apply y2
      have := sm2_onCurve h'
      rw [← x2] at this
      exact ⟨_, this⟩

/-- Every other tag. -/
theorem fromBytes_other {b : Byte} (h1 : ¬ (b = 0x04 ∨ b = 0x06 ∨ b = 0x07)) (h2 : ¬ (b = 0x02 ∨ b = 0x03))
    (rest : List Byte) (inl : Nat) : Sm2.ecAFromBytes (b :: rest) inl = .fail := by
  unfold Sm2.ecAFromBytes
  split_ifs <;> first | rfl | skip
  simp only
  rw [if_neg h1, if_neg h2]

end Verif
