import Verif.Model.LimbsX64
import Verif.Proofs.Limbs
/-! Helper lemmas: exact integer semantics of the 64-bit limb primitives. -/
namespace Verif.X64
open Spec

@[simp] theorem w64_zero_toNat : (0 : W64).toNat = 0 := rfl
@[simp] theorem byte_zero_toNat : (0 : Byte).toNat = 0 := rfl

theorem cf_ite (c : Byte) (h : c.toNat ≤ 1) : (if c = 0 then (0 : BitVec 65) else 1).toNat = c.toNat := by
  split
  next e => subst e; rfl
  next e =>
    have : c.toNat ≠ 0 := fun h0 => e (BitVec.eq_of_toNat_eq (by simpa using h0))
    have h1 : (1 : BitVec 65).toNat = 1 := rfl
    omega

theorem addcarry_spec (c : Byte) (a b : W64) (hc : c.toNat ≤ 1) :
    (addcarryU64 c a b).1.toNat + 2^64 * (addcarryU64 c a b).2.toNat = a.toNat + b.toNat + c.toNat ∧
    (addcarryU64 c a b).2.toNat ≤ 1 := by
  have ha := a.isLt
  have hb := b.isLt
  have hi := cf_ite c hc
  unfold addcarryU64
  simp only [BitVec.toNat_setWidth, BitVec.toNat_ushiftRight, BitVec.toNat_add, hi,
    Nat.shiftRight_eq_div_pow]
  omega

theorem subborrow_spec (c : Byte) (a b : W64) (hc : c.toNat ≤ 1) :
    (subborrowU64 c a b).1.toNat + b.toNat + c.toNat = a.toNat + 2^64 * (subborrowU64 c a b).2.toNat ∧
    (subborrowU64 c a b).2.toNat ≤ 1 := by
  have ha := a.isLt
  have hb := b.isLt
  have hi := cf_ite c hc
  unfold subborrowU64
  simp only [BitVec.toNat_setWidth, BitVec.toNat_ushiftRight, BitVec.toNat_sub, hi,
    Nat.shiftRight_eq_div_pow]
  omega

theorem mul_bound (a b : W64) : a.toNat * b.toNat ≤ (2^64-1)*(2^64-1) :=
  Nat.mul_le_mul (by have := a.isLt; omega) (by have := b.isLt; omega)

theorem mulx_spec (a b : W64) :
    (mulxU64 a b).1.toNat + 2^64 * (mulxU64 a b).2.toNat = a.toNat * b.toNat := by
  have hm := mul_bound a b
  have ha := a.isLt
  have hb := b.isLt
  unfold mulxU64
  simp only [BitVec.toNat_setWidth, BitVec.toNat_ushiftRight, BitVec.toNat_mul, Nat.shiftRight_eq_div_pow]
  rw [Nat.mod_eq_of_lt (show a.toNat < 2^128 by omega), Nat.mod_eq_of_lt (show b.toNat < 2^128 by omega)]
  omega

theorem mulCarry_spec (a b c : W64) :
    (mulCarry a b c).1.toNat + 2^64 * (mulCarry a b c).2.toNat = a.toNat * b.toNat + c.toNat := by
  have hm := mul_bound a b
  have hc := c.isLt
  have h1 := mulx_spec a b
  obtain ⟨h2, h3⟩ := addcarry_spec 0 (mulxU64 a b).1 c (by decide)
  obtain ⟨h4, h5⟩ := addcarry_spec (addcarryU64 0 (mulxU64 a b).1 c).2 (mulxU64 a b).2 0 h3
  unfold mulCarry
  simp only [w64_zero_toNat, byte_zero_toNat] at *
  generalize a.toNat * b.toNat = p at *
  omega

theorem addMulCarry_spec (r n m c : W64) :
    (addMulCarry r n m c).1.toNat + 2^64 * (addMulCarry r n m c).2.toNat
      = r.toNat + n.toNat * m.toNat + c.toNat := by
  have hm := mul_bound n m
  have hc := c.isLt
  have hr := r.isLt
  have h1 := mulx_spec n m
  unfold addMulCarry
  simp only
  obtain ⟨h2, h3⟩ := addcarry_spec 0 r (mulxU64 n m).1 (by decide)
  obtain ⟨h4, h5⟩ := addcarry_spec (addcarryU64 0 r (mulxU64 n m).1).2 (mulxU64 n m).2 0 h3
  generalize (addcarryU64 0 r (mulxU64 n m).1) = x at *
  generalize (addcarryU64 x.2 (mulxU64 n m).2 0) = y at *
  obtain ⟨h6, h7⟩ := addcarry_spec 0 x.1 c (by decide)
  obtain ⟨h8, h9⟩ := addcarry_spec (addcarryU64 0 x.1 c).2 y.1 0 h7
  simp only [w64_zero_toNat, byte_zero_toNat] at *
  generalize n.toNat * m.toNat = p at *
  omega

theorem addLoop_len : ∀ (a b : List W64) (c : Byte), a.length = b.length →
    (addLoop a b c).1.length = a.length
  | [], [], _, _ => rfl
  | x :: xs, y :: ys, c, h => by
    simp only [addLoop, List.length_cons]
    rw [addLoop_len xs ys _ (by simpa using h)]

theorem addLoop_spec : ∀ (a b : List W64) (c : Byte), a.length = b.length → c.toNat ≤ 1 →
    val (addLoop a b c).1 + 2^(64 * a.length) * (addLoop a b c).2.toNat
      = val a + val b + c.toNat ∧ (addLoop a b c).2.toNat ≤ 1
  | [], [], c, _, hc => by simp [addLoop, hc]
  | x :: xs, y :: ys, c, h, hc => by
    obtain ⟨h1, h2⟩ := addcarry_spec c x y hc
    obtain ⟨h3, h4⟩ := addLoop_spec xs ys (addcarryU64 c x y).2 (by simpa using h) h2
    simp only [addLoop, val_cons, List.length_cons]
    refine ⟨?_, h4⟩
    rw [Nat.mul_succ, pow_add]
    nlinarith

theorem subLoop_len : ∀ (a b : List W64) (c : Byte), a.length = b.length →
    (subLoop a b c).1.length = a.length
  | [], [], _, _ => rfl
  | x :: xs, y :: ys, c, h => by
    simp only [subLoop, List.length_cons]
    rw [subLoop_len xs ys _ (by simpa using h)]

theorem subLoop_spec : ∀ (a b : List W64) (c : Byte), a.length = b.length → c.toNat ≤ 1 →
    val (subLoop a b c).1 + val b + c.toNat
      = val a + 2^(64 * a.length) * (subLoop a b c).2.toNat ∧
    (subLoop a b c).2.toNat ≤ 1
  | [], [], c, _, hc => by simp [subLoop, hc]
  | x :: xs, y :: ys, c, h, hc => by
    obtain ⟨h1, h2⟩ := subborrow_spec c x y hc
    obtain ⟨h3, h4⟩ := subLoop_spec xs ys (subborrowU64 c x y).2 (by simpa using h) h2
    simp only [subLoop, val_cons, List.length_cons]
    refine ⟨?_, h4⟩
    rw [Nat.mul_succ, pow_add]
    nlinarith

theorem mulRow_len : ∀ (a : List W64) (b c : W64), (mulRow a b c).1.length = a.length
  | [], _, _ => rfl
  | x :: xs, b, c => by simp [mulRow, mulRow_len xs]

theorem mulRow_spec : ∀ (a : List W64) (b c : W64),
    val (mulRow a b c).1 + 2^(64 * a.length) * (mulRow a b c).2.toNat = val a * b.toNat + c.toNat
  | [], b, c => by simp [mulRow]
  | x :: xs, b, c => by
    have h1 := mulCarry_spec x b c
    have h3 := mulRow_spec xs b (mulCarry x b c).2
    simp only [mulRow, val_cons, List.length_cons]
    rw [Nat.mul_succ, pow_add]
    nlinarith

theorem addMulRow_len : ∀ (r a : List W64) (b c : W64), r.length = a.length →
    (addMulRow r a b c).1.length = a.length
  | [], [], _, _, _ => rfl
  | r :: rs, x :: xs, b, c, h => by
    simp [addMulRow, addMulRow_len rs xs _ _ (by simpa using h)]

theorem addMulRow_spec : ∀ (r a : List W64) (b c : W64), r.length = a.length →
    val (addMulRow r a b c).1 + 2^(64 * a.length) * (addMulRow r a b c).2.toNat
      = val r + val a * b.toNat + c.toNat
  | [], [], b, c, _ => by simp [addMulRow]
  | r :: rs, x :: xs, b, c, h => by
    have h1 := addMulCarry_spec r x b c
    have h3 := addMulRow_spec rs xs b (addMulCarry r x b c).2 (by simpa using h)
    simp only [addMulRow, val_cons, List.length_cons]
    rw [Nat.mul_succ, pow_add]
    nlinarith

theorem val_snoc (a : List W64) (c : W64) : val (a ++ [c]) = val a + 2^(64 * a.length) * c.toNat := by
  rw [val_append]; simp

theorem mpzMulLoop_spec (a : List W64) (ha : a ≠ []) : ∀ (bs win : List W64), win.length = a.length →
    val (mpzMulLoop a bs win) = val win + val a * val bs ∧
    (mpzMulLoop a bs win).length = a.length + bs.length
  | [], win, h => by simp [mpzMulLoop, h]
  | b :: bs, win, h => by
    have hl := addMulRow_len win a b 0 h
    have hv := addMulRow_spec win a b 0 h
    have hpos : 0 < a.length := List.length_pos_iff.mpr ha
    unfold mpzMulLoop
    split
    next r0 rs c heq =>
      rw [heq] at hl hv
      simp only [List.length_cons] at hl
      obtain ⟨i1, i2⟩ := mpzMulLoop_spec a ha bs (rs ++ [c]) (by simp; omega)
      simp only [val_cons, List.length_cons, i1, i2, val_snoc]
      refine ⟨?_, by omega⟩
      simp only [val_cons] at hv
      rw [← hl, Nat.mul_succ, pow_add] at hv
      rw [w64_zero_toNat, Nat.add_zero] at hv
      nlinarith
    next c heq =>
      rw [heq] at hl
      simp at hl
      omega

theorem mpzMul_cons (a : List W64) (ha : a ≠ []) (b0 : W64) (bs : List W64) :
    ∀ n, n = a.length → n = (b0 :: bs).length →
    (val (mpzMul a (b0 :: bs) n) = val a * val (b0 :: bs)) ∧
    (mpzMul a (b0 :: bs) n).length = 2 * n := by
  intro n hn hn2
  have hl := mulRow_len a b0 0
  have hv := mulRow_spec a b0 0
  have hpos : 0 < a.length := List.length_pos_iff.mpr ha
  unfold mpzMul
  rw [if_neg (by omega), List.take_of_length_le (l := b0 :: bs) (by omega), List.take_of_length_le (l := a) (by omega)]
  simp only
  split
  next r0 rs c heq =>
    rw [heq] at hl hv
    simp only [List.length_cons] at hl
    obtain ⟨i1, i2⟩ := mpzMulLoop_spec a ha bs (rs ++ [c]) (by simp; omega)
    simp only [val_cons, List.length_cons, i1, i2, val_snoc]
    refine ⟨?_, by simp only [List.length_cons] at hn2; omega⟩
    simp only [val_cons] at hv
    rw [← hl, Nat.mul_succ, pow_add] at hv
    rw [w64_zero_toNat, Nat.add_zero] at hv
    nlinarith
  next c heq =>
    rw [heq] at hl
    simp at hl
    omega


/-! ## uint256_mul -/

theorem mulxRow_len : ∀ (a : List W64) (b : W64), (mulxRow a b).1.length = a.length ∧ (mulxRow a b).2.length = a.length
  | [], _ => ⟨rfl, rfl⟩
  | x :: xs, b => by
    obtain ⟨h1, h2⟩ := mulxRow_len xs b
    simp [mulxRow, h1, h2]

theorem mulxRow_spec : ∀ (a : List W64) (b : W64),
    val (mulxRow a b).1 + 2^64 * val (mulxRow a b).2 = val a * b.toNat
  | [], b => by simp [mulxRow]
  | x :: xs, b => by
    have h1 := mulx_spec x b
    have h2 := mulxRow_spec xs b
    simp only [mulxRow, val_cons]
    nlinarith

theorem mulWord_spec (a : List W64) (ha : a ≠ []) (b : W64) :
    val (mulWord a b).1 + 2^(64 * a.length) * (mulWord a b).2.toNat = val a * b.toNat ∧
    (mulWord a b).1.length = a.length := by
  obtain ⟨l1, l2⟩ := mulxRow_len a b
  have hv := mulxRow_spec a b
  have hav := val_lt a
  have hb := b.isLt
  have hpos : 0 < a.length := List.length_pos_iff.mpr ha
  unfold mulWord
  generalize hx : mulxRow a b = x at *
  obtain ⟨los, his⟩ := x
  simp only at *
  match los, l1 with
  | l0 :: ls, l1 =>
    simp only [List.length_cons] at l1
    have hne : his ≠ [] := by rintro rfl; simp at l2; omega
    have hsplit := (List.dropLast_concat_getLast hne).symm
    have hgl : his.getLastD 0 = his.getLast hne := by
      rw [List.getLastD_eq_getLast?, List.getLast?_eq_some_getLast hne]; rfl
    have hdl : his.dropLast.length = ls.length := by rw [List.length_dropLast]; omega
    simp only
    rw [hgl]
    generalize his.getLast hne = h at *
    generalize his.dropLast = init at *
    subst hsplit
    obtain ⟨s1, s2⟩ := addLoop_spec ls init 0 hdl.symm (by decide)
    have s3 := addLoop_len ls init 0 hdl.symm
    generalize addLoop ls init 0 = y at *
    obtain ⟨t1, t2⟩ := addcarry_spec y.2 0 h s2
    rw [val_append] at hv
    simp only [val_cons, val_nil, Nat.mul_zero, Nat.add_zero, byte_zero_toNat, w64_zero_toNat, Nat.zero_add] at hv s1 t1 ⊢
    rw [hdl] at hv
    rw [← l1] at hav ⊢
    simp only [List.length_cons]
    refine ⟨?_, by omega⟩
    rw [Nat.mul_succ, pow_add] at hav ⊢
    generalize (addcarryU64 y.2 0 h).1.toNat = T at *
    generalize (addcarryU64 y.2 0 h).2.toNat = c at *
    have hT := h.isLt
    have hpp : 0 < 2^(64 * ls.length) := Nat.two_pow_pos _
    have key : l0.toNat + 2^64 * val y.1 + (2^(64 * ls.length) * 2^64) * (T + 2^64 * c) = val a * b.toNat := by
      rw [t1, ← hv]
      have : val y.1 + 2 ^ (64 * ls.length) * y.2.toNat = val ls + val init := s1
      calc _ = l0.toNat + 2^64 * (val y.1 + 2 ^ (64 * ls.length) * y.2.toNat) + (2 ^ (64 * ls.length) * 2^64) * h.toNat := by ring
        _ = _ := by rw [this]; ring
    have hc : c = 0 := by
      by_contra hc
      have h1 : val a * b.toNat < (2 ^ (64 * ls.length) * 2 ^ 64) * 2^64 := by
        calc val a * b.toNat ≤ val a * 2^64 := Nat.mul_le_mul_left _ hb.le
          _ < _ := Nat.mul_lt_mul_of_pos_right hav (by norm_num)
      have h2 : (2 ^ (64 * ls.length) * 2 ^ 64) * 2^64 ≤ (2 ^ (64 * ls.length) * 2^64) * (T + 2^64 * c) :=
        Nat.mul_le_mul_left _ (by omega)
      omega
    rw [hc] at key
    simpa using key
  | [], l1 => simp at l1; omega

theorem mulStep_spec (a : List W64) (ha : a ≠ []) (b : W64) (win : List W64) (hw : win.length = a.length) :
    (mulStep a b win).1.toNat + 2^64 * val (mulStep a b win).2 = val win + val a * b.toNat ∧
    (mulStep a b win).2.length = a.length := by
  obtain ⟨l1, l2⟩ := mulxRow_len a b
  have hv := mulxRow_spec a b
  have hav := val_lt a
  have hwv := val_lt win
  have hb := b.isLt
  have hpos : 0 < a.length := List.length_pos_iff.mpr ha
  unfold mulStep
  generalize mulxRow a b = x at *
  obtain ⟨los, his⟩ := x
  simp only at *
  obtain ⟨s1, s2⟩ := addLoop_spec win los 0 (by omega) (by decide)
  have s3 := addLoop_len win los 0 (by omega)
  generalize addLoop win los 0 = y at *
  obtain ⟨w, cf⟩ := y
  simp only at *
  obtain ⟨t1, t2⟩ := addcarry_spec cf 0 0 s2
  match w, s3 with
  | w0 :: ws, s3 =>
    simp only [List.length_cons] at s3
    have htl : (ws ++ [(addcarryU64 cf 0 0).1]).length = his.length := by simp; omega
    obtain ⟨u1, u2⟩ := addLoop_spec (ws ++ [(addcarryU64 cf 0 0).1]) his 0 htl (by decide)
    have u3 := addLoop_len (ws ++ [(addcarryU64 cf 0 0).1]) his 0 htl
    simp only [List.tail_cons, List.headD_cons]
    refine ⟨?_, by omega⟩
    have ht : (addcarryU64 cf 0 0).1.toNat = cf.toNat := by
      simp only [w64_zero_toNat] at t1
      omega
    rw [val_append] at u1
    simp only [val_cons, val_nil, Nat.mul_zero, Nat.add_zero, byte_zero_toNat, ht] at u1 s1 ⊢
    rw [htl, l2] at u1
    rw [hw] at s1 hwv
    generalize (addLoop (ws ++ [(addcarryU64 cf 0 0).1]) his 0).2.toNat = c at *
    generalize val (addLoop (ws ++ [(addcarryU64 cf 0 0).1]) his 0).1 = V at *
    have hK : 2^(64 * a.length) = 2^64 * 2^(64 * ws.length) := by
      rw [← pow_add]; congr 1; omega
    have key : w0.toNat + 2^64 * (V + 2^(64 * a.length) * c) = val win + val a * b.toNat := by
      rw [u1, ← hv, ← Nat.add_assoc, ← s1, hK]
      ring
    have hc : c = 0 := by
      by_contra hc
      have h2 : 2^64 * (2 ^ (64 * a.length) * 1) ≤ 2^64 * (2 ^ (64 * a.length) * c) :=
        Nat.mul_le_mul_left _ (Nat.mul_le_mul_left _ (by omega))
      have h3 : val a * b.toNat ≤ (2 ^ (64 * a.length) - 1) * (2^64 - 1) := Nat.mul_le_mul (by omega) (by omega)
      have h4 : (2 ^ (64 * a.length) - 1) * (2^64 - 1) + 2^(64 * a.length) ≤ 2 ^ (64 * a.length) * 2^64 := by
        obtain ⟨k, hk⟩ : ∃ k, 2 ^ (64 * a.length) = k + 1 := ⟨2 ^ (64 * a.length) - 1, by have := Nat.two_pow_pos (64 * a.length); omega⟩
        rw [hk]; simp; omega
      rw [Nat.mul_add] at key
      generalize 2 ^ (64 * a.length) = K at *
      omega
    rw [hc] at key
    simpa using key
  | [], s3 => simp at s3; omega

theorem mulSteps_spec (a : List W64) (ha : a ≠ []) : ∀ (bs win : List W64), win.length = a.length →
    val (mulSteps a bs win) = val win + val a * val bs ∧
    (mulSteps a bs win).length = a.length + bs.length
  | [], win, h => by simp [mulSteps, h]
  | b :: bs, win, h => by
    obtain ⟨h1, h2⟩ := mulStep_spec a ha b win h
    obtain ⟨i1, i2⟩ := mulSteps_spec a ha bs (mulStep a b win).2 h2
    simp only [mulSteps, val_cons, List.length_cons, i1, i2]
    refine ⟨?_, by omega⟩
    nlinarith

theorem u256Mul_spec (a b : List W64) (ha : a ≠ []) (hb : b ≠ []) :
    val (u256Mul a b) = val a * val b ∧ (u256Mul a b).length = a.length + b.length := by
  match b, hb with
  | b0 :: bs, _ =>
    obtain ⟨h1, h2⟩ := mulWord_spec a ha b0
    have hpos : 0 < a.length := List.length_pos_iff.mpr ha
    unfold u256Mul
    simp only
    generalize mulWord a b0 = y at *
    obtain ⟨rs, top⟩ := y
    simp only at *
    match rs, h2 with
    | r0 :: rt, h2 =>
      simp only [List.length_cons] at h2
      obtain ⟨i1, i2⟩ := mulSteps_spec a ha bs (rt ++ [top]) (by simp; omega)
      simp only [List.headD_cons, List.tail_cons, val_cons, List.length_cons, i1, i2, val_snoc]
      refine ⟨?_, by omega⟩
      rw [← h2, val_cons, Nat.mul_succ, pow_add] at h1
      nlinarith
    | [], h2 => simp at h2; omega

theorem cmpFromTop_append_self (x y : List W64) (a b : W64) (h : x.length = y.length) :
    cmpFromTop (x ++ [a]) (y ++ [b]) =
      if cmpFromTop x y = 0 then (if a > b then 1 else if a < b then -1 else 0) else cmpFromTop x y := by
  induction x generalizing y with
  | nil =>
    cases y with
    | nil => simp [cmpFromTop]
    | cons _ _ => simp at h
  | cons p ps ih =>
    cases y with
    | nil => simp at h
    | cons q qs =>
      simp only [List.cons_append, cmpFromTop]
      rw [ih qs (by simpa using h)]
      split <;> [simp; (split <;> [simp; skip])]
      rfl

theorem cmp_spec : ∀ (a b : List W64), a.length = b.length →
    cmpFromTop a.reverse b.reverse =
      if val a > val b then 1 else if val a < val b then -1 else 0
  | [], [], _ => by simp [cmpFromTop]
  | x :: xs, y :: ys, h => by
    have hl : xs.length = ys.length := by simpa using h
    have ih := cmp_spec xs ys hl
    rw [List.reverse_cons, List.reverse_cons,
      cmpFromTop_append_self _ _ _ _ (by simpa using hl), ih]
    have hx := x.isLt
    have hy := y.isLt
    have hxv : val (x :: xs) = x.toNat + 2^64 * val xs := rfl
    have hyv : val (y :: ys) = y.toNat + 2^64 * val ys := rfl
    simp only [gt_iff_lt, BitVec.lt_def]
    generalize val (x :: xs) = vx at *
    generalize val (y :: ys) = vy at *
    split_ifs <;> first | rfl | (exfalso; omega)

theorem u256Cmp_ge {a b : List W64} (h : a.length = b.length) :
    u256Cmp a b ≥ 0 ↔ val b ≤ val a := by
  unfold u256Cmp
  rw [cmp_spec a b h]
  split
  · simp; omega
  · split <;> simp <;> omega

/-! ## or-folds -/

theorem foldl_or_eq_zero : ∀ (l : List W64) (x : W64),
    l.foldl (· ||| ·) x = 0 ↔ x = 0 ∧ ∀ y ∈ l, y = 0
  | [], x => by simp
  | y :: ys, x => by
    have hor : ∀ a b : W64, a ||| b = 0 ↔ a = 0 ∧ b = 0 := by
      intro a b
      exact BitVec.or_eq_zero_iff
    simp only [List.foldl_cons, List.mem_cons, forall_eq_or_imp]
    rw [foldl_or_eq_zero ys, hor, and_assoc]

theorem val_eq_zero : ∀ (l : List W64), val l = 0 ↔ ∀ y ∈ l, y = 0
  | [] => by simp
  | y :: ys => by
    simp only [val_cons, List.mem_cons, forall_eq_or_imp, ← val_eq_zero ys]
    have : y = 0 ↔ y.toNat = 0 := by
      constructor
      · rintro rfl; rfl
      · intro h; exact BitVec.eq_of_toNat_eq (by simpa using h)
    rw [this]; omega

theorem u256EqualZero_iff (a : List W64) : u256EqualZero a = true ↔ val a = 0 := by
  unfold u256EqualZero
  rw [beq_iff_eq, foldl_or_eq_zero, val_eq_zero]
  simp

theorem zipWith_xor_zero : ∀ (a b : List W64), a.length = b.length →
    ((∀ y ∈ List.zipWith (· ^^^ ·) a b, y = 0) ↔ a = b)
  | [], [], _ => by simp
  | x :: xs, y :: ys, h => by
    have hx : x ^^^ y = 0 ↔ x = y := BitVec.xor_eq_zero_iff
    simp only [List.zipWith_cons_cons, List.mem_cons, forall_eq_or_imp,
      zipWith_xor_zero xs ys (by simpa using h), List.cons.injEq, hx]

theorem u256Equal_iff (a b : List W64) (h : a.length = b.length) :
    u256Equal a b = true ↔ val a = val b := by
  unfold u256Equal
  rw [beq_iff_eq, foldl_or_eq_zero]
  simp only [true_and]
  rw [zipWith_xor_zero a b h]
  exact ⟨fun e => by rw [e], val_inj a b h⟩



/-! ## modular helpers -/

theorem toNat_ne0 {w : Nat} (c : BitVec w) : c ≠ 0 ↔ c.toNat ≠ 0 := by
  constructor
  · intro h h2; exact h (BitVec.eq_of_toNat_eq (by simpa using h2))
  · rintro h rfl; exact h (by simp)

theorem u256ModAdd_len (a b d : List W64) (h1 : a.length = d.length) (h2 : b.length = d.length) :
    (u256ModAdd a b d).length = d.length := by
  have hl : (addLoop a b 0).1.length = d.length := by
    rw [addLoop_len a b 0 (by omega), h1]
  unfold u256ModAdd
  simp only
  split
  · rw [subLoop_len _ _ _ hl, hl]
  · exact hl

theorem u256ModAdd_spec (a b d : List W64) (h1 : a.length = d.length) (h2 : b.length = d.length)
    (ha : val a ≤ val d) (hb : val b ≤ val d) :
    val (u256ModAdd a b d) = if val a + val b ≥ val d then val a + val b - val d else val a + val b := by
  have hl : (addLoop a b 0).1.length = d.length := by
    rw [addLoop_len a b 0 (by omega), h1]
  have hs := addLoop_spec a b 0 (by omega) (by decide)
  rw [byte_zero_toNat, h1] at hs
  have hb2 := subLoop_spec (addLoop a b 0).1 d 0 hl (by decide)
  rw [hl, byte_zero_toNat] at hb2
  have hd := val_lt d
  have hsl := val_lt (addLoop a b 0).1
  have hsub := val_lt (subLoop (addLoop a b 0).1 d 0).1
  rw [subLoop_len _ _ _ hl] at hsub
  rw [hl] at hsl hsub
  unfold u256ModAdd
  simp only [toNat_ne0, u256Cmp_ge hl]
  generalize 2^(64 * d.length) = R at *
  have hc : (addLoop a b 0).2.toNat = 0 ∨ (addLoop a b 0).2.toNat = 1 := by omega
  have hbb : (subLoop (addLoop a b 0).1 d 0).2.toNat = 0 ∨
    (subLoop (addLoop a b 0).1 d 0).2.toNat = 1 := by omega
  rcases hc with hc | hc <;> rcases hbb with hbb | hbb <;> rw [hc] at hs <;> rw [hbb] at hb2 <;>
    simp only [Nat.mul_zero, Nat.mul_one, Nat.add_zero] at hs hb2 <;> split_ifs <;> omega

theorem u256ModSub_len (a b d : List W64) (h1 : a.length = d.length) (h2 : b.length = d.length) :
    (u256ModSub a b d).length = d.length := by
  have hl : (subLoop a b 0).1.length = d.length := by
    rw [subLoop_len a b 0 (by omega), h1]
  unfold u256ModSub
  simp only
  split
  · rw [addLoop_len _ _ _ hl, hl]
  · exact hl

theorem u256ModSub_spec (a b d : List W64) (h1 : a.length = d.length) (h2 : b.length = d.length)
    (ha : val a < val d) (hb : val b ≤ val d) :
    val (u256ModSub a b d) = if val b ≤ val a then val a - val b else val a + val d - val b := by
  have hl : (subLoop a b 0).1.length = d.length := by
    rw [subLoop_len a b 0 (by omega), h1]
  have hs := subLoop_spec a b 0 (by omega) (by decide)
  rw [byte_zero_toNat, h1] at hs
  have hb2 := addLoop_spec (subLoop a b 0).1 d 0 hl (by decide)
  rw [hl, byte_zero_toNat] at hb2
  have hd := val_lt d
  have hsl := val_lt (subLoop a b 0).1
  have hsub := val_lt (addLoop (subLoop a b 0).1 d 0).1
  rw [addLoop_len _ _ _ hl] at hsub
  rw [hl] at hsl hsub
  unfold u256ModSub
  simp only [toNat_ne0, u256Cmp_ge hl]
  generalize 2^(64 * d.length) = R at *
  have hc : (addLoop (subLoop a b 0).1 d 0).2.toNat = 0 ∨
    (addLoop (subLoop a b 0).1 d 0).2.toNat = 1 := by omega
  have hbb : (subLoop a b 0).2.toNat = 0 ∨ (subLoop a b 0).2.toNat = 1 := by omega
  rcases hc with hc | hc <;> rcases hbb with hbb | hbb <;> rw [hbb] at hs <;> rw [hc] at hb2 <;>
    simp only [Nat.mul_zero, Nat.mul_one, Nat.add_zero] at hs hb2 <;> split_ifs <;> omega

theorem modDoubleN_spec (d : List W64) : ∀ (n : Nat) (x : List W64), x.length = d.length → val x < val d →
    val (modDoubleN d n x) = (val x * 2^n) % val d ∧ (modDoubleN d n x).length = d.length
  | 0, x, hl, hx => by simp [modDoubleN, Nat.mod_eq_of_lt hx, hl]
  | n + 1, x, hl, hx => by
    have hs := u256ModAdd_spec x x d hl hl hx.le hx.le
    have hlen := u256ModAdd_len x x d hl hl
    have hlt : val (u256ModAdd x x d) < val d := by rw [hs]; split <;> omega
    obtain ⟨i1, i2⟩ := modDoubleN_spec d n _ hlen hlt
    refine ⟨?_, i2⟩
    show val (modDoubleN d n (u256ModAdd x x d)) = _
    rw [i1]
    have : val (u256ModAdd x x d) % val d = (val x * 2) % val d := by
      rw [hs]; split
      · rw [← Nat.mul_two, ← Nat.mod_eq_sub_mod (by omega)]
      · rw [← Nat.mul_two]
    rw [pow_succ, Nat.mul_comm (2^n) 2, ← Nat.mul_assoc, Nat.mul_mod, this, ← Nat.mul_mod]

theorem u256SelfModSll_spec (d x : List W64) (n : Nat) (hl : x.length = d.length) (hx : val x < val d) :
    val (u256SelfModSll x n d) = (val x * 2^n) % val d ∧ (u256SelfModSll x n d).length = d.length := by
  unfold u256SelfModSll
  split
  next h =>
    rw [u256EqualZero_iff] at h
    simp [h, hl]
  next h => exact modDoubleN_spec d n x hl hx

theorem subWhileGe_spec (d : List W64) (hd : 0 < val d) : ∀ (fuel : Nat) (t : List W64),
    t.length = d.length → val t < fuel →
    ∃ r, subWhileGe d fuel t = some r ∧ val r = val t % val d ∧ r.length = d.length
  | 0, t, _, h => absurd h (by omega)
  | fuel + 1, t, hl, h => by
    unfold subWhileGe
    split
    next hge =>
      rw [u256Cmp_ge hl] at hge
      have hs := subLoop_spec t d 0 hl (by decide)
      rw [byte_zero_toNat] at hs
      have hlen := subLoop_len t d 0 hl
      have hlt := val_lt (subLoop t d 0).1
      rw [hlen] at hlt
      have hv : val (subLoop t d 0).1 = val t - val d := by
        generalize 2^(64 * t.length) = R at *
        have hbb : (subLoop t d 0).2.toNat = 0 ∨ (subLoop t d 0).2.toNat = 1 := by omega
        rcases hbb with hbb | hbb <;> rw [hbb] at hs <;>
          simp only [Nat.mul_zero, Nat.mul_one, Nat.add_zero] at hs <;> omega
      obtain ⟨r, e1, e2, e3⟩ := subWhileGe_spec d hd fuel (u256SubBorrow t d).1
        (by unfold u256SubBorrow; simp only; omega) (by unfold u256SubBorrow; simp only; omega)
      refine ⟨r, e1, ?_, e3⟩
      rw [e2]
      unfold u256SubBorrow
      rw [hv, ← Nat.mod_eq_sub_mod hge]
    next hge =>
      rw [u256Cmp_ge hl] at hge
      exact ⟨t, rfl, (Nat.mod_eq_of_lt (by omega)).symm, hl⟩

/-! ## bytes -/

theorem memLoad_toNat (b0 b1 b2 b3 b4 b5 b6 b7 : Byte) :
    (memLoad64BE b0 b1 b2 b3 b4 b5 b6 b7).toNat = beVal [b0, b1, b2, b3, b4, b5, b6, b7] := by
  have h0 := b0.isLt
  have h1 := b1.isLt
  have h2 := b2.isLt
  have h3 := b3.isLt
  have h4 := b4.isLt
  have h5 := b5.isLt
  have h6 := b6.isLt
  have h7 := b7.isLt
  unfold memLoad64BE
  simp only [BitVec.toNat_append]
  rw [← Nat.shiftLeft_add_eq_or_of_lt h1, ← Nat.shiftLeft_add_eq_or_of_lt h2,
    ← Nat.shiftLeft_add_eq_or_of_lt h3, ← Nat.shiftLeft_add_eq_or_of_lt h4,
    ← Nat.shiftLeft_add_eq_or_of_lt h5, ← Nat.shiftLeft_add_eq_or_of_lt h6,
    ← Nat.shiftLeft_add_eq_or_of_lt h7]
  simp only [Nat.shiftLeft_eq, beVal, List.foldl_cons, List.foldl_nil]
  norm_num

theorem store_beVal (a : W64) : beVal (memStore64BE a) = a.toNat := by
  have ha := a.isLt
  simp only [memStore64BE, beVal, List.foldl_cons, List.foldl_nil, BitVec.extractLsb'_toNat,
    Nat.shiftRight_eq_div_pow]
  omega

theorem store_len (a : W64) : (memStore64BE a).length = 8 := rfl

theorem beVal_inj' : ∀ (a b : List Byte), a.length = b.length → beVal a = beVal b → a = b := by
  intro a
  induction a using List.reverseRecOn with
  | nil =>
    intro b hl _
    cases b with
    | nil => rfl
    | cons _ _ => simp at hl
  | append_singleton xs x ih =>
    intro b
    induction b using List.reverseRecOn with
    | nil => intro hl; simp at hl
    | append_singleton ys y _ =>
      intro hl he
      rw [beVal_append, beVal_append] at he
      have ex : ∀ z : Byte, beVal [z] = z.toNat := by intro z; simp [beVal]
      rw [ex, ex] at he
      have hx := x.isLt
      have hy := y.isLt
      simp only [List.length_singleton, pow_one] at he
      rw [ih ys (by simpa using hl) (by omega), BitVec.eq_of_toNat_eq (show x.toNat = y.toNat by omega)]

theorem load_store (a : W64) (b0 b1 b2 b3 b4 b5 b6 b7 : Byte)
    (h : memStore64BE a = [b0, b1, b2, b3, b4, b5, b6, b7]) :
    memLoad64BE b0 b1 b2 b3 b4 b5 b6 b7 = a := by
  apply BitVec.eq_of_toNat_eq
  rw [memLoad_toNat, ← h, store_beVal]

theorem store_load (b0 b1 b2 b3 b4 b5 b6 b7 : Byte) :
    memStore64BE (memLoad64BE b0 b1 b2 b3 b4 b5 b6 b7) = [b0, b1, b2, b3, b4, b5, b6, b7] := by
  refine beVal_inj' _ _ ?_ ?_
  · rfl
  · rw [store_beVal, memLoad_toNat]

theorem loadWordsBE_spec : ∀ (n : Nat) (bs : List Byte), bs.length = 8 * n →
    (loadWordsBE bs).length = n ∧ val (loadWordsBE bs).reverse = beVal bs
  | 0, bs, h => by
    have : bs = [] := List.length_eq_zero_iff.mp (by omega)
    subst this
    simp [loadWordsBE, beVal]
  | n + 1, bs, h => by
    match bs, h with
    | b0 :: b1 :: b2 :: b3 :: b4 :: b5 :: b6 :: b7 :: rest, h =>
      have hr : rest.length = 8 * n := by simp at h; omega
      obtain ⟨i1, i2⟩ := loadWordsBE_spec n rest hr
      simp only [loadWordsBE, List.length_cons, i1, true_and, List.reverse_cons]
      rw [val_snoc, i2, List.length_reverse, i1, memLoad_toNat]
      have : beVal (b0 :: b1 :: b2 :: b3 :: b4 :: b5 :: b6 :: b7 :: rest)
          = beVal [b0, b1, b2, b3, b4, b5, b6, b7] * 256^rest.length + beVal rest := by
        rw [← beVal_append]; rfl
      rw [this, hr]
      have e : (256:Nat)^(8*n) = 2^(64*n) := by
        rw [show (256:Nat) = 2^8 by norm_num, ← pow_mul]; congr 1; omega
      rw [e]
      ring

theorem storeLoad_words : ∀ (l : List W64), loadWordsBE (l.flatMap memStore64BE) = l
  | [] => rfl
  | a :: as => by
    have ih := storeLoad_words as
    simp only [List.flatMap_cons]
    rw [show memStore64BE a = [_, _, _, _, _, _, _, _] from rfl]
    simp only [List.cons_append, List.nil_append, loadWordsBE, ih]
    rw [load_store a _ _ _ _ _ _ _ _ rfl]

theorem loadStore_words : ∀ (n : Nat) (bs : List Byte), bs.length = 8 * n →
    (loadWordsBE bs).flatMap memStore64BE = bs
  | 0, bs, h => by
    have : bs = [] := List.length_eq_zero_iff.mp (by omega)
    subst this; rfl
  | n + 1, bs, h => by
    match bs, h with
    | b0 :: b1 :: b2 :: b3 :: b4 :: b5 :: b6 :: b7 :: rest, h =>
      have hr : rest.length = 8 * n := by simp at h; omega
      simp only [loadWordsBE, List.flatMap_cons, loadStore_words n rest hr, store_load]
      rfl

theorem flatMap_store_len (l : List W64) : (l.flatMap memStore64BE).length = 8 * l.length := by
  induction l with
  | nil => rfl
  | cons a as ih => simp only [List.flatMap_cons, List.length_append, ih, List.length_cons, store_len]; omega

theorem u256FromBytes_spec (bs : List Byte) (h : bs.length = 32) :
    (u256FromBytes bs).length = 4 ∧ val (u256FromBytes bs) = beVal bs := by
  obtain ⟨h1, h2⟩ := loadWordsBE_spec 4 bs h
  exact ⟨by simp [u256FromBytes, h1], h2⟩

theorem u256ToBytes_len (a : List W64) : (u256ToBytes a).length = 8 * a.length := by
  rw [u256ToBytes, flatMap_store_len, List.length_reverse]

theorem u256ToBytes_spec (a : List W64) : beVal (u256ToBytes a) = val a := by
  obtain ⟨h1, h2⟩ := loadWordsBE_spec a.length (u256ToBytes a) (u256ToBytes_len a)
  rw [← h2, u256ToBytes, storeLoad_words, List.reverse_reverse]

theorem u256From_to (a : List W64) : u256FromBytes (u256ToBytes a) = a := by
  simp [u256FromBytes, u256ToBytes, storeLoad_words]

theorem u256To_from (bs : List Byte) (h : bs.length = 32) : u256ToBytes (u256FromBytes bs) = bs := by
  simp [u256FromBytes, u256ToBytes, loadStore_words 4 bs h]

/-! ## uint256_mod -/

theorem u256ModLoop_spec (d : List W64) (hl : d.length = 4) (hd : 0 < val d) (data : List Byte)
    (rem : List W64) (hr : rem.length = 4) (hlt : val rem < val d) :
    ∃ r, u256ModLoop d data rem = some r ∧ r.length = 4 ∧
      val r = (val rem * 256^data.length + beVal data) % val d := by
  have hdl := val_lt d
  rw [hl] at hdl
  have step : ∀ (bs : List Byte), bs.length = 32 → ∃ t,
      subWhileGe d loopFuel (u256FromBytes bs) = some t ∧ val t = beVal bs % val d ∧ t.length = 4 := by
    intro bs hbs
    obtain ⟨h1, h2⟩ := u256FromBytes_spec bs hbs
    have := val_lt (u256FromBytes bs)
    rw [h1] at this
    obtain ⟨r, e1, e2, e3⟩ := subWhileGe_spec d hd loopFuel (u256FromBytes bs) (by omega)
      (by unfold loopFuel; omega)
    exact ⟨r, e1, by rw [e2, h2], by omega⟩
  have addmod : ∀ x y : List W64, x.length = 4 → y.length = 4 → val x < val d → val y < val d →
      val (u256ModAdd x y d) = (val x + val y) % val d ∧ (u256ModAdd x y d).length = 4 := by
    intro x y hx hy hvx hvy
    refine ⟨?_, by rw [u256ModAdd_len x y d (by omega) (by omega), hl]⟩
    rw [u256ModAdd_spec x y d (by omega) (by omega) hvx.le hvy.le]
    split
    · rw [Nat.mod_eq_sub_mod (by omega), Nat.mod_eq_of_lt (by omega)]
    · rw [Nat.mod_eq_of_lt (by omega)]
  unfold u256ModLoop
  split
  next hge =>
    obtain ⟨t, e1, e2, e3⟩ := step (data.take 32) (by simp; omega)
    rw [e1]
    simp only
    obtain ⟨s1, s2⟩ := u256SelfModSll_spec d rem 256 (by omega) hlt
    obtain ⟨a1, a2⟩ := addmod (u256SelfModSll rem 256 d) t (by omega) e3
      (by rw [s1]; exact Nat.mod_lt _ hd) (by rw [e2]; exact Nat.mod_lt _ hd)
    obtain ⟨r, r1, r2, r3⟩ := u256ModLoop_spec d hl hd (data.drop 32) _ a2 (by rw [a1]; exact Nat.mod_lt _ hd)
    refine ⟨r, r1, r2, ?_⟩
    rw [r3, a1, s1, e2, List.length_drop]
    have hbe : beVal data = beVal (data.take 32) * 256^(data.length - 32) + beVal (data.drop 32) := by
      conv_lhs => rw [← List.take_append_drop 32 data]
      rw [beVal_append, List.length_drop]
    have hp : (256:Nat)^data.length = 2^256 * 256^(data.length - 32) := by
      rw [show (2:Nat)^256 = 256^32 by norm_num, ← pow_add]; congr 1; omega
    rw [hbe, hp]
    have : (val rem * (2^256 * 256^(data.length - 32)) +
        (beVal (data.take 32) * 256^(data.length-32) + beVal (data.drop 32)))
        = (val rem * 2^256 + beVal (data.take 32)) * 256^(data.length-32) + beVal (data.drop 32) := by ring
    rw [this]
    have m1 : ((val rem * 2^256 % val d + beVal (data.take 32) % val d) % val d)
        = (val rem * 2^256 + beVal (data.take 32)) % val d := by rw [← Nat.add_mod]
    rw [m1]
    exact Nat.ModEq.add_right _ (Nat.ModEq.mul_right _ (Nat.mod_modEq _ _))
  next hge =>
    split
    next hne =>
      obtain ⟨t, e1, e2, e3⟩ := step (List.replicate (32 - data.length) 0 ++ data) (by simp; omega)
      rw [e1]
      simp only
      obtain ⟨s1, s2⟩ := u256SelfModSll_spec d rem (8 * data.length) (by omega) hlt
      obtain ⟨a1, a2⟩ := addmod (u256SelfModSll rem (8 * data.length) d) t (by omega) e3
        (by rw [s1]; exact Nat.mod_lt _ hd) (by rw [e2]; exact Nat.mod_lt _ hd)
      refine ⟨_, rfl, a2, ?_⟩
      rw [a1, s1, e2, beVal_zeros, ← Nat.add_mod, pow_mul]
      norm_num
    next hne =>
      have : data = [] := List.length_eq_zero_iff.mp (by omega)
      subst this
      refine ⟨rem, rfl, hr, ?_⟩
      simp [beVal, Nat.mod_eq_of_lt hlt]
termination_by data.length
decreasing_by simp; omega

theorem u256Mod_spec (d : List W64) (hl : d.length = 4) (hd : 0 < val d) (data : List Byte) :
    ∃ r, u256Mod data d = some r ∧ r.length = 4 ∧ val r = beVal data % val d := by
  have hz : val u256Zero = 0 := val_replicate_zero 4
  unfold u256Mod
  split
  next hge =>
    have hdl := val_lt d
    rw [hl] at hdl
    obtain ⟨h1, h2⟩ := u256FromBytes_spec (data.take 32) (by simp; omega)
    have := val_lt (u256FromBytes (data.take 32))
    rw [h1] at this
    obtain ⟨t, e1, e2, e3⟩ := subWhileGe_spec d hd loopFuel (u256FromBytes (data.take 32)) (by omega)
      (by unfold loopFuel; omega)
    rw [e1]
    simp only
    have hadd := u256ModAdd_spec u256Zero t d (by simp [u256Zero, hl]) (by omega) (by omega)
      (by rw [e2]; exact (Nat.mod_lt _ hd).le)
    have hlen := u256ModAdd_len u256Zero t d (by simp [u256Zero, hl]) (by omega)
    have hv : val (u256ModAdd u256Zero t d) = beVal (data.take 32) % val d := by
      have := Nat.mod_lt (beVal (data.take 32)) hd
      rw [hadd, hz, e2, h2]
      split <;> omega
    obtain ⟨r, r1, r2, r3⟩ := u256ModLoop_spec d hl hd (data.drop 32) (u256ModAdd u256Zero t d) (by omega)
      (by rw [hv]; exact Nat.mod_lt _ hd)
    refine ⟨r, r1, r2, ?_⟩
    rw [r3, hv]
    have hbe : beVal data = beVal (data.take 32) * 256^(data.drop 32).length + beVal (data.drop 32) := by
      conv_lhs => rw [← List.take_append_drop 32 data]
      rw [beVal_append]
    rw [hbe]
    exact Nat.ModEq.add_right _ (Nat.ModEq.mul_right _ (Nat.mod_modEq _ _))
  next hge =>
    obtain ⟨r, r1, r2, r3⟩ := u256ModLoop_spec d hl hd data u256Zero (by simp [u256Zero]) (by omega)
    exact ⟨r, r1, r2, by rw [r3, hz]; simp⟩


end Verif.X64
