import Verif.Proofs.Mont2
/-! Remaining 256-bit operations: single-word operations, division by a word, bit test, byte conversions. -/
namespace Verif
open Spec

theorem val_word (b : W32) (n : Nat) : val (b :: List.replicate n 0) = b.toNat := by
  rw [val_cons, val_replicate_zero]; simp

theorem divStep (rem : W64) (d : W32) (h : rem.toNat < 2^32) :
    ((rem <<< 32) ||| d.setWidth 64).toNat = rem.toNat * 2^32 + d.toNat := by
  have hd := d.isLt
  rw [BitVec.toNat_or, BitVec.toNat_shiftLeft, BitVec.toNat_setWidth, Nat.shiftLeft_eq,
    Nat.mod_eq_of_lt (by omega), Nat.mod_eq_of_lt (by omega), ← Nat.shiftLeft_eq,
    ← Nat.shiftLeft_add_eq_or_of_lt hd]

theorem divWordLoop_spec (dv : W32) (hd : dv ≠ 0) : ∀ (ds : List W32) (rem : W64), rem.toNat < dv.toNat →
    rem.toNat * 2^(32 * ds.length) + val ds.reverse
      = val (divWordLoop dv ds rem).1.reverse * dv.toNat + (divWordLoop dv ds rem).2.toNat ∧
    (divWordLoop dv ds rem).2.toNat < dv.toNat ∧ (divWordLoop dv ds rem).1.length = ds.length
  | [], rem, h => by simp [divWordLoop, h]
  | d :: ds, rem, h => by
    have hdl := dv.isLt
    have hdd := d.isLt
    have e1 := divStep rem d (by omega)
    have hw : (dv.setWidth 64).toNat = dv.toNat := by
      rw [BitVec.toNat_setWidth]; exact Nat.mod_eq_of_lt (by omega)
    have hq : (((rem <<< 32 ||| d.setWidth 64) / dv.setWidth 64).setWidth 32).toNat
        = (rem.toNat * 2^32 + d.toNat) / dv.toNat := by
      rw [BitVec.toNat_setWidth, BitVec.toNat_udiv, e1, hw, Nat.mod_eq_of_lt]
      rw [Nat.div_lt_iff_lt_mul (by omega)]
      nlinarith
    have hr : ((rem <<< 32 ||| d.setWidth 64) % dv.setWidth 64).toNat
        = (rem.toNat * 2^32 + d.toNat) % dv.toNat := by
      rw [BitVec.toNat_umod, e1, hw]
    obtain ⟨i1, i2, i3⟩ := divWordLoop_spec dv hd ds ((rem <<< 32 ||| d.setWidth 64) % dv.setWidth 64)
      (by rw [hr]; exact Nat.mod_lt _ (by omega))
    simp only [divWordLoop, List.reverse_cons, List.length_cons]
    refine ⟨?_, i2, by rw [i3]⟩
    rw [hr] at i1
    rw [val_snoc, val_snoc, hq, List.length_reverse, List.length_reverse, i3]
    have hdm := Nat.div_add_mod (rem.toNat * 2^32 + d.toNat) dv.toNat
    generalize (rem.toNat * 2^32 + d.toNat) / dv.toNat = q at *
    generalize (rem.toNat * 2^32 + d.toNat) % dv.toNat = r at *
    rw [Nat.mul_succ, pow_add]
    generalize 2^(32 * ds.length) = K at *
    calc rem.toNat * (K * 2^32) + (val ds.reverse + K * d.toNat)
        = K * (rem.toNat * 2^32 + d.toNat) + val ds.reverse := by ring
      _ = K * (dv.toNat * q + r) + val ds.reverse := by rw [hdm]
      _ = K * dv.toNat * q + (r * K + val ds.reverse) := by ring
      _ = _ := by rw [i1]; ring

theorem u256DivWord_spec (a : List W32) (dv : W32) (hd : dv ≠ 0) :
    ∃ q r, u256DivWord a dv = some (q, r) ∧ q.length = a.length ∧
      val q = val a / dv.toNat ∧ r.toNat = val a % dv.toNat := by
  have hdl := dv.isLt
  have hd0 : dv.toNat ≠ 0 := (toNat_ne_zero_iff dv).mp hd
  obtain ⟨h1, h2, h3⟩ := divWordLoop_spec dv hd a.reverse 0 (by
    have : (0 : W64).toNat = 0 := rfl
    omega)
  unfold u256DivWord
  rw [if_neg hd]
  have hz : (0 : W64).toNat = 0 := rfl
  rw [hz, Nat.zero_mul, Nat.zero_add, List.reverse_reverse] at h1
  refine ⟨_, _, rfl, by rw [List.length_reverse, h3, List.length_reverse], ?_, ?_⟩
  · rw [h1, Nat.mul_comm, Nat.mul_add_div (by omega), Nat.div_eq_of_lt h2, Nat.add_zero]
  · rw [h1, Nat.mul_comm, Nat.mul_add_mod, Nat.mod_eq_of_lt h2, BitVec.toNat_setWidth,
      Nat.mod_eq_of_lt (by omega)]

theorem u256CmpWord_spec (a : List W32) (b : W32) (ha : a ≠ []) :
    u256CmpWord a b = if val a > b.toNat then 1 else if val a < b.toNat then -1 else 0 := by
  match a, ha with
  | a0 :: hi, _ =>
    unfold u256CmpWord
    simp only
    have hb := b.isLt
    have ha0 := a0.isLt
    have hany : (hi.any fun x => decide (x > 0)) = true ↔ val hi ≠ 0 := by
      rw [Ne, val_eq_zero, List.any_eq_true]
      constructor
      · rintro ⟨x, hx, h1⟩ hall
        rw [hall x hx] at h1
        simp at h1
      · intro h
        push Not at h
        obtain ⟨x, hx, h1⟩ := h
        refine ⟨x, hx, ?_⟩
        rw [decide_eq_true_eq, gt_iff_lt, BitVec.lt_def]
        have := (toNat_ne_zero_iff x).mp h1
        rw [w32_zero_toNat]; omega
    rw [val_cons]
    simp only [gt_iff_lt] at hany
    simp only [gt_iff_lt, hany]
    simp only [BitVec.lt_def]
    split_ifs <;> first | rfl | (exfalso; omega)

theorem u256EqualOne_spec (a : List W32) (ha : a ≠ []) : u256EqualOne a = true ↔ val a = 1 := by
  match a, ha with
  | a0 :: hi, _ =>
    unfold u256EqualOne
    have ha0 := a0.isLt
    rw [Bool.and_eq_true, beq_iff_eq, beq_iff_eq, foldl_or_eq_zero, val_cons]
    have h1 : a0 = 1 ↔ a0.toNat = 1 := by
      constructor
      · rintro rfl; rfl
      · intro h; exact BitVec.eq_of_toNat_eq h
    have h2 := val_eq_zero hi
    rw [h1]
    constructor
    · rintro ⟨h3, h4⟩
      have := h2.mpr h3.2
      omega
    · intro h
      have : val hi = 0 := by omega
      exact ⟨⟨rfl, h2.mp this⟩, by omega⟩

theorem val_testBit : ∀ (a : List W32) (i : Nat), (h : i / 32 < a.length) →
    (val a).testBit i = (a[i / 32]).getLsbD (i % 32)
  | [], i, h => absurd h (by simp)
  | x :: xs, i, h => by
    have hx := x.isLt
    rw [val_cons]
    rw [Nat.add_comm, Nat.testBit_two_pow_mul_add _ hx]
    split
    next hi =>
      have h0 : i / 32 = 0 := by omega
      have h1 : i % 32 = i := by omega
      simp only [h0, h1, List.getElem_cons_zero]
      rfl
    next hi =>
      have h0 : i / 32 = (i - 32) / 32 + 1 := by omega
      have h1 : i % 32 = (i - 32) % 32 := by omega
      rw [val_testBit xs (i - 32) (by simp only [List.length_cons] at h; omega)]
      simp only [h0, h1, List.getElem_cons_succ]

theorem u256BitTest_spec (a : List W32) (i : Nat) (h : i < 32 * a.length) :
    u256BitTest a i = some ((val a).testBit i) := by
  have hi : i / 32 < a.length := by omega
  unfold u256BitTest
  rw [List.getElem?_eq_getElem hi, Option.map_some, val_testBit a i hi]
  congr 1
  generalize a[i / 32] = w
  have : ((w >>> (i % 32)) &&& 1#32) = if w.getLsbD (i % 32) then 1#32 else 0#32 := by
    ext j hj
    simp only [BitVec.getElem_and, BitVec.getElem_ushiftRight]
    rcases Nat.eq_zero_or_pos j with h0 | h0
    · subst h0
      simp
      split <;> simp_all
    · have hz : (1#32)[j] = false := by
        rw [BitVec.getElem_one]
        simp; omega
      rw [hz, Bool.and_false]
      split
      · exact hz.symm
      · simp
  rw [this]
  cases w.getLsbD (i % 32) <;> rfl

end Verif
