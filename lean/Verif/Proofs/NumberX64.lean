import Verif.Proofs.MontX64
import Verif.Spec.MontCtxX64
import Verif.Spec.Curves
/-! Remaining 256-bit operations with 64-bit limbs, and the contexts of the library. -/
namespace Verif.X64
open Spec Spec.X64

theorem val_word (b : W64) (n : Nat) : val (b :: List.replicate n 0) = b.toNat := by
  rw [val_cons, val_replicate_zero]; simp

theorem udiv128_spec (h l d : W64) (hd : h.toNat < d.toNat) :
    (udiv128 h l d).1.toNat = (h.toNat * 2^64 + l.toNat) / d.toNat ∧
    (udiv128 h l d).2.toNat = (h.toNat * 2^64 + l.toNat) % d.toNat := by
  have hh := h.isLt
  have hl := l.isLt
  have hdd := d.isLt
  have e1 : ((h.setWidth 128 <<< 64) ||| l.setWidth 128 : BitVec 128).toNat = h.toNat * 2^64 + l.toNat := by
    rw [BitVec.toNat_or, BitVec.toNat_shiftLeft, BitVec.toNat_setWidth, BitVec.toNat_setWidth,
      Nat.mod_eq_of_lt (show h.toNat < 2^128 by omega), Nat.mod_eq_of_lt (show l.toNat < 2^128 by omega),
      Nat.shiftLeft_eq, Nat.mod_eq_of_lt (by omega), ← Nat.shiftLeft_eq, ← Nat.shiftLeft_add_eq_or_of_lt hl]
  have e2 : (d.setWidth 128 : BitVec 128).toNat = d.toNat := by
    rw [BitVec.toNat_setWidth]; exact Nat.mod_eq_of_lt (by omega)
  unfold udiv128
  simp only
  rw [BitVec.toNat_setWidth, BitVec.toNat_setWidth, BitVec.toNat_udiv, BitVec.toNat_umod, e1, e2]
  refine ⟨Nat.mod_eq_of_lt ?_, Nat.mod_eq_of_lt (lt_trans (Nat.mod_lt _ (by omega)) hdd)⟩
  rw [Nat.div_lt_iff_lt_mul (by omega)]
  nlinarith

theorem divWordLoop_spec (dv : W64) (hd : dv ≠ 0) : ∀ (ds : List W64) (rem : W64), rem.toNat < dv.toNat →
    rem.toNat * 2^(64 * ds.length) + val ds.reverse
      = val (divWordLoop dv ds rem).1.reverse * dv.toNat + (divWordLoop dv ds rem).2.toNat ∧
    (divWordLoop dv ds rem).2.toNat < dv.toNat ∧ (divWordLoop dv ds rem).1.length = ds.length
  | [], rem, h => by simp [divWordLoop, h]
  | d :: ds, rem, h => by
    obtain ⟨hq, hr⟩ := udiv128_spec rem d dv h
    obtain ⟨i1, i2, i3⟩ := divWordLoop_spec dv hd ds (udiv128 rem d dv).2
      (by rw [hr]; exact Nat.mod_lt _ (by omega))
    simp only [divWordLoop, List.reverse_cons, List.length_cons]
    refine ⟨?_, i2, by rw [i3]⟩
    rw [hr] at i1
    rw [val_snoc, val_snoc, hq, List.length_reverse, List.length_reverse, i3]
    have hdm := Nat.div_add_mod (rem.toNat * 2^64 + d.toNat) dv.toNat
    generalize (rem.toNat * 2^64 + d.toNat) / dv.toNat = q at *
    generalize (rem.toNat * 2^64 + d.toNat) % dv.toNat = r at *
    rw [Nat.mul_succ, pow_add]
    generalize 2^(64 * ds.length) = K at *
    calc rem.toNat * (K * 2^64) + (val ds.reverse + K * d.toNat)
        = K * (rem.toNat * 2^64 + d.toNat) + val ds.reverse := by ring
      _ = K * (dv.toNat * q + r) + val ds.reverse := by rw [hdm]
      _ = K * dv.toNat * q + (r * K + val ds.reverse) := by ring
      _ = _ := by rw [i1]; ring

theorem u256DivWord_spec (a : List W64) (dv : W64) (hd : dv ≠ 0) :
    ∃ q r, u256DivWord a dv = some (q, r) ∧ q.length = a.length ∧
      val q = val a / dv.toNat ∧ r.toNat = val a % dv.toNat := by
  have hd0 : dv.toNat ≠ 0 := (toNat_ne0 dv).mp hd
  obtain ⟨h1, h2, h3⟩ := divWordLoop_spec dv hd a.reverse 0 (by rw [w64_zero_toNat]; omega)
  unfold u256DivWord
  rw [if_neg hd]
  rw [w64_zero_toNat, Nat.zero_mul, Nat.zero_add, List.reverse_reverse] at h1
  refine ⟨_, _, rfl, by rw [List.length_reverse, h3, List.length_reverse], ?_, ?_⟩
  · rw [h1, Nat.mul_comm, Nat.mul_add_div (by omega), Nat.div_eq_of_lt h2, Nat.add_zero]
  · rw [h1, Nat.mul_comm, Nat.mul_add_mod, Nat.mod_eq_of_lt h2]

theorem u256CmpWord_spec (a : List W64) (b : W64) (ha : a ≠ []) :
    u256CmpWord a b = if val a > b.toNat then 1 else if val a < b.toNat then -1 else 0 := by
  match a, ha with
  | a0 :: hi, _ =>
    unfold u256CmpWord
    simp only
    have hb := b.isLt
    have ha0 := a0.isLt
    have hany : (hi.any fun x => decide (x > 0)) = true ↔ val hi ≠ 0 := by
      rw [Ne, val_eq_zero, List.any_eq_true]
      constructor
      · rintro ⟨x, hx, h1⟩ hall
        rw [hall x hx] at h1
        simp at h1
      · intro h
        push Not at h
        obtain ⟨x, hx, h1⟩ := h
        refine ⟨x, hx, ?_⟩
        rw [decide_eq_true_eq, gt_iff_lt, BitVec.lt_def]
        have := (toNat_ne0 x).mp h1
        rw [w64_zero_toNat]; omega
    rw [val_cons]
    simp only [gt_iff_lt] at hany
    simp only [gt_iff_lt, hany]
    simp only [BitVec.lt_def]
    split_ifs <;> first | rfl | (exfalso; omega)

theorem u256EqualOne_spec (a : List W64) (ha : a ≠ []) : u256EqualOne a = true ↔ val a = 1 := by
  match a, ha with
  | a0 :: hi, _ =>
    unfold u256EqualOne
    have ha0 := a0.isLt
    rw [Bool.and_eq_true, beq_iff_eq, beq_iff_eq, foldl_or_eq_zero, val_cons]
    have h1 : a0 = 1 ↔ a0.toNat = 1 := by
      constructor
      · rintro rfl; rfl
      · intro h; exact BitVec.eq_of_toNat_eq h
    have h2 := val_eq_zero hi
    rw [h1]
    constructor
    · rintro ⟨h3, h4⟩
      have := h2.mpr h3.2
      omega
    · intro h
      have : val hi = 0 := by omega
      exact ⟨⟨rfl, h2.mp this⟩, by omega⟩

theorem val_testBit : ∀ (a : List W64) (i : Nat), (h : i / 64 < a.length) →
    (val a).testBit i = (a[i / 64]).getLsbD (i % 64)
  | [], i, h => absurd h (by simp)
  | x :: xs, i, h => by
    have hx := x.isLt
    rw [val_cons]
    rw [Nat.add_comm, Nat.testBit_two_pow_mul_add _ hx]
    split
    next hi =>
      have h0 : i / 64 = 0 := by omega
      have h1 : i % 64 = i := by omega
      simp only [h0, h1, List.getElem_cons_zero]
      rfl
    next hi =>
      have h0 : i / 64 = (i - 64) / 64 + 1 := by omega
      have h1 : i % 64 = (i - 64) % 64 := by omega
      rw [val_testBit xs (i - 64) (by simp only [List.length_cons] at h; omega)]
      simp only [h0, h1, List.getElem_cons_succ]

theorem u256BitTest_spec (a : List W64) (i : Nat) (h : i < 64 * a.length) :
    u256BitTest a i = some ((val a).testBit i) := by
  have hi : i / 64 < a.length := by omega
  unfold u256BitTest
  rw [List.getElem?_eq_getElem hi, Option.map_some, val_testBit a i hi]
  congr 1
  generalize a[i / 64] = w
  have : ((w >>> (i % 64)) &&& 1#64) = if w.getLsbD (i % 64) then 1#64 else 0#64 := by
    ext j hj
    simp only [BitVec.getElem_and, BitVec.getElem_ushiftRight]
    rcases Nat.eq_zero_or_pos j with h0 | h0
    · subst h0
      simp
      split <;> simp_all
    · have hz : (1#64)[j] = false := by
        rw [BitVec.getElem_one]
        simp; omega
      rw [hz, Bool.and_false]
      split
      · exact hz.symm
      · simp
  rw [this]
  cases w.getLsbD (i % 64) <;> rfl

theorem u256ToBytes_eq {a : List W64} (ha : a.length = 4) : u256ToBytes a = toBE 32 (val a) := by
  have h1 := toBE_beVal (u256ToBytes a)
  rw [u256ToBytes_spec, u256ToBytes_len, ha] at h1
  exact h1.symm

theorem _root_.Verif.Spec.X64.IsMontCtx.ok {ctx : Mont256CTX} {p : Nat} (h : IsMontCtx ctx p) : MontOk ctx where
  P_len := h.P.1
  N_ok := by
    match hp : ctx.P, h.P.1 with
    | P0 :: rest, _ =>
      have hn := h.N_
      rw [hp] at hn
      have hv := h.P.2
      rw [hp, val_cons] at hv
      have hodd : P0.toNat % 2 = 1 := by have := h.odd; omega
      obtain ⟨N, n1, n2⟩ := montComputeN_spec P0 hodd
      simp only [List.head?_cons, Option.bind_some] at hn
      rw [n1] at hn
      rw [← Option.some.inj hn]
      exact nok_of_mul P0 rest N n2
  P_gt := by rw [h.P.2]; exact h.gt_two
  R_len := h.R.1
  R_val := by rw [h.P.2]; exact h.R.2
  RPow2_len := h.RPow2.1
  RPow2_val := by rw [h.P.2]; exact h.RPow2.2
  PSub2_len := h.PSub2.1
  PSub2_val := by rw [h.P.2]; exact h.PSub2.2

theorem canon_iff {ctx : Mont256CTX} {p : Nat} (h : IsMontCtx ctx p) (a : List W64) :
    Canon ctx a ↔ Spec.X64.Reduced p a := by
  unfold Canon Spec.X64.Reduced
  rw [h.P.2]

theorem sm2FpCtx_wf : IsMontCtx sm2FpCtx sm2p := by
  constructor <;> decide +kernel
theorem sm2FnCtx_wf : IsMontCtx sm2FnCtx sm2n := by
  constructor <;> decide +kernel
theorem sm9FpCtx_wf : IsMontCtx sm9FpCtx sm9p := by
  constructor <;> decide +kernel
theorem sm9FnCtx_wf : IsMontCtx sm9FnCtx sm9n := by
  constructor <;> decide +kernel

end Verif.X64
