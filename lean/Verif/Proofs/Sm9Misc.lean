import Verif.Proofs.Sm9Final
import Mathlib.NumberTheory.LegendreSymbol.Basic
import Mathlib.Algebra.Algebra.Subalgebra.Lattice
/-! # `sm9_fp_sqrt`, byte conversions and completeness of the tower representation -/
namespace Verif
open Spec

/-- Every value has a reduced Montgomery representation. -/
theorem fp_surj (x : ZMod sm9p) : ∃ a, Reduced sm9p a ∧ montVal sm9p a = x := by
  have hv : x.val < 2 ^ 256 := lt_trans (ZMod.val_lt x) (by decide +kernel)
  obtain ⟨h1, h2, -⟩ := Props.C39_from_to_bytes Sm9.fpCtx_wf (toBE 32 x.val) (toBE_len _ _)
  refine ⟨_, h1, h2.trans ?_⟩
  rw [beVal_toBE, Nat.mod_eq_of_lt (lt_of_lt_of_eq hv (by decide +kernel))]
  simp

theorem sqrt_arith {a z r : ZMod sm9p} (hz : z = a ^ ((sm9p - 1) / 4)) (hr : r = a ^ ((sm9p + 3) / 8)) :
    r ^ 2 = a * z ∧ ((z = 1 ∨ z = -1) ↔ a ≠ 0 ∧ IsSquare a) := by
  constructor
  · rw [hz, hr, ← pow_mul, ← pow_succ']; congr 1
  · rw [← sq_eq_one_iff, hz, ← pow_mul]
    by_cases h0 : a = 0
    · simp only [h0, ne_eq, not_true_eq_false, false_and, iff_false]
      rw [zero_pow (by decide +kernel)]; exact zero_ne_one
    · simp only [ne_eq, h0, not_false_eq_true, true_and]
      rw [ZMod.euler_criterion sm9p h0, show (sm9p - 1) / 4 * 2 = sm9p / 2 by decide +kernel]

theorem sm9_fpSqrt {a : List W32} (ha : Reduced sm9p a) :
    (∃ t, Sm9.fpSqrt a = some (some t) ∧ Reduced sm9p t ∧ montVal sm9p t ^ 2 = montVal sm9p a ∧ montVal sm9p a ≠ 0) ∨
      (Sm9.fpSqrt a = some none ∧ (montVal sm9p a = 0 ∨ ¬ IsSquare (montVal sm9p a))) := by
  have H := sm9fp_wk0
  obtain ⟨z, z1, z2, z3⟩ := Props.C37_mont_pow_partial Sm9.fpCtx_wf a (setEpi8 Sm9.uMul2Add1) ha (by decide +kernel)
    (by decide +kernel)
  obtain ⟨r, r1, r2, r3⟩ := Props.C37_mont_pow_partial Sm9.fpCtx_wf a (setEpi8 Sm9.uAdd1) ha (by decide +kernel)
    (by decide +kernel)
  rw [show val (setEpi8 Sm9.uMul2Add1) = (sm9p - 1) / 4 by decide +kernel] at z3
  rw [show val (setEpi8 Sm9.uAdd1) = (sm9p + 3) / 8 by decide +kernel] at r3
  obtain ⟨s1, s2⟩ := sqrt_arith z3 r3
  have e1 : mont256EqualOne Sm9.fpCtx z = true ↔ montVal sm9p z = 1 := by
    have := H.eq z2 H.one_ok
    rw [H.one] at this
    exact this
  have n1 : Reduced sm9p (mont256Neg Sm9.fpCtx (mont256SetOne Sm9.fpCtx)) := by unfold Reduced; decide +kernel
  have n2 : montVal sm9p (mont256Neg Sm9.fpCtx (mont256SetOne Sm9.fpCtx)) = -1 := by
    have := H.neg (H.wk_of H.one_ok)
    rw [H.one] at this
    exact this
  have e2 : mont256Equal Sm9.fpCtx z (mont256Neg Sm9.fpCtx (mont256SetOne Sm9.fpCtx)) = true ↔ montVal sm9p z = -1 := by
    have := H.eq z2 n1
    rw [n2] at this
    exact this
  unfold Sm9.fpSqrt
  simp only [z1, r1]
  by_cases hc : montVal sm9p z = 1 ∨ montVal sm9p z = -1
  · left
    obtain ⟨a0, -⟩ := s2.mp hc
    have c1 : (!mont256EqualOne Sm9.fpCtx z && !mont256Equal Sm9.fpCtx z
        (mont256Neg Sm9.fpCtx (mont256SetOne Sm9.fpCtx))) = false := by
      rcases hc with h | h
      · rw [e1.mpr h]; rfl
      · rw [e2.mpr h]; simp
    rw [c1]
    simp only [Bool.false_eq_true, if_false]
    by_cases h : montVal sm9p z = -1
    · rw [if_pos (e2.mpr h)]
      obtain ⟨c2, c3, -⟩ := Props.C39_from_to_bytes Sm9.fpCtx_wf Sm9.twoPow2u1Data (by decide +kernel)
      generalize mont256FromBytes Sm9.fpCtx Sm9.twoPow2u1Data = c at *
      have e : ((beVal Sm9.twoPow2u1Data : Nat) : ZMod sm9p) ^ 2 = -1 := by
        have : ((beVal Sm9.twoPow2u1Data ^ 2 + 1 : Nat) : ZMod sm9p) = 0 := by
          rw [ZMod.natCast_eq_zero_iff]; exact Nat.dvd_of_mod_eq_zero (by decide +kernel)
        push_cast at this
        exact eq_neg_of_add_eq_zero_left this
      generalize ((beVal Sm9.twoPow2u1Data : Nat) : ZMod sm9p) = q at *
      have m := H.iMulO (x := r) (y := c) ⟨r2, rfl⟩ ⟨c2, c3⟩
      refine ⟨_, rfl, m.1, ?_, a0⟩
      have mv := m.2
      change montVal sm9p (mont256Mul Sm9.fpCtx r c) = _ at mv
      rw [mv, mul_pow, s1, e, h]
      ring
    · rw [if_neg (fun h' => h (e2.mp h'))]
      refine ⟨r, rfl, r2, ?_, a0⟩
      rw [s1, hc.resolve_right h, mul_one]
  · right
    have c1 : (!mont256EqualOne Sm9.fpCtx z && !mont256Equal Sm9.fpCtx z
        (mont256Neg Sm9.fpCtx (mont256SetOne Sm9.fpCtx))) = true := by
      rw [Bool.and_eq_true, Bool.not_eq_true', Bool.not_eq_true', Bool.eq_false_iff, Bool.eq_false_iff, Ne, Ne, e1, e2]
      exact not_or.mp hc
    rw [if_pos c1]
    refine ⟨rfl, ?_⟩
    by_contra hn
    rw [not_or, not_not] at hn
    exact hc (s2.mpr hn)

/-! ## Byte conversions -/

theorem fp_to_len (a : List W32) (ha : Reduced sm9p a) : (Sm9.fpToBytes a).length = 32 := by
  obtain ⟨x, -, -, h, -⟩ := Props.C39_to_bytes Sm9.fpCtx_wf a ha
  unfold Sm9.fpToBytes
  rw [h, toBE_len]

theorem fp_from_to (a : List W32) (ha : Reduced sm9p a) : Sm9.fpFromBytes (Sm9.fpToBytes a) = a := by
  obtain ⟨x, -, -, -, h⟩ := Props.C39_to_bytes Sm9.fpCtx_wf a ha
  exact h

theorem fp2_to_len (a : Sm9.F2) (ha : All2 (Reduced sm9p) a) : (Sm9.fp2ToBytes a).length = 64 := by
  unfold Sm9.fp2ToBytes; rw [List.length_append, fp_to_len _ ha.1, fp_to_len _ ha.2]

theorem fp2_from_to (a : Sm9.F2) (ha : All2 (Reduced sm9p) a) : Sm9.fp2FromBytes (Sm9.fp2ToBytes a) = a := by
  have l0 := fp_to_len _ ha.1
  have l1 := fp_to_len _ ha.2
  unfold Sm9.fp2FromBytes Sm9.fp2ToBytes
  rw [List.drop_left' l1, List.take_left' l1, List.take_of_length_le (l := Sm9.fpToBytes a.c0) (by omega),
    fp_from_to _ ha.1, fp_from_to _ ha.2]

theorem fp4_to_len (a : Sm9.F4) (ha : All4 (Reduced sm9p) a) : (Sm9.fp4ToBytes a).length = 128 := by
  unfold Sm9.fp4ToBytes; rw [List.length_append, fp2_to_len _ ha.1, fp2_to_len _ ha.2]

theorem fp4_from_to (a : Sm9.F4) (ha : All4 (Reduced sm9p) a) : Sm9.fp4FromBytes (Sm9.fp4ToBytes a) = a := by
  have l0 := fp2_to_len _ ha.1
  have l1 := fp2_to_len _ ha.2
  unfold Sm9.fp4FromBytes Sm9.fp4ToBytes
  rw [List.drop_left' l1, List.take_left' l1, List.take_of_length_le (l := Sm9.fp2ToBytes a.c0) (by omega),
    fp2_from_to _ ha.1, fp2_from_to _ ha.2]

theorem fp12_to_len (a : Sm9.F12) (ha : All12 (Reduced sm9p) a) : (Sm9.fp12ToBytes a).length = 384 := by
  unfold Sm9.fp12ToBytes
  rw [List.length_append, List.length_append, fp4_to_len _ ha.1, fp4_to_len _ ha.2.1, fp4_to_len _ ha.2.2]

theorem fp12_from_to (a : Sm9.F12) (ha : All12 (Reduced sm9p) a) : Sm9.fp12FromBytes (Sm9.fp12ToBytes a) = a := by
  have l0 := fp4_to_len _ ha.1
  have l1 := fp4_to_len _ ha.2.1
  have l2 := fp4_to_len _ ha.2.2
  unfold Sm9.fp12FromBytes Sm9.fp12ToBytes
  rw [List.drop_left' (by rw [List.length_append]; omega), List.append_assoc, List.drop_left' l2, List.take_left' l2,
    List.take_left' l1, List.take_of_length_le (l := Sm9.fp4ToBytes a.c0) (by omega),
    fp4_from_to _ ha.1, fp4_from_to _ ha.2.1, fp4_from_to _ ha.2.2]

/-! ## The arrays are exactly the elements of `F_p[w]` -/

section
variable {K : Type} [Field K] [Algebra (ZMod sm9p) K] {w : K} (hw : w ^ 12 = -2)
include hw

theorem fp12_surj {x : K} (hx : x ∈ Algebra.adjoin (ZMod sm9p) {w}) :
    ∃ a, All12 (Reduced sm9p) a ∧ fp12Den w a = x := by
  have H := sm9fp4_wk hw
  have H2 := sm9fp2_wk hw
  have zz : Is (All4 (Reduced sm9p)) (fp4Den w) (fp4Zero Sm9.fp) 0 := ⟨H.zero_ok, H.zero⟩
  have oo : Is (All4 (Reduced sm9p)) (fp4Den w) (fp4One Sm9.fp) 1 := ⟨H.one_ok, H.one⟩
  induction hx using Algebra.adjoin_induction with
  | mem y hy =>
    rw [Set.mem_singleton_iff] at hy
    subst hy
    obtain ⟨i1, i2⟩ := (is12 (w := y) zz oo zz).val (show _ = y by ring)
    exact ⟨_, i1, i2⟩
  | algebraMap r =>
    obtain ⟨a, a1, a2⟩ := fp_surj r
    have ia : Is (Reduced sm9p) (fpDen (K := K)) a (algebraMap _ K r) := ⟨a1, by unfold fpDen; rw [a2]⟩
    have iz : Is (Reduced sm9p) (fpDen (K := K)) Sm9.fp.zero 0 := ⟨(sm9fp_wk (K := K)).zero_ok, sm9fp_wk.zero⟩
    obtain ⟨i1, i2⟩ := (is12 (w := w) (is4 (v := w ^ 3) (is2 (u := w ^ 6) ia iz) (is2 iz iz)) zz zz).val
      (show _ = algebraMap _ K r by ring)
    exact ⟨_, i1, i2⟩
  | add y z _ _ hy hz =>
    obtain ⟨a, a1, rfl⟩ := hy
    obtain ⟨b, b1, rfl⟩ := hz
    obtain ⟨i1, i2⟩ := fp12Add_is (w := w) H (is_rfl a1) (is_rfl b1)
    exact ⟨_, i1, i2⟩
  | mul y z _ _ hy hz =>
    obtain ⟨a, a1, rfl⟩ := hy
    obtain ⟨b, b1, rfl⟩ := hz
    obtain ⟨i1, i2⟩ := f12Mul hw (f12w hw (is_rfl a1)) (f12w hw (is_rfl b1))
    exact ⟨_, i1, i2⟩

end

end Verif
