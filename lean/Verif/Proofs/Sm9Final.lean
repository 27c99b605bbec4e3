import Verif.Proofs.Sm9Pow
/-! # `sm9_fp12_inv` and the final exponentiation -/
namespace Verif
open Spec

section
variable {K : Type} [Field K] [Algebra (ZMod sm9p) K] {w : K} (hw : w ^ 12 = -2)

local notation "ok" => All12 (Reduced sm9p)
local notation "ι" => algebraMap (ZMod sm9p) K

include hw

/-- `1, u, v, uv` are independent over `F_p`. -/
theorem sm9_ind_fp {a b c d : ZMod sm9p} (h : (ι a + ι b * w ^ 6) + (ι c + ι d * w ^ 6) * w ^ 3 = 0) :
    a = 0 ∧ b = 0 ∧ c = 0 ∧ d = 0 := by
  have f : ∀ x y : ZMod sm9p, sm9Frob K (sm9Frob K (ι x + ι y * w ^ 6)) = ι x + ι y * w ^ 6 := by
    intro x y
    simp only [map_add, map_mul, sm9Frob_fp, sm9Frob_w6 hw, map_neg, neg_neg]
  have h2 := congrArg (sm9Frob K) (congrArg (sm9Frob K) h)
  rw [map_add, map_add, f, map_mul, map_mul, f, frob2_w3 hw, map_zero, map_zero] at h2
  have wne := pow_ne_zero 3 (sm9w_ne hw)
  have e : ι c + ι d * w ^ 6 = 0 := by
    have : (ι c + ι d * w ^ 6) * (2 * w ^ 3) = 0 := by linear_combination h - h2
    exact (mul_eq_zero.mp this).resolve_right (mul_ne_zero sm9K_two wne)
  rw [e, zero_mul, add_zero] at h
  have z : ∀ x : ZMod sm9p, ι x = 0 → x = 0 := fun x hx => (map_eq_zero_iff (algebraMap (ZMod sm9p) K) (algebraMap (ZMod sm9p) K).injective).mp hx
  obtain ⟨c0, d0⟩ := sm9_ind2 hw (φ := id) e
  obtain ⟨a0, b0⟩ := sm9_ind2 hw (φ := id) h
  exact ⟨z _ a0, z _ b0, z _ c0, z _ d0⟩

/-- The coefficients of an element of `F_p⁴` are determined. -/
theorem fp4_coeff {x : Sm9.F4} {a b c d : ZMod sm9p}
    (h : fp4Den w x = (ι a + ι b * w ^ 6) + (ι c + ι d * w ^ 6) * w ^ 3) :
    montVal sm9p x.c0.c0 = a ∧ montVal sm9p x.c0.c1 = b ∧ montVal sm9p x.c1.c0 = c ∧ montVal sm9p x.c1.c1 = d := by
  have := sm9_ind_fp hw (a := montVal sm9p x.c0.c0 - a) (b := montVal sm9p x.c0.c1 - b)
    (c := montVal sm9p x.c1.c0 - c) (d := montVal sm9p x.c1.c1 - d) (by
      simp only [map_sub]
      change (ι _ + ι _ * w ^ 6) + (ι _ + ι _ * w ^ 6) * w ^ 3 = _ at h
      linear_combination h)
  exact ⟨sub_eq_zero.mp this.1, sub_eq_zero.mp this.2.1, sub_eq_zero.mp this.2.2.1, sub_eq_zero.mp this.2.2.2⟩

theorem invSlip_iff {a : Sm9.F12} (ha : ok a) :
    InvSlip a ↔ (fpDen (fp4Sqr Sm9.fp a.c2).c1.c1 : K) = 0 ∧ (fpDen (fp4Mul Sm9.fp a.c0 a.c1).c0.c0 : K) = 0 := by
  have H := sm9fp4_wk hw
  have q := (H.iSqr (H.w (is_rfl (φ := fp4Den w) ha.2.2))).2
  have p := (H.iMulO (is_rfl (φ := fp4Den w) ha.1) (is_rfl ha.2.1)).2
  obtain ⟨-, -, -, q4⟩ := fp4_coeff hw (x := fp4Sqr Sm9.fp a.c2)
    (a := montVal sm9p a.c2.c0.c0 ^ 2 - 2 * montVal sm9p a.c2.c0.c1 ^ 2
      - 4 * (montVal sm9p a.c2.c1.c0 * montVal sm9p a.c2.c1.c1))
    (b := 2 * (montVal sm9p a.c2.c0.c0 * montVal sm9p a.c2.c0.c1) + montVal sm9p a.c2.c1.c0 ^ 2
      - 2 * montVal sm9p a.c2.c1.c1 ^ 2)
    (c := 2 * (montVal sm9p a.c2.c0.c0 * montVal sm9p a.c2.c1.c0)
      - 4 * (montVal sm9p a.c2.c0.c1 * montVal sm9p a.c2.c1.c1))
    (d := 2 * (montVal sm9p a.c2.c0.c0 * montVal sm9p a.c2.c1.c1 + montVal sm9p a.c2.c0.c1 * montVal sm9p a.c2.c1.c0))
    (q.trans (by
      unfold fp4Den den4 den2 fpDen
      simp only [map_add, map_sub, map_mul, map_pow, map_ofNat]
      ring_nf
      simp only [show w ^ 18 = w ^ 12 * w ^ 6 by ring, show w ^ 15 = w ^ 12 * w ^ 3 by ring, hw]
      ring))
  obtain ⟨p1, -, -, -⟩ := fp4_coeff hw (x := fp4Mul Sm9.fp a.c0 a.c1)
    (a := montVal sm9p a.c0.c0.c0 * montVal sm9p a.c1.c0.c0 - 2 * (montVal sm9p a.c0.c0.c1 * montVal sm9p a.c1.c0.c1)
    - 2 * (montVal sm9p a.c0.c1.c0 * montVal sm9p a.c1.c1.c1 + montVal sm9p a.c0.c1.c1 * montVal sm9p a.c1.c1.c0))
    (b := montVal sm9p a.c0.c0.c0 * montVal sm9p a.c1.c0.c1 + montVal sm9p a.c0.c0.c1 * montVal sm9p a.c1.c0.c0
      + montVal sm9p a.c0.c1.c0 * montVal sm9p a.c1.c1.c0 - 2 * (montVal sm9p a.c0.c1.c1 * montVal sm9p a.c1.c1.c1))
    (c := montVal sm9p a.c0.c0.c0 * montVal sm9p a.c1.c1.c0 + montVal sm9p a.c0.c1.c0 * montVal sm9p a.c1.c0.c0
      - 2 * (montVal sm9p a.c0.c0.c1 * montVal sm9p a.c1.c1.c1 + montVal sm9p a.c0.c1.c1 * montVal sm9p a.c1.c0.c1))
    (d := montVal sm9p a.c0.c0.c0 * montVal sm9p a.c1.c1.c1 + montVal sm9p a.c0.c0.c1 * montVal sm9p a.c1.c1.c0
      + montVal sm9p a.c0.c1.c0 * montVal sm9p a.c1.c0.c1 + montVal sm9p a.c0.c1.c1 * montVal sm9p a.c1.c0.c0)
    (p.trans (by
      unfold fp4Den den4 den2 fpDen
      simp only [map_add, map_sub, map_mul, map_ofNat]
      ring_nf
      simp only [show w ^ 18 = w ^ 12 * w ^ 6 by ring, show w ^ 15 = w ^ 12 * w ^ 3 by ring, hw]
      ring))
  unfold fpDen
  have z : ∀ x : ZMod sm9p, ι x = 0 ↔ x = 0 := fun x => map_eq_zero_iff (algebraMap (ZMod sm9p) K) (algebraMap (ZMod sm9p) K).injective
  rw [z, z, q4, p1]
  rfl

theorem f12Inv {a : Sm9.F12} (ha : ok a) :
    ∃ r, fp12Inv Sm9.fp a = some r ∧ ok r ∧ (fp12Den w r = (fp12Den w a)⁻¹ ↔ InvRight w a) := by
  obtain ⟨r, r1, r2, r3⟩ := fp12Inv_is (sm9fp4_wk hw) rfl (fun h => f12V hw h) (fun _ _ _ h => sm9_ind12 hw h)
    sm9fp_wk sm9fp_wkBase (w6_sq hw) (w3_sq w) sm9K_two ha
  refine ⟨r, r1, r2, ?_⟩
  rw [show (fp12Den w r = (fp12Den w a)⁻¹) = _ from rfl]
  unfold InvRight
  rw [invSlip_iff hw ha]
  exact r3

omit hw [Algebra (ZMod sm9p) K] in
theorem final_arith {g : K} (g0 : g ≠ 0) (p A2 A3 E : Nat)
    (h : p ^ 3 + A2 * (p ^ 2 + 2 * p) + 9 * (1 + p) + 4 = E + A3 * (A2 * (1 + p) + 2 + p)) {y : K}
    (hy : y = (g ^ A3)⁻¹) :
    g ^ p ^ 3 * ((g ^ p ^ 2 * ((g ^ p) ^ 2 * (y * y ^ p))) ^ A2 *
      (y * (y * y ^ p) * (((g ^ p * g) ^ 2) ^ 2) ^ 2 * (g ^ p * g) * (g ^ 2) ^ 2)) = g ^ E := by
  have e1 : g ^ p ^ 3 * ((g ^ p ^ 2 * ((g ^ p) ^ 2 * (y * y ^ p))) ^ A2 *
      (y * (y * y ^ p) * (((g ^ p * g) ^ 2) ^ 2) ^ 2 * (g ^ p * g) * (g ^ 2) ^ 2))
      = g ^ (p ^ 3 + A2 * (p ^ 2 + 2 * p) + 9 * (1 + p) + 4) * y ^ (A2 * (1 + p) + 2 + p) := by
    ring
  rw [e1, h, hy, pow_add, inv_pow, ← pow_mul, mul_assoc, mul_inv_cancel₀ (pow_ne_zero _ g0), mul_one]

omit hw in
theorem hard_exp : sm9p ^ 3 + beVal (Sm9.a2.take 32) * (sm9p ^ 2 + 2 * sm9p) + 9 * (1 + sm9p) + 4 =
    (sm9p ^ 4 - sm9p ^ 2 + 1) / sm9n +
      beVal (Sm9.a3.take 32) * (beVal (Sm9.a2.take 32) * (1 + sm9p) + 2 + sm9p) := by decide +kernel

theorem f12Hard {f : Sm9.F12} {g : K} (hf : Is ok (fp12Den w) f g)
    (hi : ∀ h, ok h → fp12Den w h = g ^ beVal (Sm9.a3.take 32) → InvRight w h) :
    ∃ r, Sm9.finalExpHard f = some r ∧ Is ok (fp12Den w) r (g ^ ((sm9p ^ 4 - sm9p ^ 2 + 1) / sm9n)) := by
  have W := fun {a : Sm9.F12} {s : K} (h : Is ok (fp12Den w) a s) => f12w hw h
  have M := fun {a b : Sm9.F12} {s t : K} (h : Is (All12 (AtMost sm9p)) (fp12Den w) a s)
    (h' : Is (All12 (AtMost sm9p)) (fp12Den w) b t) => f12w hw (f12Mul hw h h')
  have S := fun {a : Sm9.F12} {s : K} (h : Is (All12 (AtMost sm9p)) (fp12Den w) a s) => f12w hw (f12Sqr hw h)
  obtain ⟨t0, t0e, t0i⟩ := f12Pow hw hf Sm9.a3 (by decide +kernel)
  obtain ⟨y, ye, yok, yv⟩ := f12Inv hw t0i.1
  have yi : Is ok (fp12Den w) y (g ^ beVal (Sm9.a3.take 32))⁻¹ := ⟨yok, by
    rw [← t0i.2]; exact yv.mpr (hi _ t0i.1 t0i.2)⟩
  have hf' := W hf
  have t1 := M (W yi) (f12Frob hw (W yi))
  have t2 := f12Frob hw hf'
  have t3 := M t2 hf'
  have t3' := M (S (S (S t3))) t3
  have t0' := M (M (W yi) t1) t3'
  have t0'' := M t0' (S (S hf'))
  have t2' := M (S t2) t1
  have t1' := f12Mul hw (f12Frob2 hw hf') t2'
  obtain ⟨q, qe, qi⟩ := f12Pow hw t1' Sm9.a2 (by decide +kernel)
  have fin := f12Mul hw (f12Frob3 hw hf') (M (W qi) t0'')
  refine ⟨_, ?_, fin.val ?_⟩
  · unfold Sm9.finalExpHard
    rw [t0e]; dsimp only [Option.bind_eq_bind, Option.bind_some]
    rw [ye]; dsimp only [Option.bind_eq_bind, Option.bind_some]
    rw [qe]; rfl
  · by_cases g0 : g = 0
    · subst g0
      rw [zero_pow (n := sm9p ^ 3) (by decide +kernel), zero_mul, zero_pow (by decide +kernel)]
    · rw [← final_arith g0 sm9p (beVal (Sm9.a2.take 32)) (beVal (Sm9.a3.take 32)) _ hard_exp rfl]
      ring

theorem f12Final {f : Sm9.F12} (hf : ok f) (h1 : InvRight w f)
    (h2 : ∀ h, ok h → fp12Den w h = fp12Den w f ^ ((sm9p ^ 6 - 1) * (sm9p ^ 2 + 1) * beVal (Sm9.a3.take 32)) →
      InvRight w h) :
    ∃ r, Sm9.finalExp f = some r ∧ ok r ∧ fp12Den w r = fp12Den w f ^ ((sm9p ^ 12 - 1) / sm9n) := by
  have hf' : Is ok (fp12Den w) f (fp12Den w f) := ⟨hf, rfl⟩
  obtain ⟨y, ye, yok, yv⟩ := f12Inv hw hf
  have yi : Is ok (fp12Den w) y (fp12Den w f)⁻¹ := ⟨yok, yv.mpr h1⟩
  have t0 := f12w hw (f12Mul hw (f12Frob6 hw (f12w hw hf')) (f12w hw yi))
  have t1 := f12Mul hw t0 (f12Frob2 hw t0)
  have v : fp12Den w f ^ sm9p ^ 6 * (fp12Den w f)⁻¹ * (fp12Den w f ^ sm9p ^ 6 * (fp12Den w f)⁻¹) ^ sm9p ^ 2 =
      fp12Den w f ^ ((sm9p ^ 6 - 1) * (sm9p ^ 2 + 1)) := by
    generalize fp12Den w f = s
    by_cases s0 : s = 0
    · subst s0
      rw [inv_zero, mul_zero, zero_mul, zero_pow (by decide +kernel)]
    · have : s ^ sm9p ^ 6 * s⁻¹ = s ^ (sm9p ^ 6 - 1) := by
        rw [← div_eq_mul_inv, div_eq_iff s0, ← pow_succ]; congr 1
      rw [this, ← pow_succ', ← pow_mul]
  have t1' := t1.val v
  obtain ⟨r, re, ri⟩ := f12Hard hw t1' (fun h hh e => h2 h hh (by rw [e, ← pow_mul]))
  refine ⟨r, ?_, ri.1, ri.2.trans ?_⟩
  · unfold Sm9.finalExp
    rw [ye]; dsimp only [Option.bind_eq_bind, Option.bind_some]
    exact re
  · rw [← pow_mul]
    congr 1

/-- The value is in the subgroup of order `N`. -/
theorem f12Final_order {f : Sm9.F12} (h0 : fp12Den w f ≠ 0) :
    (fp12Den w f ^ ((sm9p ^ 12 - 1) / sm9n)) ^ sm9n = 1 := by
  have h := f12_pow_card hw f
  rw [← pow_mul, show (sm9p ^ 12 - 1) / sm9n * sm9n = sm9p ^ 12 - 1 by decide +kernel]
  have : fp12Den w f * fp12Den w f ^ (sm9p ^ 12 - 1) = fp12Den w f * 1 := by
    rw [← pow_succ', mul_one, show sm9p ^ 12 - 1 + 1 = sm9p ^ 12 by decide +kernel, h]
  exact mul_left_cancel₀ h0 this

end
end Verif
