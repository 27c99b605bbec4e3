import Verif.Proofs.Sm9Fp
import Verif.Proofs.PrimeCert
import Mathlib.Algebra.CharP.Algebra
import Mathlib.Algebra.CharP.Frobenius
import Mathlib.FieldTheory.Finite.Basic
/-!
# The Frobenius map of the SM9 tower and the independence of `1, u, v, w, …`
-/
namespace Verif
open Spec

/-- `(-2)^((p-1)/12)`. -/
def sm9a1 : ZMod sm9p := (0x3f23ea58e5720bdb843c6cfa9c08674947c5c86e0ddd04eda91d8354377b698b : Nat)

theorem zmod_nat_eq {p : Nat} {a b : Nat} (h : a % p = b % p) : (a : ZMod p) = b :=
  (ZMod.natCast_eq_natCast_iff' a b p).mpr h

set_option exponentiation.threshold 300 in
theorem sm9a1_eq : (-2 : ZMod sm9p) ^ ((sm9p - 1) / 12) = sm9a1 := by
  have h := powMod_spec sm9p 256 (sm9p - 2) ((sm9p - 1) / 12) 1 (by decide +kernel)
  have e : ((sm9p - 2 : Nat) : ZMod sm9p) = -2 := by
    rw [Nat.cast_sub (by decide +kernel), ZMod.natCast_self]; norm_num
  rw [e, Nat.cast_one, one_mul] at h
  rw [← h]
  exact zmod_nat_eq (by decide +kernel)

theorem sm9a1_6 : sm9a1 ^ 6 = -1 := by
  unfold sm9a1
  rw [← Nat.cast_pow, show (-1 : ZMod sm9p) = ((sm9p - 1 : Nat) : ZMod sm9p) by
    rw [Nat.cast_sub (by decide +kernel), ZMod.natCast_self]; norm_num]
  exact zmod_nat_eq (by decide +kernel)

theorem sm9a1_4 : sm9a1 ^ 8 + sm9a1 ^ 4 + 1 = 0 := by
  unfold sm9a1
  have : ∀ x : ZMod sm9p, x = ((0 : Nat) : ZMod sm9p) → x = 0 := fun x h => by rw [h, Nat.cast_zero]
  apply this
  rw [← Nat.cast_pow, ← Nat.cast_pow, ← Nat.cast_add, show (1 : ZMod sm9p) = ((1 : Nat) : ZMod sm9p) by rw [Nat.cast_one],
    ← Nat.cast_add]
  exact zmod_nat_eq (by decide +kernel)

theorem sm9_small {n : Nat} (h0 : 0 < n) (h : n < 100) : (n : ZMod sm9p) ≠ 0 := by
  rw [Ne, ZMod.natCast_eq_zero_iff]
  intro hd
  have := Nat.le_of_dvd h0 hd
  have : (100 : Nat) < sm9p := by decide +kernel
  omega

section
variable {K : Type} [Field K] [Algebra (ZMod sm9p) K]

theorem sm9K_char (K : Type) [Field K] [Algebra (ZMod sm9p) K] : CharP K sm9p :=
  charP_of_injective_algebraMap (algebraMap (ZMod sm9p) K).injective sm9p

theorem sm9K_small {n : Nat} (h0 : 0 < n) (h : n < 100) : (n : K) ≠ 0 := by
  have := sm9_small h0 h
  intro e
  apply this
  apply (algebraMap (ZMod sm9p) K).injective
  rw [map_natCast, map_zero, e]

theorem sm9K_two : (2 : K) ≠ 0 := by exact_mod_cast sm9K_small (K := K) (n := 2) (by omega) (by omega)
theorem sm9K_three : (3 : K) ≠ 0 := by exact_mod_cast sm9K_small (K := K) (n := 3) (by omega) (by omega)

/-- The `p`-th power as a ring homomorphism. -/
noncomputable def sm9Frob (K : Type) [Field K] [Algebra (ZMod sm9p) K] : K →+* K :=
  letI := sm9K_char K
  frobenius K sm9p

theorem sm9Frob_apply (x : K) : sm9Frob K x = x ^ sm9p := rfl

theorem sm9Frob_fp (c : ZMod sm9p) : sm9Frob K (algebraMap (ZMod sm9p) K c) = algebraMap (ZMod sm9p) K c := by
  rw [sm9Frob_apply, ← map_pow, ZMod.pow_card]

theorem sm9Frob_fpDen (a : List W32) : sm9Frob K (fpDen a) = fpDen a := sm9Frob_fp _

/-- `(-2)^((p-1)/12)` in `K`. -/
noncomputable def kA (K : Type) [Field K] [Algebra (ZMod sm9p) K] : K := algebraMap (ZMod sm9p) K sm9a1

theorem kA_6 : kA K ^ 6 = -1 := by rw [kA, ← map_pow, sm9a1_6, map_neg, map_one]
theorem kA_4 : kA K ^ 8 + kA K ^ 4 + 1 = 0 := by
  rw [kA, ← map_pow, ← map_pow, ← map_one (algebraMap (ZMod sm9p) K), ← map_add, ← map_add, sm9a1_4, map_zero]
theorem sm9Frob_kA : sm9Frob K (kA K) = kA K := sm9Frob_fp _

variable {w : K} (hw : w ^ 12 = -2)
include hw

theorem sm9w_ne : w ≠ 0 := by
  rintro rfl
  apply sm9K_two (K := K)
  linear_combination hw

theorem sm9Frob_w : sm9Frob K w = kA K * w := by
  rw [sm9Frob_apply]
  have hp : sm9p = 12 * ((sm9p - 1) / 12) + 1 := by decide +kernel
  have e : w ^ (12 * ((sm9p - 1) / 12) + 1) = kA K * w := by
    rw [pow_succ, pow_mul, hw, kA, ← sm9a1_eq, map_pow, map_neg, map_ofNat]
  rw [← hp] at e
  exact e

theorem sm9Frob_w3 : sm9Frob K (w ^ 3) = kA K ^ 3 * w ^ 3 := by rw [map_pow, sm9Frob_w hw]; ring
theorem sm9Frob_w6 : sm9Frob K (w ^ 6) = - w ^ 6 := by rw [map_pow, sm9Frob_w hw, mul_pow, kA_6]; ring

theorem sm9_ind2 {α : Type} {φ : α → ZMod sm9p} {a b : α}
    (h : algebraMap _ K (φ a) + algebraMap _ K (φ b) * w ^ 6 = 0) :
    algebraMap _ K (φ a) = 0 ∧ algebraMap _ K (φ b) = 0 := by
  have h2 := congrArg (sm9Frob K) h
  rw [map_add, map_mul, sm9Frob_fp, sm9Frob_fp, sm9Frob_w6 hw, map_zero] at h2
  have wne := pow_ne_zero 6 (sm9w_ne hw)
  have e : algebraMap _ K (φ b) = 0 := by
    have : algebraMap _ K (φ b) * (2 * w ^ 6) = 0 := by linear_combination h - h2
    exact (mul_eq_zero.mp this).resolve_right (mul_ne_zero sm9K_two wne)
  rw [e, zero_mul, add_zero] at h
  exact ⟨h, e⟩

theorem sm9_ind2' {a b : List W32} (h : (fpDen a : K) + fpDen b * w ^ 6 = 0) : (fpDen a : K) = 0 ∧ (fpDen b : K) = 0 :=
  sm9_ind2 hw (φ := montVal sm9p) h

/-- The square of Frobenius on `F_p²`. -/
theorem frob2_fp2 (x : Fp2 (List W32)) :
    sm9Frob K (sm9Frob K (den2 fpDen (w ^ 6) x)) = den2 fpDen (w ^ 6) x := by
  unfold den2
  simp only [map_add, map_mul, sm9Frob_fpDen, sm9Frob_w6 hw, map_neg, neg_neg]

theorem frob2_w3 : sm9Frob K (sm9Frob K (w ^ 3)) = - w ^ 3 := by
  rw [sm9Frob_w3 hw, map_mul, sm9Frob_w3 hw, map_pow, sm9Frob_kA]
  linear_combination (w ^ 3) * kA_6 (K := K)

theorem sm9_ind4 {a b : Fp2 (List W32)} (h : den2 fpDen (w ^ 6) a + den2 fpDen (w ^ 6) b * w ^ 3 = 0) :
    den2 fpDen (w ^ 6) a = 0 ∧ den2 fpDen (w ^ 6) b = 0 := by
  have h2 := congrArg (sm9Frob K) (congrArg (sm9Frob K) h)
  rw [map_add, map_add, map_mul, map_mul, frob2_fp2 hw, frob2_fp2 hw, frob2_w3 hw, map_zero, map_zero] at h2
  have wne := pow_ne_zero 3 (sm9w_ne hw)
  have e : den2 fpDen (w ^ 6) b = 0 := by
    have : den2 fpDen (w ^ 6) b * (2 * w ^ 3) = 0 := by linear_combination h - h2
    exact (mul_eq_zero.mp this).resolve_right (mul_ne_zero sm9K_two wne)
  rw [e, zero_mul, add_zero] at h
  exact ⟨h, e⟩

/-- The fourth power of Frobenius. -/
noncomputable def frob4 (K : Type) [Field K] [Algebra (ZMod sm9p) K] : K →+* K :=
  ((sm9Frob K).comp (sm9Frob K)).comp ((sm9Frob K).comp (sm9Frob K))

omit hw in
theorem frob4_apply (x : K) : frob4 K x = sm9Frob K (sm9Frob K (sm9Frob K (sm9Frob K x))) := rfl

theorem frob4_fp4 (x : Fp4 (List W32)) :
    frob4 K (den4 fpDen (w ^ 6) (w ^ 3) x) = den4 fpDen (w ^ 6) (w ^ 3) x := by
  rw [frob4_apply]
  unfold den4
  simp only [map_add, map_mul, frob2_fp2 hw, frob2_w3 hw, map_neg, neg_neg]

theorem frob4_w : frob4 K w = kA K ^ 4 * w := by
  rw [frob4_apply]
  simp only [sm9Frob_w hw, map_mul, sm9Frob_kA]
  ring

omit hw in
theorem frob4_kA : frob4 K (kA K) = kA K := by
  rw [frob4_apply]
  simp only [sm9Frob_kA]

theorem sm9_ind12 {a b c : Fp4 (List W32)}
    (h : den4 fpDen (w ^ 6) (w ^ 3) a + den4 fpDen (w ^ 6) (w ^ 3) b * w + den4 fpDen (w ^ 6) (w ^ 3) c * w ^ 2 = 0) :
    den4 fpDen (w ^ 6) (w ^ 3) a = 0 ∧ den4 fpDen (w ^ 6) (w ^ 3) b = 0 ∧ den4 fpDen (w ^ 6) (w ^ 3) c = 0 := by
  have fa := frob4_fp4 hw a
  have fb := frob4_fp4 hw b
  have fc := frob4_fp4 hw c
  have fw := frob4_w hw
  have fk := frob4_kA (K := K)
  generalize den4 fpDen (w ^ 6) (w ^ 3) a = x at *
  generalize den4 fpDen (w ^ 6) (w ^ 3) b = y at *
  generalize den4 fpDen (w ^ 6) (w ^ 3) c = z at *
  have h2 := congrArg (frob4 K) h
  simp only [map_add, map_mul, map_pow, fa, fb, fc, fw, map_zero] at h2
  have h3 := congrArg (frob4 K) h2
  simp only [map_add, map_mul, map_pow, fa, fb, fc, fw, fk, map_zero] at h3
  have hk : (kA K ^ 4) ^ 2 + kA K ^ 4 + 1 = 0 := by linear_combination kA_4 (K := K)
  have wne := sm9w_ne hw
  generalize hz : kA K ^ 4 = ζ at *
  have hx : x = 0 := by
    have : 3 * x = 0 := by linear_combination h + h2 + h3 - (y * w + z * w ^ 2 * (ζ ^ 2 - ζ + 1)) * hk
    exact (mul_eq_zero.mp this).resolve_left sm9K_three
  subst hx
  have e1 : w * (y + z * w) = 0 := by linear_combination h
  have e1 := (mul_eq_zero.mp e1).resolve_left wne
  have e2 : w * (ζ * y + ζ ^ 2 * z * w) = 0 := by linear_combination h2
  have e2 := (mul_eq_zero.mp e2).resolve_left wne
  have hz0 : ζ * (ζ - 1) * (z * w) = 0 := by linear_combination e2 - ζ * e1
  have hζ0 : ζ ≠ 0 := by rintro rfl; simp at hk
  have hζ1 : ζ - 1 ≠ 0 := by
    intro e
    apply sm9K_three (K := K)
    linear_combination hk - (ζ + 2) * e
  have := (mul_eq_zero.mp hz0).resolve_left (mul_ne_zero hζ0 hζ1)
  have z0 := (mul_eq_zero.mp this).resolve_right wne
  subst z0
  refine ⟨rfl, ?_, rfl⟩
  linear_combination e1

/-! ## The tower over the library's prime field operations -/

omit [Algebra (ZMod sm9p) K] in
theorem w6_sq : (w ^ 6) ^ 2 = -2 := by rw [← pow_mul]; exact hw
omit [Algebra (ZMod sm9p) K] hw in
theorem w3_sq (w : K) : (w ^ 3) ^ 2 = w ^ 6 := by rw [← pow_mul]

theorem sm9fp2_wk : WkHom (fp2Ops Sm9.fp) (All2 (Reduced sm9p)) (All2 (AtMost sm9p)) (fp2Den w) :=
  fp2_wkHom sm9fp_wk (w6_sq hw) fun _ _ h => sm9_ind2' hw h

theorem sm9fp4_wk : WkHom (fp4Ops Sm9.fp) (All4 (Reduced sm9p)) (All4 (AtMost sm9p)) (fp4Den w) :=
  fp4_wkHom sm9fp_wk (w6_sq hw) (w3_sq w) (fun _ _ h => sm9_ind2' hw h) fun _ _ h => sm9_ind4 hw h

end

end Verif
