import Verif.Proofs.Sm9EvalGen
import Verif.Proofs.Sm9Miller
import Verif.Props.Sm9Field
import Verif.Props.Sm9Ec
/-! # The pairing of multiples of the generators -/
set_option linter.unusedSectionVars false
open WeierstrassCurve WeierstrassCurve.Affine
namespace Verif
open Spec

section
variable {K : Type} [Field K] [Algebra (ZMod sm9p) K] [DecidableEq K] {w : K} (hw : w ^ 12 = -2)
include hw

local notation "E₁" => (shortCurve (0 : ZMod sm9p) 5)
local notation "E₂" => (shortCurve (0 : K) (5 * w ^ 6))

/-- The generator of `G1`, as a point of the short curve. -/
def gen1 : (E₁).Point := sm9G

/-- The value of the pairing at the generators. -/
noncomputable def sm9g : K := ((Additive.toMul (ateV hw (gen2 hw) gen1) : Kˣ) : K)

theorem sm9g_ne0 : sm9g hw ≠ 0 := Units.ne_zero _

theorem toV_sm9g : toV (sm9g hw) = ateV hw (gen2 hw) gen1 := by
  unfold sm9g
  rw [toV_ne (Units.ne_zero _), Units.mk0_val]
  rfl

omit hw [DecidableEq K] [Algebra (ZMod sm9p) K] in
theorem gen1_nsmul (a : Nat) (h1 : 1 ≤ a) (h2 : a < sm9n) : a • gen1 ≠ 0 := fun h => by
  have h' : a • sm9G = 0 := h
  have := addOrderOf_dvd_of_nsmul_eq_zero h'
  rw [sm9_order sm9G_ne] at this
  exact absurd (Nat.le_of_dvd h1 this) (by omega)

omit hw [DecidableEq K] [Algebra (ZMod sm9p) K] in
theorem gen1_ne : gen1 ≠ 0 := sm9G_ne

theorem sm9g_N : sm9g hw ^ sm9n = 1 := by
  refine toV_inj (pow_ne_zero _ (sm9g_ne0 hw)) one_ne_zero ?_
  rw [toV_pow (sm9g_ne0 hw), toV_one, toV_sm9g, ← natCast_zsmul]
  exact ateV_N hw (gen2_in hw) sm9G_ne

/-- The Miller value. -/
theorem miller_gen {P : Sm9.A} {A : Sm9.A2} {a b : Nat} (a1 : 1 ≤ a) (a2 : a < sm9n)
    (hP : IsAffineOf (Reduced sm9p) (montVal sm9p) P (a • gen1))
    (hA : IsAffineOf (All2 (Reduced sm9p)) (fp2Den w) A (b • gen2 hw)) :
    ∃ f, Sm9.miller P A = some f ∧ All12 (Reduced sm9p) f ∧ fp12Den w f ^ sm9D = sm9g hw ^ (a * b) := by
  have hQ : InG hw ((b : ℤ) • gen2 hw) := (gen2_in hw).zsmul hw b
  rw [natCast_zsmul] at hQ
  have Q0 : b • gen2 hw ≠ 0 := by obtain ⟨-, -, hs, e⟩ := hA; rw [e]; exact Point.some_ne_zero _
  obtain ⟨f, f1, f2, f3, f4⟩ := miller_ok hw hQ Q0 hP hA
  refine ⟨f, f1, f2, toV_inj (pow_ne_zero _ f3) (pow_ne_zero _ (sm9g_ne0 hw)) ?_⟩
  rw [f4, toV_pow (sm9g_ne0 hw), toV_sm9g, ateV_nsmul hw hQ gen1_nsmul a a1 a2, ← natCast_zsmul (gen2 hw) b,
    ateV_smul hw (gen2_in hw) gen1_ne, natCast_zsmul, mul_nsmul']

/-- **The pairing.** -/
theorem pair_gen {P : Sm9.A} {A : Sm9.A2} {a b : Nat} (a1 : 1 ≤ a) (a2 : a < sm9n)
    (hP : Sm9IsAffine P (a • sm9G)) (hA : Sm9IsAffine2 w A (b • sm9G2 hw)) (hr : PairRight w P A) :
    PairsTo w P A (sm9g hw ^ (a * b)) := by
  have hP' : IsAffineOf (Reduced sm9p) (montVal sm9p) P (a • gen1) := hP
  have hA' : IsAffineOf (All2 (Reduced sm9p)) (fp2Den w) A (b • gen2 hw) := hA
  obtain ⟨f, f1, f2, f3⟩ := miller_gen hw (b := b) a1 a2 hP' hA'
  obtain ⟨i1, i2⟩ := hr f f1
  obtain ⟨r, r1, r2, r3, -⟩ := Props.C63_final_exp_partial hw f f2 i1 i2
  refine ⟨r, ?_, r2, by rw [r3]; exact f3⟩
  unfold Sm9.pairing
  rw [f1]
  dsimp only [Option.bind_eq_bind, Option.bind_some]
  exact r1

theorem gen_coords {P : Sm9.A} {A : Sm9.A2} (hP : Sm9IsAffine P sm9G) (hA : Sm9IsAffine2 w A (sm9G2 hw)) :
    Is (Reduced sm9p) (fpDen (K := K)) P.x (g1x : Nat) ∧ Is (Reduced sm9p) (fpDen (K := K)) P.y (g1y : Nat) ∧
    Is (All2 (Reduced sm9p)) (fp2Den w) A.x (ev2 w g2nat.x) ∧ Is (All2 (Reduced sm9p)) (fp2Den w) A.y (ev2 w g2nat.y) := by
  obtain ⟨p1, p2, ps, pe⟩ := hP
  obtain ⟨q1, q2, qs, qe⟩ := hA
  unfold sm9G at pe
  unfold sm9G2 at qe
  rw [Point.some.injEq] at pe qe
  have gx : g1x = sm9gx := by decide +kernel
  have gy : g1y = sm9gy := by decide +kernel
  refine ⟨⟨p1, ?_⟩, ⟨p2, ?_⟩, ⟨q1, qe.1.symm⟩, ⟨q2, qe.2.symm⟩⟩
  · unfold fpDen; rw [← pe.1, map_natCast, gx]
  · unfold fpDen; rw [← pe.2, map_natCast, gy]

/-- The inversions are right at the generators. -/
theorem genPts_right {P : Sm9.A} {A : Sm9.A2} (hP : Sm9IsAffine P sm9G) (hA : Sm9IsAffine2 w A (sm9G2 hw)) :
    PairRight w P A := by
  obtain ⟨x, y, a, b⟩ := gen_coords hw hP hA
  exact gen_right hw x y a b

/-- **Non-degeneracy.** -/
theorem sm9g_ne1 : sm9g hw ≠ 1 := by
  have h1 : IsAffineOf (Reduced sm9p) (montVal sm9p) Sm9.p1 (1 • gen1) := by rw [one_nsmul]; exact p1_ok
  have h2 : IsAffineOf (All2 (Reduced sm9p)) (fp2Den w) Sm9.p2 (1 • gen2 hw) := by rw [one_nsmul]; exact p2_ok hw
  obtain ⟨f, f1, -, f3⟩ := miller_gen hw (a := 1) (b := 1) le_rfl (by decide +kernel) h1 h2
  obtain ⟨x, y, a, b⟩ := gen_coords hw p1_ok (p2_ok hw)
  have := gen_nondeg hw x y a b f1
  intro h
  rw [h, one_pow] at f3
  exact this f3

end
end Verif
