import Verif.Spec.Sm2Curve
import Verif.Proofs.EcOrder
/-! # The SM2 curve: base point, order, no point of order two -/
set_option linter.constructorNameAsVariable false
namespace Verif
open Spec WeierstrassCurve.Affine

theorem sm2_two_ne : (2 : ZMod sm2p) ≠ 0 := by
  intro h
  have : ((2 : Nat) : ZMod sm2p) = 0 := by exact_mod_cast h
  rw [ZMod.natCast_eq_zero_iff] at this
  have := Nat.le_of_dvd (by norm_num) this
  revert this; decide +kernel

theorem sm2a_eq : ((sm2a : Nat) : ZMod sm2p) = -3 := by
  have : ((sm2a + 3 : Nat) : ZMod sm2p) = 0 := by
    rw [show sm2a + 3 = sm2p by decide +kernel]; exact ZMod.natCast_self _
  push_cast at this
  linear_combination this

theorem sm2_noRoot (r : ZMod sm2p) : r ^ 3 + (-3) * r + (sm2b : ZMod sm2p) ≠ 0 := by
  rw [← sm2a_eq]
  exact noRoot_cert sm2p sm2a sm2b
    (0xeb9539fb12a69fa8a00429afc717f1319f0c8d5b6b742939772c4ea8ae886749,
     0xbbea3c6e4f9890bc31aef1ce9abbeaf4847d5c84bfa4437849cb29256264e8b1,
     0x4eacc0d01f9e2a10d4f0056c0628ef26e06a3759ce9c5557561509c6fc21376f) (by decide +kernel) r

theorem sm2_y_ne {x y : ZMod sm2p} (h : y ^ 2 = x ^ 3 + (-3) * x + (sm2b : ZMod sm2p)) : y ≠ 0 := by
  rintro rfl
  exact sm2_noRoot x (by rw [← h]; ring)

/-- Every solution of the curve equation is a point. -/
theorem sm2_nonsing {x y : ZMod sm2p} (h : y ^ 2 = x ^ 3 + (-3) * x + (sm2b : ZMod sm2p)) :
    sm2Curve.Nonsingular x y := by
  rw [nonsingular_iff']
  refine ⟨?_, Or.inr ?_⟩
  · rw [equation_iff]; simpa [sm2Curve, shortCurve] using h
  · simp only [sm2Curve, shortCurve, zero_mul, add_zero]
    exact mul_ne_zero sm2_two_ne (sm2_y_ne h)

theorem sm2_onCurve {x y : ZMod sm2p} (h : sm2Curve.Nonsingular x y) :
    y ^ 2 = x ^ 3 + (-3) * x + (sm2b : ZMod sm2p) := onCurve_of_nonsing h

theorem sm2_g_eq : ((sm2gy : Nat) : ZMod sm2p) ^ 2 =
    ((sm2gx : Nat) : ZMod sm2p) ^ 3 + (-3) * ((sm2gx : Nat) : ZMod sm2p) + (sm2b : ZMod sm2p) := by
  rw [← sm2a_eq]
  have : ((sm2gy ^ 2 : Nat) : ZMod sm2p) = ((sm2gx ^ 3 + sm2a * sm2gx + sm2b : Nat) : ZMod sm2p) := by
    rw [ZMod.natCast_eq_natCast_iff']
    decide +kernel
  push_cast at this
  exact this

/-- The base point of SM2. -/
def sm2G : Sm2Point := .some (sm2gx : ZMod sm2p) (sm2gy : ZMod sm2p) (sm2_nonsing sm2_g_eq)

/-- Binary digits of `n`, most significant first, without the leading one. -/
def bitsBelow (n : Nat) : Nat → List Bool
  | 0 => []
  | k + 1 => n.testBit k :: bitsBelow n k

theorem sm2_ladder : ((ladder sm2p sm2a sm2gx sm2gy (bitsBelow sm2n 255) ⟨sm2gx, sm2gy, 1⟩).map
    fun T => T.z % sm2p) = some 0 := by decide +kernel

theorem sm2_bits : bitsVal 1 (bitsBelow sm2n 255) = sm2n := by decide +kernel

theorem sm2_nG : sm2n • sm2G = 0 := by
  have hn : (shortCurve ((sm2a : Nat) : ZMod sm2p) ((sm2b : Nat) : ZMod sm2p)).Nonsingular
      ((sm2gx : Nat) : ZMod sm2p) ((sm2gy : Nat) : ZMod sm2p) := by
    rw [sm2a_eq]; exact sm2_nonsing sm2_g_eq
  obtain ⟨R, hR, hz⟩ := Option.map_eq_some_iff.mp sm2_ladder
  have h1 : IsJ (fun _ => True) (fun x : Nat => (x : ZMod sm2p)) ⟨sm2gx, sm2gy, 1⟩
      (⟨(sm2gx : ZMod sm2p), (sm2gy : ZMod sm2p), 1⟩ : EcJ (ZMod sm2p)) :=
    ⟨⟨trivial, rfl⟩, ⟨trivial, rfl⟩, ⟨trivial, Nat.cast_one⟩⟩
  obtain ⟨J', j1, j2⟩ := ladder_spec sm2p sm2_two_ne hn (bitsBelow sm2n 255) _ R _ 1 h1
    (by rw [one_nsmul]; exact rep_fromA hn) hR
  rw [sm2_bits] at j2
  have z0 : J'.z = 0 := by
    refine j1.2.2.2.symm.trans ?_
    rw [ZMod.natCast_eq_zero_iff]
    exact Nat.dvd_of_mod_eq_zero hz
  have key : ∀ (a' : ZMod sm2p) (ha : a' = -3) (hn : (shortCurve a' ((sm2b : Nat) : ZMod sm2p)).Nonsingular
      ((sm2gx : Nat) : ZMod sm2p) ((sm2gy : Nat) : ZMod sm2p)),
      sm2n • (Point.some _ _ hn) = 0 → sm2n • sm2G = 0 := by
    rintro a' rfl hn h
    exact h
  apply key _ sm2a_eq hn
  generalize sm2n • (Point.some _ _ hn) = Q at *
  cases Q with
  | zero => rfl
  | some x y h => exact absurd z0 j2.1

theorem sm2G_ne : sm2G ≠ 0 := Point.some_ne_zero _

/-- The group of points has `sm2n` elements (cofactor one). -/
theorem sm2_card : Nat.card Sm2Point = sm2n :=
  card_eq sm2p (by decide +kernel) sm2n sm2n_prime (by decide +kernel) sm2_noRoot sm2G sm2G_ne sm2_nG

theorem sm2_finite : Finite Sm2Point := (card_le sm2p (by decide +kernel)).1

theorem sm2_nsmul (P : Sm2Point) : sm2n • P = 0 := by
  have := sm2_finite
  have := card_nsmul_eq_zero' (x := P)
  rwa [sm2_card] at this

theorem sm2_order {P : Sm2Point} (hP : P ≠ 0) : addOrderOf P = sm2n :=
  addOrderOf_eq_prime (sm2_nsmul P) hP

end Verif
