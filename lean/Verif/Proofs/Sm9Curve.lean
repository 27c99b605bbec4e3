import Verif.Spec.Sm9Curve
import Verif.Proofs.Ec0
import Verif.Proofs.Sm9Poly
/-! # The SM9 groups: base points, orders -/
set_option linter.constructorNameAsVariable false
namespace Verif
open Spec WeierstrassCurve.Affine

/-! ## G1 -/

theorem sm9_two_ne : (2 : ZMod sm9p) ≠ 0 := by
  intro h
  have : ((2 : Nat) : ZMod sm9p) = 0 := by exact_mod_cast h
  rw [ZMod.natCast_eq_zero_iff] at this
  have := Nat.le_of_dvd (by norm_num) this
  revert this; decide +kernel

theorem sm9_noRoot (r : ZMod sm9p) : r ^ 3 + 0 * r + 5 ≠ 0 := by
  have := noRoot_cert sm9p 0 5
    (0, 0, 0xb640000002a3a6f1c5d0781cc22e88f0b38c03256a82b3985fb4228441751dcf) (by decide +kernel) r
  simpa using this

theorem sm9_y_ne {x y : ZMod sm9p} (h : y ^ 2 = x ^ 3 + 5) : y ≠ 0 := by
  rintro rfl
  exact sm9_noRoot x (by rw [zero_mul, add_zero, ← h]; ring)

/-- Every solution of the curve equation is a point. -/
theorem sm9_nonsing {x y : ZMod sm9p} (h : y ^ 2 = x ^ 3 + 5) : sm9Curve.Nonsingular x y := by
  rw [nonsingular_iff']
  refine ⟨?_, Or.inr ?_⟩
  · rw [equation_iff]; simpa [sm9Curve, shortCurve] using h
  · simp only [sm9Curve, shortCurve, zero_mul, add_zero]
    exact mul_ne_zero sm9_two_ne (sm9_y_ne h)

theorem sm9_onCurve {x y : ZMod sm9p} (h : sm9Curve.Nonsingular x y) : y ^ 2 = x ^ 3 + 5 := by
  have : y ^ 2 = x ^ 3 + 0 * x + 5 := onCurve_of_nonsing h
  linear_combination this

theorem sm9_g_eq : ((sm9gy : Nat) : ZMod sm9p) ^ 2 = ((sm9gx : Nat) : ZMod sm9p) ^ 3 + 5 := by
  have : ((sm9gy ^ 2 : Nat) : ZMod sm9p) = ((sm9gx ^ 3 + 5 : Nat) : ZMod sm9p) := by
    rw [ZMod.natCast_eq_natCast_iff']
    decide +kernel
  push_cast at this
  exact this

/-- The base point `P1`. -/
def sm9G : Sm9Point := .some (sm9gx : ZMod sm9p) (sm9gy : ZMod sm9p) (sm9_nonsing sm9_g_eq)

theorem sm9G_ne : sm9G ≠ 0 := Point.some_ne_zero _

theorem sm9_ladder : ((ladder sm9p 0 sm9gx sm9gy (bitsBelow sm9n 255) ⟨sm9gx, sm9gy, 1⟩).map
    fun T => T.z % sm9p) = some 0 := by decide +kernel

theorem sm9_bits : bitsVal 1 (bitsBelow sm9n 255) = sm9n := by decide +kernel

theorem sm9_nG : sm9n • sm9G = 0 := by
  have key0 : ∀ (a' b' : ZMod sm9p) (ha : a' = 0) (hb : b' = 5), (shortCurve a' b').Nonsingular
      ((sm9gx : Nat) : ZMod sm9p) ((sm9gy : Nat) : ZMod sm9p) := by
    rintro a' b' rfl rfl; exact sm9_nonsing sm9_g_eq
  have hn := key0 ((0 : Nat) : ZMod sm9p) ((5 : Nat) : ZMod sm9p) Nat.cast_zero (by norm_num)
  obtain ⟨R, hR, hz⟩ := Option.map_eq_some_iff.mp sm9_ladder
  have h1 : IsJ (fun _ => True) (fun x : Nat => (x : ZMod sm9p)) ⟨sm9gx, sm9gy, 1⟩
      (⟨(sm9gx : ZMod sm9p), (sm9gy : ZMod sm9p), 1⟩ : EcJ (ZMod sm9p)) :=
    ⟨⟨trivial, rfl⟩, ⟨trivial, rfl⟩, ⟨trivial, Nat.cast_one⟩⟩
  obtain ⟨J', j1, j2⟩ := ladder_spec sm9p sm9_two_ne hn (bitsBelow sm9n 255) _ R _ 1 h1
    (by rw [one_nsmul]; exact rep_fromA hn) hR
  rw [sm9_bits] at j2
  have z0 : J'.z = 0 := by
    refine j1.2.2.2.symm.trans ?_
    rw [ZMod.natCast_eq_zero_iff]
    exact Nat.dvd_of_mod_eq_zero hz
  have key : ∀ (a' b' : ZMod sm9p) (ha : a' = 0) (hb : b' = 5) (hn : (shortCurve a' b').Nonsingular
      ((sm9gx : Nat) : ZMod sm9p) ((sm9gy : Nat) : ZMod sm9p)),
      sm9n • (Point.some _ _ hn) = 0 → sm9n • sm9G = 0 := by
    rintro a' b' rfl rfl hn h
    exact h
  apply key _ _ Nat.cast_zero (by norm_num) hn
  generalize sm9n • (Point.some _ _ hn) = Q at *
  cases Q with
  | zero => rfl
  | some x y h => exact absurd z0 j2.1

/-- The group of points has `sm9n` elements (cofactor one). -/
theorem sm9_card : Nat.card Sm9Point = sm9n :=
  card_eq sm9p (by decide +kernel) sm9n sm9n_prime (by decide +kernel) sm9_noRoot sm9G sm9G_ne sm9_nG

theorem sm9_finite : Finite Sm9Point := (card_le sm9p (by decide +kernel)).1

theorem sm9_nsmul (P : Sm9Point) : sm9n • P = 0 := by
  have := sm9_finite
  have := card_nsmul_eq_zero' (x := P)
  rwa [sm9_card] at this

theorem sm9_order {P : Sm9Point} (hP : P ≠ 0) : addOrderOf P = sm9n :=
  addOrderOf_eq_prime (sm9_nsmul P) hP

/-! ## G2 -/

theorem mod_eq_iff_sub {p : Nat} (hp : 0 < p) (x y : Nat) : x % p = y % p ↔ (x + (p - y % p)) % p % p = 0 := by
  have h1 := Nat.mod_lt x hp
  have h2 := Nat.mod_lt y hp
  rw [Nat.mod_mod, ← Nat.mod_add_mod]
  generalize x % p = s at *
  generalize y % p = t at *
  constructor
  · rintro rfl
    rw [show s + (p - s) = p by omega, Nat.mod_self]
  · intro h
    obtain ⟨k, hk⟩ := Nat.dvd_of_mod_eq_zero h
    have : k < 2 := by
      by_contra hc
      have : p * 2 ≤ p * k := Nat.mul_le_mul_left _ (by omega)
      omega
    have : k ≠ 0 := by rintro rfl; omega
    have : k = 1 := by omega
    subst this
    omega


/-- Arithmetic in `F_p[u]`, `u² = -2`, on pairs of natural numbers. -/
def nat2Ops (p : Nat) : FpOps (Nat × Nat) where
  add a b := ((a.1 + b.1) % p, (a.2 + b.2) % p)
  sub a b := ((a.1 + (p - b.1 % p)) % p, (a.2 + (p - b.2 % p)) % p)
  mul a b := ((a.1 * b.1 + (p - 2) * (a.2 * b.2)) % p, (a.1 * b.2 + a.2 * b.1) % p)
  sqr a := ((a.1 * a.1 + (p - 2) * (a.2 * a.2)) % p, (2 * (a.1 * a.2)) % p)
  dbl a := ((2 * a.1) % p, (2 * a.2) % p)
  tpl a := some ((3 * a.1) % p, (3 * a.2) % p)
  neg a := (p - a.1 % p, p - a.2 % p)
  inv _ := none
  eq a b := a.1 % p == b.1 % p && a.2 % p == b.2 % p
  isZero a := a.1 % p == 0 && a.2 % p == 0
  one := (1, 0)
  zero := (0, 0)

/-- `a + b u`. -/
def ev2 {K : Type} [Field K] (w : K) (a : Nat × Nat) : K := a.1 + a.2 * w ^ 6

section
variable {K : Type} [Field K] [Algebra (ZMod sm9p) K] {w : K} (hw : w ^ 12 = -2)

theorem natCast_sub_p (x : Nat) : ((sm9p - x % sm9p : Nat) : K) = -x := by
  have h : ((sm9p - x % sm9p + x % sm9p : Nat) : K) = 0 := by
    rw [Nat.sub_add_cancel (Nat.mod_lt _ (by decide +kernel)).le, ← map_natCast (algebraMap (ZMod sm9p) K)]; simp
  rw [Nat.cast_add, natCast_mod_p] at h
  exact eq_neg_of_add_eq_zero_left h

theorem natCast_p_sub2 : ((sm9p - 2 : Nat) : K) = -2 := by
  have := natCast_sub_p (K := K) 2
  rw [show 2 % sm9p = 2 by decide +kernel] at this
  rw [this]; norm_num

theorem sm9K_two_ne : (2 : K) ≠ 0 := by
  have : (algebraMap (ZMod sm9p) K) 2 ≠ 0 := by
    rw [Ne, map_eq_zero_iff (algebraMap (ZMod sm9p) K) (algebraMap (ZMod sm9p) K).injective]
    exact sm9_two_ne
  rw [map_ofNat] at this
  exact this

include hw

theorem ev2_zero_iff (a : Nat × Nat) : ev2 w a = 0 ↔ a.1 % sm9p = 0 ∧ a.2 % sm9p = 0 := by
  have key : ∀ x : Nat, (x : ZMod sm9p) = 0 ↔ x % sm9p = 0 := fun x => by
    rw [ZMod.natCast_eq_zero_iff]
    exact ⟨Nat.mod_eq_zero_of_dvd, Nat.dvd_of_mod_eq_zero⟩
  rw [← key, ← key]
  constructor
  · intro h
    have := sm9_ind_fp hw (a := (a.1 : ZMod sm9p)) (b := (a.2 : ZMod sm9p)) (c := 0) (d := 0) (by
      simp only [map_natCast, map_zero]
      unfold ev2 at h
      linear_combination h)
    exact ⟨this.1, this.2.1⟩
  · rintro ⟨h1, h2⟩
    unfold ev2
    rw [← map_natCast (algebraMap (ZMod sm9p) K), ← map_natCast (algebraMap (ZMod sm9p) K), h1, h2]
    simp

theorem nat2Ops_hom : FpHom (nat2Ops sm9p) (fun _ => True) (ev2 w) := by
  have hw' := w6_sq hw
  have sub : ∀ a b : Nat × Nat, ev2 w ((nat2Ops sm9p).sub a b) = ev2 w a - ev2 w b := by
    intro a b
    simp only [ev2, nat2Ops, natCast_mod_p, Nat.cast_add, natCast_sub_p]
    ring
  have z : ∀ a : Nat × Nat, (nat2Ops sm9p).isZero a = true ↔ ev2 w a = 0 := by
    intro a
    rw [ev2_zero_iff hw]
    simp [nat2Ops]
  constructor
  all_goals first | (intros; trivial) | skip
  · intro a b _ _; simp only [ev2, nat2Ops, natCast_mod_p, Nat.cast_add]; ring
  · intro a b _ _; exact sub a b
  · intro a b _ _
    simp only [ev2, nat2Ops, natCast_mod_p, Nat.cast_add, Nat.cast_mul, natCast_p_sub2]
    linear_combination (-(a.2 : K) * b.2) * hw'
  · intro a _
    simp only [ev2, nat2Ops, natCast_mod_p, Nat.cast_add, Nat.cast_mul, natCast_p_sub2, Nat.cast_ofNat]
    linear_combination (-(a.2 : K) * a.2) * hw'
  · intro a _; simp only [ev2, nat2Ops, natCast_mod_p, Nat.cast_mul, Nat.cast_ofNat]; ring
  · intro a _
    refine ⟨_, rfl, trivial, ?_⟩
    simp only [ev2, natCast_mod_p, Nat.cast_mul, Nat.cast_ofNat]; ring
  · intro a b _ _
    rw [← sub_eq_zero (a := ev2 w a), ← sub, ev2_zero_iff hw]
    simp only [nat2Ops, Bool.and_eq_true, beq_iff_eq]
    rw [mod_eq_iff_sub (by decide +kernel), mod_eq_iff_sub (by decide +kernel) a.2]
  · intro a _; exact z a
  · simp [ev2, nat2Ops]
  · simp [ev2, nat2Ops]

end

/-- `f T` with the six coefficients of `T` evaluated first. -/
def forceJ {β : Type} (T : EcJ (Nat × Nat)) (f : EcJ (Nat × Nat) → β) : β :=
  forceNat T.x.1 fun a => forceNat T.x.2 fun b => forceNat T.y.1 fun c => forceNat T.y.2 fun d =>
  forceNat T.z.1 fun e => forceNat T.z.2 fun g => f ⟨(a, b), (c, d), (e, g)⟩

theorem forceJ_eq {β : Type} (T : EcJ (Nat × Nat)) (f : EcJ (Nat × Nat) → β) : forceJ T f = f T := by
  simp only [forceJ, forceNat_eq]

/-- Checked left-to-right double-and-add over `F_p²`; `none` if an exceptional case would occur. -/
def ladder2 (p : Nat) (g : EcA (Nat × Nat)) : List Bool → EcJ (Nat × Nat) → Option (EcJ (Nat × Nat))
  | [], T => some T
  | bit :: bits, T =>
    forceJ (cDbl (nat2Ops p) (0, 0) T) fun T =>
    match bit with
    | true =>
      let h := (nat2Ops p).sub ((nat2Ops p).mul g.x ((nat2Ops p).sqr T.z)) T.x
      let s := (nat2Ops p).sub ((nat2Ops p).mul g.y ((nat2Ops p).mul T.z ((nat2Ops p).sqr T.z))) T.y
      match (nat2Ops p).isZero T.z || ((nat2Ops p).isZero h && (nat2Ops p).isZero s) with
      | true => none
      | false => forceJ (ecJAddA (nat2Ops p) T g) fun T => ladder2 p g bits T
    | false => ladder2 p g bits T

section
variable {K : Type} [Field K] [DecidableEq K] [Algebra (ZMod sm9p) K] {w : K} (hw : w ^ 12 = -2) {b : K}
include hw

theorem ladder2_spec {g : EcA (Nat × Nat)} (hG : (shortCurve 0 b).Nonsingular (ev2 w g.x) (ev2 w g.y)) :
    ∀ (bits : List Bool) (T R : EcJ (Nat × Nat)) (J : EcJ K) (k : Nat),
      IsJ (fun _ => True) (ev2 w) T J → IsJac J (k • (Point.some _ _ hG)) →
      ladder2 sm9p g bits T = some R →
      ∃ J', IsJ (fun _ => True) (ev2 w) R J' ∧ IsJac J' (bitsVal k bits • (Point.some _ _ hG))
  | [], T, R, J, k, hT, hJ, h => by
    simp only [ladder2, Option.some.injEq] at h
    subst h
    exact ⟨J, hT, hJ⟩
  | bit :: bits, T, R, J, k, hT, hJ, h => by
    have hom := nat2Ops_hom hw
    have d1 := hom_cDbl hom (a := (0 : K)) (a' := (0, 0)) ⟨trivial, by simp [ev2]⟩ hT
    have d2 := rep_cDbl hJ
    rw [← add_nsmul, ← two_mul] at d2
    unfold ladder2 at h
    rw [forceJ_eq] at h
    generalize cDbl (nat2Ops sm9p) (0, 0) T = T2 at *
    generalize cDbl (fieldOps K) (0 : K) J = J2 at *
    cases bit with
    | false => exact ladder2_spec hG bits T2 R J2 (2 * k) d1 d2 h
    | true =>
      dsimp only at h
      split at h
      · exact absurd h (by simp)
      · next hc =>
        rw [forceJ_eq] at h
        rw [Bool.or_eq_false_iff, Bool.and_eq_false_iff, Bool.eq_false_iff, Bool.eq_false_iff, Bool.eq_false_iff,
          Ne, Ne, Ne, hom.isZero trivial, hom.isZero trivial, hom.isZero trivial] at hc
        obtain ⟨hc1, hc2⟩ := hc
        have hz : J2.z ≠ 0 := by rw [← d1.2.2.2]; exact hc1
        have hA : IsA (fun _ => True) (ev2 w) g ⟨ev2 w g.x, ev2 w g.y⟩ := ⟨⟨trivial, rfl⟩, ⟨trivial, rfl⟩⟩
        refine ladder2_spec hG bits _ R _ (2 * k + 1) (hom_addA hom d1 hA) ?_ h
        rw [add_nsmul, one_nsmul]
        generalize (2 * k) • (Point.some _ _ hG) = Q at *
        apply rep_addA (sm9K_two_ne) d2 hG
        · rintro rfl; exact hz d2
        · rintro rfl
          obtain ⟨-, x2, y2⟩ := d2
          obtain ⟨e1, e2, e3⟩ := d1
          obtain ⟨q1, q2⟩ := hA
          have z1 : Is (fun _ => True) (ev2 w)
            ((nat2Ops sm9p).sub ((nat2Ops sm9p).mul g.x ((nat2Ops sm9p).sqr T2.z)) T2.x)
            (ev2 w g.x * J2.z ^ 2 - J2.x) := by is_tac hom
          have z2 : Is (fun _ => True) (ev2 w)
            ((nat2Ops sm9p).sub ((nat2Ops sm9p).mul g.y ((nat2Ops sm9p).mul T2.z ((nat2Ops sm9p).sqr T2.z))) T2.y)
            (ev2 w g.y * (J2.z * J2.z ^ 2) - J2.y) := by is_tac hom
          rcases hc2 with hc2 | hc2
          · apply hc2; refine z1.2.trans ?_; rw [x2]; ring
          · apply hc2; refine z2.2.trans ?_; rw [y2]; ring

end

/-- The published generator of `G2`. -/
def g2nat : EcA (Nat × Nat) := ⟨(sm9g2x0, sm9g2x1), (sm9g2y0, sm9g2y1)⟩

theorem sm9_ladder2 : ((ladder2 sm9p g2nat (bitsBelow sm9n 255) ⟨g2nat.x, g2nat.y, (1, 0)⟩).map
    fun T => (nat2Ops sm9p).isZero T.z) = some true := by decide +kernel

section
variable {K : Type} [Field K] [Algebra (ZMod sm9p) K] {w : K} (hw : w ^ 12 = -2)
include hw

omit hw in
theorem sm9K_nat_ne (n : Nat) (h : n % sm9p ≠ 0) : (n : K) ≠ 0 := by
  rw [← map_natCast (algebraMap (ZMod sm9p) K), Ne,
    map_eq_zero_iff (algebraMap (ZMod sm9p) K) (algebraMap (ZMod sm9p) K).injective, ZMod.natCast_eq_zero_iff]
  exact fun hd => h (Nat.mod_eq_zero_of_dvd hd)

/-- Every solution of the equation of the twist is a point. -/
theorem sm9_nonsing2 {x y : K} (h : y ^ 2 = x ^ 3 + 5 * w ^ 6) : (sm9Twist w).Nonsingular x y := by
  have h2 := sm9K_two_ne (K := K)
  have h3 : (3 : K) ≠ 0 := by exact_mod_cast sm9K_nat_ne (K := K) 3 (by decide +kernel)
  have h5 : (5 : K) ≠ 0 := by exact_mod_cast sm9K_nat_ne (K := K) 5 (by decide +kernel)
  rw [nonsingular_iff']
  refine ⟨?_, ?_⟩
  · rw [equation_iff]; simpa [sm9Twist, shortCurve] using h
  · simp only [sm9Twist, shortCurve, zero_mul, mul_zero, add_zero, zero_sub]
    by_cases y0 : y = 0
    · left
      rw [neg_ne_zero]
      refine mul_ne_zero h3 (pow_ne_zero _ ?_)
      rintro rfl
      rw [y0] at h
      apply mul_ne_zero h5 (pow_ne_zero 6 (sm9w_ne hw))
      linear_combination -h
    · right
      exact mul_ne_zero h2 y0

omit hw in
theorem sm9_onCurve2 {x y : K} (h : (sm9Twist w).Nonsingular x y) : y ^ 2 = x ^ 3 + 5 * w ^ 6 := by
  classical
  have : y ^ 2 = x ^ 3 + 0 * x + 5 * w ^ 6 := onCurve_of_nonsing h
  linear_combination this

theorem sm9_g2_eq : ev2 w g2nat.y ^ 2 = ev2 w g2nat.x ^ 3 + 5 * w ^ 6 := by
  classical
  have H := nat2Ops_hom hw
  have hx : Is (fun _ => True) (ev2 w) g2nat.x (ev2 w g2nat.x) := ⟨trivial, rfl⟩
  have hy : Is (fun _ => True) (ev2 w) g2nat.y (ev2 w g2nat.y) := ⟨trivial, rfl⟩
  have hb : Is (fun _ => True) (ev2 w) (0, 5) (5 * w ^ 6) := ⟨trivial, by simp [ev2]⟩
  have e1 : Is (fun _ => True) (ev2 w) ((nat2Ops sm9p).sqr g2nat.y) (ev2 w g2nat.y ^ 2) := by is_tac H
  have e2 : Is (fun _ => True) (ev2 w)
    ((nat2Ops sm9p).add ((nat2Ops sm9p).mul ((nat2Ops sm9p).sqr g2nat.x) g2nat.x) (0, 5))
      (ev2 w g2nat.x ^ 2 * ev2 w g2nat.x + 5 * w ^ 6) := by is_tac H
  have e : (nat2Ops sm9p).sqr g2nat.y =
      (nat2Ops sm9p).add ((nat2Ops sm9p).mul ((nat2Ops sm9p).sqr g2nat.x) g2nat.x) (0, 5) := by decide +kernel
  rw [e] at e1
  rw [← e1.2, e2.2]
  ring

/-- The generator of `G2`. -/
def sm9G2 : Sm9Point2 w :=
  .some (ev2 w g2nat.x) (ev2 w g2nat.y) (sm9_nonsing2 hw (sm9_g2_eq hw))

theorem sm9G2_ne : sm9G2 hw ≠ 0 := Point.some_ne_zero _

variable [DecidableEq K]

theorem sm9_nG2 : sm9n • sm9G2 hw = 0 := by
  have hn : (shortCurve 0 (5 * w ^ 6)).Nonsingular (ev2 w g2nat.x) (ev2 w g2nat.y) :=
    sm9_nonsing2 hw (sm9_g2_eq hw)
  obtain ⟨R, hR, hz⟩ := Option.map_eq_some_iff.mp sm9_ladder2
  have h1 : IsJ (fun _ => True) (ev2 w) ⟨g2nat.x, g2nat.y, (1, 0)⟩
      (⟨ev2 w g2nat.x, ev2 w g2nat.y, 1⟩ : EcJ K) :=
    ⟨⟨trivial, rfl⟩, ⟨trivial, rfl⟩, ⟨trivial, by simp [ev2]⟩⟩
  obtain ⟨J', j1, j2⟩ := ladder2_spec hw hn (bitsBelow sm9n 255) _ R _ 1 h1
    (by rw [one_nsmul]; exact rep_fromA hn) hR
  rw [sm9_bits] at j2
  have z0 : J'.z = 0 := j1.2.2.2.symm.trans (((nat2Ops_hom hw).isZero trivial).mp hz)
  change sm9n • (Point.some _ _ hn) = 0
  generalize sm9n • (Point.some _ _ hn) = Q at *
  cases Q with
  | zero => rfl
  | some x y h => exact absurd z0 j2.1

theorem sm9_order2 : addOrderOf (sm9G2 hw) = sm9n := addOrderOf_eq_prime (sm9_nG2 hw) (sm9G2_ne hw)

end

end Verif
