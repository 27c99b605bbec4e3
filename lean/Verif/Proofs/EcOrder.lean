import Verif.Proofs.EcField
import Verif.Proofs.PrimeCert
import Mathlib.GroupTheory.Perm.Cycle.Type
import Mathlib.GroupTheory.OrderOfElement
import Mathlib.Algebra.Field.ZMod
import Mathlib.Data.ZMod.Basic
/-! # Group order of a curve over a prime field, certified by kernel arithmetic -/
set_option linter.unusedSectionVars false
namespace Verif
open Spec WeierstrassCurve.Affine

/-- Arithmetic modulo `p` on natural numbers. -/
def natOps (p : Nat) : FpOps Nat where
  add a b := (a + b) % p
  sub a b := (a + (p - b % p)) % p
  mul a b := (a * b) % p
  sqr a := (a * a) % p
  dbl a := (a + a) % p
  tpl a := some ((3 * a) % p)
  neg a := p - a % p
  inv _ := none
  eq a b := a % p == b % p
  isZero a := a % p == 0
  one := 1
  zero := 0

theorem natOps_hom (p : Nat) [Fact p.Prime] : FpHom (natOps p) (fun _ => True) (fun a : Nat => (a : ZMod p)) := by
  have hp : 0 < p := (Fact.out : p.Prime).pos
  constructor
  all_goals first | (intros; trivial) | skip
  · intro a b _ _; simp [natOps]
  · intro a b _ _
    have : (b % p : Nat) ≤ p := (Nat.mod_lt _ hp).le
    simp [natOps, Nat.cast_sub this, sub_eq_add_neg]
  · intro a b _ _; simp [natOps]
  · intro a _; simp [natOps, pow_two]
  · intro a _; simp [natOps, two_mul]
  · intro a _; exact ⟨_, rfl, trivial, by simp⟩
  · intro a b _ _
    simp only [natOps, beq_iff_eq]
    exact (ZMod.natCast_eq_natCast_iff' a b p).symm
  · intro a _
    simp only [natOps, beq_iff_eq]
    rw [ZMod.natCast_eq_zero_iff]
    exact ⟨Nat.dvd_of_mod_eq_zero, Nat.mod_eq_zero_of_dvd⟩
  · simp [natOps]
  · simp [natOps]

/-- Doubling for any `a` (textbook formula), used only in the certificate check. -/
def cDbl {α : Type} (F : FpOps α) (a : α) (P : EcJ α) : EcJ α :=
  let yy := F.sqr P.y
  let s := F.dbl (F.dbl (F.mul P.x yy))
  let xx := F.sqr P.x
  let m := F.add (F.add (F.dbl xx) xx) (F.mul a (F.sqr (F.sqr P.z)))
  let x' := F.sub (F.sqr m) (F.dbl s)
  ⟨x', F.sub (F.mul m (F.sub s x')) (F.dbl (F.dbl (F.dbl (F.sqr yy)))), F.dbl (F.mul P.y P.z)⟩

section
variable {K : Type} [Field K] [DecidableEq K] {a b : K}

theorem rep_cDbl {J : EcJ K} {P : (shortCurve a b).Point} (hJ : IsJac J P) :
    IsJac (cDbl (fieldOps K) a J) (P + P) := by
  cases P with
  | zero =>
    have hz : J.z = 0 := hJ
    show 2 * (J.y * J.z) = 0
    rw [hz]; ring
  | some x y h =>
    obtain ⟨hz, hx, hy⟩ := hJ
    by_cases y0 : 2 * y = 0
    · rw [some_add_opp rfl (show y = -y by linear_combination y0)]
      show 2 * (J.y * J.z) = 0
      rw [hy]; linear_combination J.z ^ 4 * y0
    · obtain ⟨h', e⟩ := some_add_self (h₁ := h) y0
      rw [e]
      have h2 : (2 : K) ≠ 0 := fun hh => y0 (by rw [hh]; ring)
      have yne : y ≠ 0 := fun hh => y0 (by rw [hh]; ring)
      refine ⟨?_, ?_, ?_⟩
      · show 2 * (J.y * J.z) ≠ 0
        rw [hy, show 2 * (y * J.z ^ 3 * J.z) = (2 * y) * J.z ^ 4 by ring]
        exact mul_ne_zero y0 (pow_ne_zero _ hz)
      · simp only [fieldOps, cDbl]
        rw [hx, hy]
        field_simp
        ring
      · simp only [fieldOps, cDbl]
        rw [hx, hy]
        field_simp
        ring

variable {α : Type} {F : FpOps α} {ok : α → Prop} {φ : α → K}

theorem hom_cDbl (h : FpHom F ok φ) {a' : α} (ha : Is ok φ a' a) {P : EcJ α} {J : EcJ K} (hP : IsJ ok φ P J) :
    IsJ ok φ (cDbl F a' P) (cDbl (fieldOps K) a J) := by
  obtain ⟨hx, hy, hz⟩ := hP
  refine ⟨?_, ?_, ?_⟩
  all_goals simp only [cDbl, fieldOps]; is_tac h

end

/-- Checked left-to-right double-and-add; `none` if an exceptional case would occur. -/
def ladder (p a gx gy : Nat) : List Bool → EcJ Nat → Option (EcJ Nat)
  | [], T => some T
  | bit :: bits, T =>
    let T := cDbl (natOps p) a T
    if bit then
      let h := (natOps p).sub ((natOps p).mul gx ((natOps p).sqr T.z)) T.x
      let s := (natOps p).sub ((natOps p).mul gy ((natOps p).mul T.z ((natOps p).sqr T.z))) T.y
      if T.z % p = 0 ∨ (h % p = 0 ∧ s % p = 0) then none
      else ladder p a gx gy bits (ecJAddA (natOps p) T ⟨gx, gy⟩)
    else ladder p a gx gy bits T

/-- Big-endian value of a bit string appended to `w`. -/
def bitsVal (w : Nat) (bits : List Bool) : Nat := bits.foldl (fun w b => 2 * w + b.toNat) w

theorem ladder_spec (p : Nat) [Fact p.Prime] (h2 : (2 : ZMod p) ≠ 0) {a b gx gy : Nat}
    (hG : (shortCurve (a : ZMod p) (b : ZMod p)).Nonsingular (gx : ZMod p) (gy : ZMod p)) :
    ∀ (bits : List Bool) (T R : EcJ Nat) (J : EcJ (ZMod p)) (w : Nat),
      IsJ (fun _ => True) (fun x : Nat => (x : ZMod p)) T J → IsJac J (w • (Point.some _ _ hG)) →
      ladder p a gx gy bits T = some R →
      ∃ J', IsJ (fun _ => True) (fun x : Nat => (x : ZMod p)) R J' ∧
        IsJac J' (bitsVal w bits • (Point.some _ _ hG))
  | [], T, R, J, w, hT, hJ, h => by
    simp only [ladder, Option.some.injEq] at h
    subst h
    exact ⟨J, hT, hJ⟩
  | bit :: bits, T, R, J, w, hT, hJ, h => by
    have hom := natOps_hom p
    have d1 := hom_cDbl hom (a := (a : ZMod p)) (a' := a) ⟨trivial, rfl⟩ hT
    have d2 := rep_cDbl hJ
    rw [← add_nsmul, ← two_mul] at d2
    unfold ladder at h
    generalize cDbl (natOps p) a T = T2 at *
    generalize cDbl (fieldOps (ZMod p)) (a : ZMod p) J = J2 at *
    cases bit with
    | false =>
      simp only [Bool.false_eq_true, if_false] at h
      exact ladder_spec p h2 hG bits T2 R J2 (2 * w) d1 d2 h
    | true =>
      simp only [if_true] at h
      split at h
      · exact absurd h (by simp)
      · next hc =>
        push Not at hc
        obtain ⟨hc1, hc2⟩ := hc
        have key : ∀ x : Nat, (x : ZMod p) = 0 ↔ x % p = 0 := fun x => by
          rw [ZMod.natCast_eq_zero_iff]
          exact ⟨Nat.mod_eq_zero_of_dvd, Nat.dvd_of_mod_eq_zero⟩
        have hz : J2.z ≠ 0 := by
          rw [← d1.2.2.2]; simpa [key] using hc1
        have hA : IsA (fun _ => True) (fun x : Nat => (x : ZMod p)) ⟨gx, gy⟩
          ⟨(gx : ZMod p), (gy : ZMod p)⟩ := ⟨⟨trivial, rfl⟩, ⟨trivial, rfl⟩⟩
        refine ladder_spec p h2 hG bits _ R _ (2 * w + 1) (hom_addA hom d1 hA) ?_ h
        rw [add_nsmul, one_nsmul]
        generalize (2 * w) • (Point.some _ _ hG) = Q at *
        apply rep_addA h2 d2 hG
        · rintro rfl; exact hz d2
        · rintro rfl
          obtain ⟨-, x2, y2⟩ := d2
          obtain ⟨e1, e2, e3⟩ := d1
          have q1 : Is (fun _ => True) (fun x : Nat => (x : ZMod p)) gx (gx : ZMod p) := ⟨trivial, rfl⟩
          have q2 : Is (fun _ => True) (fun x : Nat => (x : ZMod p)) gy (gy : ZMod p) := ⟨trivial, rfl⟩
          have z1 : Is (fun _ => True) (fun x : Nat => (x : ZMod p))
            ((natOps p).sub ((natOps p).mul gx ((natOps p).sqr T2.z)) T2.x) ((gx : ZMod p) * J2.z ^ 2 - J2.x) := by
              is_tac hom
          have z2 : Is (fun _ => True) (fun x : Nat => (x : ZMod p))
            ((natOps p).sub ((natOps p).mul gy ((natOps p).mul T2.z ((natOps p).sqr T2.z))) T2.y)
            ((gy : ZMod p) * (J2.z * J2.z ^ 2) - J2.y) := by is_tac hom
          apply hc2
          · rw [← key]; refine z1.2.trans ?_; rw [x2]; ring
          · rw [← key]; refine z2.2.trans ?_; rw [y2]; ring

/-! ## No point of order two -/

/-- Product of two quadratic polynomials modulo `x³ + a x + b`. -/
def polyMul (p a b : Nat) (u v : Nat × Nat × Nat) : Nat × Nat × Nat :=
  let c0 := u.1 * v.1
  let c1 := u.1 * v.2.1 + u.2.1 * v.1
  let c2 := u.1 * v.2.2 + u.2.1 * v.2.1 + u.2.2 * v.1
  let c3 := (u.2.1 * v.2.2 + u.2.2 * v.2.1) % p
  let c4 := (u.2.2 * v.2.2) % p
  ((c0 + (p - b % p) * c3) % p, (c1 + (p - a % p) * c3 + (p - b % p) * c4) % p, (c2 + (p - a % p) * c4) % p)

/-- Evaluation at `r`. -/
def polyEval (p : Nat) (r : ZMod p) (u : Nat × Nat × Nat) : ZMod p := u.1 + u.2.1 * r + u.2.2 * r ^ 2

theorem polyMul_eval (p : Nat) [Fact p.Prime] (a b : Nat) (r : ZMod p) (hr : r ^ 3 + a * r + b = 0)
    (u v : Nat × Nat × Nat) : polyEval p r (polyMul p a b u v) = polyEval p r u * polyEval p r v := by
  have hp : 0 < p := (Fact.out : p.Prime).pos
  have ha : (a % p : Nat) ≤ p := (Nat.mod_lt _ hp).le
  have hb : (b % p : Nat) ≤ p := (Nat.mod_lt _ hp).le
  simp only [polyEval, polyMul, ZMod.natCast_mod, Nat.cast_add, Nat.cast_mul, Nat.cast_sub ha, Nat.cast_sub hb,
    ZMod.natCast_self, zero_sub]
  linear_combination (-((u.2.1 : ZMod p) * v.2.2 + u.2.2 * v.2.1) - (u.2.2 : ZMod p) * v.2.2 * r) * hr

/-- Power modulo the cubic. -/
def polyPow (p a b : Nat) : Nat → Nat × Nat × Nat → Nat → Nat × Nat × Nat → Nat × Nat × Nat
  | 0, _, _, acc => acc
  | f + 1, u, e, acc =>
    match e with
    | 0 => acc
    | e' + 1 => polyPow p a b f (polyMul p a b u u) ((e' + 1) / 2)
        (if (e' + 1) % 2 = 1 then polyMul p a b acc u else acc)

theorem polyPow_eval (p : Nat) [Fact p.Prime] (a b : Nat) (r : ZMod p) (hr : r ^ 3 + a * r + b = 0) :
    ∀ (f : Nat) (u : Nat × Nat × Nat) (e : Nat) (acc : Nat × Nat × Nat), e < 2 ^ f →
      polyEval p r (polyPow p a b f u e acc) = polyEval p r acc * polyEval p r u ^ e
  | 0, u, e, acc, h => by
    have : e = 0 := by simpa using h
    subst this; simp [polyPow]
  | f + 1, u, 0, acc, _ => by simp [polyPow]
  | f + 1, u, e + 1, acc, h => by
    unfold polyPow
    dsimp only
    rw [polyPow_eval p a b r hr f _ _ _ (by rw [pow_succ] at h; omega), polyMul_eval p a b r hr]
    have key : polyEval p r u ^ (e + 1) =
        (polyEval p r u * polyEval p r u) ^ ((e + 1) / 2) * polyEval p r u ^ ((e + 1) % 2) := by
      rw [← pow_two, ← pow_mul, ← pow_add, Nat.div_add_mod]
    rw [key]
    rcases Nat.mod_two_eq_zero_or_one (e + 1) with c | c
    · rw [if_neg (by omega), c]; simp
    · rw [if_pos c, c, polyMul_eval p a b r hr]; simp; ring

/-- Certificate that `x³ + a x + b` has no root: `v` is the inverse of `x^p - x` modulo the cubic. -/
def noRootCheck (p a b : Nat) (v : Nat × Nat × Nat) : Bool :=
  let h := polyPow p a b 256 (0, 1, 0) p (1, 0, 0)
  decide (p < 2 ^ 256) && polyMul p a b v (h.1, (h.2.1 + (p - 1)) % p, h.2.2) == (1, 0, 0)

theorem noRoot_cert (p : Nat) [Fact p.Prime] (a b : Nat) (v : Nat × Nat × Nat) (h : noRootCheck p a b v = true)
    (r : ZMod p) : r ^ 3 + a * r + b ≠ 0 := by
  intro hr
  have hp : 0 < p := (Fact.out : p.Prime).pos
  simp only [noRootCheck, Bool.and_eq_true, decide_eq_true_eq, beq_iff_eq] at h
  obtain ⟨h1, h2⟩ := h
  have e1 := polyPow_eval p a b r hr 256 (0, 1, 0) p (1, 0, 0) h1
  have e2 : polyEval p r (0, 1, 0) = r := by simp [polyEval]
  have e3 : polyEval p r (1, 0, 0) = 1 := by simp [polyEval]
  rw [e2, e3, one_mul, ZMod.pow_card] at e1
  have e4 := congrArg (polyEval p r) h2
  rw [polyMul_eval p a b r hr, e3] at e4
  generalize polyPow p a b 256 (0, 1, 0) p (1, 0, 0) = t at *
  have : polyEval p r (t.1, (t.2.1 + (p - 1)) % p, t.2.2) = 0 := by
    simp only [polyEval] at e1 ⊢
    rw [ZMod.natCast_mod, Nat.cast_add, Nat.cast_sub hp, ZMod.natCast_self]
    push_cast
    linear_combination e1
  rw [this, mul_zero] at e4
  exact zero_ne_one e4

/-! ## The order -/

section order
variable (p : Nat) [Fact p.Prime]

/-- Points are determined by `x` and the parity of `y`. -/
def pointCode {a b : ZMod p} : (shortCurve a b).Point → Option (ZMod p × Bool)
  | .zero => none
  | .some x y _ => some (x, y.val % 2 == 1)

theorem neg_parity (hp2 : p ≠ 2) {y : ZMod p} (hy : y ≠ 0) : (-y).val % 2 ≠ y.val % 2 := by
  have hp := (Fact.out : p.Prime)
  have hodd : p % 2 = 1 := hp.eq_two_or_odd.resolve_left hp2
  have hlt := ZMod.val_lt y
  have : NeZero y := ⟨hy⟩
  rw [ZMod.val_neg_of_ne_zero]
  omega

theorem pointCode_inj (hp2 : p ≠ 2) {a b : ZMod p} : Function.Injective (pointCode p (a := a) (b := b)) := by
  rintro (_ | ⟨x₁, y₁, h₁⟩) (_ | ⟨x₂, y₂, h₂⟩) h
  · rfl
  · simp [pointCode] at h
  · simp [pointCode] at h
  · simp only [pointCode, Option.some.injEq, Prod.mk.injEq] at h
    obtain ⟨rfl, h⟩ := h
    have : y₁ = y₂ := by
      rcases y_eq_or h₁ h₂ with e | e
      · exact e
      · by_cases y0 : y₂ = 0
        · rw [e, y0, neg_zero]
        · exfalso
          apply neg_parity p hp2 y0
          rw [← e]
          have := Bool.eq_iff_iff.mp h
          simp only [beq_iff_eq] at this
          omega
    subst this
    rfl

theorem card_le (hp2 : p ≠ 2) {a b : ZMod p} :
    Finite (shortCurve a b).Point ∧ Nat.card (shortCurve a b).Point ≤ 2 * p + 1 := by
  have hf : Finite (shortCurve a b).Point := Finite.of_injective _ (pointCode_inj p hp2 (a := a) (b := b))
  refine ⟨hf, ?_⟩
  refine (Nat.card_le_card_of_injective _ (pointCode_inj p hp2 (a := a) (b := b))).trans ?_
  rw [Nat.card_eq_fintype_card, Fintype.card_option, Fintype.card_prod, ZMod.card, Fintype.card_bool]
  omega

/-- If a point of prime order `n > (2p+1)/3` exists and `x³+ax+b` has no root, the group has order `n`. -/
theorem card_eq (hp2 : p ≠ 2) {a b : ZMod p} (n : Nat) (hn : n.Prime) (hbig : 2 * p + 1 < 3 * n)
    (hroot : ∀ r : ZMod p, r ^ 3 + a * r + b ≠ 0) (G : (shortCurve a b).Point) (hG : G ≠ 0) (hnG : n • G = 0) :
    Nat.card (shortCurve a b).Point = n := by
  obtain ⟨hf, hle⟩ := card_le p hp2 (a := a) (b := b)
  have : Fact n.Prime := ⟨hn⟩
  have ho : addOrderOf G = n := addOrderOf_eq_prime hnG hG
  have hd : n ∣ Nat.card (shortCurve a b).Point := ho ▸ addOrderOf_dvd_natCard G
  obtain ⟨k, hk⟩ := hd
  have hpos : 0 < Nat.card (shortCurve a b).Point := Nat.card_pos
  have hk3 : k < 3 := by
    by_contra hc
    have : n * 3 ≤ n * k := Nat.mul_le_mul_left n (by omega)
    omega
  have hk0 : k ≠ 0 := by rintro rfl; omega
  have hk2 : k ≠ 2 := by
    rintro rfl
    have : Fact (Nat.Prime 2) := ⟨Nat.prime_two⟩
    have hd2 : 2 ∣ Nat.card (shortCurve a b).Point := hk ▸ Nat.dvd_mul_left 2 n
    obtain ⟨Q, hQ⟩ := exists_prime_addOrderOf_dvd_card' 2 hd2
    have hQ2 : Q + Q = 0 := by
      have := addOrderOf_nsmul_eq_zero Q
      rw [hQ, two_nsmul] at this
      exact this
    have hQ0 : Q ≠ 0 := by
      rintro rfl
      rw [addOrderOf_zero] at hQ
      omega
    cases Q with
    | zero => exact hQ0 rfl
    | some x y h =>
      have h2 : (2 : ZMod p) ≠ 0 := by
        have hp := (Fact.out : p.Prime)
        intro hc
        have : ((2 : Nat) : ZMod p) = 0 := by exact_mod_cast hc
        rw [ZMod.natCast_eq_zero_iff] at this
        exact hp2 ((Nat.prime_dvd_prime_iff_eq hp Nat.prime_two).mp this)
      by_cases y0 : 2 * y = 0
      · have y00 : y = 0 := (mul_eq_zero.mp y0).resolve_left h2
        have := onCurve_of_nonsing h
        rw [y00] at this
        exact hroot x (by rw [← this]; ring)
      · obtain ⟨h', e⟩ := some_add_self (h₁ := h) y0
        rw [e] at hQ2
        exact Point.some_ne_zero h' hQ2
  have : k = 1 := by omega
  rw [hk, this, mul_one]

end order

end Verif
