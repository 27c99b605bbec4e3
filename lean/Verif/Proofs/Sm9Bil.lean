import Verif.Proofs.TwMap
import Verif.Proofs.MillerAbs
import Verif.Proofs.Sm9Curve
import Verif.Proofs.Sm9Final
/-!
# Line values on the twist after the final exponentiation

`emb` carries a point of `y² = x³ + 5` over `F_p` to the twist over `K`; `frb` is the Frobenius map of the twist.
-/
set_option linter.unusedSectionVars false
open WeierstrassCurve WeierstrassCurve.Affine
namespace Verif
open Spec

/-- The exponent of the final exponentiation. -/
def sm9D : Nat := (sm9p ^ 12 - 1) / sm9n

theorem sm9D_eq : sm9D = (sm9p ^ 6 - 1) * ((sm9p ^ 2 + 1) * ((sm9p ^ 4 - sm9p ^ 2 + 1) / sm9n)) := by decide +kernel
theorem sm9D_four : sm9D = 4 * (sm9D / 4) := by decide +kernel
theorem sm9D_mul : sm9D * sm9n = sm9p ^ 12 - 1 := by decide +kernel
theorem sm9p12_pos : sm9p ^ 12 - 1 + 1 = sm9p ^ 12 := by decide +kernel
theorem sm9p6_pos : sm9p ^ 6 - 1 + 1 = sm9p ^ 6 := by decide +kernel

set_option exponentiation.threshold 300 in
/-- `5` is not a square. -/
theorem sm9_five (y : ZMod sm9p) : y ^ 2 ≠ 5 := by
  intro h
  have y0 : y ≠ 0 := by
    rintro rfl
    have : ((5 : Nat) : ZMod sm9p) ≠ 0 := sm9_small (by omega) (by omega)
    apply this
    rw [Nat.cast_ofNat, ← h]; ring
  have h1 : y ^ (sm9p - 1) = 1 := ZMod.pow_card_sub_one_eq_one y0
  have hp : sm9p - 1 = 2 * ((sm9p - 1) / 2) := by decide +kernel
  rw [hp, pow_mul, h] at h1
  have hs := powMod_spec sm9p 256 5 ((sm9p - 1) / 2) 1 (by decide +kernel)
  have e5 : ((5 : Nat) : ZMod sm9p) = 5 := Nat.cast_ofNat
  have hs' : ((powMod sm9p 256 5 ((sm9p - 1) / 2) 1 : Nat) : ZMod sm9p) = ((1 : Nat) : ZMod sm9p) := by
    rw [hs, e5, h1, mul_one]
  clear hs
  rw [ZMod.natCast_eq_natCast_iff'] at hs'
  revert hs'
  decide +kernel

section
variable {K : Type} [Field K] [Algebra (ZMod sm9p) K]

theorem kA_ne : kA K ≠ 0 := by
  intro h
  have := kA_6 (K := K)
  rw [h] at this
  rw [zero_pow (by norm_num)] at this
  exact one_ne_zero (by linear_combination this : (1 : K) = 0)

/-- `x ↦ x ^ (p ^ k)`. -/
noncomputable def fK (K : Type) [Field K] [Algebra (ZMod sm9p) K] (k : Nat) : K →+* K := (sm9Frob K) ^ k

theorem fK_apply (k : Nat) (x : K) : fK K k x = x ^ (sm9p ^ k) := by
  induction k generalizing x with
  | zero => simp [fK]
  | succ k ih =>
    have : fK K (k + 1) x = fK K k (sm9Frob K x) := by rw [fK, pow_succ]; rfl
    rw [this, ih, sm9Frob_apply, ← pow_mul, pow_succ']

theorem fK_add (i j : Nat) (x : K) : fK K (i + j) x = fK K i (fK K j x) := by
  rw [fK, pow_add]; rfl

theorem fK_one (x : K) : fK K 1 x = sm9Frob K x := by rw [fK, pow_one]

theorem fK_two (x : K) : fK K 2 x = sm9Frob K (sm9Frob K x) := by rw [fK, pow_two]; rfl

theorem fK_fp (k : Nat) (c : ZMod sm9p) : fK K k (algebraMap (ZMod sm9p) K c) = algebraMap (ZMod sm9p) K c := by
  induction k with
  | zero => simp [fK]
  | succ k ih => rw [fK_add, fK_one, sm9Frob_fp, ih]

/-- Elements of the subfield with `p⁶` elements vanish in the final exponentiation. -/
theorem kill6 {x : K} (h0 : x ≠ 0) (h : fK K 6 x = x) : x ^ sm9D = 1 := by
  rw [fK_apply, ← sm9p6_pos, pow_succ] at h
  have h1 : x ^ (sm9p ^ 6 - 1) = 1 := mul_right_cancel₀ h0 (by rw [one_mul]; exact h)
  rw [sm9D_eq, pow_mul, h1, one_pow]

theorem kill4 {c : K} (h : c ^ 4 = 1) : c ^ sm9D = 1 := by
  rw [sm9D_four, pow_mul, h, one_pow]

theorem kill12 {x : K} (h0 : x ≠ 0) (h : fK K 12 x = x) : (x ^ sm9D) ^ sm9n = 1 := by
  rw [← pow_mul, sm9D_mul]
  rw [fK_apply, ← sm9p12_pos, pow_succ] at h
  exact mul_right_cancel₀ h0 (by rw [one_mul]; exact h)

theorem fK_even {x : K} (h : fK K 2 x = x) (j : Nat) : fK K (2 * j) x = x := by
  induction j with
  | zero => simp [fK]
  | succ j ih => rw [mul_add, mul_one, fK_add, h, ih]

theorem kill_fp {c : ZMod sm9p} (h : c ≠ 0) : (algebraMap (ZMod sm9p) K c) ^ sm9D = 1 :=
  kill6 ((map_ne_zero _).mpr h) (fK_fp 6 c)

variable {w : K} (hw : w ^ 12 = -2)
include hw

theorem fK_w (k : Nat) : fK K k w = kA K ^ k * w := by
  induction k with
  | zero => simp [fK]
  | succ k ih =>
    rw [fK_add, fK_one, sm9Frob_w hw, map_mul, ih, kA, fK_fp]; ring

/-- The constant of the twist under Frobenius. -/
theorem fK_b (j : Nat) : (5 * w ^ 6 : K) = 1 ^ 6 * fK K (2 * j) (5 * w ^ 6) := by
  rw [map_mul, map_pow, fK_w hw, map_ofNat, mul_pow, ← pow_mul, show 2 * j * 6 = 6 * (2 * j) by ring, pow_mul, kA_6,
    pow_mul, neg_one_sq, one_pow]
  ring

theorem frb_b : (5 * w ^ 6 : K) = (kA K)⁻¹ ^ 6 * sm9Frob K (5 * w ^ 6) := by
  rw [map_mul, sm9Frob_w6 hw, map_ofNat, inv_pow, kA_6]
  norm_num

theorem emb_b : (5 * w ^ 6 : K) = w ^ 6 * algebraMap (ZMod sm9p) K 5 := by
  rw [map_ofNat]; ring

variable [DecidableEq K]

local notation "E₁" => (shortCurve (0 : ZMod sm9p) 5)
local notation "E₂" => (shortCurve (0 : K) (5 * w ^ 6))

/-- `G1` into the twist. -/
noncomputable def emb : (E₁).Point → (E₂).Point := twPt (algebraMap (ZMod sm9p) K) w (sm9w_ne hw) (emb_b hw)
/-- The Frobenius map of the twist. -/
noncomputable def frb : (E₂).Point → (E₂).Point := twPt (sm9Frob K) (kA K)⁻¹ (inv_ne_zero kA_ne) (frb_b hw)
/-- Coordinatewise `p^(2j)`-th powers. -/
noncomputable def sig (j : Nat) : (E₂).Point → (E₂).Point := twPt (fK K (2 * j)) 1 one_ne_zero (fK_b hw j)

/-- The points used as second argument. -/
structure InG (S : (E₂).Point) : Prop where
  fix : sig hw 1 S = S
  frob : frb hw S = sm9p • S
  ord : sm9n • S = 0

theorem InG.add {S T : (E₂).Point} (h : InG hw S) (k : InG hw T) : InG hw (S + T) :=
  ⟨by rw [sig, tw_add]; exact congrArg₂ _ h.fix k.fix,
   by rw [frb, tw_add, nsmul_add]; exact congrArg₂ _ h.frob k.frob,
   by rw [nsmul_add, h.ord, k.ord, add_zero]⟩

theorem InG.neg {S : (E₂).Point} (h : InG hw S) : InG hw (-S) :=
  ⟨by rw [sig, tw_neg]; exact congrArg _ h.fix,
   by rw [frb, tw_neg, neg_nsmul]; exact congrArg _ h.frob,
   by rw [neg_nsmul, h.ord, neg_zero]⟩

theorem InG.zero : InG hw (0 : (E₂).Point) := ⟨rfl, by rw [nsmul_zero]; rfl, nsmul_zero _⟩

theorem InG.nsmul {S : (E₂).Point} (h : InG hw S) (n : Nat) : InG hw (n • S) := by
  induction n with
  | zero => rw [zero_nsmul]; exact .zero hw
  | succ n ih => rw [succ_nsmul]; exact ih.add hw h

theorem InG.zsmul {S : (E₂).Point} (h : InG hw S) (n : ℤ) : InG hw (n • S) := by
  cases n with
  | ofNat n => rw [Int.ofNat_eq_natCast, natCast_zsmul]; exact h.nsmul hw n
  | negSucc n => rw [negSucc_zsmul]; exact (h.nsmul hw _).neg hw

theorem InG.coord {x y : K} {hs : (E₂).Nonsingular x y} (h : InG hw (.some x y hs)) : fK K 2 x = x ∧ fK K 2 y = y := by
  have := h.fix
  unfold sig twPt at this
  simp only [Point.some.injEq] at this
  simpa using this

theorem InG.sig {S : (E₂).Point} (h : InG hw S) (j : Nat) : sig hw j S = S := by
  rcases S with _ | ⟨x, y, hs⟩
  · rfl
  · obtain ⟨h1, h2⟩ := h.coord hw
    unfold Verif.sig twPt
    simp only [Point.some.injEq, fK_even h1, fK_even h2]
    simp

theorem emb_frb (P : (E₁).Point) : frb hw (emb hw P) = emb hw P := by
  rcases P with _ | ⟨x, y, h⟩
  · rfl
  · unfold frb emb twPt
    have := kA_ne (K := K)
    simp only [Point.some.injEq, map_mul, map_pow, sm9Frob_w hw, sm9Frob_fp]
    constructor
    · field_simp
    · field_simp

theorem fK12_w : fK K 12 w = w := by
  rw [fK_w hw, show 12 = 6 * 2 by norm_num, pow_mul, kA_6]; norm_num

theorem emb_sig (P : (E₁).Point) : Verif.sig hw 6 (emb hw P) = emb hw P := by
  rcases P with _ | ⟨x, y, h⟩
  · rfl
  · unfold Verif.sig emb twPt
    simp only [Point.some.injEq, map_mul, map_pow, show 2 * 6 = 12 from rfl, fK12_w hw, fK_fp]
    simp

/-- Abscissas of finite points of `G1` are not zero. -/
theorem E1_x_ne {x y : ZMod sm9p} (h : (E₁).Nonsingular x y) : x ≠ 0 := by
  rintro rfl
  have := (sc_ns.mp h).1
  exact sm9_five y (by rw [this]; ring)

theorem vvD {S : (E₂).Point} (hS : InG hw S) (P : (E₁).Point) :
    vv S (emb hw P) ≠ 0 ∧ vv S (emb hw P) ^ sm9D = 1 := by
  have o : (1 : K) ≠ 0 ∧ (1 : K) ^ sm9D = 1 := ⟨one_ne_zero, one_pow _⟩
  rcases P with _ | ⟨x, y, h⟩
  · exact o
  rcases S with _ | ⟨a, b, hs⟩
  · have : (Point.zero : (E₂).Point) = 0 := rfl
    rw [this, vv_zero]; exact o
  have e : vv (.some a b hs) (emb hw (.some x y h)) = w ^ 2 * algebraMap (ZMod sm9p) K x - a := vv_some _ _
  rw [e]
  obtain ⟨h1, -⟩ := hS.coord hw
  have hx : algebraMap (ZMod sm9p) K x ≠ 0 := (map_ne_zero _).mpr (E1_x_ne hw h)
  have hne : w ^ 2 * algebraMap (ZMod sm9p) K x - a ≠ 0 := by
    intro h0
    have h2 := congrArg (fK K 2) h0
    rw [map_sub, map_mul, map_pow, fK_w hw, fK_fp, h1, map_zero] at h2
    have h3 : (kA K ^ 4 - 1) * (w ^ 2 * algebraMap (ZMod sm9p) K x) = 0 := by linear_combination h2 - h0
    have h4 : kA K ^ 4 - 1 ≠ 0 := by
      intro h5
      have h6 : kA K ^ 4 = 1 := by linear_combination h5
      have := kA_4 (K := K)
      rw [show kA K ^ 8 = (kA K ^ 4) ^ 2 by ring, h6] at this
      exact sm9K_three (K := K) (by linear_combination this)
    exact mul_ne_zero h4 (mul_ne_zero (pow_ne_zero 2 (sm9w_ne hw)) hx) h3
  refine ⟨hne, kill6 hne ?_⟩
  rw [map_sub, map_mul, map_pow, fK_w hw, fK_fp, kA_6, fK_even h1 3]
  ring

theorem vvD' {S : (E₂).Point} (hS : InG hw S) (P : (E₁).Point) :
    vv (emb hw P) S ≠ 0 ∧ vv (emb hw P) S ^ sm9D = 1 := by
  have o : (1 : K) ≠ 0 ∧ (1 : K) ^ sm9D = 1 := ⟨one_ne_zero, one_pow _⟩
  have key := vvD hw hS P
  rcases P with _ | ⟨x, y, h⟩
  · have : vv (emb hw Point.zero) S = 1 := vv_zero S
    rw [this]; exact o
  rcases S with _ | ⟨a, b, hs⟩
  · exact o
  have e : vv (.some a b hs) (emb hw (.some x y h)) = w ^ 2 * algebraMap (ZMod sm9p) K x - a := vv_some _ _
  have e' : vv (emb hw (.some x y h)) (.some a b hs) = a - w ^ 2 * algebraMap (ZMod sm9p) K x := vv_some _ _
  rw [e] at key
  rw [e', ← neg_sub]
  refine ⟨neg_ne_zero.mpr key.1, ?_⟩
  rw [neg_pow, key.2, kill4 (by norm_num), one_mul]

theorem emb_neg (P : (E₁).Point) : emb hw (-P) = -emb hw P := tw_neg _ _ _
theorem emb_add (P R : (E₁).Point) : emb hw (P + R) = emb hw P + emb hw R := tw_add _ _ _ _
theorem emb_ne {P : (E₁).Point} (h : P ≠ 0) : emb hw P ≠ 0 := fun k => h ((tw_eq_zero _ _ P).mp k)

/-- Mirror images of a line. -/
theorem lvM {A B : (E₂).Point} (hA : InG hw A) (hB : InG hw B) {P : (E₁).Point} (hP : P ≠ 0) :
    lv A B (emb hw P) ≠ 0 ∧ lv A B (emb hw P) ^ sm9D * lv A B (-emb hw P) ^ sm9D = 1 := by
  obtain ⟨c, c4, hc⟩ := lv_norm A B (emb_ne hw hP)
  obtain ⟨a1, a2⟩ := vvD hw hA P
  obtain ⟨b1, b2⟩ := vvD hw hB P
  obtain ⟨d1, d2⟩ := vvD hw (hA.add hw hB) P
  have c0 : c ≠ 0 := by rintro rfl; norm_num at c4
  have hne : lv A B (emb hw P) * lv A B (-emb hw P) ≠ 0 := by
    rw [hc]; exact mul_ne_zero c0 (mul_ne_zero (mul_ne_zero a1 b1) d1)
  refine ⟨left_ne_zero_of_mul hne, ?_⟩
  rw [← mul_pow, hc, mul_pow, mul_pow, mul_pow, a2, b2, d2, kill4 c4]
  ring

/-- The same with the roles of the points exchanged. -/
theorem lvM' {S : (E₂).Point} (hS : InG hw S) (S0 : S ≠ 0) (P R : (E₁).Point) :
    lv (emb hw P) (emb hw R) S ≠ 0 ∧
      lv (emb hw P) (emb hw R) S ^ sm9D * lv (emb hw P) (emb hw R) (-S) ^ sm9D = 1 := by
  obtain ⟨c, c4, hc⟩ := lv_norm (emb hw P) (emb hw R) S0
  rw [← emb_add] at hc
  obtain ⟨a1, a2⟩ := vvD' hw hS P
  obtain ⟨b1, b2⟩ := vvD' hw hS R
  obtain ⟨d1, d2⟩ := vvD' hw hS (P + R)
  have c0 : c ≠ 0 := by rintro rfl; norm_num at c4
  have hne : lv (emb hw P) (emb hw R) S * lv (emb hw P) (emb hw R) (-S) ≠ 0 := by
    rw [hc]; exact mul_ne_zero c0 (mul_ne_zero (mul_ne_zero a1 b1) d1)
  refine ⟨left_ne_zero_of_mul hne, ?_⟩
  rw [← mul_pow, hc, mul_pow, mul_pow, mul_pow, a2, b2, d2, kill4 c4]
  ring

/-- Any line with all points fixed by the twelfth power of Frobenius. -/
theorem lvN {A B X : (E₂).Point} (hA : Verif.sig hw 6 A = A) (hB : Verif.sig hw 6 B = B) (hX : Verif.sig hw 6 X = X)
    (h0 : lv A B X ≠ 0) : (lv A B X ^ sm9D) ^ sm9n = 1 := by
  obtain ⟨k, hk⟩ := tw_lv (f := fK K (2 * 6)) (c := (1 : K)) one_ne_zero (fK_b hw 6) A B X
  refine kill12 h0 ?_
  unfold Verif.sig at hA hB hX
  rw [hA, hB, hX, one_pow, one_mul] at hk
  exact hk.symm

/-- Lines under the Frobenius map. -/
theorem lvF (A B X : (E₂).Point) :
    lv (frb hw A) (frb hw B) (frb hw X) ^ sm9D = (lv A B X ^ sm9D) ^ sm9p := by
  obtain ⟨k, hk⟩ := tw_lv (f := sm9Frob K) (c := (kA K)⁻¹) (inv_ne_zero kA_ne) (frb_b hw) A B X
  unfold frb
  have h1 : ((kA K)⁻¹) ^ sm9D = 1 := by
    rw [inv_pow, kA, kill_fp, inv_one]
    intro h
    exact kA_ne (K := K) (by rw [kA, h, map_zero])
  rw [hk, mul_pow, ← pow_mul, mul_comm k, pow_mul, h1, one_pow, one_mul, sm9Frob_apply, ← pow_mul, ← pow_mul, mul_comm sm9p]

end
end Verif
