import Verif.Proofs.Sm9Misc
/-! # Kernel-checked computations in `F_p[w]`, `w¹² = -2`, on lists of twelve coefficients -/
namespace Verif
open Spec

/-- `a + b`, coefficient by coefficient. -/
def twAdd : List Nat → List Nat → List Nat
  | [], b => b
  | a, [] => a
  | x :: a, y :: b => (x + y) :: twAdd a b

/-- `a * b` as polynomials. -/
def twMul : List Nat → List Nat → List Nat
  | [], _ => []
  | x :: a, b => twAdd (b.map (x * ·)) (0 :: twMul a b)

/-- Reduce modulo `w¹² + 2` (one fold) and `p`. -/
def twRed (l : List Nat) : List Nat := (twAdd (l.take 12) ((l.drop 12).map ((sm9p - 2) * ·))).map (· % sm9p)

/-- Product in `F_p[w]`. -/
def twMulR (a b : List Nat) : List Nat := twRed (twMul a b)

/-- `f x`, with `x` evaluated first. -/
def forceNat {α : Type} (x : Nat) (f : Nat → α) : α :=
  match x with
  | 0 => f 0
  | n + 1 => f (n + 1)

/-- `f l`, with the entries of `l` evaluated first. -/
def forceList {α : Type} : List Nat → (List Nat → α) → α
  | [], f => f []
  | x :: l, f => forceNat x fun x => forceList l fun l => f (x :: l)

theorem forceNat_eq {α : Type} (x : Nat) (f : Nat → α) : forceNat x f = f x := by cases x <;> rfl

theorem forceList_eq {α : Type} (l : List Nat) (f : List Nat → α) : forceList l f = f l := by
  induction l generalizing f with
  | nil => rfl
  | cons x l ih => simp only [forceList, forceNat_eq, ih]

/-- Left-to-right powers. -/
def twPow (a : List Nat) : List Bool → List Nat → List Nat
  | [], acc => acc
  | b :: bs, acc => forceList (twMulR acc acc) fun acc =>
    match b with
    | true => forceList (twMulR acc a) fun acc => twPow a bs acc
    | false => twPow a bs acc

/-- The value of a polynomial at `w`. -/
def twEv {K : Type} [Field K] (w : K) : List Nat → K
  | [] => 0
  | x :: l => x + w * twEv w l

/-- The exponent, most significant bit first, after the given prefix. -/
def bitsAfter : Nat → List Bool → Nat
  | v, [] => v
  | v, b :: bs => bitsAfter (2 * v + b.toNat) bs

section
variable {K : Type} [Field K] [Algebra (ZMod sm9p) K] {w : K}

omit [Algebra (ZMod sm9p) K] in
theorem ev_add (a b : List Nat) : twEv w (twAdd a b) = twEv w a + twEv w b := by
  induction a generalizing b with
  | nil => simp [twAdd, twEv]
  | cons x a ih =>
    cases b with
    | nil => simp [twAdd, twEv]
    | cons y b => simp only [twAdd, twEv, ih, Nat.cast_add]; ring

omit [Algebra (ZMod sm9p) K] in
theorem ev_smul (c : Nat) (a : List Nat) : twEv w (a.map (c * ·)) = c * twEv w a := by
  induction a with
  | nil => simp [twEv]
  | cons x a ih => simp only [List.map_cons, twEv, ih, Nat.cast_mul]; ring

omit [Algebra (ZMod sm9p) K] in
theorem ev_mul (a b : List Nat) : twEv w (twMul a b) = twEv w a * twEv w b := by
  induction a with
  | nil => simp [twMul, twEv]
  | cons x a ih => simp only [twMul, twEv, ev_add, ev_smul, ih, Nat.cast_zero]; ring

theorem natCast_mod_p (x : Nat) : ((x % sm9p : Nat) : K) = x := by
  rw [← map_natCast (algebraMap (ZMod sm9p) K), ← map_natCast (algebraMap (ZMod sm9p) K) x, ZMod.natCast_mod]

theorem ev_mod (a : List Nat) : twEv w (a.map (· % sm9p)) = twEv w a := by
  induction a with
  | nil => rfl
  | cons x a ih => simp only [List.map_cons, twEv, ih, natCast_mod_p]

omit [Algebra (ZMod sm9p) K] in
theorem ev_split (n : Nat) (l : List Nat) (h : n ≤ l.length) :
    twEv w l = twEv w (l.take n) + w ^ n * twEv w (l.drop n) := by
  induction n generalizing l with
  | zero => simp [twEv]
  | succ n ih =>
    cases l with
    | nil => simp at h
    | cons x l =>
      rw [List.length_cons] at h
      simp only [List.take_succ_cons, List.drop_succ_cons, twEv]
      rw [ih l (by omega)]; ring

theorem ev_red (hw : w ^ 12 = -2) (l : List Nat) : twEv w (twRed l) = twEv w l := by
  unfold twRed
  rw [ev_mod, ev_add, ev_smul]
  have e : ((sm9p - 2 : Nat) : K) = -2 := by
    have h : ((sm9p - 2 + 2 : Nat) : K) = 0 := by
      rw [show sm9p - 2 + 2 = sm9p by decide +kernel, ← map_natCast (algebraMap (ZMod sm9p) K)]; simp
    push_cast at h
    exact eq_neg_of_add_eq_zero_left h
  rw [e]
  rcases Nat.lt_or_ge l.length 12 with h | h
  · rw [List.take_of_length_le (by omega), List.drop_of_length_le (by omega)]
    simp [twEv]
  · rw [ev_split 12 l h, hw]

theorem ev_mulR (hw : w ^ 12 = -2) (a b : List Nat) : twEv w (twMulR a b) = twEv w a * twEv w b := by
  unfold twMulR
  rw [ev_red hw, ev_mul]

theorem ev_pow (hw : w ^ 12 = -2) (a : List Nat) (bs : List Bool) (acc : List Nat) (v : Nat)
    (h : twEv w acc = twEv w a ^ v) : twEv w (twPow a bs acc) = twEv w a ^ bitsAfter v bs := by
  induction bs generalizing acc v with
  | nil => exact h
  | cons b bs ih =>
    simp only [twPow, forceList_eq]
    cases b
    · exact ih _ _ (by rw [ev_mulR hw, h]; simp only [Bool.toNat_false]; ring)
    · exact ih _ _ (by rw [ev_mulR hw, ev_mulR hw, h]; simp only [Bool.toNat_true]; ring)

/-- Whether `InvSlip` holds, from the twelve coefficients of `1, w, …, w¹¹`. -/
def twSlip (l : List Nat) : Bool :=
  let c := fun i => l.getD i 0
  decide (2 * (c 2 * c 11 + c 8 * c 5) % sm9p = 0) &&
    decide ((c 0 * c 1 + (sm9p - 2) * (c 6 * c 7) + (sm9p - 2) * (c 3 * c 10 + c 9 * c 4)) % sm9p = 0)

theorem slip_poly (hw : w ^ 12 = -2) {h : Sm9.F12} (hh : All12 (Reduced sm9p) h)
    (l0 l1 l2 l3 l4 l5 l6 l7 l8 l9 l10 l11 : Nat)
    (e : fp12Den w h = twEv w [l0, l1, l2, l3, l4, l5, l6, l7, l8, l9, l10, l11]) (hs : InvSlip h) :
    twSlip [l0, l1, l2, l3, l4, l5, l6, l7, l8, l9, l10, l11] = true := by
  have sj := fun x : Nat => fp_surj (x : ZMod sm9p)
  obtain ⟨a0, r0, v0⟩ := sj l0
  obtain ⟨a1, r1, v1⟩ := sj l1
  obtain ⟨a2, r2, v2⟩ := sj l2
  obtain ⟨a3, r3, v3⟩ := sj l3
  obtain ⟨a4, r4, v4⟩ := sj l4
  obtain ⟨a5, r5, v5⟩ := sj l5
  obtain ⟨a6, r6, v6⟩ := sj l6
  obtain ⟨a7, r7, v7⟩ := sj l7
  obtain ⟨a8, r8, v8⟩ := sj l8
  obtain ⟨a9, r9, v9⟩ := sj l9
  obtain ⟨a10, r10, v10⟩ := sj l10
  obtain ⟨a11, r11, v11⟩ := sj l11
  have hb : h = ⟨⟨⟨a0, a6⟩, ⟨a3, a9⟩⟩, ⟨⟨a1, a7⟩, ⟨a4, a10⟩⟩, ⟨⟨a2, a8⟩, ⟨a5, a11⟩⟩⟩ := by
    refine f12_inj hw hh ⟨⟨⟨r0, r6⟩, ⟨r3, r9⟩⟩, ⟨⟨r1, r7⟩, ⟨r4, r10⟩⟩, ⟨⟨r2, r8⟩, ⟨r5, r11⟩⟩⟩ (e.trans ?_)
    unfold fp12Den den12 den4 den2 fpDen
    simp only [v0, v1, v2, v3, v4, v5, v6, v7, v8, v9, v10, v11, twEv, map_natCast]
    ring
  subst hb
  obtain ⟨s1, s2⟩ := hs
  dsimp only at s1 s2
  simp only [v0, v1, v2, v3, v4, v5, v6, v7, v8, v9, v10, v11] at s1 s2
  have e2 : ((sm9p - 2 : Nat) : ZMod sm9p) = -2 := by
    have h : ((sm9p - 2 + 2 : Nat) : ZMod sm9p) = 0 := by
      rw [show sm9p - 2 + 2 = sm9p by decide +kernel]; simp
    push_cast at h
    exact eq_neg_of_add_eq_zero_left h
  unfold twSlip
  simp only [List.getD_cons_zero, List.getD_cons_succ, Bool.and_eq_true, decide_eq_true_eq]
  refine ⟨Nat.mod_eq_zero_of_dvd ((ZMod.natCast_eq_zero_iff _ _).mp ?_),
    Nat.mod_eq_zero_of_dvd ((ZMod.natCast_eq_zero_iff _ _).mp ?_)⟩
  · rw [← s1]; push_cast; ring
  · rw [← s2, Nat.cast_add, Nat.cast_add, Nat.cast_mul (sm9p - 2), Nat.cast_mul (sm9p - 2), e2]; push_cast; ring

end

/-- `p² + 1` times the exponent `A3` of the hard part, in binary without the leading one. -/
def expBits : List Bool := (List.range 576).reverse.map fun i => Nat.testBit ((sm9p ^ 2 + 1) * 0x2400000000215d941) i

theorem expBits_val : bitsAfter 1 expBits = (sm9p ^ 2 + 1) * 0x2400000000215d941 := by decide +kernel

/-- `1 - w`. -/
def polyA : List Nat := [1, sm9p - 1, 0, 0, 0, 0, 0, 0, 0, 0, 0, 0]

theorem polyA_noslip : twSlip (twPow polyA expBits polyA) = false ∧
    (twPow polyA expBits polyA).length = 12 := by decide +kernel

/-- `(1 - w)/(1 + w)`. -/
def polyB : List Nat :=
  let x := 0x3cc0000000e137a5f201391aa72f97c1b5fb866e5e28fa494c7a890d4bc5c1d5
  let y := 0x7980000001c26f4be40272354e5f2f836bf70cdcbc51f49298f5121a978b83a8
  [x - 1, y, x, y, x, y, x, y, x, y, x, y]

theorem polyB_noslip : twSlip (twPow polyB expBits polyB) = false ∧
    (twPow polyB expBits polyB).length = 12 := by decide +kernel

theorem polyB_spec : twMulR polyB [1, 1] = polyA := by decide +kernel

section
variable {K : Type} [Field K] [Algebra (ZMod sm9p) K] {w : K} (hw : w ^ 12 = -2)
include hw

theorem w_frob6 : w ^ sm9p ^ 6 = -w := by
  rw [show w ^ sm9p ^ 6 = sm9Frob K (sm9Frob K (sm9Frob K (sm9Frob K (sm9Frob K (sm9Frob K w))))) by
    simp only [sm9Frob_apply, ← pow_mul]; congr 1]
  simp only [sm9Frob_w hw, map_mul, sm9Frob_kA]
  have := kA_6 (K := K)
  linear_combination w * this

omit hw in
theorem frob6_add (x y : K) : (x + y) ^ sm9p ^ 6 = x ^ sm9p ^ 6 + y ^ sm9p ^ 6 := by
  have e : ∀ z : K, z ^ sm9p ^ 6 = sm9Frob K (sm9Frob K (sm9Frob K (sm9Frob K (sm9Frob K (sm9Frob K z))))) := by
    intro z
    simp only [sm9Frob_apply, ← pow_mul]; congr 1
  simp only [e, map_add]

omit hw in
theorem polyA_ev : twEv w polyA = 1 - w := by
  have e : ((sm9p - 1 : Nat) : K) = -1 := by
    have h : ((sm9p - 1 + 1 : Nat) : K) = 0 := by
      rw [show sm9p - 1 + 1 = sm9p by decide +kernel, ← map_natCast (algebraMap (ZMod sm9p) K)]; simp
    rw [Nat.cast_add, Nat.cast_one] at h
    exact eq_neg_of_add_eq_zero_left h
  unfold polyA
  simp only [twEv, e, Nat.cast_zero, Nat.cast_one]
  ring

/-- Elements denoted by a list without the slip are inverted correctly. -/
theorem right_of_poly {h : Sm9.F12} (hh : All12 (Reduced sm9p) h) (l : List Nat) (hl : l.length = 12)
    (hs : twSlip l = false) (e : fp12Den w h = twEv w l) : InvRight w h := by
  refine Or.inr (Or.inl fun hc => ?_)
  match l, hl with
  | [_, _, _, _, _, _, _, _, _, _, _, _], _ =>
    have := slip_poly hw hh _ _ _ _ _ _ _ _ _ _ _ _ e hc
    rw [hs] at this
    cases this

/-- Every element whose value is `(1 - w)^((p² + 1) A3)`. -/
theorem right_A {h : Sm9.F12} (hh : All12 (Reduced sm9p) h)
    (e : fp12Den w h = (1 - w) ^ ((sm9p ^ 2 + 1) * 0x2400000000215d941)) : InvRight w h := by
  refine right_of_poly hw hh _ polyA_noslip.2 polyA_noslip.1 (e.trans ?_)
  rw [ev_pow hw polyA expBits polyA 1 (pow_one _).symm, expBits_val, polyA_ev]

theorem one_add_w_ne : 1 + w ≠ 0 := by
  intro h
  have : w = -1 := by linear_combination h
  rw [this] at hw
  apply sm9K_three (K := K)
  norm_num at hw
  linear_combination hw

theorem right_B {h : Sm9.F12} (hh : All12 (Reduced sm9p) h)
    (e : fp12Den w h = (1 + w) ^ ((sm9p ^ 6 - 1) * (sm9p ^ 2 + 1) * 0x2400000000215d941)) : InvRight w h := by
  refine right_of_poly hw hh _ polyB_noslip.2 polyB_noslip.1 (e.trans ?_)
  rw [ev_pow hw polyB expBits polyB 1 (pow_one _).symm, expBits_val, mul_assoc, pow_mul]
  congr 1
  have h1 := one_add_w_ne hw
  have h2 : (1 + w) ^ (sm9p ^ 6 - 1) * (1 + w) = 1 - w := by
    rw [← pow_succ, show sm9p ^ 6 - 1 + 1 = sm9p ^ 6 by decide +kernel, frob6_add, one_pow, w_frob6 hw, sub_eq_add_neg]
  have h3 := ev_mulR hw polyB [1, 1]
  rw [polyB_spec, polyA_ev, ← h2] at h3
  have h4 : twEv w [1, 1] = 1 + w := by simp [twEv]
  rw [h4] at h3
  exact mul_right_cancel₀ h1 h3

/-- What the final exponentiation makes of `1`. -/
theorem final_one {r0 : Sm9.F12} (h0 : fp12Inv Sm9.fp (fp12One Sm9.fp) = some r0) (hr : All12 (Reduced sm9p) r0)
    (hv : fp12Den w r0 = 1 - w) :
    ∃ r, Sm9.finalExp (fp12One Sm9.fp) = some r ∧ All12 (Reduced sm9p) r ∧ fp12Den w r ^ sm9n = 1 - w ^ 2 := by
  have t0 := f12w hw (f12Mul hw (f12Frob6 hw (f12w hw (f12One hw))) (f12w hw ⟨hr, hv⟩))
  have t1 := f12Mul hw t0 (f12Frob2 hw t0)
  have t1' := t1.val (show _ = (1 - w) ^ (sm9p ^ 2 + 1) by rw [one_pow, one_mul, ← pow_succ'])
  obtain ⟨r, re, ri⟩ := f12Hard hw t1' (fun h hh e => right_A hw hh (by
    rw [e, ← pow_mul, show beVal (Sm9.a3.take 32) = 0x2400000000215d941 by decide +kernel]))
  refine ⟨r, ?_, ri.1, ?_⟩
  · unfold Sm9.finalExp
    rw [h0]; dsimp only [Option.bind_eq_bind, Option.bind_some]
    exact re
  · rw [ri.2, ← pow_mul, ← pow_mul,
      show (sm9p ^ 2 + 1) * ((sm9p ^ 4 - sm9p ^ 2 + 1) / sm9n * sm9n) = sm9p ^ 6 + 1 by decide +kernel,
      pow_succ, sub_eq_add_neg, frob6_add, one_pow, Odd.neg_pow (by decide +kernel), w_frob6 hw]
    ring

end
end Verif
