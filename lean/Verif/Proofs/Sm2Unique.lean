import Verif.Proofs.Sm2Crypt
import Mathlib.Data.Fintype.Option
import Mathlib.Data.Fintype.Prod
import Mathlib.Data.Finset.Card
/-! # Helper lemmas for C96: what multiples, signatures and ciphertexts determine -/
namespace Verif
open Spec WeierstrassCurve WeierstrassCurve.Affine

theorem nsmul_inj_iff {P : Sm2Point} (hP : P ≠ 0) {a b : Nat} : a • P = b • P ↔ a % sm2n = b % sm2n := by
  rw [nsmul_inj_mod, sm2_order hP]

theorem nsmul_inj_lt {P : Sm2Point} (hP : P ≠ 0) {a b : Nat} (ha : a < sm2n) (hb : b < sm2n) (h : a • P = b • P) :
    a = b := by
  have := (nsmul_inj_iff hP).mp h
  rwa [Nat.mod_eq_of_lt ha, Nat.mod_eq_of_lt hb] at this

/-- A point is determined by its first coordinate and the parity of the second. -/
theorem point_of_parity {x y y' : ZMod sm2p} (h : sm2Curve.Nonsingular x y) (h' : sm2Curve.Nonsingular x y')
    (hp : y.val % 2 = y'.val % 2) : y = y' := by
  have : Fact sm2p.Prime := ⟨sm2p_prime⟩
  have e1 := (equation_iff ..).mp h.1
  have e2 := (equation_iff ..).mp h'.1
  simp only [sm2Curve, shortCurve] at e1 e2
  have hq : (y - y') * (y + y') = 0 := by linear_combination e1 - e2
  rcases mul_eq_zero.mp hq with hq | hq
  · exact sub_eq_zero.mp hq
  · have hy : y' = -y := by linear_combination hq
    by_cases h0 : y = 0
    · rw [hy, h0, neg_zero]
    · have hv : y'.val = sm2p - y.val := by rw [hy, ZMod.neg_val, if_neg h0]
      have hl := ZMod.val_lt y
      have ho : sm2p % 2 = 1 := by decide +kernel
      omega

theorem fieldOctets_inj {x y : ZMod sm2p} (h : fieldOctets x = fieldOctets y) : x = y := by
  have : Fact sm2p.Prime := ⟨sm2p_prime⟩
  have e := congrArg beVal h
  unfold fieldOctets at e
  have hp : sm2p < 256 ^ 32 := by decide +kernel
  rw [beVal_toBE, beVal_toBE, Nat.mod_eq_of_lt ((ZMod.val_lt x).trans hp),
    Nat.mod_eq_of_lt ((ZMod.val_lt y).trans hp)] at e
  exact ZMod.val_injective _ e

theorem fieldOctets_length (x : ZMod sm2p) : (fieldOctets x).length = 32 := toBE_len _ _

/-- Octets of the encoding of a point. -/
def formLen : Sm2.PC → Nat
  | .compressed => 33
  | _ => 65

theorem encForm_length (pc : Sm2.PC) (x y : ZMod sm2p) : (encForm pc x y).length = formLen pc := by
  cases pc <;> simp [encForm, encUncompressed, encCompressed, encMixed, fieldOctets_length, formLen]

theorem encForm_inj {pc : Sm2.PC} {x y x' y' : ZMod sm2p} (h : sm2Curve.Nonsingular x y)
    (h' : sm2Curve.Nonsingular x' y') (he : encForm pc x y = encForm pc x' y') : x = x' ∧ y = y' := by
  cases pc with
  | uncompressed =>
    obtain ⟨_, he⟩ := List.cons.inj he
    obtain ⟨a, b⟩ := List.append_inj he (by rw [fieldOctets_length, fieldOctets_length])
    exact ⟨fieldOctets_inj a, fieldOctets_inj b⟩
  | mix =>
    obtain ⟨_, he⟩ := List.cons.inj he
    obtain ⟨a, b⟩ := List.append_inj he (by rw [fieldOctets_length, fieldOctets_length])
    exact ⟨fieldOctets_inj a, fieldOctets_inj b⟩
  | compressed =>
    obtain ⟨ht, he⟩ := List.cons.inj he
    have ex := fieldOctets_inj he
    subst ex
    refine ⟨rfl, point_of_parity h h' ?_⟩
    have a1 := Nat.mod_lt y.val (show 0 < 2 by decide)
    have a2 := Nat.mod_lt y'.val (show 0 < 2 by decide)
    by_cases p : y.val % 2 = 0 <;> by_cases q : y'.val % 2 = 0
    · omega
    · rw [if_pos p, if_neg q] at ht
      exact absurd ht (by decide)
    · rw [if_neg p, if_pos q] at ht
      exact absurd ht (by decide)
    · omega

/-! ## Signatures -/

/-- The equation of the standard in the field of the scalars. -/
theorem sig_eq {d e k r s : Nat} (h : IsSm2Sig sm2G d e k r s) :
    (s : ZMod sm2n) * (1 + d) + r * d = k := by
  have := (ZMod.natCast_eq_natCast_iff' _ _ _).mpr h.2.2.2.2.2
  push_cast at this
  exact this

theorem sig_lt {d e k r s : Nat} (h : IsSm2Sig sm2G d e k r s) : r < sm2n ∧ s < sm2n := by
  obtain ⟨⟨x, y, hn, e1, e2⟩, r0, rk, sn, s0, he⟩ := h
  exact ⟨by rw [e2]; exact Nat.mod_lt _ (by decide +kernel), sn⟩

theorem cast_inj {a b : Nat} (ha : a < sm2n) (hb : b < sm2n) (h : (a : ZMod sm2n) = b) : a = b := by
  have := (ZMod.natCast_eq_natCast_iff' _ _ _).mp h
  rwa [Nat.mod_eq_of_lt ha, Nat.mod_eq_of_lt hb] at this

/-- One key, one digest: the signature determines the nonce and conversely. -/
theorem sig_nonce {d e k k' r r' s s' : Nat} (hk : k < sm2n) (hk' : k' < sm2n) (hd : d ≤ sm2n - 2)
    (h : IsSm2Sig sm2G d e k r s) (h' : IsSm2Sig sm2G d e k' r' s') : (r = r' ∧ s = s') ↔ k = k' := by
  have : Fact sm2n.Prime := ⟨sm2n_prime⟩
  have q := sig_eq h
  have q' := sig_eq h'
  constructor
  · rintro ⟨rfl, rfl⟩
    exact cast_inj hk hk' (q.symm.trans q')
  · rintro rfl
    obtain ⟨⟨x, y, hn, e1, e2⟩, -⟩ := id h
    obtain ⟨⟨x', y', hn', e1', e2'⟩, -⟩ := id h'
    have ee := e1.symm.trans e1'
    obtain ⟨rfl, rfl⟩ := (Point.some.injEq ..).mp ee
    have hr : r = r' := e2.trans e2'.symm
    subst hr
    refine ⟨rfl, cast_inj (sig_lt h).2 (sig_lt h').2 ?_⟩
    have hd1 : (1 + (d : ZMod sm2n)) ≠ 0 := by
      intro h0
      have hn : 2 < sm2n := by decide +kernel
      have h1 : ((1 + d : Nat) : ZMod sm2n) = 0 := by push_cast; exact h0
      rw [ZMod.natCast_eq_zero_iff] at h1
      exact absurd (Nat.le_of_dvd (by omega) h1) (by omega)
    have : ((s : ZMod sm2n) - s') * (1 + d) = 0 := by linear_combination q - q'
    rcases mul_eq_zero.mp this with h0 | h0
    · exact sub_eq_zero.mp h0
    · exact absurd h0 hd1

/-- One key, one nonce, two digests: the private key. -/
theorem nonce_reuse {d e e' k r r' s s' : Nat} (h : IsSm2Sig sm2G d e k r s) (h' : IsSm2Sig sm2G d e' k r' s')
    (he : e % sm2n ≠ e' % sm2n) :
    (s : ZMod sm2n) + r - s' - r' ≠ 0 ∧ (d : ZMod sm2n) = (s' - s) * ((s : ZMod sm2n) + r - s' - r')⁻¹ := by
  have : Fact sm2n.Prime := ⟨sm2n_prime⟩
  have q := sig_eq h
  have q' := sig_eq h'
  have e0 : (d : ZMod sm2n) * (s + r - s' - r') = s' - s := by linear_combination q - q'
  have hne : (s : ZMod sm2n) + r - s' - r' ≠ 0 := by
    intro h0
    rw [h0, mul_zero] at e0
    have hs : s = s' := cast_inj (sig_lt h).2 (sig_lt h').2 (by linear_combination e0)
    subst hs
    have hr : r = r' := cast_inj (sig_lt h).1 (sig_lt h').1 (by linear_combination h0)
    subst hr
    obtain ⟨⟨x, y, hn, e1, e2⟩, -⟩ := id h
    obtain ⟨⟨x', y', hn', e1', e2'⟩, -⟩ := id h'
    obtain ⟨rfl, rfl⟩ := (Point.some.injEq ..).mp (e1.symm.trans e1')
    apply he
    have hm : (e + x.val) ≡ (e' + x.val) [MOD sm2n] := e2.symm.trans e2'
    exact Nat.ModEq.add_right_cancel' _ hm
  refine ⟨hne, ?_⟩
  rw [← e0, mul_assoc, mul_inv_cancel₀ hne, mul_one]

/-! ## Accepted signatures -/

/-- The point the verification equation looks at, as a function of `s`. -/
theorem verify_point {Q : Sm2Point} (r s : Nat) :
    s • sm2G + ((r + s) % sm2n) • Q = s • (sm2G + Q) + r • Q := by
  have : ((r + s) % sm2n) • Q = (r + s) • Q := nsmul_congr (Nat.mod_mod _ _)
  rw [this, add_nsmul, nsmul_add]
  abel

/-- What an accepted point may be: infinity, or one of four. -/
def pointKind (P : Sm2Point) : Option (Bool × Bool) :=
  match P with
  | .zero => none
  | .some x y _ => some (decide (sm2n ≤ x.val), decide (y.val % 2 = 0))

theorem pointKind_inj {e r : Nat} {P P' : Sm2Point}
    (h : P = 0 ∨ ∃ x y h, P = .some x y h ∧ (e + x.val) % sm2n = r)
    (h' : P' = 0 ∨ ∃ x y h, P' = .some x y h ∧ (e + x.val) % sm2n = r) (hk : pointKind P = pointKind P') : P = P' := by
  have hp : Fact sm2p.Prime := ⟨sm2p_prime⟩
  have hpn : sm2p < 2 * sm2n := by decide +kernel
  rcases h with rfl | ⟨x, y, hn, rfl, hx⟩ <;> rcases h' with rfl | ⟨x', y', hn', rfl, hx'⟩
  · rfl
  · exact absurd hk (by rw [show (0 : Sm2Point) = Point.zero from rfl]; simp [pointKind])
  · exact absurd hk (by rw [show (0 : Sm2Point) = Point.zero from rfl]; simp [pointKind])
  · simp only [pointKind, Option.some.injEq, Prod.mk.injEq, decide_eq_decide] at hk
    have l1 := ZMod.val_lt x
    have l2 := ZMod.val_lt x'
    have hm : x.val ≡ x'.val [MOD sm2n] := Nat.ModEq.add_left_cancel' e (hx.trans hx'.symm)
    have hv : x.val = x'.val := by
      unfold Nat.ModEq at hm
      by_cases hc : sm2n ≤ x.val
      · have hc' := hk.1.mp hc
        rw [Nat.mod_eq_sub_mod hc, Nat.mod_eq_sub_mod hc', Nat.mod_eq_of_lt (by omega), Nat.mod_eq_of_lt (by omega)] at hm
        omega
      · have hc' : ¬ sm2n ≤ x'.val := fun h => hc (hk.1.mpr h)
        rwa [Nat.mod_eq_of_lt (by omega), Nat.mod_eq_of_lt (by omega)] at hm
    have ex := ZMod.val_injective _ hv
    subst ex
    have ey : y = y' := point_of_parity hn hn' (by have := hk.2; omega)
    subst ey
    rfl

end Verif
