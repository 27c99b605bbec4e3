import Verif.Proofs.Sm9Poly
import Mathlib.FieldTheory.IsAlgClosed.AlgebraicClosure
/-!
# Properties C51, C55, C61-C63: the SM9 fields, square root, powers, Frobenius maps, final exponentiation

`K` is any field over `F_p` with an element `w`, `w¹² = -2`; `fp2Den w a`, `fp4Den w a`, `fp12Den w a` are the elements
of `K` that the library's arrays of Montgomery-form coefficients stand for (Spec/Sm9Tower).  `All12 (Reduced sm9p) a`
says that all twelve coefficients are below `p`; `AtMost` allows `p` itself.
-/
namespace Verif.Props
open Verif Verif.Spec

/-- Fields as asked for exist: the statements below are about something. -/
theorem C51_field_exists : ∃ (K : Type) (_ : Field K) (_ : Algebra (ZMod sm9p) K) (w : K), w ^ 12 = -2 := by
  obtain ⟨w, h⟩ := IsAlgClosed.exists_pow_nat_eq (-2 : AlgebraicClosure (ZMod sm9p)) (n := 12) (by decide)
  exact ⟨_, inferInstance, inferInstance, w, h⟩

/-! The two lists of facts, for any base operations (used below with the library's). -/

private theorem fp2_facts {α K : Type} [Field K] {F : FpOps α} {ok wk : Fp2 α → Prop} {φ : Fp2 α → K}
    (H : WkHom (fp2Ops F) ok wk φ) (a b : Fp2 α) (ha : ok a) (hb : ok b) :
    (ok (fp2Add F a b) ∧ φ (fp2Add F a b) = φ a + φ b) ∧ (ok (fp2Sub F a b) ∧ φ (fp2Sub F a b) = φ a - φ b) ∧
    (ok (fp2Dbl F a) ∧ φ (fp2Dbl F a) = 2 * φ a) ∧ (∃ r, fp2Tpl F a = some r ∧ ok r ∧ φ r = 3 * φ a) ∧
    (ok (fp2Mul F a b) ∧ φ (fp2Mul F a b) = φ a * φ b) ∧ (ok (fp2Sqr F a) ∧ φ (fp2Sqr F a) = φ a ^ 2) ∧
    (wk (fp2Neg F a) ∧ φ (fp2Neg F a) = - φ a) ∧ (∃ r, fp2Inv F a = some r ∧ wk r ∧ φ r = (φ a)⁻¹) ∧
    (fp2Eq F a b = true ↔ φ a = φ b) ∧ (fp2IsZero F a = true ↔ φ a = 0) := by
  have wa := H.wk_of ha
  have wb := H.wk_of hb
  exact ⟨⟨H.add_ow ha wb, H.add wa wb⟩, ⟨H.sub_ow ha wb, H.sub ha wb⟩, ⟨H.dbl_o ha, H.dbl wa⟩, H.tpl ha,
    ⟨H.mul_ww wa wb, H.mul wa wb⟩, ⟨H.sqr_w wa, H.sqr wa⟩, ⟨H.neg_w wa, H.neg wa⟩, H.inv ha, H.eq ha hb, H.isZero ha⟩

private theorem fp4_facts {α K : Type} [Field K] {F : FpOps α} {ok wk : Fp4 α → Prop} {φ : Fp4 α → K}
    (H : WkHom (fp4Ops F) ok wk φ) (a b : Fp4 α) (ha : ok a) (hb : ok b) :
    (ok (fp4Add F a b) ∧ φ (fp4Add F a b) = φ a + φ b) ∧ (ok (fp4Sub F a b) ∧ φ (fp4Sub F a b) = φ a - φ b) ∧
    (ok (fp4Mul F a b) ∧ φ (fp4Mul F a b) = φ a * φ b) ∧ (ok (fp4Sqr F a) ∧ φ (fp4Sqr F a) = φ a ^ 2) ∧
    (wk (fp4Neg F a) ∧ φ (fp4Neg F a) = - φ a) ∧ (∃ r, fp4Inv F a = some r ∧ wk r ∧ φ r = (φ a)⁻¹) ∧
    (fp4Eq F a b = true ↔ φ a = φ b) ∧ (fp4IsZero F a = true ↔ φ a = 0) := by
  have wa := H.wk_of ha
  have wb := H.wk_of hb
  exact ⟨⟨H.add_ow ha wb, H.add wa wb⟩, ⟨H.sub_ow ha wb, H.sub ha wb⟩,
    ⟨H.mul_ww wa wb, H.mul wa wb⟩, ⟨H.sqr_w wa, H.sqr wa⟩, ⟨H.neg_w wa, H.neg wa⟩, H.inv ha, H.eq ha hb, H.isZero ha⟩

section
variable {K : Type} [Field K] [Algebra (ZMod sm9p) K] {w : K} (hw : w ^ 12 = -2)
include hw

/-! ## C51: the tower -/

/-- **C51** every element of `F_p[w]` is denoted by exactly one reduced array. -/
theorem C51_unique (x : K) (hx : x ∈ Algebra.adjoin (ZMod sm9p) {w}) :
    ∃! a, All12 (Reduced sm9p) a ∧ fp12Den w a = x := by
  obtain ⟨a, h1, h2⟩ := fp12_surj hw hx
  exact ⟨a, ⟨h1, h2⟩, fun b hb => f12_inj hw hb.1 h1 (hb.2.trans h2.symm)⟩

/-- **C51** `sm9_fp2_*`: addition, subtraction, doubling, tripling, multiplication, squaring, negation, inversion of
every element (zero goes to zero), comparison. -/
theorem C51_fp2 (a b : Fp2 (List W32)) (ha : All2 (Reduced sm9p) a) (hb : All2 (Reduced sm9p) b) :
    (All2 (Reduced sm9p) (fp2Add Sm9.fp a b) ∧ fp2Den w (fp2Add Sm9.fp a b) = fp2Den w a + fp2Den w b) ∧
    (All2 (Reduced sm9p) (fp2Sub Sm9.fp a b) ∧ fp2Den w (fp2Sub Sm9.fp a b) = fp2Den w a - fp2Den w b) ∧
    (All2 (Reduced sm9p) (fp2Dbl Sm9.fp a) ∧ fp2Den w (fp2Dbl Sm9.fp a) = 2 * fp2Den w a) ∧
    (∃ r, fp2Tpl Sm9.fp a = some r ∧ All2 (Reduced sm9p) r ∧ fp2Den w r = 3 * fp2Den w a) ∧
    (All2 (Reduced sm9p) (fp2Mul Sm9.fp a b) ∧ fp2Den w (fp2Mul Sm9.fp a b) = fp2Den w a * fp2Den w b) ∧
    (All2 (Reduced sm9p) (fp2Sqr Sm9.fp a) ∧ fp2Den w (fp2Sqr Sm9.fp a) = fp2Den w a ^ 2) ∧
    (All2 (AtMost sm9p) (fp2Neg Sm9.fp a) ∧ fp2Den w (fp2Neg Sm9.fp a) = - fp2Den w a) ∧
    (∃ r, fp2Inv Sm9.fp a = some r ∧ All2 (AtMost sm9p) r ∧ fp2Den w r = (fp2Den w a)⁻¹) ∧
    (fp2Eq Sm9.fp a b = true ↔ fp2Den w a = fp2Den w b) ∧ (fp2IsZero Sm9.fp a = true ↔ fp2Den w a = 0) := by
  exact fp2_facts (sm9fp2_wk hw) a b ha hb

/-- **C51** `sm9_fp4_*`. -/
theorem C51_fp4 (a b : Fp4 (List W32)) (ha : All4 (Reduced sm9p) a) (hb : All4 (Reduced sm9p) b) :
    (All4 (Reduced sm9p) (fp4Add Sm9.fp a b) ∧ fp4Den w (fp4Add Sm9.fp a b) = fp4Den w a + fp4Den w b) ∧
    (All4 (Reduced sm9p) (fp4Sub Sm9.fp a b) ∧ fp4Den w (fp4Sub Sm9.fp a b) = fp4Den w a - fp4Den w b) ∧
    (All4 (Reduced sm9p) (fp4Mul Sm9.fp a b) ∧ fp4Den w (fp4Mul Sm9.fp a b) = fp4Den w a * fp4Den w b) ∧
    (All4 (Reduced sm9p) (fp4Sqr Sm9.fp a) ∧ fp4Den w (fp4Sqr Sm9.fp a) = fp4Den w a ^ 2) ∧
    (All4 (AtMost sm9p) (fp4Neg Sm9.fp a) ∧ fp4Den w (fp4Neg Sm9.fp a) = - fp4Den w a) ∧
    (All4 (AtMost sm9p) (fp4MulV Sm9.fp a) ∧ fp4Den w (fp4MulV Sm9.fp a) = fp4Den w a * w ^ 3) ∧
    (∃ r, fp4Inv Sm9.fp a = some r ∧ All4 (AtMost sm9p) r ∧ fp4Den w r = (fp4Den w a)⁻¹) ∧
    (fp4Eq Sm9.fp a b = true ↔ fp4Den w a = fp4Den w b) ∧ (fp4IsZero Sm9.fp a = true ↔ fp4Den w a = 0) := by
  obtain ⟨h1, h2, h3, h4, h5, h6, h7, h8⟩ := fp4_facts (sm9fp4_wk hw) a b ha hb
  exact ⟨h1, h2, h3, h4, h5, f12V hw (is_rfl ((sm9fp4_wk hw).wk_of ha)), h6, h7, h8⟩

/-- **C51** `sm9_fp4_mul_fp`, `sm9_fp4_mul_fp2`, `sm9_fp12_mul_fp4`: multiplication by elements of subfields. -/
theorem C51_mixed (a : Fp4 (List W32)) (ha : All4 (Reduced sm9p) a) (c : List W32) (hc : Reduced sm9p c)
    (d : Fp2 (List W32)) (hd : All2 (Reduced sm9p) d) (e : Fp12 (List W32)) (he : All12 (Reduced sm9p) e) :
    (All4 (Reduced sm9p) (fp4MulFp Sm9.fp a c) ∧ fp4Den w (fp4MulFp Sm9.fp a c) = fp4Den w a * fpDen c) ∧
    (All4 (Reduced sm9p) (fp4MulFp2 Sm9.fp a d) ∧ fp4Den w (fp4MulFp2 Sm9.fp a d) = fp4Den w a * fp2Den w d) ∧
    (All12 (Reduced sm9p) (fp12MulFp4 Sm9.fp e a) ∧ fp12Den w (fp12MulFp4 Sm9.fp e a) = fp12Den w e * fp4Den w a) := by
  have h := sm9fp_wk (K := K)
  have H2 := sm9fp2_wk hw
  have H := sm9fp4_wk hw
  have ia := is_rfl (φ := fp4Den w) (H.wk_of ha)
  exact ⟨fp4MulFp_is h (w6_sq hw) (w3_sq w) (fun _ _ h => sm9_ind2' hw h) ia (is_rfl (h.wk_of hc)),
    fp4MulFp2_is h (w6_sq hw) (w3_sq w) (fun _ _ h => sm9_ind2' hw h) ia (is_rfl (φ := fp2Den w) (H2.wk_of hd)),
    fp12MulFp4_is H (is_rfl (fp12_wk H he)) ia⟩

/-- **C51** `sm9_fp12_*` without inversion. -/
theorem C51_fp12 (a b : Fp12 (List W32)) (ha : All12 (Reduced sm9p) a) (hb : All12 (Reduced sm9p) b) :
    (All12 (Reduced sm9p) (fp12Add Sm9.fp a b) ∧ fp12Den w (fp12Add Sm9.fp a b) = fp12Den w a + fp12Den w b) ∧
    (All12 (Reduced sm9p) (fp12Sub Sm9.fp a b) ∧ fp12Den w (fp12Sub Sm9.fp a b) = fp12Den w a - fp12Den w b) ∧
    (All12 (Reduced sm9p) (fp12Mul Sm9.fp a b) ∧ fp12Den w (fp12Mul Sm9.fp a b) = fp12Den w a * fp12Den w b) ∧
    (All12 (Reduced sm9p) (fp12Sqr Sm9.fp a) ∧ fp12Den w (fp12Sqr Sm9.fp a) = fp12Den w a ^ 2) ∧
    (All12 (AtMost sm9p) (fp12Neg Sm9.fp a) ∧ fp12Den w (fp12Neg Sm9.fp a) = - fp12Den w a) ∧
    (fp12Eq Sm9.fp a b = true ↔ fp12Den w a = fp12Den w b) ∧ (fp12IsZero Sm9.fp a = true ↔ fp12Den w a = 0) ∧
    fp12Den w (fp12Zero Sm9.fp) = 0 ∧ fp12Den w (fp12One Sm9.fp) = 1 := by
  have H := sm9fp4_wk hw
  have ia := is_rfl (φ := fp12Den w) ha
  have ib := is_rfl (φ := fp12Den w) hb
  exact ⟨fp12Add_is H ia ib, fp12Sub_is H ia ib, f12Mul hw (f12w hw ia) (f12w hw ib), f12Sqr hw (f12w hw ia),
    fp12Neg_is H (f12w hw ia), f12Eq hw ha hb, f12IsZero hw ha, (f12Zero hw).2, (f12One hw).2⟩

/-- **C51, partial** inversion in `F_p¹²` returns the inverse of exactly the elements in `InvRight`: those for which
the coefficient of `uv` in `c2²` or the constant coefficient of `c0 c1` is not zero (and zero, and `c2 w²`).  Missing:
all the others, see `C51_inv_violated`. -/
theorem C51_fp12_inv_partial (a : Fp12 (List W32)) (ha : All12 (Reduced sm9p) a) :
    ∃ r, fp12Inv Sm9.fp a = some r ∧ All12 (Reduced sm9p) r ∧
      (fp12Den w r = (fp12Den w a)⁻¹ ↔ InvRight w a) := f12Inv hw ha

/-- **C51 is violated**: `sm9_fp12_inv` is wrong on every non-zero element `c0 ∈ F_p⁴`, for example on `1`. -/
theorem C51_inv_violated (c : Fp4 (List W32)) (hc : All4 (Reduced sm9p) c) (h0 : fp4Den w c ≠ 0) :
    ∃ r, fp12Inv Sm9.fp ⟨c, fp4Zero Sm9.fp, fp4Zero Sm9.fp⟩ = some r ∧
      fp12Den w r ≠ (fp12Den w ⟨c, fp4Zero Sm9.fp, fp4Zero Sm9.fp⟩)⁻¹ := by
  have H := sm9fp4_wk hw
  obtain ⟨r, r1, -, r3⟩ := f12Inv hw (a := ⟨c, fp4Zero Sm9.fp, fp4Zero Sm9.fp⟩) ⟨hc, H.zero_ok, H.zero_ok⟩
  refine ⟨r, r1, fun h => ?_⟩
  have z : montVal sm9p Sm9.fp.zero = 0 := sm9fp_wk0.zero
  rcases r3.mp h with h | h | h
  · apply h0
    rw [← h]
    have e : fp4Den w (fp4Zero Sm9.fp) = 0 := H.zero
    show _ = fp4Den w c + fp4Den w (fp4Zero Sm9.fp) * w + fp4Den w (fp4Zero Sm9.fp) * w ^ 2
    rw [e]; ring
  · apply h
    unfold InvSlip
    simp only [fp4Zero, fp2Ops, z, mul_zero, add_zero, sub_zero, and_self]
  · exact h0 h.1

/-- The wrong answer on `1` is `1 - w`. -/
theorem C51_inv_one : ∃ r, fp12Inv Sm9.fp (fp12One Sm9.fp) = some r ∧ All12 (Reduced sm9p) r ∧
    fp12Den w r = 1 - w := by
  have H := sm9fp4_wk hw
  have z : Is (All4 (Reduced sm9p)) (fp4Den w) (fp4Zero Sm9.fp) 0 := ⟨H.zero_ok, H.zero⟩
  have o : Is (All4 (Reduced sm9p)) (fp4Den w) (fp4One Sm9.fp) 1 := ⟨H.one_ok, H.one⟩
  have n : Is (All4 (AtMost sm9p)) (fp4Den w) (fp4Neg Sm9.fp (fp4One Sm9.fp)) (-1) := H.iNeg (H.w o)
  have e : fp12Inv Sm9.fp (fp12One Sm9.fp) = some ⟨fp4One Sm9.fp,
      ⟨⟨Sm9.fp.neg Sm9.fp.one, Sm9.fp.zero⟩, ⟨Sm9.fp.zero, Sm9.fp.zero⟩⟩, fp4Zero Sm9.fp⟩ := by decide +kernel
  have ro : All12 (Reduced sm9p) ⟨fp4One Sm9.fp,
      ⟨⟨Sm9.fp.neg Sm9.fp.one, Sm9.fp.zero⟩, ⟨Sm9.fp.zero, Sm9.fp.zero⟩⟩, fp4Zero Sm9.fp⟩ := by
    obtain ⟨r, r1, r2, -⟩ := f12Inv hw (f12One hw).1
    rw [e] at r1
    exact (Option.some.inj r1) ▸ r2
  refine ⟨_, e, ro, ?_⟩
  have h := sm9fp_wk (K := K)
  have n1 := h.iNeg (h.w ⟨h.one_ok, h.one⟩)
  have z1 : Is (Reduced sm9p) fpDen Sm9.fp.zero (0 : K) := ⟨h.zero_ok, h.zero⟩
  have q := (is4 (v := w ^ 3) (is2 (u := w ^ 6) n1 (h.w z1)) (is2 (h.w z1) (h.w z1)))
  have := (is12 (w := w) (H.w o) q (H.w z)).2
  refine this.trans ?_
  ring

/-! ## C61: powers -/

/-- **C61** `sm9_fp12_pow` with the 32-octet exponent `e` (followed by whatever follows it in memory): for every
non-zero exponent it computes the power. -/
theorem C61_fp12_pow_partial (a : Fp12 (List W32)) (ha : All12 (Reduced sm9p) a) (e : List Byte)
    (he : beVal (e.take 32) ≠ 0) :
    ∃ r, fp12Pow Sm9.fp a e = some r ∧ All12 (Reduced sm9p) r ∧ fp12Den w r = fp12Den w a ^ beVal (e.take 32) := by
  obtain ⟨r, r1, r2, r3⟩ := f12Pow hw (is_rfl ha) e he
  exact ⟨r, r1, r2, r3⟩

/-- **C61 is violated** at exponent zero: the search for the first non-zero octet runs past the 32 octets; if nothing
non-zero is readable there it leaves the buffer. -/
theorem C61_pow_zero_reads_past (a : Fp12 (List W32)) (ha : All12 (Reduced sm9p) a) (h0 : fp12Den w a ≠ 0) :
    fp12Pow Sm9.fp a (List.replicate 32 0) = none := by
  have z : fp12IsZero Sm9.fp a = false := by
    rw [Bool.eq_false_iff]; exact fun h => h0 ((f12IsZero hw ha).mp h)
  unfold fp12Pow
  rw [z]
  rfl

/-! ## C62: Frobenius maps -/

/-- **C62** the maps of the pairing code are the Frobenius powers `x ↦ x^p`, `x^(p²)`, `x^(p³)`, `x^(p⁶)`. -/
theorem C62_frobenius (a : Fp12 (List W32)) (ha : All12 (Reduced sm9p) a) :
    (All12 (AtMost sm9p) (Sm9.fp12Frob a) ∧ fp12Den w (Sm9.fp12Frob a) = fp12Den w a ^ sm9p) ∧
    (All12 (AtMost sm9p) (Sm9.fp12Frob2 a) ∧ fp12Den w (Sm9.fp12Frob2 a) = fp12Den w a ^ sm9p ^ 2) ∧
    (All12 (AtMost sm9p) (Sm9.fp12Frob3 a) ∧ fp12Den w (Sm9.fp12Frob3 a) = fp12Den w a ^ sm9p ^ 3) ∧
    (All12 (AtMost sm9p) (Sm9.fp12Frob6 a) ∧ fp12Den w (Sm9.fp12Frob6 a) = fp12Den w a ^ sm9p ^ 6) := by
  have ia := f12w hw (is_rfl (φ := fp12Den w) ha)
  exact ⟨f12Frob hw ia, f12Frob2 hw ia, f12Frob3 hw ia, f12Frob6 hw ia⟩

/-- **C62** the twelfth power of the Frobenius map is the identity on the denoted elements. -/
theorem C62_card (a : Fp12 (List W32)) : fp12Den w a ^ sm9p ^ 12 = fp12Den w a := f12_pow_card hw a

/-! ## C63: final exponentiation -/

/-- **C63, partial** `sm9_pairing_final_exp` raises to the power `(p¹² - 1)/N`, so that the result has order dividing
`N`, whenever neither of its two inversions is one that `sm9_fp12_inv` gets wrong.  Missing: those elements, see
`C63_final_exp_violated`. -/
theorem C63_final_exp_partial (f : Fp12 (List W32)) (hf : All12 (Reduced sm9p) f) (h1 : InvRight w f)
    (h2 : ∀ h, All12 (Reduced sm9p) h →
      fp12Den w h = fp12Den w f ^ ((sm9p ^ 6 - 1) * (sm9p ^ 2 + 1) * 0x2400000000215d941) → InvRight w h) :
    ∃ r, Sm9.finalExp f = some r ∧ All12 (Reduced sm9p) r ∧
      fp12Den w r = fp12Den w f ^ ((sm9p ^ 12 - 1) / sm9n) ∧ (fp12Den w f ≠ 0 → fp12Den w r ^ sm9n = 1) := by
  obtain ⟨r, r1, r2, r3⟩ := f12Final hw hf h1 (fun h hh e => h2 h hh (by
    rw [e, show beVal (Sm9.a3.take 32) = 0x2400000000215d941 by decide +kernel]))
  exact ⟨r, r1, r2, r3, fun h0 => by rw [r3]; exact f12Final_order hw h0⟩

/-- **C63 is violated** at `1` (and wherever `sm9_fp12_inv` is wrong): the result `r` of
`sm9_pairing_final_exp(1)` has `r^N = 1 - w² ≠ 1`, so it is not even in the group of order `N`. -/
theorem C63_final_exp_violated :
    ∃ r, Sm9.finalExp (fp12One Sm9.fp) = some r ∧ fp12Den w r ^ sm9n = 1 - w ^ 2 ∧ fp12Den w r ^ sm9n ≠ 1 := by
  obtain ⟨r0, h0, hr, hv⟩ := C51_inv_one hw
  obtain ⟨r, h1, -, h3⟩ := final_one hw h0 hr hv
  refine ⟨r, h1, h3, ?_⟩
  rw [h3]
  intro h
  exact pow_ne_zero 2 (sm9w_ne hw) (by linear_combination -h)

/-- The hypotheses of C51_fp12_inv_partial (right side) and of C63_final_exp_partial are met by `1 + w`. -/
theorem C63_hypotheses_met : ∃ f, All12 (Reduced sm9p) f ∧ fp12Den w f = 1 + w ∧ InvRight w f ∧
    ∀ h, All12 (Reduced sm9p) h →
      fp12Den w h = fp12Den w f ^ ((sm9p ^ 6 - 1) * (sm9p ^ 2 + 1) * 0x2400000000215d941) → InvRight w h := by
  have H := sm9fp4_wk hw
  have z : Is (All4 (Reduced sm9p)) (fp4Den w) (fp4Zero Sm9.fp) 0 := ⟨H.zero_ok, H.zero⟩
  have o : Is (All4 (Reduced sm9p)) (fp4Den w) (fp4One Sm9.fp) 1 := ⟨H.one_ok, H.one⟩
  obtain ⟨f1, f2⟩ := (is12 (w := w) o o z).val (show _ = 1 + w by ring)
  have f2' : fp12Den w ⟨fp4One Sm9.fp, fp4One Sm9.fp, fp4Zero Sm9.fp⟩ = 1 + w := f2
  refine ⟨_, f1, f2', ?_, fun h hh e => right_B hw hh (by rw [e, f2'])⟩
  refine right_of_poly hw f1 [1, 1, 0, 0, 0, 0, 0, 0, 0, 0, 0, 0] rfl (by decide +kernel) (f2'.trans ?_)
  simp [twEv]

end

/-- The SM9 exponents: `N` divides `p¹² - 1`. -/
theorem C63_order_divides : sm9n ∣ sm9p ^ 12 - 1 ∧ (sm9p ^ 12 - 1) / sm9n =
    (sm9p ^ 6 - 1) * (sm9p ^ 2 + 1) * ((sm9p ^ 4 - sm9p ^ 2 + 1) / sm9n) :=
  ⟨Nat.dvd_of_mod_eq_zero (by decide +kernel), by decide +kernel⟩

/-! ## C55: square root -/

/-- **C55** `sm9_fp_sqrt` returns a square root of every non-zero square, and fails on exactly the other elements
(zero among them, although zero is a square). -/
theorem C55_sqrt (a : List W32) (ha : Reduced sm9p a) :
    (montVal sm9p a ≠ 0 ∧ IsSquare (montVal sm9p a) → ∃ t, Sm9.fpSqrt a = some (some t) ∧ Reduced sm9p t ∧
      montVal sm9p t ^ 2 = montVal sm9p a) ∧
    (¬ (montVal sm9p a ≠ 0 ∧ IsSquare (montVal sm9p a)) → Sm9.fpSqrt a = some none) := by
  rcases sm9_fpSqrt ha with ⟨t, t1, t2, t3, t4⟩ | ⟨t1, t2⟩
  · exact ⟨fun _ => ⟨t, t1, t2, t3⟩, fun h => absurd ⟨t4, ⟨_, t3.symm.trans (sq _)⟩⟩ h⟩
  · refine ⟨fun h => ?_, fun _ => t1⟩
    rcases t2 with t2 | t2
    · exact absurd t2 h.1
    · exact absurd h.2 t2

/-- Both outcomes occur: `4` is a square, `2` is not, `0` is refused. -/
example : (∃ t, Sm9.fpSqrt (Sm9.fpFromBytes (toBE 32 4)) = some (some t)) ∧
    Sm9.fpSqrt Sm9.fp.zero = some none := by
  refine ⟨?_, ?_⟩
  · obtain ⟨h1, h2, -⟩ := C39_from_to_bytes Sm9.fpCtx_wf (toBE 32 4) (toBE_len _ _)
    have e : montVal sm9p (Sm9.fpFromBytes (toBE 32 4)) = 4 := h2.trans (by decide +kernel)
    obtain ⟨t, h, -⟩ := (C55_sqrt _ h1).1 ⟨by
      show montVal sm9p (Sm9.fpFromBytes (toBE 32 4)) ≠ 0
      rw [e]; decide +kernel, by
      show IsSquare (montVal sm9p (Sm9.fpFromBytes (toBE 32 4)))
      rw [e]; exact ⟨2, by norm_num⟩⟩
    exact ⟨t, h⟩
  · exact (C55_sqrt _ sm9fp_wk0.zero_ok).2 (fun h => h.1 sm9fp_wk0.zero)

/-! ## C51: octet strings -/

/-- **C51** the octet-string forms (64, 128, 384 octets, highest coefficient first) round-trip. -/
theorem C51_bytes (a : Fp12 (List W32)) (ha : All12 (Reduced sm9p) a) :
    (Sm9.fp12ToBytes a).length = 384 ∧ Sm9.fp12FromBytes (Sm9.fp12ToBytes a) = a ∧
    (Sm9.fp4ToBytes a.c0).length = 128 ∧ Sm9.fp4FromBytes (Sm9.fp4ToBytes a.c0) = a.c0 ∧
    (Sm9.fp2ToBytes a.c0.c0).length = 64 ∧ Sm9.fp2FromBytes (Sm9.fp2ToBytes a.c0.c0) = a.c0.c0 :=
  ⟨fp12_to_len a ha, fp12_from_to a ha, fp4_to_len _ ha.1, fp4_from_to _ ha.1, fp2_to_len _ ha.1.1,
    fp2_from_to _ ha.1.1⟩

/-- Reduced arrays, for the statements above. -/
example : All12 (Reduced sm9p) (fp12One Sm9.fp) ∧ All4 (Reduced sm9p) (fp4One Sm9.fp) ∧
    All2 (Reduced sm9p) (fp2Ops Sm9.fp).one ∧ fp12One Sm9.fp ≠ fp12Zero Sm9.fp := by
  unfold All12 All4 All2 Reduced; decide +kernel

end Verif.Props
