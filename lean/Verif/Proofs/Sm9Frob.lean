import Verif.Proofs.Sm9Ind
import Verif.Model.Sm9Pairing
/-! # `sm9_fp12_*` as the field with `w¹² = -2`, and its Frobenius maps -/
namespace Verif
open Spec

section
variable {K : Type} [Field K] [Algebra (ZMod sm9p) K]

/-- The field element of a constant given in bytes. -/
theorem fpFromBytes_is {bs : List Byte} (h : bs.length = 32) :
    Is (Reduced sm9p) (fpDen (K := K)) (Sm9.fpFromBytes bs) ((beVal bs : Nat) : K) := by
  obtain ⟨r1, r2, -⟩ := Props.C39_from_to_bytes Sm9.fpCtx_wf bs h
  refine ⟨r1, ?_⟩
  unfold fpDen
  rw [show montVal sm9p (Sm9.fpFromBytes bs) = _ from r2, map_natCast]

theorem kA_const {bs : List Byte} {n : Nat} (h : bs.length = 32)
    (e : beVal bs % sm9p = (0x3f23ea58e5720bdb843c6cfa9c08674947c5c86e0ddd04eda91d8354377b698b) ^ n % sm9p) :
    Is (Reduced sm9p) (fpDen (K := K)) (Sm9.fpFromBytes bs) (kA K ^ n) := by
  refine (fpFromBytes_is h).val ?_
  rw [← map_natCast (algebraMap (ZMod sm9p) K), zmod_nat_eq e, Nat.cast_pow, map_pow]
  rfl

theorem alpha1_is : Is (Reduced sm9p) (fpDen (K := K)) (Sm9.fpFromBytes Sm9.sm9Alpha1Data) (kA K ^ 1) :=
  kA_const (by decide) (by decide +kernel)
theorem alpha2_is : Is (Reduced sm9p) (fpDen (K := K)) (Sm9.fpFromBytes Sm9.sm9Alpha2Data) (kA K ^ 2) :=
  kA_const (by decide) (by decide +kernel)
theorem alpha3_is : Is (Reduced sm9p) (fpDen (K := K)) (Sm9.fpFromBytes Sm9.sm9Alpha3Data) (kA K ^ 3) :=
  kA_const (by decide) (by decide +kernel)
theorem alpha4_is : Is (Reduced sm9p) (fpDen (K := K)) (Sm9.fpFromBytes Sm9.sm9Alpha4Data) (kA K ^ 4) :=
  kA_const (by decide) (by decide +kernel)
theorem alpha5_is : Is (Reduced sm9p) (fpDen (K := K)) (Sm9.fpFromBytes Sm9.sm9Alpha5Data) (kA K ^ 5) :=
  kA_const (by decide) (by decide +kernel)
theorem beta_is : Is (Reduced sm9p) (fpDen (K := K)) (Sm9.fpFromBytes Sm9.sm9BetaData) (kA K ^ 3) :=
  kA_const (by decide) (by decide +kernel)
theorem cL1835_is : Is (Reduced sm9p) (fpDen (K := K)) (Sm9.fpFromBytes Sm9.cL1835) (kA K ^ 1) :=
  kA_const (by decide) (by decide +kernel)
theorem cL1850_is : Is (Reduced sm9p) (fpDen (K := K)) (Sm9.fpFromBytes Sm9.cL1850) (kA K ^ 2) :=
  kA_const (by decide) (by decide +kernel)

variable {w : K} (hw : w ^ 12 = -2)
include hw

/-! ## Arithmetic -/

theorem f12V {a : Sm9.F4} {s : K} (h : Is (All4 (AtMost sm9p)) (fp4Den w) a s) :
    Is (All4 (AtMost sm9p)) (fp4Den w) (fp4MulV Sm9.fp a) (s * w ^ 3) :=
  fp4MulV_is sm9fp_wk (w6_sq hw) (w3_sq w) (fun _ _ h => sm9_ind2' hw h) h

theorem f12w {a : Sm9.F12} {s : K} (h : Is (All12 (Reduced sm9p)) (fp12Den w) a s) :
    Is (All12 (AtMost sm9p)) (fp12Den w) a s := ⟨fp12_wk (sm9fp4_wk hw) h.1, h.2⟩

theorem f12Mul {a b : Sm9.F12} {s t : K} (ha : Is (All12 (AtMost sm9p)) (fp12Den w) a s)
    (hb : Is (All12 (AtMost sm9p)) (fp12Den w) b t) :
    Is (All12 (Reduced sm9p)) (fp12Den w) (fp12Mul Sm9.fp a b) (s * t) :=
  fp12Mul_is (sm9fp4_wk hw) rfl (fun h => f12V hw h) ha hb

theorem f12Sqr {a : Sm9.F12} {s : K} (ha : Is (All12 (AtMost sm9p)) (fp12Den w) a s) :
    Is (All12 (Reduced sm9p)) (fp12Den w) (fp12Sqr Sm9.fp a) (s ^ 2) := by
  rw [sq]; exact f12Mul hw ha ha

theorem f12Zero : Is (All12 (Reduced sm9p)) (fp12Den w) (fp12Zero Sm9.fp) 0 := by
  have H := sm9fp4_wk hw
  have z : Is (All4 (Reduced sm9p)) (fp4Den w) (fp4Zero Sm9.fp) 0 := ⟨H.zero_ok, H.zero⟩
  exact (is12 z z z).val (by ring)

theorem f12One : Is (All12 (Reduced sm9p)) (fp12Den w) (fp12One Sm9.fp) 1 := by
  have H := sm9fp4_wk hw
  have z : Is (All4 (Reduced sm9p)) (fp4Den w) (fp4Zero Sm9.fp) 0 := ⟨H.zero_ok, H.zero⟩
  have o : Is (All4 (Reduced sm9p)) (fp4Den w) (fp4One Sm9.fp) 1 := ⟨H.one_ok, H.one⟩
  exact (is12 o z z).val (by ring)

/-- Two reduced arrays denote the same element only if they are equal. -/
theorem f12_inj {a b : Sm9.F12} (ha : All12 (Reduced sm9p) a) (hb : All12 (Reduced sm9p) b)
    (h : fp12Den w a = fp12Den w b) : a = b := by
  have H := sm9fp4_wk hw
  have key : ∀ {x y : Sm9.F4}, All4 (Reduced sm9p) x → All4 (Reduced sm9p) y → fp4Den w x = fp4Den w y → x = y := by
    intro x y hx hy e
    have h2 : ∀ {x y : Sm9.F2}, All2 (Reduced sm9p) x → All2 (Reduced sm9p) y →
        (fp2Ops Sm9.fp).eq x y = true → x = y := by
      intro x y hx hy e
      change (u256Equal x.c0 y.c0 && u256Equal x.c1 y.c1) = true at e
      rw [Bool.and_eq_true] at e
      have l : ∀ {s t : List W32}, Reduced sm9p s → Reduced sm9p t → u256Equal s t = true → s = t := fun hs ht q =>
        val_inj _ _ (by rw [hs.1, ht.1]) ((Props.C31_cmp _ _ hs.1 ht.1).2.mp q)
      cases x; cases y
      rw [Fp2.mk.injEq]
      exact ⟨l hx.1 hy.1 e.1, l hx.2 hy.2 e.2⟩
    have q := (H.eq hx hy).mpr e
    change (fp2Eq Sm9.fp x.c0 y.c0 && fp2Eq Sm9.fp x.c1 y.c1) = true at q
    rw [Bool.and_eq_true] at q
    cases x; cases y
    rw [Fp4.mk.injEq]
    exact ⟨h2 hx.1 hy.1 q.1, h2 hx.2 hy.2 q.2⟩
  have s0 := H.iSub (is_rfl (φ := fp4Den w) ha.1) (is_rfl hb.1)
  have s1 := H.iSub (is_rfl (φ := fp4Den w) ha.2.1) (is_rfl hb.2.1)
  have s2 := H.iSub (is_rfl (φ := fp4Den w) ha.2.2) (is_rfl hb.2.2)
  have e : (fp4Den w a.c0 - fp4Den w b.c0) + (fp4Den w a.c1 - fp4Den w b.c1) * w
      + (fp4Den w a.c2 - fp4Den w b.c2) * w ^ 2 = 0 := by
    change fp4Den w a.c0 + fp4Den w a.c1 * w + fp4Den w a.c2 * w ^ 2
      = fp4Den w b.c0 + fp4Den w b.c1 * w + fp4Den w b.c2 * w ^ 2 at h
    linear_combination h
  rw [← s0.2, ← s1.2, ← s2.2] at e
  obtain ⟨e0, e1, e2⟩ := sm9_ind12 hw e
  have e0 := s0.2.symm.trans e0
  have e1 := s1.2.symm.trans e1
  have e2 := s2.2.symm.trans e2
  cases a; cases b
  rw [Fp12.mk.injEq]
  exact ⟨key ha.1 hb.1 (sub_eq_zero.mp e0), key ha.2.1 hb.2.1 (sub_eq_zero.mp e1),
    key ha.2.2 hb.2.2 (sub_eq_zero.mp e2)⟩

theorem f12Eq {a b : Sm9.F12} (ha : All12 (Reduced sm9p) a) (hb : All12 (Reduced sm9p) b) :
    fp12Eq Sm9.fp a b = true ↔ fp12Den w a = fp12Den w b := by
  have H := sm9fp4_wk hw
  have e0 := H.eq ha.1 hb.1
  have e1 := H.eq ha.2.1 hb.2.1
  have e2 := H.eq ha.2.2 hb.2.2
  constructor
  · intro h
    change (fp4Eq Sm9.fp a.c0 b.c0 && fp4Eq Sm9.fp a.c1 b.c1 && fp4Eq Sm9.fp a.c2 b.c2) = true at h
    rw [Bool.and_eq_true, Bool.and_eq_true] at h
    have f0 := e0.mp h.1.1
    have f1 := e1.mp h.1.2
    have f2 := e2.mp h.2
    change fp4Den w a.c0 + fp4Den w a.c1 * w + fp4Den w a.c2 * w ^ 2
      = fp4Den w b.c0 + fp4Den w b.c1 * w + fp4Den w b.c2 * w ^ 2
    rw [f0, f1, f2]
  · intro h
    have e := f12_inj hw ha hb h
    subst e
    change (fp4Eq Sm9.fp a.c0 a.c0 && fp4Eq Sm9.fp a.c1 a.c1 && fp4Eq Sm9.fp a.c2 a.c2) = true
    rw [Bool.and_eq_true, Bool.and_eq_true]
    exact ⟨⟨e0.mpr rfl, e1.mpr rfl⟩, e2.mpr rfl⟩

theorem f12IsZero {a : Sm9.F12} (ha : All12 (Reduced sm9p) a) : fp12IsZero Sm9.fp a = true ↔ fp12Den w a = 0 := by
  have H := sm9fp4_wk hw
  have e0 := H.isZero ha.1
  have e1 := H.isZero ha.2.1
  have e2 := H.isZero ha.2.2
  change (fp4IsZero Sm9.fp a.c0 && fp4IsZero Sm9.fp a.c1 && fp4IsZero Sm9.fp a.c2) = true ↔
    fp4Den w a.c0 + fp4Den w a.c1 * w + fp4Den w a.c2 * w ^ 2 = 0
  rw [Bool.and_eq_true, Bool.and_eq_true]
  constructor
  · rintro ⟨⟨h0, h1⟩, h2⟩
    rw [e0.mp h0, e1.mp h1, e2.mp h2]; ring
  · intro h
    obtain ⟨h0, h1, h2⟩ := sm9_ind12 hw h
    exact ⟨⟨e0.mpr h0, e1.mpr h1⟩, e2.mpr h2⟩

/-! ## Frobenius -/

theorem f2Conj {a : Sm9.F2} {q : List W32 → Prop} (hq : ∀ x, q x → AtMost sm9p x) (ha : All2 q a) :
    Is (All2 (AtMost sm9p)) (fp2Den w) (Sm9.fp2Conj a) (sm9Frob K (fp2Den w a)) := by
  have h := sm9fp_wk (K := K)
  refine (is2 (is_rfl (hq _ ha.1)) (h.iNeg (is_rfl (hq _ ha.2)))).val ?_
  unfold fp2Den den2
  rw [map_add, map_mul, sm9Frob_fpDen, sm9Frob_fpDen, sm9Frob_w6 hw]
  ring

theorem f4Conj {a : Sm9.F4} (ha : All4 (AtMost sm9p) a) :
    Is (All4 (AtMost sm9p)) (fp4Den w) (Sm9.fp4Conj a) (sm9Frob K (sm9Frob K (fp4Den w a))) := by
  have H := sm9fp2_wk hw
  refine (is4 (is_rfl ha.1) (H.iNeg (is_rfl ha.2))).val ?_
  unfold fp4Den den4
  rw [map_add, map_add, map_mul, map_mul, frob2_fp2 hw, frob2_fp2 hw, frob2_w3 hw]
  unfold fp2Den
  ring

theorem frob_den12 (x : Sm9.F12) : sm9Frob K (fp12Den w x) =
    (sm9Frob K (fp2Den w x.c0.c0) + sm9Frob K (fp2Den w x.c0.c1) * kA K ^ 3 * w ^ 3)
    + (sm9Frob K (fp2Den w x.c1.c0) * kA K ^ 1 + sm9Frob K (fp2Den w x.c1.c1) * kA K ^ 4 * w ^ 3) * w
    + (sm9Frob K (fp2Den w x.c2.c0) * kA K ^ 2 + sm9Frob K (fp2Den w x.c2.c1) * kA K ^ 5 * w ^ 3) * w ^ 2 := by
  unfold fp12Den den12 den4
  simp only [map_add, map_mul, map_pow, sm9Frob_w hw]
  unfold fp2Den
  ring

theorem f12Frob {x : Sm9.F12} {s : K} (hx : Is (All12 (AtMost sm9p)) (fp12Den w) x s) :
    Is (All12 (AtMost sm9p)) (fp12Den w) (Sm9.fp12Frob x) (s ^ sm9p) := by
  obtain ⟨⟨⟨h00, h01⟩, ⟨h10, h11⟩, ⟨h20, h21⟩⟩, rfl⟩ := hx
  have h := sm9fp_wk (K := K)
  have H := sm9fp2_wk hw
  have m := fun {a : Sm9.F2} (ha : All2 (AtMost sm9p) a) {c : List W32} {t : K} (hc : Is (Reduced sm9p) fpDen c t) =>
    H.w (fp2MulFp_is (u := w ^ 6) h (f2Conj hw (fun _ q => q) ha) (h.w hc))
  refine (is12 (is4 (f2Conj hw (fun _ q => q) h00) (m h01 alpha3_is)) (is4 (m h10 alpha1_is) (m h11 alpha4_is))
    (is4 (m h20 alpha2_is) (m h21 alpha5_is))).val ?_
  rw [← sm9Frob_apply, frob_den12 hw]

theorem f12Frob2 {x : Sm9.F12} {s : K} (hx : Is (All12 (AtMost sm9p)) (fp12Den w) x s) :
    Is (All12 (AtMost sm9p)) (fp12Den w) (Sm9.fp12Frob2 x) (s ^ (sm9p ^ 2)) := by
  obtain ⟨⟨h0, h1, h2⟩, rfl⟩ := hx
  have h := sm9fp_wk (K := K)
  have H := sm9fp4_wk hw
  have m := fun {a : Sm9.F4} (ha : All4 (AtMost sm9p) a) {c : List W32} {t : K} (hc : Is (Reduced sm9p) fpDen c t) =>
    H.w (fp4MulFp_is (u := w ^ 6) (v := w ^ 3) h (w6_sq hw) (w3_sq w) (fun _ _ h => sm9_ind2' hw h)
      (f4Conj hw ha) (h.w hc))
  refine (is12 (f4Conj hw h0) (m h1 alpha2_is) (m h2 alpha4_is)).val ?_
  rw [show fp12Den w x ^ sm9p ^ 2 = sm9Frob K (sm9Frob K (fp12Den w x)) by
    simp only [sm9Frob_apply]; rw [← pow_mul, ← sq]]
  rw [show fp12Den w x = fp4Den w x.c0 + fp4Den w x.c1 * w + fp4Den w x.c2 * w ^ 2 from rfl]
  simp only [map_add, map_mul, map_pow, sm9Frob_w hw, sm9Frob_kA]
  ring

theorem f12Frob3 {x : Sm9.F12} {s : K} (hx : Is (All12 (AtMost sm9p)) (fp12Den w) x s) :
    Is (All12 (AtMost sm9p)) (fp12Den w) (Sm9.fp12Frob3 x) (s ^ (sm9p ^ 3)) := by
  obtain ⟨⟨⟨h00, h01⟩, ⟨h10, h11⟩, ⟨h20, h21⟩⟩, rfl⟩ := hx
  have h := sm9fp_wk (K := K)
  have H := sm9fp2_wk hw
  have c := fun {a : Sm9.F2} (ha : All2 (AtMost sm9p) a) => f2Conj hw (fun _ q => q) ha
  have m := fun {a : Sm9.F2} (ha : All2 (AtMost sm9p) a) =>
    H.w (fp2MulFp_is (u := w ^ 6) h (f2Conj hw (fun _ q => q) ha) (h.w beta_is))
  refine (is12 (is4 (c h00) (H.iNeg (m h01))) (is4 (m h10) (c h11))
    (is4 (H.iNeg (c h20)) (m h21))).val ?_
  rw [show fp12Den w x ^ sm9p ^ 3 = sm9Frob K (sm9Frob K (sm9Frob K (fp12Den w x))) by
    simp only [sm9Frob_apply]; rw [← pow_mul, ← pow_mul]; congr 1]
  have f2 : ∀ a : Sm9.F2, sm9Frob K (sm9Frob K (fp2Den w a)) = fp2Den w a := fun a => frob2_fp2 hw a
  rw [frob_den12 hw]
  simp only [map_add, map_mul, map_pow, f2, sm9Frob_w hw, sm9Frob_kA]
  have k6 := kA_6 (K := K)
  have e1 : kA K ^ 9 = - kA K ^ 3 := by linear_combination (kA K ^ 3) * k6
  have e2 : kA K ^ 12 = 1 := by linear_combination (kA K ^ 6 - 1) * k6
  have e3 : kA K ^ 15 = kA K ^ 3 := by linear_combination (kA K ^ 9 - kA K ^ 3) * k6
  linear_combination (- sm9Frob K (fp2Den w x.c0.c1) * w ^ 3) * e1 - (sm9Frob K (fp2Den w x.c1.c1) * w ^ 4) * e2
    - (sm9Frob K (fp2Den w x.c2.c0) * w ^ 2) * k6 - (sm9Frob K (fp2Den w x.c2.c1) * w ^ 5) * e3

theorem f12Frob6 {x : Sm9.F12} {s : K} (hx : Is (All12 (AtMost sm9p)) (fp12Den w) x s) :
    Is (All12 (AtMost sm9p)) (fp12Den w) (Sm9.fp12Frob6 x) (s ^ (sm9p ^ 6)) := by
  obtain ⟨⟨h0, h1, h2⟩, rfl⟩ := hx
  have H := sm9fp4_wk hw
  refine (is12 (f4Conj hw h0) (H.iNeg (f4Conj hw h1)) (f4Conj hw h2)).val ?_
  rw [show fp12Den w x ^ sm9p ^ 6 = frob4 K (sm9Frob K (sm9Frob K (fp12Den w x))) by
    rw [frob4_apply]; simp only [sm9Frob_apply]; rw [← pow_mul, ← pow_mul, ← pow_mul, ← pow_mul, ← pow_mul]; congr 1]
  have f4 : ∀ a : Sm9.F4, frob4 K (sm9Frob K (sm9Frob K (fp4Den w a))) = sm9Frob K (sm9Frob K (fp4Den w a)) := fun a => by
    have : ∀ z : K, frob4 K (sm9Frob K (sm9Frob K z)) = sm9Frob K (sm9Frob K (frob4 K z)) := fun z => rfl
    rw [this]
    exact congrArg _ (congrArg _ (frob4_fp4 hw a))
  rw [show fp12Den w x = fp4Den w x.c0 + fp4Den w x.c1 * w + fp4Den w x.c2 * w ^ 2 from rfl]
  simp only [map_add, map_mul, map_pow, f4, sm9Frob_w hw, sm9Frob_kA, frob4_kA, frob4_w hw]
  have k6 := kA_6 (K := K)
  have e2 : kA K ^ 12 = 1 := by linear_combination (kA K ^ 6 - 1) * k6
  linear_combination (-sm9Frob K (sm9Frob K (fp4Den w x.c1)) * w) * k6
    - (sm9Frob K (sm9Frob K (fp4Den w x.c2)) * w ^ 2) * e2

/-- The elements denoted form the field of `p¹²` elements. -/
theorem f12_pow_card (x : Sm9.F12) : fp12Den w x ^ (sm9p ^ 12) = fp12Den w x := by
  rw [show fp12Den w x ^ sm9p ^ 12 = frob4 K (frob4 K (frob4 K (fp12Den w x))) by
    simp only [frob4_apply, sm9Frob_apply, ← pow_mul]; congr 1]
  have f4 : ∀ a : Sm9.F4, frob4 K (fp4Den w a) = fp4Den w a := fun a => frob4_fp4 hw a
  rw [show fp12Den w x = fp4Den w x.c0 + fp4Den w x.c1 * w + fp4Den w x.c2 * w ^ 2 from rfl]
  simp only [map_add, map_mul, map_pow, f4, frob4_kA, frob4_w hw]
  have k6 := kA_6 (K := K)
  have e2 : kA K ^ 12 = 1 := by linear_combination (kA K ^ 6 - 1) * k6
  have e3 : kA K ^ 24 = 1 := by linear_combination (kA K ^ 12 + 1) * e2
  linear_combination (fp4Den w x.c1 * w) * e2 + (fp4Den w x.c2 * w ^ 2) * e3

end
end Verif
