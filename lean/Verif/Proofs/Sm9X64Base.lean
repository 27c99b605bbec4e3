import Verif.Proofs.WkSim
import Verif.Proofs.Sm9Final
import Verif.Props.NumberX64
import Verif.Spec.Sm9X64
/-! # The limb operations of `sm9_fp_*` over 64-bit limbs -/
set_option linter.unusedSectionVars false
namespace Verif
open Spec

/-- The operations of a Montgomery context over 64-bit limbs, into any field over `ZMod p`. -/
theorem mont_wk64 {ctx : X64.Mont256CTX} {p : Nat} [hp : Fact p.Prime] (wf : X64.IsMontCtx ctx p)
    {K : Type} [Field K] [Algebra (ZMod p) K] {F : FpOps (List W64)}
    (hF : F = ⟨X64.mont256Add ctx, X64.mont256Sub ctx, X64.mont256Mul ctx, X64.mont256Sqr ctx, X64.mont256Dbl ctx,
      fun a => some (X64.mont256Tpl ctx a), X64.mont256Neg ctx, X64.mont256Inv ctx, X64.mont256Equal ctx,
      X64.mont256EqualZero ctx, X64.mont256SetOne ctx, X64.u256Zero⟩) :
    WkHom F (X64.Reduced p) (X64.Reduced p) (fun a => algebraMap (ZMod p) K (montVal p a)) := by
  subst hF
  have hinj := (algebraMap (ZMod p) K).injective
  have L := fun {a b : List W64} (ha : X64.Reduced p a) (hb : X64.Reduced p b) =>
    X64.Props.C35_x64_mont_linear wf a b ha hb
  have M := fun {a b : List W64} (ha : X64.Reduced p a) (hb : X64.Reduced p b) =>
    X64.Props.C34_x64_mont_mul_sqr wf a b ha hb
  have N := fun {a : List W64} (ha : X64.Reduced p a) => X64.Props.C36_x64_mont_neg wf a ha
  have z0 : val X64.u256Zero = 0 := by decide
  have hz : X64.Reduced p X64.u256Zero := ⟨by decide, by rw [z0]; exact hp.out.pos⟩
  have zz : montVal p X64.u256Zero = 0 := by unfold montVal; rw [z0, Nat.cast_zero, zero_mul]
  have zi : ∀ {a : List W64}, X64.Reduced p a → (montVal p a = 0 ↔ val a = 0) := fun {a} ha => by
    rw [← zz, X64.Props.C34_x64_unique wf a _ ha hz]
    constructor
    · rintro rfl; exact z0
    · intro e; exact val_inj _ _ (by rw [ha.1, hz.1]) (by rw [e, z0])
  refine ⟨?_, ?_, ?_, ?_, ?_, ?_, ?_, ?_, ?_, ?_, ?_, ?_, ?_, ?_, ?_, ?_, ?_, ?_, ?_, ?_, ?_, ?_, ?_, ?_⟩
  · exact id
  · intro a b ha hb; exact (L ha hb).1.1
  · intro a b ha hb; exact (L ha hb).1.1
  · intro a b ha hb; exact (L ha hb).1.1
  · intro a b ha hb; rw [← map_add]; exact congrArg _ (L ha hb).1.2.2
  · intro a b ha hb; exact (L ha hb).2.1.1
  · intro a b ha hb; rw [← map_sub]; exact congrArg _ (L ha hb).2.1.2.2
  · intro a b ha hb; exact (M ha hb).1
  · intro a b ha hb; rw [← map_mul]; exact congrArg _ (M ha hb).2.1
  · intro a ha; exact (M ha ha).2.2.1
  · intro a ha; rw [← map_pow]; exact congrArg _ (M ha ha).2.2.2
  · intro a ha; exact (L ha ha).2.2.1.1
  · intro a ha; exact (L ha ha).2.2.1.1
  · intro a ha
    rw [show (2 : K) = algebraMap (ZMod p) K 2 from (map_ofNat _ 2).symm, ← map_mul]
    exact congrArg _ (L ha ha).2.2.1.2.2
  · intro a ha
    have t := X64.Props.C35_x64_mont_tpl wf a ha
    exact ⟨_, rfl, t.1, by rw [t.2.2, map_mul, map_ofNat]⟩
  · intro a ha; exact (N ha).1
  · intro a ha; rw [← map_neg]; exact congrArg _ (N ha).2.1
  · intro a ha
    obtain ⟨r, r1, r2, r3, r4⟩ := X64.Props.C37_x64_mont_inv wf hp.out a ha
    refine ⟨r, r1, r2, ?_⟩
    rw [← map_inv₀]
    congr 1
    by_cases h0 : val a = 0
    · rw [(zi ha).mpr h0, (zi r2).mpr (r4 h0), inv_zero]
    · exact eq_inv_of_mul_eq_one_left (r3 h0)
  · intro a b ha hb
    show X64.u256Equal a b = true ↔ _
    rw [hinj.eq_iff, X64.Props.C34_x64_unique wf a b ha hb, (X64.Props.C31_x64_cmp a b ha.1 hb.1).2]
    exact ⟨val_inj a b (by rw [ha.1, hb.1]), fun h => h ▸ rfl⟩
  · intro a ha
    show X64.u256EqualZero a = true ↔ _
    rw [X64.u256EqualZero_iff, map_eq_zero_iff _ hinj, zi ha]
  · have hg := wf.gt_two
    exact ⟨wf.R.1, by show val ctx.R < p; rw [wf.R.2]; exact Nat.mod_lt _ (by omega)⟩
  · show algebraMap _ K (montVal p ctx.R) = 1
    have := X64.montVal_one wf.ok
    rw [wf.P.2] at this
    rw [this, map_one]
  · exact hz
  · show algebraMap _ K (montVal p X64.u256Zero) = 0
    rw [zz, map_zero]

theorem x9fp_wk {K : Type} [Field K] [Algebra (ZMod sm9p) K] :
    WkHom X64.Sm9.fp (X64.Reduced sm9p) (X64.Reduced sm9p) (X64.fpDen (K := K)) :=
  mont_wk64 X64.sm9FpCtx_wf rfl

theorem x9fp_wk0 : WkHom X64.Sm9.fp (X64.Reduced sm9p) (X64.Reduced sm9p) (montVal sm9p) :=
  mont_wk64 (K := ZMod sm9p) X64.sm9FpCtx_wf rfl

/-! ## The elements of the two builds -/

/-- Reduced arrays of the two builds that hold the same residue. -/
abbrev RO := RelV (Reduced sm9p) (X64.Reduced sm9p) (montVal sm9p) (montVal sm9p)
/-- The same when the array of the portable build may hold `p` for zero. -/
abbrev RW := RelV (AtMost sm9p) (X64.Reduced sm9p) (montVal sm9p) (montVal sm9p)

theorem sm9_ws : WkSim Sm9.fp X64.Sm9.fp RO RW := sm9fp_wk0.sim x9fp_wk0

theorem ro_rs {a : List W32} {b : List W64} (h : RO a b) : RS sm9p a b :=
  rs_of_mont Sm9.fpCtx_wf.odd h.l h.r h.eq
theorem rs_ro {a : List W32} {b : List W64} (h : RS sm9p a b) : RO a b := ⟨h.l, h.r, h.mont⟩

/-- The array of the portable build that holds the same number. -/
def lo (b : List W64) : List W32 := u256FromBytes (X64.u256ToBytes b)

theorem lo_ro {b : List W64} (h : X64.Reduced sm9p b) : RO (lo b) b := by
  have hl : (X64.u256ToBytes b).length = 32 := by rw [X64.u256ToBytes_eq h.1]; exact toBE_len _ _
  obtain ⟨l, v⟩ := u256FromBytes_spec _ hl
  have hv : val (lo b) = val b := by
    unfold lo
    rw [v, X64.u256ToBytes_eq h.1, beVal_toBE, show 256 ^ 32 = 2 ^ 256 from by decide +kernel, Nat.mod_eq_of_lt (X64.len4_lt h.1)]
  exact rs_ro ⟨⟨l, by rw [hv]; exact h.2⟩, h, hv⟩

def lo2 (b : X64.Sm9.F2) : Sm9.F2 := ⟨lo b.c0, lo b.c1⟩
def lo4 (b : X64.Sm9.F4) : Sm9.F4 := ⟨lo2 b.c0, lo2 b.c1⟩
def lo12 (b : X64.Sm9.F12) : Sm9.F12 := ⟨lo4 b.c0, lo4 b.c1, lo4 b.c2⟩

theorem lo2_ro {b : X64.Sm9.F2} (h : All2 (X64.Reduced sm9p) b) : R2 RO (lo2 b) b := ⟨lo_ro h.1, lo_ro h.2⟩
theorem lo4_ro {b : X64.Sm9.F4} (h : All4 (X64.Reduced sm9p) b) : R4 RO (lo4 b) b := ⟨lo2_ro h.1, lo2_ro h.2⟩
theorem lo12_ro {b : X64.Sm9.F12} (h : All12 (X64.Reduced sm9p) b) : R12 RO (lo12 b) b :=
  ⟨lo4_ro h.1, lo4_ro h.2.1, lo4_ro h.2.2⟩

section
variable {ok : List W32 → Prop}

theorem r2_l {a : Sm9.F2} {b : X64.Sm9.F2} (h : R2 (RelV ok (X64.Reduced sm9p) (montVal sm9p) (montVal sm9p)) a b) :
    All2 ok a := ⟨h.c0.l, h.c1.l⟩
theorem r2_r {a : Sm9.F2} {b : X64.Sm9.F2} (h : R2 (RelV ok (X64.Reduced sm9p) (montVal sm9p) (montVal sm9p)) a b) :
    All2 (X64.Reduced sm9p) b := ⟨h.c0.r, h.c1.r⟩
theorem r4_l {a : Sm9.F4} {b : X64.Sm9.F4} (h : R4 (RelV ok (X64.Reduced sm9p) (montVal sm9p) (montVal sm9p)) a b) :
    All4 ok a := ⟨r2_l h.c0, r2_l h.c1⟩
theorem r4_r {a : Sm9.F4} {b : X64.Sm9.F4} (h : R4 (RelV ok (X64.Reduced sm9p) (montVal sm9p) (montVal sm9p)) a b) :
    All4 (X64.Reduced sm9p) b := ⟨r2_r h.c0, r2_r h.c1⟩
theorem r12_l {a : Sm9.F12} {b : X64.Sm9.F12} (h : R12 (RelV ok (X64.Reduced sm9p) (montVal sm9p) (montVal sm9p)) a b) :
    All12 ok a := ⟨r4_l h.c0, r4_l h.c1, r4_l h.c2⟩
theorem r12_r {a : Sm9.F12} {b : X64.Sm9.F12} (h : R12 (RelV ok (X64.Reduced sm9p) (montVal sm9p) (montVal sm9p)) a b) :
    All12 (X64.Reduced sm9p) b := ⟨r4_r h.c0, r4_r h.c1, r4_r h.c2⟩

variable {K : Type} [Field K] [Algebra (ZMod sm9p) K]

theorem r1_den {a : List W32} {b : List W64} (h : RelV ok (X64.Reduced sm9p) (montVal sm9p) (montVal sm9p) a b) :
    (fpDen a : K) = X64.fpDen b := by unfold fpDen X64.fpDen; rw [h.eq]
theorem r2_den {a : Sm9.F2} {b : X64.Sm9.F2} (h : R2 (RelV ok (X64.Reduced sm9p) (montVal sm9p) (montVal sm9p)) a b)
    (w : K) : fp2Den w a = X64.fp2Den w b := by
  unfold fp2Den X64.fp2Den den2; rw [r1_den h.c0, r1_den h.c1]
theorem r4_den {a : Sm9.F4} {b : X64.Sm9.F4} (h : R4 (RelV ok (X64.Reduced sm9p) (montVal sm9p) (montVal sm9p)) a b)
    (w : K) : fp4Den w a = X64.fp4Den w b := by
  show fp2Den w a.c0 + fp2Den w a.c1 * w ^ 3 = X64.fp2Den w b.c0 + X64.fp2Den w b.c1 * w ^ 3
  rw [r2_den h.c0, r2_den h.c1]
theorem r12_den {a : Sm9.F12} {b : X64.Sm9.F12} (h : R12 (RelV ok (X64.Reduced sm9p) (montVal sm9p) (montVal sm9p)) a b)
    (w : K) : fp12Den w a = X64.fp12Den w b := by
  show fp4Den w a.c0 + fp4Den w a.c1 * w + fp4Den w a.c2 * w ^ 2 =
    X64.fp4Den w b.c0 + X64.fp4Den w b.c1 * w + X64.fp4Den w b.c2 * w ^ 2
  rw [r4_den h.c0, r4_den h.c1, r4_den h.c2]

variable {w : K} (hw : w ^ 12 = -2)
include hw

/-- Reduced arrays of the two builds with the same denotation hold the same numbers. -/
theorem r12_of_den {a : Sm9.F12} {b : X64.Sm9.F12} (ha : All12 (Reduced sm9p) a) (hb : All12 (X64.Reduced sm9p) b)
    (h : fp12Den w a = X64.fp12Den w b) : R12 RO a b := by
  have hl := lo12_ro hb
  rw [← r12_den hl] at h
  rw [f12_inj hw ha (r12_l hl) h]
  exact hl

theorem x9_inj {a b : X64.Sm9.F12} (ha : All12 (X64.Reduced sm9p) a) (hb : All12 (X64.Reduced sm9p) b)
    (h : X64.fp12Den w a = X64.fp12Den w b) : a = b := by
  have hl := lo12_ro ha
  have h2 := r12_of_den hw (r12_l hl) hb ((r12_den hl w).trans h)
  have e1 : ∀ {x : List W32} {y z : List W64}, RO x y → RO x z → y = z := fun p q =>
    val_inj _ _ (by rw [p.r.1, q.r.1]) ((ro_rs p).eq.symm.trans (ro_rs q).eq)
  have e2 : ∀ {x : Sm9.F2} {y z : X64.Sm9.F2}, R2 RO x y → R2 RO x z → y = z := fun {x y z} p q => by
    cases y; cases z; rw [Fp2.mk.injEq]; exact ⟨e1 p.c0 q.c0, e1 p.c1 q.c1⟩
  have e4 : ∀ {x : Sm9.F4} {y z : X64.Sm9.F4}, R4 RO x y → R4 RO x z → y = z := fun {x y z} p q => by
    cases y; cases z; rw [Fp4.mk.injEq]; exact ⟨e2 p.c0 q.c0, e2 p.c1 q.c1⟩
  cases a; cases b
  rw [Fp12.mk.injEq]
  exact ⟨e4 hl.c0 h2.c0, e4 hl.c1 h2.c1, e4 hl.c2 h2.c2⟩

/-! ## The tower -/

theorem x9_ind2 {a b : List W64} (h : (X64.fpDen a : K) + X64.fpDen b * w ^ 6 = 0) :
    (X64.fpDen a : K) = 0 ∧ (X64.fpDen b : K) = 0 := sm9_ind2 hw (φ := montVal sm9p) h

theorem x9_ind4 {a b : X64.Sm9.F2} (ha : All2 (X64.Reduced sm9p) a) (hb : All2 (X64.Reduced sm9p) b)
    (h : X64.fp2Den w a + X64.fp2Den w b * w ^ 3 = 0) : X64.fp2Den w a = 0 ∧ X64.fp2Den w b = 0 := by
  rw [← r2_den (lo2_ro ha), ← r2_den (lo2_ro hb)] at h ⊢
  exact sm9_ind4 hw h

theorem x9_ind12 {a b c : X64.Sm9.F4} (ha : All4 (X64.Reduced sm9p) a) (hb : All4 (X64.Reduced sm9p) b)
    (hc : All4 (X64.Reduced sm9p) c) (h : X64.fp4Den w a + X64.fp4Den w b * w + X64.fp4Den w c * w ^ 2 = 0) :
    X64.fp4Den w a = 0 ∧ X64.fp4Den w b = 0 ∧ X64.fp4Den w c = 0 := by
  rw [← r4_den (lo4_ro ha), ← r4_den (lo4_ro hb), ← r4_den (lo4_ro hc)] at h ⊢
  exact sm9_ind12 hw h

theorem x9fp2_wk : WkHom (fp2Ops X64.Sm9.fp) (All2 (X64.Reduced sm9p)) (All2 (X64.Reduced sm9p)) (X64.fp2Den w) :=
  fp2_wkHom x9fp_wk (w6_sq hw) fun _ _ h => x9_ind2 hw h

theorem x9fp4_wk : WkHom (fp4Ops X64.Sm9.fp) (All4 (X64.Reduced sm9p)) (All4 (X64.Reduced sm9p)) (X64.fp4Den w) :=
  fp4_wkHom x9fp_wk (w6_sq hw) (w3_sq w) (fun _ _ h => x9_ind2 hw h) fun ha hb h => x9_ind4 hw ha hb h

end

section
variable {K : Type} [Field K] {α : Type} {F : FpOps α} {ok : α → Prop} {φ : α → K}
variable {u v w : K} (H : WkHom (fp4Ops F) (All4 ok) (All4 ok) (den4 φ u v)) (hw : w ^ 3 = v)
  (hV : ∀ {a : Fp4 α} {s : K}, Is (All4 ok) (den4 φ u v) a s → Is (All4 ok) (den4 φ u v) (fp4MulV F a) (s * v))
  (hind : ∀ {a b c}, All4 ok a → All4 ok b → All4 ok c → den4 φ u v a + den4 φ u v b * w + den4 φ u v c * w ^ 2 = 0 →
    den4 φ u v a = 0 ∧ den4 φ u v b = 0 ∧ den4 φ u v c = 0)

include H hw hV hind in
/-- `sm9_fp12_inv` is right about every element when every operation of the base gives a reduced result. -/
theorem fp12Inv_all (h : WkHom F ok ok φ) {a : Fp12 α} (ha : All12 ok a) :
    ∃ r, fp12Inv F a = some r ∧ All12 ok r ∧ den12 φ u v w r = (den12 φ u v w a)⁻¹ := by
  have hnorm := norm12_ne H hw hind h ha
  obtain ⟨a0, a1, a2⟩ := ha
  have i0 := is_rfl (φ := den4 φ u v) a0
  have i1 := is_rfl (φ := den4 φ u v) a1
  have i2 := is_rfl (φ := den4 φ u v) a2
  have A := H.iSubOW (H.iSqr i0) (hV (H.iMulO i1 i2))
  have C := H.iSub (H.iSqr i1) (H.iMulO i0 i2)
  have B := H.iSub (hV (H.iSqr i2)) (H.iMulO i0 i1)
  have N := H.iAddWO (hV (H.iAdd (H.iMulO i1 C) (H.iMulO i2 B))) (H.iMulO i0 A)
  obtain ⟨r, r1, r2⟩ := H.iInv N
  have fin : Is (All12 ok) (den12 φ u v w) _ _ := is12 (w := w) (H.iMul A r2) (H.iMul B r2) (H.iMul C r2)
  refine ⟨_, ?_, fin.1, fin.2.trans ?_⟩
  · unfold fp12Inv
    dsimp only [fp4Ops] at r1 ⊢
    rw [r1]
  · have h12 : den12 φ u v w a = den4 φ u v a.c0 + den4 φ u v a.c1 * w + den4 φ u v a.c2 * w ^ 2 := rfl
    have hz := hind a0 a1 a2
    rw [h12] at hnorm ⊢
    clear fin r1 r2 N A B C i0 i1 i2
    generalize den4 φ u v a.c0 = x0 at *
    generalize den4 φ u v a.c1 = x1 at *
    generalize den4 φ u v a.c2 = x2 at *
    by_cases h0 : x0 + x1 * w + x2 * w ^ 2 = 0
    · obtain ⟨e0, e1, e2⟩ := hz h0
      rw [e0, e1, e2]; simp
    · apply eq_inv_of_mul_eq_one_left
      have id := inv12_aux (x0 := x0) (x1 := x1) (x2 := x2) hw
      have := mul_inv_cancel₀ (hnorm h0)
      rw [← id] at this
      rw [← id]
      linear_combination this

end

section
variable {K : Type} [Field K] [Algebra (ZMod sm9p) K] {w : K} (hw : w ^ 12 = -2)
include hw

local notation "ok" => All12 (X64.Reduced sm9p)

theorem x12V {a : X64.Sm9.F4} {s : K} (h : Is (All4 (X64.Reduced sm9p)) (X64.fp4Den w) a s) :
    Is (All4 (X64.Reduced sm9p)) (X64.fp4Den w) (fp4MulV X64.Sm9.fp a) (s * w ^ 3) :=
  fp4MulV_is x9fp_wk (w6_sq hw) (w3_sq w) (fun _ _ h => x9_ind2 hw h) h

theorem x12Inv {a : X64.Sm9.F12} {s : K} (ha : Is ok (X64.fp12Den w) a s) :
    ∃ r, fp12Inv X64.Sm9.fp a = some r ∧ Is ok (X64.fp12Den w) r s⁻¹ := by
  obtain ⟨r, r1, r2, r3⟩ := fp12Inv_all (x9fp4_wk hw) rfl (fun h => x12V hw h)
    (fun ha hb hc h => x9_ind12 hw ha hb hc h) x9fp_wk ha.1
  exact ⟨r, r1, r2, r3.trans (congrArg _ ha.2)⟩

theorem x12Mul {a b : X64.Sm9.F12} {s t : K} (ha : Is ok (X64.fp12Den w) a s) (hb : Is ok (X64.fp12Den w) b t) :
    Is ok (X64.fp12Den w) (fp12Mul X64.Sm9.fp a b) (s * t) :=
  fp12Mul_is (x9fp4_wk hw) rfl (fun h => x12V hw h) ha hb

theorem x12Sqr {a : X64.Sm9.F12} {s : K} (ha : Is ok (X64.fp12Den w) a s) :
    Is ok (X64.fp12Den w) (fp12Sqr X64.Sm9.fp a) (s ^ 2) := by
  rw [sq]; exact x12Mul hw ha ha

omit hw in
/-- An element of the portable build with the same value. -/
theorem x12_lo {a : X64.Sm9.F12} {s : K} (ha : Is ok (X64.fp12Den w) a s) :
    R12 RO (lo12 a) a ∧ Is (All12 (Reduced sm9p)) (fp12Den w) (lo12 a) s := by
  have := lo12_ro ha.1
  exact ⟨this, r12_l this, (r12_den this w).trans ha.2⟩

omit hw in
theorem x12_of {q : List W32 → Prop} {a : Sm9.F12} {b : X64.Sm9.F12} {s : K}
    (h : R12 (RelV q (X64.Reduced sm9p) (montVal sm9p) (montVal sm9p)) a b) {ok' : Sm9.F12 → Prop} (ha : Is ok' (fp12Den w) a s) :
    Is ok (X64.fp12Den w) b s := ⟨r12_r h, (r12_den h w).symm.trans ha.2⟩

theorem x12Pow {a : X64.Sm9.F12} {s : K} (ha : Is ok (X64.fp12Den w) a s) (e : List Byte) (he : beVal (e.take 32) ≠ 0) :
    ∃ r, fp12Pow X64.Sm9.fp a e = some r ∧ Is ok (X64.fp12Den w) r (s ^ beVal (e.take 32)) := by
  obtain ⟨h1, h2⟩ := x12_lo ha
  obtain ⟨r, r1, r2⟩ := f12Pow hw h2 e he
  have h3 := ws12_pow sm9_ws h1 e
  rw [r1] at h3
  revert h3
  generalize fp12Pow X64.Sm9.fp a e = t
  intro h3
  cases h3 with
  | some h3 => exact ⟨_, rfl, x12_of h3 r2⟩

/-! ## Frobenius -/

omit [Field K] [Algebra (ZMod sm9p) K] hw in
theorem rfb {bs : List Byte} (h : bs.length = 32) : RO (Sm9.fpFromBytes bs) (X64.Sm9.fpFromBytes bs) :=
  rs_ro (rs_fromBytes Sm9.fpCtx_wf X64.sm9FpCtx_wf h)

omit [Field K] [Algebra (ZMod sm9p) K] hw in
theorem rfbw {bs : List Byte} (h : bs.length = 32) : RW (Sm9.fpFromBytes bs) (X64.Sm9.fpFromBytes bs) :=
  sm9_ws.wk (rfb h)

omit [Field K] [Algebra (ZMod sm9p) K] hw in
theorem r2Conj {a : Sm9.F2} {b : X64.Sm9.F2} (h : R2 RW a b) : R2 RW (Sm9.fp2Conj a) (X64.Sm9.fp2Conj b) :=
  ⟨h.c0, sm9_ws.neg h.c1⟩
omit [Field K] [Algebra (ZMod sm9p) K] hw in
theorem r4Conj {a : Sm9.F4} {b : X64.Sm9.F4} (h : R4 RW a b) : R4 RW (Sm9.fp4Conj a) (X64.Sm9.fp4Conj b) :=
  ⟨h.c0, sm9_ws.two.neg h.c1⟩

omit [Field K] [Algebra (ZMod sm9p) K] hw in
theorem r12Frob {a : Sm9.F12} {b : X64.Sm9.F12} (h : R12 RW a b) : R12 RW (Sm9.fp12Frob a) (X64.Sm9.fp12Frob b) := by
  have m := fun {a : Sm9.F2} {b : X64.Sm9.F2} (h : R2 RW a b) {bs : List Byte} (hb : bs.length = 32) =>
    sm9_ws.wk2 (ws2_mulFp sm9_ws (r2Conj h) (rfbw hb))
  exact ⟨⟨r2Conj h.c0.c0, m h.c0.c1 (by decide)⟩, ⟨m h.c1.c0 (by decide), m h.c1.c1 (by decide)⟩,
    ⟨m h.c2.c0 (by decide), m h.c2.c1 (by decide)⟩⟩

omit [Field K] [Algebra (ZMod sm9p) K] hw in
theorem r12Frob2 {a : Sm9.F12} {b : X64.Sm9.F12} (h : R12 RW a b) : R12 RW (Sm9.fp12Frob2 a) (X64.Sm9.fp12Frob2 b) := by
  have m := fun {a : Sm9.F4} {b : X64.Sm9.F4} (h : R4 RW a b) {bs : List Byte} (hb : bs.length = 32) =>
    sm9_ws.wk4 (ws4_mulFp sm9_ws (r4Conj h) (rfbw hb))
  exact ⟨r4Conj h.c0, m h.c1 (by decide), m h.c2 (by decide)⟩

omit [Field K] [Algebra (ZMod sm9p) K] hw in
theorem r12Frob3 {a : Sm9.F12} {b : X64.Sm9.F12} (h : R12 RW a b) : R12 RW (Sm9.fp12Frob3 a) (X64.Sm9.fp12Frob3 b) := by
  have m := fun {a : Sm9.F2} {b : X64.Sm9.F2} (h : R2 RW a b) {bs : List Byte} (hb : bs.length = 32) =>
    sm9_ws.wk2 (ws2_mulFp sm9_ws (r2Conj h) (rfbw hb))
  exact ⟨⟨r2Conj h.c0.c0, sm9_ws.two.neg (m h.c0.c1 (by decide))⟩, ⟨m h.c1.c0 (by decide), r2Conj h.c1.c1⟩,
    ⟨sm9_ws.two.neg (r2Conj h.c2.c0), m h.c2.c1 (by decide)⟩⟩

omit [Field K] [Algebra (ZMod sm9p) K] hw in
theorem r12Frob6 {a : Sm9.F12} {b : X64.Sm9.F12} (h : R12 RW a b) : R12 RW (Sm9.fp12Frob6 a) (X64.Sm9.fp12Frob6 b) :=
  ⟨r4Conj h.c0, ws4_neg sm9_ws (r4Conj h.c1), r4Conj h.c2⟩

theorem x12Frob {x : X64.Sm9.F12} {s : K} (hx : Is ok (X64.fp12Den w) x s) :
    Is ok (X64.fp12Den w) (X64.Sm9.fp12Frob x) (s ^ sm9p) :=
  x12_of (r12Frob (sm9_ws.wk12 (x12_lo hx).1)) (f12Frob hw (f12w hw (x12_lo hx).2))
theorem x12Frob2 {x : X64.Sm9.F12} {s : K} (hx : Is ok (X64.fp12Den w) x s) :
    Is ok (X64.fp12Den w) (X64.Sm9.fp12Frob2 x) (s ^ sm9p ^ 2) :=
  x12_of (r12Frob2 (sm9_ws.wk12 (x12_lo hx).1)) (f12Frob2 hw (f12w hw (x12_lo hx).2))
theorem x12Frob3 {x : X64.Sm9.F12} {s : K} (hx : Is ok (X64.fp12Den w) x s) :
    Is ok (X64.fp12Den w) (X64.Sm9.fp12Frob3 x) (s ^ sm9p ^ 3) :=
  x12_of (r12Frob3 (sm9_ws.wk12 (x12_lo hx).1)) (f12Frob3 hw (f12w hw (x12_lo hx).2))
theorem x12Frob6 {x : X64.Sm9.F12} {s : K} (hx : Is ok (X64.fp12Den w) x s) :
    Is ok (X64.fp12Den w) (X64.Sm9.fp12Frob6 x) (s ^ sm9p ^ 6) :=
  x12_of (r12Frob6 (sm9_ws.wk12 (x12_lo hx).1)) (f12Frob6 hw (f12w hw (x12_lo hx).2))

/-! ## The final exponentiation -/

theorem x12Hard {f : X64.Sm9.F12} {g : K} (hf : Is ok (X64.fp12Den w) f g) :
    ∃ r, X64.Sm9.finalExpHard f = some r ∧ Is ok (X64.fp12Den w) r (g ^ ((sm9p ^ 4 - sm9p ^ 2 + 1) / sm9n)) := by
  have M := fun {a b : X64.Sm9.F12} {s t : K} (h : Is ok (X64.fp12Den w) a s) (h' : Is ok (X64.fp12Den w) b t) =>
    x12Mul hw h h'
  have S := fun {a : X64.Sm9.F12} {s : K} (h : Is ok (X64.fp12Den w) a s) => x12Sqr hw h
  obtain ⟨t0, t0e, t0i⟩ := x12Pow hw hf Sm9.a3 (by decide +kernel)
  obtain ⟨y, ye, yi⟩ := x12Inv hw t0i
  have t1 := M yi (x12Frob hw yi)
  have t2 := x12Frob hw hf
  have t3 := M t2 hf
  have t3' := M (S (S (S t3))) t3
  have t0' := M (M yi t1) t3'
  have t0'' := M t0' (S (S hf))
  have t2' := M (S t2) t1
  have t1' := M (x12Frob2 hw hf) t2'
  obtain ⟨q, qe, qi⟩ := x12Pow hw t1' Sm9.a2 (by decide +kernel)
  have fin := M (x12Frob3 hw hf) (M qi t0'')
  refine ⟨_, ?_, fin.val ?_⟩
  · unfold X64.Sm9.finalExpHard
    rw [t0e]; dsimp only [Option.bind_eq_bind, Option.bind_some]
    rw [ye]; dsimp only [Option.bind_eq_bind, Option.bind_some]
    rw [qe]; rfl
  · by_cases g0 : g = 0
    · subst g0
      rw [zero_pow (n := sm9p ^ 3) (by decide +kernel), zero_mul, zero_pow (by decide +kernel)]
    · rw [← final_arith g0 sm9p (beVal (Sm9.a2.take 32)) (beVal (Sm9.a3.take 32)) _ hard_exp rfl]
      ring

theorem x12Final {f : X64.Sm9.F12} {s : K} (hf : Is ok (X64.fp12Den w) f s) :
    ∃ r, X64.Sm9.finalExp f = some r ∧ Is ok (X64.fp12Den w) r (s ^ ((sm9p ^ 12 - 1) / sm9n)) := by
  obtain ⟨y, ye, yi⟩ := x12Inv hw hf
  have t0 := x12Mul hw (x12Frob6 hw hf) yi
  have t1 := x12Mul hw t0 (x12Frob2 hw t0)
  have v : s ^ sm9p ^ 6 * s⁻¹ * (s ^ sm9p ^ 6 * s⁻¹) ^ sm9p ^ 2 = s ^ ((sm9p ^ 6 - 1) * (sm9p ^ 2 + 1)) := by
    by_cases s0 : s = 0
    · subst s0
      rw [inv_zero, mul_zero, zero_mul, zero_pow (by decide +kernel)]
    · have : s ^ sm9p ^ 6 * s⁻¹ = s ^ (sm9p ^ 6 - 1) := by
        rw [← div_eq_mul_inv, div_eq_iff s0, ← pow_succ]; congr 1
      rw [this, ← pow_succ', ← pow_mul]
  obtain ⟨r, re, ri⟩ := x12Hard hw (t1.val v)
  refine ⟨r, ?_, ri.1, ri.2.trans ?_⟩
  · unfold X64.Sm9.finalExp
    rw [ye]; dsimp only [Option.bind_eq_bind, Option.bind_some]
    exact re
  · rw [← pow_mul]
    congr 1

end
end Verif
