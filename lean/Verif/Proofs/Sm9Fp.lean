import Verif.Proofs.WkTower
import Verif.Proofs.Primes
import Verif.Props.Number
/-! # The limb operations of `sm9_fp_*`, reduced or not quite reduced -/
namespace Verif
open Spec

instance : Fact sm9p.Prime := ⟨sm9p_prime⟩
instance : Fact sm9n.Prime := ⟨sm9n_prime⟩

section limbs
variable {ctx : Mont256CTX} (h : MontOk ctx)

/-- `mont256_sub` with the modulus itself as minuend: right unless nothing is subtracted. -/
theorem modSub_self (b d : List W32) (hl : d.length = 8) (h2 : b.length = 8) (hb : val b ≤ val d) (hb0 : val b ≠ 0) :
    val (u256ModSub d b d) = val d - val b := by
  obtain ⟨s1, s2, -⟩ := u256Sub_spec d b hl h2
  obtain ⟨s3, s4⟩ := s2 hb
  unfold u256ModSub
  simp only [s4]
  have : ¬ u256Cmp (u256SubBorrow d b).1 d ≥ 0 := by
    rw [u256Cmp_ge (by rw [s1, hl]), s3]; omega
  rw [if_neg (by rintro (h | h); · exact h rfl
                 · exact this h)]
  exact s3

/-- `p - 0` is computed as `2p - 2^256`. -/
theorem modSub_zero (a b d : List W32) (hl : d.length = 8) (h1 : a.length = 8) (h2 : b.length = 8)
    (ha : val a = val d) (hb : val b = 0) (hd : 2 ^ 255 < val d) :
    val (u256ModSub a b d) + 2 ^ 256 = 2 * val d := by
  obtain ⟨s1, s2, -⟩ := u256Sub_spec a b h1 h2
  obtain ⟨s3, s4⟩ := s2 (by omega)
  unfold u256ModSub
  simp only [s4]
  rw [if_pos (Or.inr ((u256Cmp_ge (by rw [s1, hl])).mpr (by omega)))]
  have hs := addCarryLoop_spec (u256SubBorrow a b).1 d 0 (by rw [s1, hl]) (by decide)
  have hv := val_lt (addCarryLoop (u256SubBorrow a b).1 d 0).1
  rw [addCarryLoop_len _ _ _ (by rw [s1, hl]), s1] at hv
  rw [s1, w32_zero_toNat, s3] at hs
  have h256 : (2:Nat) ^ 256 = 2 * 2 ^ 255 := by norm_num
  have h832 : (2:Nat) ^ (32 * 8) = 2 * 2 ^ 255 := by norm_num
  unfold u256AddCarry
  rw [h256]
  rw [h832] at hs hv
  generalize 2 ^ 255 = R at *
  have : (addCarryLoop (u256SubBorrow a b).1 d 0).2.toNat = 0 ∨
    (addCarryLoop (u256SubBorrow a b).1 d 0).2.toNat = 1 := by omega
  rcases this with hc | hc <;> rw [hc] at hs <;> omega

include h

theorem add_le {a b : List W32} (ha : AtMost (val ctx.P) a) (hb : AtMost (val ctx.P) b) :
    AtMost (val ctx.P) (mont256Add ctx a b) ∧
      (val a < val ctx.P ∨ val b < val ctx.P → Reduced (val ctx.P) (mont256Add ctx a b)) ∧
      montVal (val ctx.P) (mont256Add ctx a b) = montVal (val ctx.P) a + montVal (val ctx.P) b := by
  obtain ⟨l1, v1⟩ := ha
  obtain ⟨l2, v2⟩ := hb
  have hs := u256ModAdd_spec a b ctx.P (by rw [l1, h.P_len]) (by rw [l2, h.P_len]) v1 v2
  have hl := u256ModAdd_len a b ctx.P (by rw [l1, h.P_len]) (by rw [l2, h.P_len])
  rw [h.P_len] at hl
  refine ⟨⟨hl, ?_⟩, fun hc => ⟨hl, ?_⟩, ?_⟩
  · show val (u256ModAdd a b ctx.P) ≤ _; rw [hs]; split <;> omega
  · show val (u256ModAdd a b ctx.P) < _; rw [hs]; split <;> omega
  · unfold montVal
    show (val (u256ModAdd a b ctx.P) : ZMod (val ctx.P)) * _ = _
    rw [hs, ← add_mul]
    congr 1
    split
    · rw [Nat.cast_sub (by omega), ZMod.natCast_self, Nat.cast_add, sub_zero]
    · rw [Nat.cast_add]

theorem sub_le {a b : List W32} (ha : Reduced (val ctx.P) a) (hb : AtMost (val ctx.P) b) :
    Reduced (val ctx.P) (mont256Sub ctx a b) ∧
      montVal (val ctx.P) (mont256Sub ctx a b) = montVal (val ctx.P) a - montVal (val ctx.P) b := by
  obtain ⟨l1, v1⟩ := ha
  obtain ⟨l2, v2⟩ := hb
  have hs := u256ModSub_spec a b ctx.P (by rw [l1, h.P_len]) (by rw [l2, h.P_len]) v1 v2
  have hl := u256ModSub_len a b ctx.P (by rw [l1, h.P_len]) (by rw [l2, h.P_len])
  rw [h.P_len] at hl
  refine ⟨⟨hl, ?_⟩, ?_⟩
  · show val (u256ModSub a b ctx.P) < _; rw [hs]; split <;> omega
  · unfold montVal
    show (val (u256ModSub a b ctx.P) : ZMod (val ctx.P)) * _ = _
    rw [hs, ← sub_mul]
    congr 1
    split
    · rw [Nat.cast_sub (by omega)]
    · rw [Nat.cast_sub (by omega), Nat.cast_add, ZMod.natCast_self, add_zero]

theorem sub_wo' {a b : List W32} (ha : AtMost (val ctx.P) a) (hb : Reduced (val ctx.P) b) (hb0 : val b ≠ 0) :
    Reduced (val ctx.P) (mont256Sub ctx a b) ∧
      montVal (val ctx.P) (mont256Sub ctx a b) = montVal (val ctx.P) a - montVal (val ctx.P) b := by
  rcases Nat.lt_or_ge (val a) (val ctx.P) with hc | hc
  · exact sub_le h ⟨ha.1, hc⟩ ⟨hb.1, hb.2.le⟩
  · have e : a = ctx.P := val_inj _ _ (by rw [ha.1, h.P_len]) (le_antisymm ha.2 hc)
    subst e
    have hs := modSub_self b ctx.P h.P_len hb.1 hb.2.le hb0
    have hl := u256ModSub_len ctx.P b ctx.P (by rw [h.P_len]) (by rw [hb.1, h.P_len])
    rw [h.P_len] at hl
    refine ⟨⟨hl, ?_⟩, ?_⟩
    · show val (u256ModSub ctx.P b ctx.P) < _; rw [hs]; have := hb.2; omega
    · unfold montVal
      show (val (u256ModSub ctx.P b ctx.P) : ZMod (val ctx.P)) * _ = _
      rw [hs, ← sub_mul, Nat.cast_sub hb.2.le]

theorem sub_exc' (hbig : 2 ^ 255 < val ctx.P) {a b : List W32} (ha : a.length = 8) (hb : b.length = 8)
    (e : val a = val ctx.P) (hb0 : val b = 0) :
    Reduced (val ctx.P) (mont256Sub ctx a b) ∧ montVal (val ctx.P) (mont256Sub ctx a b) = -1 := by
  have hs := modSub_zero a b ctx.P h.P_len ha hb e hb0 hbig
  have hl := u256ModSub_len a b ctx.P (by rw [ha, h.P_len]) (by rw [hb, h.P_len])
  rw [h.P_len] at hl
  have hlt := h.P_lt
  refine ⟨⟨hl, ?_⟩, ?_⟩
  · show val (u256ModSub a b ctx.P) < _
    generalize val (u256ModSub a b ctx.P) = x at *
    omega
  · unfold montVal
    show (val (u256ModSub a b ctx.P) : ZMod (val ctx.P)) * _ = _
    have := congrArg (Nat.cast : Nat → ZMod (val ctx.P)) hs
    rw [Nat.cast_add, Nat.cast_mul, ZMod.natCast_self, mul_zero] at this
    rw [eq_neg_of_add_eq_zero_left this, neg_mul, h.R_inv]

theorem mul_le {a b : List W32} (ha : AtMost (val ctx.P) a) (hb : AtMost (val ctx.P) b) :
    Reduced (val ctx.P) (mont256Mul ctx a b) ∧
      montVal (val ctx.P) (mont256Mul ctx a b) = montVal (val ctx.P) a * montVal (val ctx.P) b := by
  obtain ⟨l1, v1⟩ := ha
  obtain ⟨l2, v2⟩ := hb
  have hlt := h.P_lt
  have hgt := h.P_gt
  have hab : val a * val b < 2 ^ 256 * val ctx.P := by
    calc val a * val b ≤ val a * val ctx.P := Nat.mul_le_mul_left _ v2
      _ ≤ val ctx.P * val ctx.P := Nat.mul_le_mul_right _ v1
      _ < 2 ^ 256 * val ctx.P := Nat.mul_lt_mul_of_pos_right hlt (by omega)
  obtain ⟨c1, h2⟩ := mont256Mul_spec h a b l1 l2 hab
  refine ⟨c1, ?_⟩
  have e := (ZMod.natCast_eq_natCast_iff' _ _ _).mpr h2
  rw [Nat.cast_mul, Nat.cast_mul] at e
  rw [montVal_eq_iff h]
  unfold montVal
  calc (val (mont256Mul ctx a b) : ZMod (val ctx.P))
      = val (mont256Mul ctx a b) * ((2^256:Nat) : ZMod (val ctx.P)) * ((2^256:Nat) : ZMod (val ctx.P))⁻¹ := by
        rw [mul_assoc, h.R_inv, mul_one]
    _ = (val a : ZMod (val ctx.P)) * val b * ((2^256:Nat) : ZMod (val ctx.P))⁻¹ *
          (((2^256:Nat) : ZMod (val ctx.P)) * ((2^256:Nat) : ZMod (val ctx.P))⁻¹) := by
        rw [e, h.R_inv, mul_one]
    _ = _ := by ring

theorem neg_le {a : List W32} (ha : AtMost (val ctx.P) a) :
    AtMost (val ctx.P) (mont256Neg ctx a) ∧ montVal (val ctx.P) (mont256Neg ctx a) = - montVal (val ctx.P) a ∧
      val (mont256Neg ctx a) = val ctx.P - val a := by
  obtain ⟨l1, v1⟩ := ha
  have hv : (mont256Neg ctx a).length = 8 ∧ val (mont256Neg ctx a) = val ctx.P - val a := by
    unfold mont256Neg
    simp only
    split
    next hz =>
      rw [u256EqualZero_iff] at hz
      have hz2 : val u256Zero = 0 := val_replicate_zero 8
      obtain ⟨s1, s2, _⟩ := u256Sub_spec ctx.P u256Zero h.P_len (by simp [u256Zero])
      exact ⟨s1, by rw [(s2 (by omega)).1]; omega⟩
    next hz =>
      obtain ⟨s1, s2, _⟩ := u256Sub_spec ctx.P a h.P_len l1
      exact ⟨s1, (s2 v1).1⟩
  refine ⟨⟨hv.1, by rw [hv.2]; omega⟩, ?_, hv.2⟩
  unfold montVal
  rw [hv.2, Nat.cast_sub v1, ZMod.natCast_self]
  ring

end limbs

theorem montVal_zero_iff {ctx : Mont256CTX} {p : Nat} (wf : IsMontCtx ctx p) {a : List W32} (ha : Reduced p a) :
    montVal p a = 0 ↔ val a = 0 := by
  have := montVal_eq_zero wf.ok ((canon_iff wf a).mpr ha)
  rwa [wf.P.2] at this

set_option exponentiation.threshold 300 in
/-- The operations of a Montgomery context of a prime modulus, into any field over `ZMod p`. -/
theorem mont_wk {ctx : Mont256CTX} {p : Nat} [hp : Fact p.Prime] (wf : IsMontCtx ctx p) (hbig : 2 ^ 255 < p)
    {K : Type} [Field K] [Algebra (ZMod p) K] {F : FpOps (List W32)}
    (hF : F = ⟨mont256Add ctx, mont256Sub ctx, mont256Mul ctx, mont256Sqr ctx, mont256Dbl ctx, mont256Tpl ctx,
      mont256Neg ctx, mont256Inv ctx, mont256Equal ctx, mont256EqualZero ctx, mont256SetOne ctx, u256Zero⟩) :
    WkHom F (Reduced p) (AtMost p) (fun a => algebraMap (ZMod p) K (montVal p a)) := by
  subst hF
  have ok := wf.ok
  have hP := wf.P.2
  have hinj := (algebraMap (ZMod p) K).injective
  have A := fun {a b} => add_le ok (a := a) (b := b)
  have S := fun {a b} => sub_le ok (a := a) (b := b)
  have M := fun {a b} => mul_le ok (a := a) (b := b)
  have N := fun {a} => neg_le ok (a := a)
  have R1 := canon_R ok
  have R2 := montVal_one ok
  rw [hP] at A S M N R2
  have L : ∀ {a : List W32}, Reduced p a → AtMost p a := fun h => ⟨h.1, h.2.le⟩
  have hz : Reduced p u256Zero := ⟨by decide, by rw [show val u256Zero = 0 by decide]; exact hp.out.pos⟩
  refine ⟨?_, ?_, ?_, ?_, ?_, ?_, ?_, ?_, ?_, ?_, ?_, ?_, ?_, ?_, ?_, ?_, ?_, ?_, ?_, ?_, ?_, ?_, ?_, ?_⟩
  · exact L
  · intro a b ha hb; exact (A (L ha) hb).2.1 (Or.inl ha.2)
  · intro a b ha hb; exact (A ha (L hb)).2.1 (Or.inr hb.2)
  · intro a b ha hb; exact (A ha hb).1
  · intro a b ha hb; show algebraMap _ K (montVal p (mont256Add ctx a b)) = _; rw [(A ha hb).2.2, map_add]
  · intro a b ha hb; exact (S ha hb).1
  · intro a b ha hb; show algebraMap _ K (montVal p (mont256Sub ctx a b)) = _; rw [(S ha hb).2, map_sub]
  · intro a b ha hb; exact (M ha hb).1
  · intro a b ha hb; show algebraMap _ K (montVal p (mont256Mul ctx a b)) = _; rw [(M ha hb).2, map_mul]
  · intro a ha; exact (M ha ha).1
  · intro a ha
    show algebraMap _ K (montVal p (mont256Sqr ctx a)) = _
    rw [mont256Sqr_eq, (M ha ha).2, map_mul, sq]
  · intro a ha; show Reduced p (mont256Dbl ctx a); rw [mont256Dbl_eq]; exact (A (L ha) (L ha)).2.1 (Or.inl ha.2)
  · intro a ha; show AtMost p (mont256Dbl ctx a); rw [mont256Dbl_eq]; exact (A ha ha).1
  · intro a ha
    show algebraMap _ K (montVal p (mont256Dbl ctx a)) = _
    rw [mont256Dbl_eq, (A ha ha).2.2, map_add, two_mul]
  · intro a ha
    obtain ⟨r, r1, r2, -, r4⟩ := Props.C35_mont_tpl wf hbig a ha
    exact ⟨r, r1, r2, by rw [r4, map_mul, map_ofNat]⟩
  · intro a ha; exact (N ha).1
  · intro a ha; show algebraMap _ K (montVal p (mont256Neg ctx a)) = _; rw [(N ha).2.1, map_neg]
  · intro a ha
    obtain ⟨r, r1, r2, r3⟩ := Props.C37_mont_inv wf hp.out a ha
    refine ⟨r, r1, L r2, ?_⟩
    rw [← map_inv₀]
    congr 1
    by_cases h0 : val a = 0
    · rw [(montVal_zero_iff wf ha).mpr h0, (montVal_zero_iff wf r2).mpr (r3.2 h0), inv_zero]
    · exact eq_inv_of_mul_eq_one_left (r3.1 h0)
  · intro a b ha hb
    show u256Equal a b = true ↔ _
    rw [hinj.eq_iff, Props.C34_unique wf a b ha hb, (Props.C31_cmp a b ha.1 hb.1).2]
    exact ⟨val_inj a b (by rw [ha.1, hb.1]), fun h => h ▸ rfl⟩
  · intro a ha
    show u256EqualZero a = true ↔ _
    rw [u256EqualZero_iff, map_eq_zero_iff _ hinj, montVal_zero_iff wf ha]
  · exact (canon_iff wf _).mp R1
  · show algebraMap _ K (montVal p ctx.R) = 1
    rw [R2, map_one]
  · exact hz
  · show algebraMap _ K (montVal p u256Zero) = 0
    rw [(montVal_zero_iff wf hz).mpr (by decide), map_zero]

theorem mont_wkBase {ctx : Mont256CTX} {p : Nat} [hp : Fact p.Prime] (wf : IsMontCtx ctx p) (hbig : 2 ^ 255 < p)
    {K : Type} [Field K] [Algebra (ZMod p) K] {F : FpOps (List W32)}
    (hF : F = ⟨mont256Add ctx, mont256Sub ctx, mont256Mul ctx, mont256Sqr ctx, mont256Dbl ctx, mont256Tpl ctx,
      mont256Neg ctx, mont256Inv ctx, mont256Equal ctx, mont256EqualZero ctx, mont256SetOne ctx, u256Zero⟩) :
    WkBase F (Reduced p) (AtMost p) (fun a => algebraMap (ZMod p) K (montVal p a)) := by
  subst hF
  have ok := wf.ok
  have hP := wf.P.2
  have hinj := (algebraMap (ZMod p) K).injective
  have N := fun {a} => neg_le ok (a := a)
  have Z := fun {a} (ha : Reduced p a) => montVal_zero_iff wf ha
  have W := fun {a b} => sub_wo' ok (a := a) (b := b)
  have X := fun {a b} => sub_exc' ok (by rw [hP]; exact hbig) (a := a) (b := b)
  rw [hP] at N W X
  have L : ∀ {a : List W32}, Reduced p a → AtMost p a := fun h => ⟨h.1, h.2.le⟩
  have hz : ∀ {a : List W32}, Reduced p a → (algebraMap (ZMod p) K (montVal p a) = 0 ↔ val a = 0) := by
    intro a ha
    rw [map_eq_zero_iff _ hinj, Z ha]
  refine ⟨?_, ?_, ?_⟩
  · intro a ha h0
    have := N (L ha)
    rw [Ne, hz ha] at h0
    have hp0 := hp.out.pos
    exact ⟨this.1.1, by show val (mont256Neg ctx a) < p; rw [this.2.2]; omega⟩
  · intro a b ha hb h0
    rw [Ne, hz hb] at h0
    have := W ha hb h0
    refine ⟨this.1, ?_⟩
    show algebraMap _ K (montVal p (mont256Sub ctx a b)) = _
    rw [this.2, map_sub]
  · intro a b ha hb ha0 hb0
    rw [hz ha] at ha0
    rw [hz hb] at hb0
    have n := N (L ha)
    have := X n.1.1 hb.1 (by rw [n.2.2, ha0]; rfl) hb0
    refine ⟨this.1, ?_⟩
    show algebraMap _ K (montVal p (mont256Sub ctx (mont256Neg ctx a) b)) = _
    rw [this.2, map_neg, map_one]

set_option exponentiation.threshold 300 in
theorem sm9p_big : 2 ^ 255 < sm9p := by decide +kernel

theorem sm9fp_wk {K : Type} [Field K] [Algebra (ZMod sm9p) K] :
    WkHom Sm9.fp (Reduced sm9p) (AtMost sm9p) (fpDen (K := K)) :=
  mont_wk Sm9.fpCtx_wf sm9p_big rfl

theorem sm9fp_wkBase {K : Type} [Field K] [Algebra (ZMod sm9p) K] :
    WkBase Sm9.fp (Reduced sm9p) (AtMost sm9p) (fpDen (K := K)) :=
  mont_wkBase Sm9.fpCtx_wf sm9p_big rfl

/-- The same in the prime field itself. -/
theorem sm9fp_wk0 : WkHom Sm9.fp (Reduced sm9p) (AtMost sm9p) (montVal sm9p) :=
  mont_wk (K := ZMod sm9p) Sm9.fpCtx_wf sm9p_big rfl

end Verif
