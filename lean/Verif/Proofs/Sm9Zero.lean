import Verif.Proofs.Sm9Verify
/-! # SM9: coordinates (0, 0), which are not a point, in the scalar multiplication and in signatures -/
set_option linter.unusedSectionVars false
open WeierstrassCurve WeierstrassCurve.Affine
namespace Verif
open Spec

section generic
variable {K : Type} [Field K] [DecidableEq K] {α : Type} {F : FpOps α} {ok wk : α → Prop} {φ : α → K}

theorem dbl0_zero (z : K) : ecJDbl0 (fieldOps K) ⟨0, 0, z⟩ = some ⟨0, 0, 0⟩ := by
  simp only [ecJDbl0, fieldOps, Option.some.injEq, EcJ.mk.injEq]
  refine ⟨?_, ?_, ?_⟩ <;> ring

theorem addA_zero (z : K) : ∃ z', ecJAddA (fieldOps K) ⟨0, 0, z⟩ ⟨0, 0⟩ = ⟨0, 0, z'⟩ := by
  refine ⟨(ecJAddA (fieldOps K) ⟨0, 0, z⟩ ⟨0, 0⟩).z, ?_⟩
  have hx : (ecJAddA (fieldOps K) ⟨0, 0, z⟩ ⟨0, 0⟩).x = 0 := by simp only [ecJAddA, fieldOps]; ring
  have hy : (ecJAddA (fieldOps K) ⟨0, 0, z⟩ ⟨0, 0⟩).y = 0 := by simp only [ecJAddA, fieldOps]; ring
  generalize ecJAddA (fieldOps K) ⟨0, 0, z⟩ ⟨0, 0⟩ = R at *
  obtain ⟨x, y, z'⟩ := R
  simp only at hx hy
  rw [hx, hy]

theorem step0_zero (h : WkHom F ok wk φ) {eL e3 : List W32} (l1 : eL.length = 8) (l2 : e3.length = 8) {A B : EcA α}
    (hA : IsA wk φ A ⟨0, 0⟩) (hB : IsA wk φ B ⟨0, 0⟩) {i : Nat} (hi : i < 256) {T : EcJ α} {z : K}
    (hT : IsJ ok φ T ⟨0, 0, z⟩) : ∃ R z', mulAStep0 F eL e3 A B i T = some R ∧ IsJ ok φ R ⟨0, 0, z'⟩ := by
  obtain ⟨D, D', d1, d2, d3⟩ := hom_dbl0 h.fpHom hT
  rw [dbl0_zero] at d3
  rw [← Option.some.inj d3] at d2
  obtain ⟨z', hz⟩ := addA_zero (0 : K)
  have aA := hom_addA_wk h d2 hA
  have aB := hom_addA_wk h d2 hB
  rw [hz] at aA aB
  unfold mulAStep0
  rw [d1]
  simp only [Props.C31_bittest eL l1 i hi, Props.C31_bittest e3 l2 i hi]
  split_ifs
  · exact ⟨_, _, rfl, aA⟩
  · exact ⟨_, _, rfl, aB⟩
  · exact ⟨_, _, rfl, d2⟩

theorem loop0_zero (h : WkHom F ok wk φ) {eL e3 : List W32} (l1 : eL.length = 8) (l2 : e3.length = 8) {A B : EcA α}
    (hA : IsA wk φ A ⟨0, 0⟩) (hB : IsA wk φ B ⟨0, 0⟩) : ∀ (i : Nat), i < 256 → ∀ (T : EcJ α) (z : K),
    IsJ ok φ T ⟨0, 0, z⟩ → ∃ R z', mulALoop0 F eL e3 A B i T = some R ∧ IsJ ok φ R ⟨0, 0, z'⟩
  | 0, _, T, z, hT => ⟨T, z, rfl, hT⟩
  | i + 1, hi, T, z, hT => by
    obtain ⟨R, z', r1, r2⟩ := step0_zero h l1 l2 hA hB hi hT
    unfold mulALoop0
    rw [r1]
    exact loop0_zero h l1 l2 hA hB i (by omega) R z' r2

/-- Multiplying the coordinates (0, 0) gives the coordinates (0, 0). -/
theorem mulA0_zero (h : WkHom F ok wk φ) {n : List W32} (hn : n.length = 8) {k : List Byte}
    (hk : k.length = 32) {A : EcA α} (hA : IsA ok φ A ⟨0, 0⟩) :
    ∃ R S, ecJMulA0 F n k A = some R ∧ ecJToA F R = some S ∧ IsA ok φ S ⟨0, 0⟩ := by
  have key : ∃ R J, ecJMulA0 F n k A = some R ∧ IsJ ok φ R J ∧ (J.z = 0 ∨ J.x = 0 ∧ J.y = 0) := by
    obtain ⟨hl, hv⟩ := u256FromBytes_spec k hk
    unfold ecJMulA0
    dsimp only
    obtain ⟨eL, e1, e2⟩ : ∃ eL, (if u256Cmp (u256FromBytes k) n ≥ 0
        then (u256SubBorrow (u256FromBytes k) n).1 else u256FromBytes k) = eL ∧ eL.length = 8 := by
      refine ⟨_, rfl, ?_⟩
      split_ifs
      · exact (u256Sub_spec _ _ hl hn).1
      · exact hl
    rw [e1]
    by_cases hz : u256EqualZero eL = true
    · simp only [if_pos hz]
      exact ⟨_, _, rfl, hom_inf h.fpHom, Or.inl rfl⟩
    · simp only [if_neg hz]
      rw [u256EqualZero_iff] at hz
      obtain ⟨-, -, t3, -, -, t6⟩ := Props.C31_add_dbl_tpl eL eL e2 e2
      generalize hr : u256TplCarry eL = r at *
      obtain ⟨e3L, c⟩ := r
      dsimp only at t3 t6 ⊢
      have h3l := len8_lt t6
      have hel := len8_lt e2
      have hw : IsA wk φ A ⟨0, 0⟩ := ⟨h.w hA.1, h.w hA.2⟩
      have hneg : IsA wk φ (ecANeg F A) ⟨0, 0⟩ := ⟨h.w hA.1, (h.iNeg hw.2).val neg_zero⟩
      have hT : IsJ ok φ (ecJFromA F A) ⟨0, 0, 1⟩ := ⟨hA.1, hA.2, ⟨h.one_ok, h.one⟩⟩
      have L := loop0_zero h e2 t6 hw hneg
      by_cases c1 : c = 1
      · rw [if_pos c1]
        obtain ⟨R, z', r1, r2⟩ := L 255 (by omega) _ _ hT
        exact ⟨R, _, r1, r2, Or.inr ⟨rfl, rfl⟩⟩
      · rw [if_neg c1]
        by_cases c2 : c = 2
        · rw [if_pos c2]
          obtain ⟨D, D', d1, d2, d3⟩ := hom_dbl0 h.fpHom hT
          rw [dbl0_zero] at d3
          rw [← Option.some.inj d3] at d2
          rw [d1]
          obtain ⟨R, z', r1, r2⟩ := L 255 (by omega) _ _ d2
          exact ⟨R, _, r1, r2, Or.inr ⟨rfl, rfl⟩⟩
        · rw [if_neg c2]
          have hc : c.toNat = 0 := by
            have h1 : c.toNat ≠ 1 := fun h => c1 (BitVec.eq_of_toNat_eq h)
            have h2 : c.toNat ≠ 2 := fun h => c2 (BitVec.eq_of_toNat_eq h)
            omega
          rw [hc] at t3
          obtain ⟨t, u1, u2, -, -⟩ := topBit_ok t6 255 (by omega) (by omega) (by omega)
          rw [u1]
          obtain ⟨R, z', r1, r2⟩ := L (t - 1) (by omega) _ _ hT
          exact ⟨R, _, r1, r2, Or.inr ⟨rfl, rfl⟩⟩
  obtain ⟨R, J, r1, r2, r3⟩ := key
  obtain ⟨S, S', s1, s2, s3⟩ := hom_toA_wk h r2
  refine ⟨R, S, r1, s1, ?_⟩
  have : S' = ⟨0, 0⟩ := by
    simp only [ecJToA, fieldOps, Option.some.injEq] at s3
    rw [← s3]
    rcases r3 with e | ⟨ex, ey⟩
    · rw [e, inv_zero]; congr 1 <;> ring
    · rw [ex, ey]; congr 1 <;> ring
  rw [← this]
  exact s2

end generic

/-! ## Encodings of (0, 0) do not decode -/

theorem five_nonsquare (y : ZMod sm9p) : y ^ 2 ≠ 5 := by
  intro h
  have hy : y ≠ 0 := sm9_y_ne (x := 0) (by rw [h]; ring)
  have e : (5 : ZMod sm9p) ^ ((sm9p - 1) / 2) = 1 := by
    rw [← h, ← pow_mul, show 2 * ((sm9p - 1) / 2) = sm9p - 1 by decide +kernel]
    exact ZMod.pow_card_sub_one_eq_one hy
  have := powMod_spec sm9p 256 5 ((sm9p - 1) / 2) 1 (by decide +kernel)
  rw [show (((5 : Nat) : ZMod sm9p)) = 5 from rfl, e, Nat.cast_one, one_mul,
    show (1 : ZMod sm9p) = ((1 : Nat) : ZMod sm9p) from Nat.cast_one.symm, ZMod.natCast_eq_natCast_iff'] at this
  revert this
  decide +kernel

theorem zero_limbs {a : List W32} (ha : Reduced sm9p a) (h0 : montVal sm9p a = 0) : a = Sm9.fpFromBytes (List.replicate 32 0) := by
  obtain ⟨x1, x2⟩ := s9From_ok (bs := List.replicate 32 0) (by decide)
  refine (Props.C34_unique Sm9.fpCtx_wf _ _ ha x1).mp ?_
  rw [h0, x2, show beVal (List.replicate 32 0) = 0 by decide]
  exact Nat.cast_zero.symm

/-- No encoding of the coordinates (0, 0) is accepted, nor does the decoder read past it. -/
theorem enc_zero (pc : Sm2.PC) {A : Sm9.A} (hx : Reduced sm9p A.x) (hy : Reduced sm9p A.y) (zx : montVal sm9p A.x = 0)
    (zy : montVal sm9p A.y = 0) :
    Sm9.ecAFromBytes (Sm9.encPoint pc A) (Sm9.encPoint pc A).length = .fail := by
  have e : A = ⟨Sm9.fpFromBytes (List.replicate 32 0), Sm9.fpFromBytes (List.replicate 32 0)⟩ := by
    obtain ⟨x, y⟩ := A
    exact congrArg₂ EcA.mk (zero_limbs hx zx) (zero_limbs hy zy)
  rw [e]
  cases pc with
  | uncompressed => decide +kernel
  | mix => decide +kernel
  | compressed =>
    have hc : Sm9.encPoint .compressed ⟨Sm9.fpFromBytes (List.replicate 32 0), Sm9.fpFromBytes (List.replicate 32 0)⟩ =
        0x02 :: List.replicate 32 0 := by decide +kernel
    rw [hc]
    cases hr : Sm9.ecAFromBytes (0x02 :: List.replicate 32 0) (0x02 :: List.replicate 32 (0 : Byte)).length with
    | fail => rfl
    | ub =>
      exfalso
      obtain ⟨-, h | ⟨b, rest, h, ⟨h1, -⟩ | ⟨-, h2⟩⟩⟩ := (Props.C53_decoder_overread_iff _ _).mp hr
      · cases h
      · obtain ⟨rfl, -⟩ := List.cons.inj h
        exact absurd h1 (by decide)
      · obtain ⟨-, rfl⟩ := List.cons.inj h
        exact absurd h2 (by decide)
    | ok r =>
      exfalso
      obtain ⟨R, n⟩ := r
      obtain ⟨-, Q, -, y, h, -, -⟩ := (s9Comp_iff (Or.inl rfl) (by decide) (by decide) R n).mp hr
      have := sm9_onCurve h
      rw [show beVal ((List.replicate 32 (0 : Byte)).take 32) = 0 by decide] at this
      refine five_nonsquare y ?_
      rw [this, Nat.cast_zero]
      ring

/-- A signature with such a point is rejected, whatever the rest. -/
theorem verify_zero {S : Type} {C : HashClass S} (pub : Sm9.MPub) {h : List Byte} (hl : h.length = 32) (pc : Sm2.PC) {A : Sm9.A}
    (hx : Reduced sm9p A.x) (hy : Reduced sm9p A.y) (zx : montVal sm9p A.x = 0) (zy : montVal sm9p A.y = 0)
    (msg id : List Byte) (hid : Byte) : Sm9.verify C pub (h ++ Sm9.encPoint pc A) msg id hid = .returns false := by
  have hd : (h ++ Sm9.encPoint pc A).drop 32 = Sm9.encPoint pc A := List.drop_left' hl
  have hlen : (h ++ Sm9.encPoint pc A).length - 32 = (Sm9.encPoint pc A).length := by
    rw [List.length_append, hl]; omega
  refine (verify_parse pub _ msg id hid).2.2.1 (by rw [List.length_append]; omega) ?_
  rw [hd, hlen]
  exact enc_zero pc hx hy zx zy


section
variable {K : Type} [Field K] [Algebra (ZMod sm9p) K] [DecidableEq K] {w : K} (hw : w ^ 12 = -2)
include hw

/-- The multiple `N - 2` of the generator of `G2`. -/
theorem g2_weak {k : List Byte} (hk : k.length = 32) (hne : beVal k = sm9n - 2) :
    ∃ R P, Sm9.j2MulG k = some R ∧ Sm9.j2ToA R = some P ∧ All2 (Reduced sm9p) P.x ∧ All2 (Reduced sm9p) P.y ∧
      fp2Den w P.x = 0 ∧ fp2Den w P.y = 0 := by
  obtain ⟨R, r1, r2⟩ := Props.C57_g2_mul_exact hw k hk Sm9.p2 (sm9G2 hw) (sm9_order2 hw) (p2_ok hw)
  rw [if_pos (by rw [hne]; exact Nat.mod_eq_of_lt (by decide +kernel))] at r2
  obtain ⟨P, s1, s2, s3, s4, s5⟩ := toA_inf (sm9fp2_wk hw) r2
  exact ⟨R, P, r1, s1, s2, s3, s4, s5⟩

/-- The master key `N - 2`. -/
theorem setPriv_weak {key : List Byte} (hl : key.length = 32) (hne : beVal key = sm9n - 2) :
    ∃ P e, Sm9.setPriv key = .ok ⟨key, ⟨P, e⟩⟩ ∧ All2 (Reduced sm9p) P.x ∧ All2 (Reduced sm9p) P.y ∧
      fp2Den w P.x = 0 ∧ fp2Den w P.y = 0 ∧ All12 (Reduced sm9p) e ∧ fp12Den w e = 0 ∧ Sm9.pairing Sm9.p1 P = some e := by
  obtain ⟨R, P, r1, r2, r3, r4, r5, r6⟩ := g2_weak hw hl hne
  obtain ⟨e, e1, e2, e3⟩ := pairing_zero hw p1_ok.1 p1_ok.2.1 r3 r4 r5 r6
  refine ⟨P, e, ?_, r3, r4, r5, r6, e2, e3, e1⟩
  obtain ⟨z1, z2⟩ := s9range_iff hl
  have hp : 2 < sm9n := s9_pos
  unfold Sm9.setPriv
  simp only
  rw [if_neg (by rintro (h | h); exacts [by have := z1.mp h; omega, by have := z2.mp h; omega])]
  unfold Sm9.withPub Sm9.pairingP1
  rw [r1, ofOption_some, o_bind, r2, ofOption_some, o_bind, e1, ofOption_some, o_bind]

/-- The verifier's second point when `H1(id)` is the master key, its negative, or `N - 2`. -/
theorem verPoint_weak {h1 ks : Nat} {P : Sm9.A2} (hP : Sm9IsAffine2 w P (ks • sm9G2 hw)) (a2 : h1 < sm9n)
    (h : h1 = ks ∨ h1 = sm9n - 2 ∨ h1 + ks = sm9n) :
    ∃ T B, Sm9.j2MulG (toBE 32 h1) = some T ∧ Sm9.j2ToA (Sm9.j2AddA T P) = some B ∧ fp2Den w B.x = 0 ∧
      fp2Den w B.y = 0 := by
  have hv := beVal_toBE_n a2
  obtain ⟨T, r1, r2⟩ := Props.C57_g2_mul_exact hw (toBE 32 h1) (toBE_len _ _) Sm9.p2 (sm9G2 hw) (sm9_order2 hw) (p2_ok hw)
  rw [hv, Nat.mod_eq_of_lt a2] at r2
  have hA := (Props.C64_g2_partial hw T T P _ _ _ r2 r2 hP).2.2.1
  have hc : ((if h1 = sm9n - 2 then 0 else h1 • sm9G2 hw) = 0 ∨
      (if h1 = sm9n - 2 then 0 else h1 • sm9G2 hw) = ks • sm9G2 hw) ∨
      (if h1 = sm9n - 2 then 0 else h1 • sm9G2 hw) + ks • sm9G2 hw = 0 := by
    by_cases e : h1 = sm9n - 2
    · left; left; rw [if_pos e]
    · rw [if_neg e]
      rcases h with h | h | h
      · left; right; rw [h]
      · exact absurd h e
      · right; rw [← add_nsmul, h]; exact sm9_nG2 hw
  have hA : Sm9IsJacobian2 w (Sm9.j2AddA T P) 0 := by
    by_cases hq : (if h1 = sm9n - 2 then 0 else h1 • sm9G2 hw) = 0 ∨
      (if h1 = sm9n - 2 then 0 else h1 • sm9G2 hw) = ks • sm9G2 hw
    · rwa [if_pos hq] at hA
    · rwa [if_neg hq, hc.resolve_left hq] at hA
  obtain ⟨B, s1, -, -, s4, s5⟩ := toA_inf (sm9fp2_wk hw) hA
  exact ⟨T, B, r1, s1, s4, s5⟩

end

/-- The multiple `N - 2` of the base point of `G1`. -/
theorem g1_weak {k : List Byte} (hk : k.length = 32) (hne : beVal k = sm9n - 2) :
    ∃ R P, Sm9.jMulG k = some R ∧ Sm9.jToA R = some P ∧ Reduced sm9p P.x ∧ Reduced sm9p P.y ∧
      montVal sm9p P.x = 0 ∧ montVal sm9p P.y = 0 := by
  obtain ⟨R, r1, r2⟩ := Props.C57_mul_exact k hk Sm9.p1 sm9G p1_ok
  rw [if_pos (by rw [hne]; exact Nat.mod_eq_of_lt (by decide +kernel))] at r2
  obtain ⟨P, s1, s2, s3, s4, s5⟩ := toA_inf sm9fp_wk0 r2
  exact ⟨R, P, r1, s1, s2, s3, s4, s5⟩

section
variable {K : Type} [Field K] [Algebra (ZMod sm9p) K] [DecidableEq K] {w : K} (hw : w ^ 12 = -2)
variable {S : Type} {C : HashClass S} {H : List Byte → List Byte}

theorem genSignPriv_long (hC : IsHash C H) {mk : Sm9.MPriv} (id : List Byte) (hid : Byte)
    (h : ¬ 8 * (id.length + 6) < 2 ^ 64) : Sm9.genSignPriv C mk id hid = .throw := by
  have hh := hn_ok hC id [hid] 1
  rw [if_neg (by simp only [List.length_cons, List.length_nil]; omega)] at hh
  unfold Sm9.genSignPriv
  simp only
  rw [hh, t_bind]

/-- The private key when the multiplier is `N - 2`. -/
theorem genSignPriv_weak (hC : IsHash C H) {mk : Sm9.MPriv} (hl : mk.ks.length = 32) (id : List Byte) (hid : Byte)
    (hid1 : 8 * (id.length + 6) < 2 ^ 64)
    (h0 : (sm9H H C.DS 1 (id ++ [hid]) : ZMod sm9n) + (beVal mk.ks : ZMod sm9n) ≠ 0)
    (hne : ((beVal mk.ks : ZMod sm9n) * ((sm9H H C.DS 1 (id ++ [hid]) : ZMod sm9n) +
      (beVal mk.ks : ZMod sm9n))⁻¹).val = sm9n - 2) :
    ∃ D, Sm9.genSignPriv C mk id hid = .ok ⟨D, mk.pub⟩ ∧ Reduced sm9p D.x ∧ Reduced sm9p D.y ∧
      montVal sm9p D.x = 0 ∧ montVal sm9p D.y = 0 := by
  obtain ⟨r1, r2⟩ := sm9H_range (H := H) C.DS 1 (id ++ [hid])
  have hh := hn_ok hC id [hid] 1
  rw [if_pos (by simp only [List.length_cons, List.length_nil]; omega)] at hh
  generalize sm9H H C.DS 1 (id ++ [hid]) = h1 at *
  have ik := s9fn_fromBytes hl
  have ih := s9fn_fromBytes (toBE_len 32 h1)
  rw [beVal_toBE_n r2] at ih
  have ia := s9fn_add ih ik
  obtain ⟨i, i1, i2⟩ := s9fn_inv ia
  have im := s9fn_mul ik i2
  have ib := s9fn_toBytes im
  rw [hne] at ib
  obtain ⟨R, D, d1, d2, d3, d4, d5, d6⟩ := g1_weak (k := toBE 32 (sm9n - 2)) (toBE_len _ _)
    (beVal_toBE_n (by decide +kernel))
  refine ⟨D, ?_, d3, d4, d5, d6⟩
  unfold Sm9.genSignPriv
  simp only
  rw [hh, o_bind, if_neg (fun h => h0 ((s9fn_zero_iff ia).mp h))]
  show (Outcome.ofOption (mont256Inv Sm9.fnCtx _) >>= _) = _
  rw [i1, ofOption_some, o_bind]
  show (Outcome.ofOption (Sm9.jMulG (mont256ToBytes Sm9.fnCtx _)) >>= _) = _
  rw [ib, d1, ofOption_some, o_bind, d2, ofOption_some, o_bind]

include hw

theorem s9signStep_long (hC : IsHash C H) {key : Sm9.SPriv} (he : All12 (Reduced sm9p) key.pub.e) (msg rnd : List Byte)
    (hr : rnd.length = 32) (pc : Sm2.PC) (hm : ¬ 8 * (msg.length + 389) < 2 ^ 64) :
    Sm9.signStep C key msg rnd pc = .throw := by
  have hln := s9nonce_len hr
  obtain ⟨n1, n2⟩ := s9nonce_range hr
  have htk : (Sm9.nonce rnd).take 32 = Sm9.nonce rnd := List.take_of_length_le (by omega)
  obtain ⟨W, w1, w2, -⟩ := Props.C61_fp12_pow_partial hw key.pub.e he (Sm9.nonce rnd) (by rw [htk]; omega)
  have hh := hn_ok hC msg (Sm9.fp12ToBytes W) 2
  rw [(Props.C51_bytes W w2).1, if_neg (by omega)] at hh
  unfold Sm9.signStep
  simp only
  rw [w1, ofOption_some, o_bind, hh, t_bind]

/-- Signing with a private key whose coordinates are (0, 0). -/
theorem s9signStep_zero (hC : IsHash C H) {key : Sm9.SPriv} (px : Reduced sm9p key.priv.x) (py : Reduced sm9p key.priv.y)
    (zx : montVal sm9p key.priv.x = 0) (zy : montVal sm9p key.priv.y = 0)
    (he : All12 (Reduced sm9p) key.pub.e) (msg rnd : List Byte) (hr : rnd.length = 32) (pc : Sm2.PC) :
    Sm9.signStep C key msg rnd pc = .throw ∨ Sm9.signStep C key msg rnd pc = .ok none ∨
    ∃ h A, h.length = 32 ∧ Reduced sm9p A.x ∧ Reduced sm9p A.y ∧ montVal sm9p A.x = 0 ∧ montVal sm9p A.y = 0 ∧
      Sm9.signStep C key msg rnd pc = .ok (some (h ++ Sm9.encPoint pc A)) := by
  have hln := s9nonce_len hr
  obtain ⟨n1, n2⟩ := s9nonce_range hr
  have htk : (Sm9.nonce rnd).take 32 = Sm9.nonce rnd := List.take_of_length_le (by omega)
  obtain ⟨W, w1, w2, -⟩ := Props.C61_fp12_pow_partial hw key.pub.e he (Sm9.nonce rnd) (by rw [htk]; omega)
  have hh := hn_ok hC msg (Sm9.fp12ToBytes W) 2
  rw [(Props.C51_bytes W w2).1] at hh
  unfold Sm9.signStep
  simp only
  rw [w1, ofOption_some, o_bind, hh]
  by_cases hm : 8 * (msg.length + 384 + 5) < 2 ^ 64
  · rw [if_pos hm, o_bind]
    have is := s9fn_sub (s9fn_fromBytes hln) (s9fn_fromBytes (toBE_len 32 (sm9H H C.DS 2 (msg ++ Sm9.fp12ToBytes W))))
    rw [s9fn_toBytes is]
    by_cases hz : mont256EqualZero Sm9.fnCtx (mont256Sub Sm9.fnCtx (mont256FromBytes Sm9.fnCtx (Sm9.nonce rnd))
        (mont256FromBytes Sm9.fnCtx (toBE 32 (sm9H H C.DS 2 (msg ++ Sm9.fp12ToBytes W))))) = true
    · rw [if_pos hz]; exact Or.inr (Or.inl rfl)
    · rw [if_neg hz]
      obtain ⟨R, A, a1, a2, a3⟩ := mulA0_zero sm9fp_wk0 (n := Sm9.nLimbs) (by decide)
        (k := toBE 32 ((beVal (Sm9.nonce rnd) : ZMod sm9n) -
          (beVal (toBE 32 (sm9H H C.DS 2 (msg ++ Sm9.fp12ToBytes W))) : ZMod sm9n)).val) (toBE_len _ _) (A := key.priv)
        ⟨⟨px, zx⟩, ⟨py, zy⟩⟩
      refine Or.inr (Or.inr ⟨_, A, toBE_len 32 (sm9H H C.DS 2 (msg ++ Sm9.fp12ToBytes W)), a3.1.1, a3.2.1, a3.1.2, a3.2.2, ?_⟩)
      have a1' : Sm9.jMulA _ key.priv = some R := a1
      have a2' : Sm9.jToA R = some A := a2
      rw [a1', ofOption_some, o_bind, a2', ofOption_some, o_bind]
  · rw [if_neg hm, t_bind]
    exact Or.inl rfl

end

end Verif
