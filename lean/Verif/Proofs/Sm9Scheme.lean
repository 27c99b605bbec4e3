import Verif.Proofs.Sm9Hash
import Verif.Props.Sm9Ec
import Verif.Props.Sm9Field
/-! # SM9 signatures: signing and verification for a pairing value raised to the right power -/
set_option linter.unusedSectionVars false
namespace Verif
open Spec WeierstrassCurve WeierstrassCurve.Affine

theorem s9_lt : sm9n < 256 ^ 32 := by decide +kernel
theorem s9_pos : 2 < sm9n := by decide +kernel

theorem beVal_toBE_n {a : Nat} (h : a < sm9n) : beVal (toBE 32 a) = a := by
  rw [beVal_toBE, Nat.mod_eq_of_lt (h.trans s9_lt)]

theorem toBE_beq {a b : Nat} (ha : a < sm9n) (hb : b < sm9n) : (toBE 32 a == toBE 32 b) = decide (a = b) := by
  rw [Bool.eq_iff_iff, beq_iff_eq, decide_eq_true_iff]
  refine ⟨fun e => ?_, fun e => by rw [e]⟩
  have := congrArg beVal e
  rwa [beVal_toBE_n ha, beVal_toBE_n hb] at this

theorem s9range_iff {bs : List Byte} (h : bs.length = 32) :
    (u256EqualZero (u256FromBytes bs) = true ↔ beVal bs = 0) ∧
    (u256Cmp (u256FromBytes bs) (u256FromBytes Sm9.sm9CurveN) ≥ 0 ↔ sm9n ≤ beVal bs) := by
  obtain ⟨l, v⟩ := u256FromBytes_spec bs h
  obtain ⟨ln, vn⟩ := u256FromBytes_spec Sm9.sm9CurveN (by decide)
  have hn : beVal Sm9.sm9CurveN = sm9n := by decide +kernel
  rw [hn] at vn
  refine ⟨by rw [u256EqualZero_iff, v], ?_⟩
  have hc := (Props.C31_cmp _ _ l ln).1
  rw [v, vn] at hc
  rw [hc]
  split_ifs <;> omega

/-- Affine multiples in `G1`. -/
theorem s9mul_affine {k : List Byte} (hk : k.length = 32) (h1 : 1 ≤ beVal k) (h2 : beVal k < sm9n)
    (hne : beVal k ≠ sm9n - 2) {A : Sm9.A} {Q : Sm9Point} (hA : Sm9IsAffine A Q) :
    ∃ R a, Sm9.jMulA k A = some R ∧ Sm9.jToA R = some a ∧ Sm9IsAffine a (beVal k • Q) := by
  have hQ : Q ≠ 0 := by obtain ⟨-, -, hs, e⟩ := hA; rw [e]; exact Point.some_ne_zero _
  obtain ⟨R, r1, r2⟩ := Props.C57_mul_partial k hk A Q hA (by rw [Nat.mod_eq_of_lt h2]; exact hne)
  have hz : beVal k • Q ≠ 0 := fun h => by
    have := addOrderOf_dvd_of_nsmul_eq_zero h
    rw [sm9_order hQ] at this
    exact absurd (Nat.le_of_dvd h1 this) (by omega)
  obtain ⟨S, s1, s2⟩ := toA_ok sm9fp_wk0 r2 hz
  exact ⟨R, S, r1, s1, s2⟩

section
variable {K : Type} [Field K] [Algebra (ZMod sm9p) K] [DecidableEq K] {w : K} (hw : w ^ 12 = -2)
include hw

theorem s9_nsmul2_zero {m : Nat} : m • sm9G2 hw = 0 ↔ sm9n ∣ m := by
  rw [← sm9_order2 hw]; exact addOrderOf_dvd_iff_nsmul_eq_zero.symm

/-- Affine multiples of the generator of `G2`. -/
theorem s9mulG2_affine {k : List Byte} (hk : k.length = 32) (h1 : 1 ≤ beVal k) (h2 : beVal k < sm9n)
    (hne : beVal k ≠ sm9n - 2) :
    ∃ R a, Sm9.j2MulG k = some R ∧ Sm9IsJacobian2 w R (beVal k • sm9G2 hw) ∧ Sm9.j2ToA R = some a ∧
      Sm9IsAffine2 w a (beVal k • sm9G2 hw) := by
  obtain ⟨R, r1, r2⟩ := Props.C57_g2_mul_exact hw k hk Sm9.p2 (sm9G2 hw) (sm9_order2 hw) (p2_ok hw)
  rw [if_neg (by rw [Nat.mod_eq_of_lt h2]; exact hne)] at r2
  have hz : beVal k • sm9G2 hw ≠ 0 := fun h =>
    absurd (Nat.le_of_dvd h1 ((s9_nsmul2_zero hw).mp h)) (by omega)
  obtain ⟨S, s1, s2⟩ := toA_ok (sm9fp2_wk hw) r2 hz
  exact ⟨R, S, r1, r2, s1, s2⟩

/-- The point `[h1]P2 + Ppub` of the verifier. -/
theorem s9verPoint {h1 ks : Nat} {P : Sm9.A2} (hP : Sm9IsAffine2 w P (ks • sm9G2 hw)) (a1 : 1 ≤ h1) (a2 : h1 < sm9n)
    (a3 : h1 ≠ sm9n - 2) (k2 : ks < sm9n) (ne : h1 ≠ ks) (nz : h1 + ks ≠ sm9n) :
    ∃ T B, Sm9.j2MulG (toBE 32 h1) = some T ∧ Sm9.j2ToA (Sm9.j2AddA T P) = some B ∧
      Sm9IsAffine2 w B ((h1 + ks) • sm9G2 hw) := by
  have hv := beVal_toBE_n a2
  obtain ⟨T, -, t1, t2, -⟩ := s9mulG2_affine hw (toBE_len 32 h1) (by rw [hv]; exact a1) (by rw [hv]; exact a2)
    (by rw [hv]; exact a3)
  rw [hv] at t2
  have hA := (Props.C64_g2_partial hw T T P _ _ _ t2 t2 hP).2.2.1
  have n1 : h1 • sm9G2 hw ≠ 0 := fun h => absurd (Nat.le_of_dvd a1 ((s9_nsmul2_zero hw).mp h)) (by omega)
  have n2 : h1 • sm9G2 hw ≠ ks • sm9G2 hw := fun h => by
    have h3 := h
    rw [nsmul_eq_nsmul_iff_modEq, sm9_order2 hw] at h3
    unfold Nat.ModEq at h3
    rw [Nat.mod_eq_of_lt a2, Nat.mod_eq_of_lt k2] at h3
    exact ne h3
  rw [if_neg (by rintro (h | h); exacts [n1 h, n2 h]), ← add_nsmul] at hA
  have n3 : (h1 + ks) • sm9G2 hw ≠ 0 := fun h => by
    obtain ⟨c, hc⟩ := (s9_nsmul2_zero hw).mp h
    have h0 : c ≠ 0 := by rintro rfl; omega
    have h2 : c ≠ 1 := by rintro rfl; omega
    have : sm9n * 2 ≤ sm9n * c := Nat.mul_le_mul_left _ (by omega)
    omega
  obtain ⟨B, b1, b2⟩ := toA_ok (sm9fp2_wk hw) hA n3
  exact ⟨T, B, t1, b1, b2⟩

/-- `w ^ a` depends on the exponent modulo the order. -/
theorem pow_mod_eq {g : K} (hg : g ^ sm9n = 1) {a b : Nat} (h : (a : ZMod sm9n) = b) : g ^ a = g ^ b := by
  have hm : a % sm9n = b % sm9n := (ZMod.natCast_eq_natCast_iff' _ _ _).mp h
  rw [← Nat.div_add_mod a sm9n, ← Nat.div_add_mod b sm9n, pow_add, pow_add, pow_mul, pow_mul, hg, one_pow, one_pow, hm]

variable {S : Type} {C : HashClass S} {H : List Byte → List Byte}

/-- `gen_SignPrivateKey`: `t2 = ks / (h1 + ks)`, key `[t2]P1`. -/
theorem genSignPriv_ok (hC : IsHash C H) {mk : Sm9.MPriv} (hl : mk.ks.length = 32) (id : List Byte) (hid : Byte)
    (hid1 : 8 * (id.length + 6) < 2 ^ 64) :
    let h1 := sm9H H C.DS 1 (id ++ [hid])
    let t2 : ZMod sm9n := (beVal mk.ks : ZMod sm9n) * ((h1 : ZMod sm9n) + (beVal mk.ks : ZMod sm9n))⁻¹
    (((h1 : ZMod sm9n) + (beVal mk.ks : ZMod sm9n) = 0) → Sm9.genSignPriv C mk id hid = .throw) ∧
    (((h1 : ZMod sm9n) + (beVal mk.ks : ZMod sm9n) ≠ 0) → (beVal mk.ks : ZMod sm9n) ≠ 0 → t2.val ≠ sm9n - 2 →
      ∃ D, Sm9.genSignPriv C mk id hid = .ok ⟨D, mk.pub⟩ ∧ Sm9IsAffine D (t2.val • sm9G)) := by
  intro h1 t2
  obtain ⟨r1, r2⟩ := sm9H_range (H := H) C.DS 1 (id ++ [hid])
  have hh := hn_ok hC id [hid] 1
  rw [if_pos (by simp only [List.length_cons, List.length_nil]; omega)] at hh
  have ik := s9fn_fromBytes hl
  have ih := s9fn_fromBytes (toBE_len 32 h1)
  rw [beVal_toBE_n r2] at ih
  have ia := s9fn_add ih ik
  unfold Sm9.genSignPriv
  simp only
  rw [hh, o_bind]
  constructor
  · intro h0
    rw [if_pos ((s9fn_zero_iff ia).mpr h0)]
  · intro h0 hk hne
    rw [if_neg (fun h => h0 ((s9fn_zero_iff ia).mp h))]
    obtain ⟨i, i1, i2⟩ := s9fn_inv ia
    have im := s9fn_mul ik i2
    have ib := s9fn_toBytes im
    have hv := beVal_toBE_n (ZMod.val_lt t2)
    have hp : 1 ≤ t2.val := by
      have : t2 ≠ 0 := mul_ne_zero hk (inv_ne_zero h0)
      exact Nat.pos_of_ne_zero (fun h => this ((ZMod.val_eq_zero t2).mp h))
    obtain ⟨R, D, d1, d2, d3⟩ := s9mul_affine (toBE_len 32 t2.val) (by rw [hv]; exact hp)
      (by rw [hv]; exact ZMod.val_lt t2) (by rw [hv]; exact hne) p1_ok
    rw [hv] at d3
    have d1' : Sm9.jMulG (toBE 32 t2.val) = some R := d1
    refine ⟨D, ?_, d3⟩
    show (Outcome.ofOption (mont256Inv Sm9.fnCtx _) >>= _) = _
    rw [i1, ofOption_some, o_bind]
    show (Outcome.ofOption (Sm9.jMulG (mont256ToBytes Sm9.fnCtx _)) >>= _) = _
    rw [ib]
    show (Outcome.ofOption (Sm9.jMulG (toBE 32 t2.val)) >>= _) = _
    rw [d1', ofOption_some, o_bind, d2, ofOption_some, o_bind]

/-- One pass of signing. -/
theorem s9signStep_ok (hC : IsHash C H) {key : Sm9.SPriv} {D : Sm9Point} (hD : Sm9IsAffine key.priv D)
    (he : All12 (Reduced sm9p) key.pub.e) (msg rnd : List Byte) (hr : rnd.length = 32) (pc : Sm2.PC)
    (hm : 8 * (msg.length + 389) < 2 ^ 64) :
    ∃ W, All12 (Reduced sm9p) W ∧ fp12Den w W = fp12Den w key.pub.e ^ (beVal rnd % (sm9n - 1) + 1) ∧
      let r := beVal rnd % (sm9n - 1) + 1
      let h := sm9H H C.DS 2 (msg ++ Sm9.fp12ToBytes W)
      let l := ((r : ZMod sm9n) - (h : ZMod sm9n)).val
      (r = h → Sm9.signStep C key msg rnd pc = .ok none) ∧
      (r ≠ h → l ≠ sm9n - 2 → 1 ≤ l ∧ ∃ A, Sm9IsAffine A (l • D) ∧
        Sm9.signStep C key msg rnd pc = .ok (some (toBE 32 h ++ Sm9.encPoint pc A))) ∧
      (r ≠ h → l = sm9n - 2 → ∃ A, montVal sm9p A.x = 0 ∧ montVal sm9p A.y = 0 ∧ Reduced sm9p A.x ∧ Reduced sm9p A.y ∧
        Sm9.signStep C key msg rnd pc = .ok (some (toBE 32 h ++ Sm9.encPoint pc A))) := by
  have hln := s9nonce_len hr
  obtain ⟨n1, n2⟩ := s9nonce_range hr
  have hnv := s9nonce_val hr
  have htk : (Sm9.nonce rnd).take 32 = Sm9.nonce rnd := List.take_of_length_le (by omega)
  obtain ⟨W, w1, w2, w3⟩ := Props.C61_fp12_pow_partial hw key.pub.e he (Sm9.nonce rnd) (by rw [htk]; omega)
  rw [htk, hnv] at w3
  refine ⟨W, w2, w3, ?_⟩
  have hh := hn_ok hC msg (Sm9.fp12ToBytes W) 2
  have hl384 := (Props.C51_bytes W w2).1
  rw [if_pos (by rw [hl384]; omega)] at hh
  rw [hnv] at n1 n2
  intro r h l
  obtain ⟨r1, r2⟩ := sm9H_range (H := H) C.DS 2 (msg ++ Sm9.fp12ToBytes W)
  have ir := s9fn_fromBytes hln
  rw [hnv] at ir
  have ih := s9fn_fromBytes (toBE_len 32 h)
  rw [beVal_toBE_n r2] at ih
  have is := s9fn_sub ir ih
  have hz : ((r : ZMod sm9n) - (h : ZMod sm9n) = 0) ↔ r = h := by
    rw [sub_eq_zero, ZMod.natCast_eq_natCast_iff', Nat.mod_eq_of_lt n2, Nat.mod_eq_of_lt r2]
  have step : Sm9.signStep C key msg rnd pc =
      (if mont256EqualZero Sm9.fnCtx (mont256Sub Sm9.fnCtx (mont256FromBytes Sm9.fnCtx (Sm9.nonce rnd))
          (mont256FromBytes Sm9.fnCtx (toBE 32 h))) then .ok none
       else (Outcome.ofOption (Sm9.jMulA (toBE 32 l) key.priv)) >>= fun S => (Outcome.ofOption (Sm9.jToA S)) >>= fun S =>
          .ok (some (toBE 32 h ++ Sm9.encPoint pc S))) := by
    unfold Sm9.signStep
    simp only
    rw [w1, ofOption_some, o_bind, hh, o_bind, s9fn_toBytes is]
  have hlv : beVal (toBE 32 l) = l := beVal_toBE_n (ZMod.val_lt _)
  refine ⟨fun e => ?_, fun hne hl => ?_, fun hne hl => ?_⟩
  · rw [step, if_pos ((s9fn_zero_iff is).mpr (hz.mpr e))]
  · have hpos : 1 ≤ l := Nat.pos_of_ne_zero (fun h0 => hne (hz.mp ((ZMod.val_eq_zero _).mp h0)))
    obtain ⟨R, A, a1, a2, a3⟩ := s9mul_affine (toBE_len 32 l) (by rw [hlv]; exact hpos)
      (by rw [hlv]; exact ZMod.val_lt _) (by rw [hlv]; exact hl) hD
    rw [hlv] at a3
    refine ⟨hpos, A, a3, ?_⟩
    rw [step, if_neg (fun h0 => hne (hz.mp ((s9fn_zero_iff is).mp h0))), a1, ofOption_some, o_bind, a2, ofOption_some,
      o_bind]
  · obtain ⟨R, r1, r2⟩ := Props.C57_mul_exact (toBE 32 l) (toBE_len 32 l) key.priv D hD
    rw [if_pos (by rw [hlv, hl]; exact Nat.mod_eq_of_lt (by have := s9_pos; omega))] at r2
    obtain ⟨A, s1, s2, s3, s4, s5⟩ := toA_inf sm9fp_wk0 r2
    refine ⟨A, s4, s5, s2, s3, ?_⟩
    have s1' : Sm9.jToA R = some A := s1
    rw [step, if_neg (fun h0 => hne (hz.mp ((s9fn_zero_iff is).mp h0))), r1, ofOption_some, o_bind, s1', ofOption_some,
      o_bind]

theorem enc_len (pc : Sm2.PC) {A : Sm9.A} {Q : Sm9Point} (hA : Sm9IsAffine A Q) :
    Sm9.ecAFromBytes (Sm9.encPoint pc A) (Sm9.encPoint pc A).length = .ok (A, (Sm9.encPoint pc A).length) := by
  have hne : (Sm9.encPoint pc A).length ≠ 0 := by
    cases pc <;> simp [Sm9.encPoint, Sm9.toUncompressed, Sm9.toCompressed, Sm9.toMix]
  obtain ⟨e1, e2, e3⟩ := Props.C65_round_trip A Q hA [] (Sm9.encPoint pc A).length hne
  rw [List.append_nil] at e1 e2 e3
  cases pc
  · exact e1
  · exact e2
  · exact e3

/-- Verification of `h ‖ S` with both pairing values known. -/
theorem verify_of (hC : IsHash C H) {pub : Sm9.MPub} {ks : Nat} (hP : Sm9IsAffine2 w pub.P (ks • sm9G2 hw))
    (he : All12 (Reduced sm9p) pub.e) (k2 : ks < sm9n) {A : Sm9.A} {Q : Sm9Point} (hA : Sm9IsAffine A Q)
    (msg id : List Byte) (hid : Byte) (pc : Sm2.PC) (hm : 8 * (msg.length + 389) < 2 ^ 64)
    (hid1 : 8 * (id.length + 6) < 2 ^ 64) {h : Nat} (h0 : 1 ≤ h) (hn : h < sm9n)
    (a3 : sm9H H C.DS 1 (id ++ [hid]) ≠ sm9n - 2) (ne : sm9H H C.DS 1 (id ++ [hid]) ≠ ks)
    (nz : sm9H H C.DS 1 (id ++ [hid]) + ks ≠ sm9n) :
    ∃ B, Sm9IsAffine2 w B ((sm9H H C.DS 1 (id ++ [hid]) + ks) • sm9G2 hw) ∧
      ∀ u, PairsTo w A B u → ∃ W, All12 (Reduced sm9p) W ∧ fp12Den w W = u * fp12Den w pub.e ^ h ∧
        Sm9.verify C pub (toBE 32 h ++ Sm9.encPoint pc A) msg id hid =
          .returns (decide (sm9H H C.DS 2 (msg ++ Sm9.fp12ToBytes W) = h)) := by
  obtain ⟨r1, r2⟩ := sm9H_range (H := H) C.DS 1 (id ++ [hid])
  obtain ⟨T, B, t1, t2, t3⟩ := s9verPoint hw hP r1 r2 a3 k2 ne nz
  refine ⟨B, t3, fun u hu => ?_⟩
  obtain ⟨U, u1, u2, u3⟩ := hu
  have ht : (toBE 32 h ++ Sm9.encPoint pc A).take 32 = toBE 32 h := List.take_left' (toBE_len 32 h)
  have hd : (toBE 32 h ++ Sm9.encPoint pc A).drop 32 = Sm9.encPoint pc A := List.drop_left' (toBE_len 32 h)
  have hlen : (toBE 32 h ++ Sm9.encPoint pc A).length = 32 + (Sm9.encPoint pc A).length := by
    rw [List.length_append, toBE_len]
  obtain ⟨t, p1, p2, p3⟩ := Props.C61_fp12_pow_partial hw pub.e he (toBE 32 h ++ Sm9.encPoint pc A)
    (by rw [ht, beVal_toBE_n hn]; omega)
  rw [ht, beVal_toBE_n hn] at p3
  obtain ⟨m1, m2⟩ := (Props.C51_fp12 hw U t u2 p2).2.2.1
  rw [u3, p3] at m2
  refine ⟨_, m1, m2, ?_⟩
  have hh1 := hn_ok hC id [hid] 1
  rw [if_pos (by simp only [List.length_cons, List.length_nil]; omega)] at hh1
  have hh2 := hn_ok hC msg (Sm9.fp12ToBytes (fp12Mul Sm9.fp U t)) 2
  rw [if_pos (by rw [(Props.C51_bytes _ m1).1]; omega)] at hh2
  have tail : Sm9.verifyTail C pub (toBE 32 h ++ Sm9.encPoint pc A) A msg id hid =
      .ok (decide (sm9H H C.DS 2 (msg ++ Sm9.fp12ToBytes (fp12Mul Sm9.fp U t)) = h)) := by
    unfold Sm9.verifyTail
    rw [p1, ofOption_some, o_bind, hh1, o_bind, t1, ofOption_some, o_bind]
    simp only
    rw [t2, ofOption_some, o_bind, u1, ofOption_some, o_bind, hh2, o_bind, ht]
    exact congrArg Outcome.ok (toBE_beq (sm9H_range C.DS 2 _).2 hn)
  unfold Sm9.verify Sm9.verifyBody
  rw [if_neg (by omega), hd, hlen, Nat.add_sub_cancel_left, enc_len hw pc hA]
  simp only
  rw [if_neg (by omega), tail]
  rfl

end
end Verif
