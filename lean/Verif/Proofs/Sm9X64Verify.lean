import Verif.Proofs.Sm9X64Scheme
/-! # SM9 with 64-bit limbs: master keys; sign, then verify -/
set_option linter.constructorNameAsVariable false
set_option linter.unusedSectionVars false
open WeierstrassCurve WeierstrassCurve.Affine
namespace Verif
open Spec

theorem s9range_sim {bs : List Byte} (h : bs.length = 32) :
    (X64.u256EqualZero (X64.u256FromBytes bs) = true ∨
      X64.u256Cmp (X64.u256FromBytes bs) (X64.u256FromBytes Sm9.sm9CurveN) ≥ 0) ↔ (beVal bs = 0 ∨ sm9n ≤ beVal bs) := by
  obtain ⟨z1, z2⟩ := s9range_iff h
  rw [← ns_equalZero (ns_fromBytes h), ← ns_cmp (ns_fromBytes h) (ns_fromBytes s9n_len), z1, z2]

theorem s9E_ne : (sm9p ^ 12 - 1) / sm9n ≠ 0 := by decide +kernel

theorem relO_some' {α β : Type} {R : α → β → Prop} {x : Option α} {b : β} (h : RelO R x (some b)) :
    ∃ a, x = some a ∧ R a b := by
  cases h with
  | some h => exact ⟨_, rfl, h⟩

theorem relP9_ok {x : Sm2.ParseRes (Sm9.A × Nat)} {A' : X64.Sm9.A} {n : Nat} (h : RelP9 x (.ok (A', n))) :
    ∃ A, x = .ok (A, n) ∧ RelA RO A A' := by
  cases h with
  | ok h => exact ⟨_, rfl, h⟩

theorem relP9_fail {y : Sm2.ParseRes (X64.Sm9.A × Nat)} (h : RelP9 .fail y) : y = .fail := by
  cases h with
  | fail => rfl

theorem relP9_ok' {y : Sm2.ParseRes (X64.Sm9.A × Nat)} {A : Sm9.A} {n : Nat} (h : RelP9 (.ok (A, n)) y) :
    ∃ A', y = .ok (A', n) ∧ RelA RO A A' := by
  cases h with
  | ok h => exact ⟨_, rfl, h⟩

section
variable {K : Type} [Field K] [Algebra (ZMod sm9p) K] [DecidableEq K] {w : K} (hw : w ^ 12 = -2)
include hw

local notation "ok12" => All12 (Reduced sm9p)
local notation "xok" => All12 (X64.Reduced sm9p)

/-- The Miller loop at (0, 0). -/
theorem miller_zero {A : Sm9.A} {P : Sm9.A2} (hx : Reduced sm9p A.x) (hy : Reduced sm9p A.y)
    (qx : All2 (Reduced sm9p) P.x) (qy : All2 (Reduced sm9p) P.y)
    (zx : fp2Den w P.x = 0) (zy : fp2Den w P.y = 0) :
    ∃ f, Sm9.miller A P = some f ∧ fp12Den w f = 0 := by
  have z : ev2 w (0, 0) = 0 := by simp [ev2]
  obtain ⟨f, l, f1, f2, f3⟩ := nMiller_sim hw (p := A) (A := P) (x := (montVal sm9p A.x).val) (y := (montVal sm9p A.y).val)
    (B := ⟨(0, 0), (0, 0)⟩) ⟨hx, fpDen_val hw _⟩ ⟨hy, fpDen_val hw _⟩
    ⟨qx, by rw [zx, z]⟩ ⟨qy, by rw [zy, z]⟩ (Nat.zero_le _) (Nat.zero_le _)
  exact ⟨f, f1, by rw [f3.2, nMiller_zero hw f2]⟩

theorem xpairing_zero {A : Sm9.A} {A' : X64.Sm9.A} (hA : RelA RO A A') {P : Sm9.A2} {P' : X64.Sm9.A2}
    (hP : RelA (R2 RO) P P') (zx : fp2Den w P.x = 0) (zy : fp2Den w P.y = 0) : X64.PairsTo w A' P' 0 := by
  obtain ⟨f, f1, -, f3⟩ := x12Pairing hw hA hP
  obtain ⟨g, g1, g2⟩ := miller_zero hw hA.x.l hA.y.l (r2_l hP.x) (r2_l hP.y) zx zy
  rw [f1] at g1
  rw [Option.some.inj g1, g2, zero_pow s9E_ne] at f3
  exact f3

/-- The pairing function returns for all reduced coordinates. -/
theorem xpairing_total {P : X64.Sm9.A} {Q : X64.Sm9.A2} (hx : X64.Reduced sm9p P.x) (hy : X64.Reduced sm9p P.y)
    (qx : All2 (X64.Reduced sm9p) Q.x) (qy : All2 (X64.Reduced sm9p) Q.y) :
    ∃ r, X64.Sm9.pairing P Q = some r ∧ xok r := by
  obtain ⟨f, -, -, r, r1, r2, -⟩ := x12Pairing hw (loA_sim hx hy) (loA2_sim qx qy)
  exact ⟨r, r1, r2⟩

/-! ## Master keys -/

theorem xwithPub {key : List Byte} (hl : key.length = 32) (h1 : 1 ≤ beVal key) (h2 : beVal key < sm9n) {R : Sm9.J2} {P : Sm9.A2}
    (r1 : Sm9.j2MulG key = some R) (r2 : Sm9.j2ToA R = some P) {u : K}
    (hu : ∀ P' : X64.Sm9.A2, RelA (R2 RO) P P' → X64.PairsTo w X64.Sm9.p1 P' u) :
    ∃ P' e, X64.Sm9.setPriv key = .ok ⟨key, ⟨P', e⟩⟩ ∧ RelA (R2 RO) P P' ∧ Is xok (X64.fp12Den w) e u ∧
      X64.Sm9.pairing X64.Sm9.p1 P' = some e := by
  have s1 := s9Mul2G_sim hl
  rw [r1] at s1
  obtain ⟨R', t1, hR⟩ := relO_some s1
  have s2 : RelO (RelA (R2 RO)) (Sm9.j2ToA R) (X64.Sm9.j2ToA R') := ws_toA sm9_ws.two hR
  rw [r2] at s2
  obtain ⟨P', t2, hP⟩ := relO_some s2
  obtain ⟨e, e1, e2, e3⟩ := hu P' hP
  refine ⟨P', e, ?_, hP, ⟨e2, e3⟩, e1⟩
  have hc : ¬ (X64.u256EqualZero (X64.u256FromBytes key) = true ∨
      X64.u256Cmp (X64.u256FromBytes key) (X64.u256FromBytes Sm9.sm9CurveN) ≥ 0) := by
    rw [s9range_sim hl]; omega
  unfold X64.Sm9.setPriv
  dsimp only
  rw [if_neg hc]
  unfold X64.Sm9.withPub X64.Sm9.pairingP1
  rw [t1, ofOption_some, o_bind, t2, ofOption_some, o_bind, e1, ofOption_some, o_bind]

theorem xsetPriv_ok {key : List Byte} (hl : key.length = 32) (h1 : 1 ≤ beVal key) (h2 : beVal key < sm9n)
    (hne : beVal key ≠ sm9n - 2) :
    ∃ P e, X64.Sm9.setPriv key = .ok ⟨key, ⟨P, e⟩⟩ ∧ X64.Sm9IsAffine2 w P (beVal key • sm9G2 hw) ∧
      Is xok (X64.fp12Den w) e (sm9g hw ^ beVal key) ∧ X64.Sm9.pairing X64.Sm9.p1 P = some e := by
  obtain ⟨R, P, r1, -, r3, r4⟩ := s9mulG2_affine hw hl h1 h2 hne
  have p1' : X64.Sm9IsAffine X64.Sm9.p1 (1 • sm9G) := by rw [one_nsmul]; exact (x_affine p1_sim).mp p1_ok
  obtain ⟨P', e, x1, x2, x3, x4⟩ := xwithPub hw hl h1 h2 r1 r3 (u := sm9g hw ^ (1 * beVal key)) fun P' hP =>
    x_pair_gen hw (a := 1) le_rfl (by decide +kernel) p1' ((x_affine2 hP).mp r4)
  rw [one_mul] at x3
  exact ⟨P', e, x1, (x_affine2 x2).mp r4, x3, x4⟩

theorem xsetPriv_weak {key : List Byte} (hl : key.length = 32) (hne : beVal key = sm9n - 2) :
    ∃ P e, X64.Sm9.setPriv key = .ok ⟨key, ⟨P, e⟩⟩ ∧ All2 (X64.Reduced sm9p) P.x ∧ All2 (X64.Reduced sm9p) P.y ∧
      X64.fp2Den w P.x = 0 ∧ X64.fp2Den w P.y = 0 ∧ Is xok (X64.fp12Den w) e 0 ∧ X64.Sm9.pairing X64.Sm9.p1 P = some e := by
  obtain ⟨R, P, r1, r2, r3, r4, r5, r6⟩ := g2_weak hw hl hne
  have hp : 2 < sm9n := s9_pos
  obtain ⟨P', e, x1, x2, x3, x4⟩ := xwithPub hw hl (by omega) (by omega) r1 r2 (u := (0 : K)) fun P' hP =>
    xpairing_zero hw p1_sim hP r5 r6
  exact ⟨P', e, x1, r2_r x2.x, r2_r x2.y, by rw [← r2_den x2.x]; exact r5, by rw [← r2_den x2.y]; exact r6, x3, x4⟩

theorem xsetPriv_throw {key : List Byte} (hl : key.length = 32) (h : beVal key = 0 ∨ sm9n ≤ beVal key) :
    X64.Sm9.setPriv key = .throw := by
  unfold X64.Sm9.setPriv
  dsimp only
  rw [if_pos ((s9range_sim hl).mpr h)]

theorem xsetPriv_inv {key : List Byte} {mk : X64.Sm9.MPriv} (hl : key.length = 32) (h : X64.Sm9.setPriv key = .ok mk) :
    1 ≤ beVal key ∧ beVal key < sm9n ∧ mk.ks = key ∧ All2 (X64.Reduced sm9p) mk.pub.P.x ∧
      All2 (X64.Reduced sm9p) mk.pub.P.y ∧ xok mk.pub.e := by
  by_cases hr : beVal key = 0 ∨ sm9n ≤ beVal key
  · rw [xsetPriv_throw hw hl hr] at h; cases h
  push Not at hr
  refine ⟨by omega, hr.2, ?_⟩
  by_cases hne : beVal key = sm9n - 2
  · obtain ⟨P, e, p1, p2, p3, p4, p5, p6, p7⟩ := xsetPriv_weak hw hl hne
    rw [p1] at h
    rw [← Outcome.ok.inj h]
    exact ⟨rfl, p2, p3, p6.1⟩
  · obtain ⟨P, e, p1, p2, p3, p4⟩ := xsetPriv_ok hw hl (by omega) hr.2 hne
    rw [p1] at h
    rw [← Outcome.ok.inj h]
    exact ⟨rfl, p2.1, p2.2.1, p3.1⟩

variable {S : Type} {C : HashClass S} {H : List Byte → List Byte}

/-! ## Verification -/

theorem xsigPow_total {e : X64.Sm9.F12} (he : xok e) {sig : List Byte} (hl : 32 ≤ sig.length) {b : Byte} {rest : List Byte}
    (hd : sig.drop 32 = b :: rest) (hb : b ≠ 0) :
    ∃ t, fp12Pow X64.Sm9.fp e sig = some t ∧ xok t ∧
      (beVal (sig.take 32) ≠ 0 → X64.fp12Den w t = X64.fp12Den w e ^ beVal (sig.take 32)) := by
  have h1 := lo12_ro he
  obtain ⟨t, t1, t2, t3⟩ := sigPow_total hw (r12_l h1) hl hd hb
  have h2 := ws12_pow sm9_ws h1 sig
  rw [t1] at h2
  obtain ⟨t', s1, s2⟩ := relO_some h2
  refine ⟨t', s1, r12_r s2, fun h => ?_⟩
  rw [← r12_den s2, t3 h, r12_den h1]

omit [DecidableEq K] [Field K] [Algebra (ZMod sm9p) K] hw in
theorem x384 {W : X64.Sm9.F12} (h : xok W) : (X64.Sm9.fp12ToBytes W).length = 384 := by
  have h1 := lo12_ro h
  rw [← r12tb h1]
  exact (Props.C51_bytes _ (r12_l h1)).1

/-- `verify` for every key object with reduced coordinates and every signature that parses. -/
theorem xverify_total (hC : IsHash C H) {pub : X64.Sm9.MPub} (qx : All2 (X64.Reduced sm9p) pub.P.x)
    (qy : All2 (X64.Reduced sm9p) pub.P.y) (he : xok pub.e) {sig : List Byte} (hl : 32 ≤ sig.length) {A : X64.Sm9.A}
    (hA : X64.Sm9.ecAFromBytes (sig.drop 32) (sig.length - 32) = .ok (A, sig.length - 32)) (msg id : List Byte) (hid : Byte) :
    if 8 * (id.length + 6) < 2 ^ 64 ∧ 8 * (msg.length + 389) < 2 ^ 64 then
      ∃ T B B' U W, Sm9.j2MulG (toBE 32 (sm9H H C.DS 1 (id ++ [hid]))) = some T ∧
        Sm9.j2ToA (Sm9.j2AddA T (loA2 pub.P)) = some B ∧ RelA (R2 RO) B B' ∧
        X64.Sm9.pairing A B' = some U ∧ xok U ∧ xok W ∧
        (beVal (sig.take 32) ≠ 0 → X64.fp12Den w W = X64.fp12Den w U * X64.fp12Den w pub.e ^ beVal (sig.take 32)) ∧
        X64.Sm9.verify C pub sig msg id hid =
          .returns (toBE 32 (sm9H H C.DS 2 (msg ++ X64.Sm9.fp12ToBytes W)) == sig.take 32)
    else X64.Sm9.verify C pub sig msg id hid = .terminates := by
  have sd := s9fromBytes_sim (sig.drop 32) (sig.length - 32)
  rw [hA] at sd
  obtain ⟨A0, a1, a2⟩ := relP9_ok sd
  obtain ⟨b, rest, hd, hb⟩ := s9dec_tag a1
  obtain ⟨t, t1, t2, t3⟩ := xsigPow_total hw he hl hd hb
  have hh1 := hn_ok hC id [hid] 1
  simp only [List.length_cons, List.length_nil] at hh1
  rw [hn_sim] at hh1
  have hv : X64.Sm9.verify C pub sig msg id hid = Noexcept.of (X64.Sm9.verifyTail C pub sig A msg id hid) := by
    unfold X64.Sm9.verify X64.Sm9.verifyBody
    rw [if_neg (by omega), hA]
    simp only
    rw [if_neg (by omega)]
  by_cases hi : 8 * (id.length + 6) < 2 ^ 64
  · rw [if_pos (by omega)] at hh1
    have sP := loA2_sim qx qy
    obtain ⟨T, B, b1, b2, b3, b4⟩ := verPoint_total hw (r2_l sP.x) (r2_l sP.y) (toBE_len 32 (sm9H H C.DS 1 (id ++ [hid])))
    have s1 := s9Mul2G_sim (toBE_len 32 (sm9H H C.DS 1 (id ++ [hid])))
    rw [b1] at s1
    obtain ⟨T', c1, hT⟩ := relO_some s1
    have s2 : RelO (RelA (R2 RO)) (Sm9.j2ToA (Sm9.j2AddA T (loA2 pub.P))) (X64.Sm9.j2ToA (X64.Sm9.j2AddA T' pub.P)) :=
      ws_toA sm9_ws.two (ws_addA sm9_ws.two hT (relA_wk sm9_ws.two sP))
    rw [b2] at s2
    obtain ⟨B', c2, hB⟩ := relO_some s2
    obtain ⟨f, -, -, U, u1, u2, -⟩ := x12Pairing hw a2 hB
    have m := x12Mul hw (a := U) (b := t) (s := X64.fp12Den w U) (t := X64.fp12Den w t) ⟨u2, rfl⟩ ⟨t2, rfl⟩
    have hh2 := hn_ok hC msg (X64.Sm9.fp12ToBytes (fp12Mul X64.Sm9.fp U t)) 2
    rw [x384 m.1, hn_sim] at hh2
    have ht : X64.Sm9.verifyTail C pub sig A msg id hid =
        (X64.Sm9.hn C msg (X64.Sm9.fp12ToBytes (fp12Mul X64.Sm9.fp U t)) 2 >>= fun h2 => .ok (h2 == sig.take 32)) := by
      unfold X64.Sm9.verifyTail
      rw [t1, ofOption_some, o_bind, hh1, o_bind, c1, ofOption_some, o_bind]
      simp only
      rw [c2, ofOption_some, o_bind, u1, ofOption_some, o_bind]
    by_cases hm : 8 * (msg.length + 389) < 2 ^ 64
    · rw [if_pos ⟨hi, hm⟩]
      rw [if_pos (by omega)] at hh2
      exact ⟨T, B, B', U, fp12Mul X64.Sm9.fp U t, b1, b2, hB, u1, u2, m.1, fun h => by rw [m.2, t3 h],
        by rw [hv, ht, hh2, o_bind]; rfl⟩
    · rw [if_neg (fun h => hm h.2)]
      rw [if_neg (by omega)] at hh2
      rw [hv, ht, hh2, t_bind]
      rfl
  · rw [if_neg (fun h => hi h.1)]
    rw [if_neg (by omega)] at hh1
    rw [hv]
    unfold X64.Sm9.verifyTail
    rw [t1, ofOption_some, o_bind, hh1, t_bind]
    rfl

omit hw [DecidableEq K] [Field K] [Algebra (ZMod sm9p) K] in
/-- `verify` when the signature does not parse. -/
theorem xverify_parse (pub : X64.Sm9.MPub) (sig msg id : List Byte) (hid : Byte) :
    (sig.length < 32 → X64.Sm9.verify C pub sig msg id hid = .returns false) ∧
    (32 ≤ sig.length → X64.Sm9.ecAFromBytes (sig.drop 32) (sig.length - 32) = .ub →
      X64.Sm9.verify C pub sig msg id hid = .ub) ∧
    (32 ≤ sig.length → X64.Sm9.ecAFromBytes (sig.drop 32) (sig.length - 32) = .fail →
      X64.Sm9.verify C pub sig msg id hid = .returns false) ∧
    (∀ A n, 32 ≤ sig.length → X64.Sm9.ecAFromBytes (sig.drop 32) (sig.length - 32) = .ok (A, n) → n ≠ sig.length - 32 →
      X64.Sm9.verify C pub sig msg id hid = .returns false) := by
  unfold X64.Sm9.verify X64.Sm9.verifyBody
  refine ⟨fun h => by rw [if_pos h]; rfl, fun h e => ?_, fun h e => ?_, fun A n h e hn => ?_⟩
  · rw [if_neg (by omega), e]; rfl
  · rw [if_neg (by omega), e]; rfl
  · rw [if_neg (by omega), e]
    simp only
    rw [if_pos (by omega)]
    rfl

omit hw [DecidableEq K] [Field K] [Algebra (ZMod sm9p) K] in
/-- The decoder takes back the encoding of a point. -/
theorem xenc_parse {h : Nat} (pc : Sm2.PC) {A : X64.Sm9.A} {Q : Sm9Point} (hA : X64.Sm9IsAffine A Q) :
    let sig := toBE 32 h ++ X64.Sm9.encPoint pc A
    32 ≤ sig.length ∧ sig.take 32 = toBE 32 h ∧
      X64.Sm9.ecAFromBytes (sig.drop 32) (sig.length - 32) = .ok (A, sig.length - 32) := by
  obtain ⟨K, _, _, w, hw⟩ := sm9_field_exists
  classical
  intro sig
  have sA := loA_sim hA.1 hA.2.1
  have hlen : sig.length - 32 = (X64.Sm9.encPoint pc A).length := by
    rw [List.length_append, toBE_len]; omega
  refine ⟨by rw [List.length_append, toBE_len]; omega, List.take_left' (toBE_len 32 h), ?_⟩
  rw [hlen, show sig.drop 32 = X64.Sm9.encPoint pc A from List.drop_left' (toBE_len 32 h), ← s9encPoint_sim sA]
  have e := enc_len hw pc ((x_affine sA).mpr hA)
  have s := s9fromBytes_sim (Sm9.encPoint pc (loA A)) (Sm9.encPoint pc (loA A)).length
  rw [e] at s
  obtain ⟨A', a1, a2⟩ := relP9_ok' s
  rw [a1]
  have inj : ∀ {a : List W32} {b c : List W64}, RO a b → RO a c → b = c := fun hb hc =>
    val_inj _ _ (by rw [hb.r.1, hc.r.1]) ((ro_rs hb).eq.symm.trans (ro_rs hc).eq)
  obtain ⟨x, y⟩ := A
  obtain ⟨x', y'⟩ := A'
  have e1 : x' = x := inj a2.x sA.x
  have e2 : y' = y := inj a2.y sA.y
  rw [e1, e2]

/-- Verification of `h ‖ S` by the equation. -/
theorem xverify_of (hC : IsHash C H) {pub : X64.Sm9.MPub} {ks : Nat} (hP : X64.Sm9IsAffine2 w pub.P (ks • sm9G2 hw))
    (he : xok pub.e) (k2 : ks < sm9n) {A : X64.Sm9.A} {Q : Sm9Point} (hA : X64.Sm9IsAffine A Q)
    (msg id : List Byte) (hid : Byte) (pc : Sm2.PC) (hm : 8 * (msg.length + 389) < 2 ^ 64)
    (hid1 : 8 * (id.length + 6) < 2 ^ 64) {h : Nat} (h0 : 1 ≤ h) (hn : h < sm9n)
    (a3 : sm9H H C.DS 1 (id ++ [hid]) ≠ sm9n - 2) (ne : sm9H H C.DS 1 (id ++ [hid]) ≠ ks)
    (nz : sm9H H C.DS 1 (id ++ [hid]) + ks ≠ sm9n) :
    ∃ B U W, X64.Sm9IsAffine2 w B ((sm9H H C.DS 1 (id ++ [hid]) + ks) • sm9G2 hw) ∧ X64.PairsTo w A B U ∧
      xok W ∧ X64.fp12Den w W = U * X64.fp12Den w pub.e ^ h ∧
        X64.Sm9.verify C pub (toBE 32 h ++ X64.Sm9.encPoint pc A) msg id hid =
          .returns (decide (sm9H H C.DS 2 (msg ++ X64.Sm9.fp12ToBytes W) = h)) := by
  obtain ⟨l1, l2, l3⟩ := xenc_parse (h := h) pc hA
  have hv := xverify_total hw hC hP.1 hP.2.1 he l1 l3 msg id hid
  rw [if_pos ⟨hid1, hm⟩, l2, beVal_toBE_n hn] at hv
  obtain ⟨T, B, B', U, W, c1, c2, hB, u1, u2, w1, w2, w3⟩ := hv
  obtain ⟨r1, r2⟩ := sm9H_range (H := H) C.DS 1 (id ++ [hid])
  have hP' := (x_affine2 (loA2_sim hP.1 hP.2.1)).mpr hP
  obtain ⟨T0, B0, t1, t2, t3⟩ := s9verPoint hw hP' r1 r2 a3 k2 ne nz
  rw [c1] at t1
  rw [← Option.some.inj t1, c2] at t2
  rw [← Option.some.inj t2] at t3
  refine ⟨B', _, W, (x_affine2 hB).mp t3, ⟨U, u1, u2, rfl⟩, w1, w2 (by omega), ?_⟩
  rw [w3]
  exact congrArg Noexcept.returns (toBE_beq (sm9H_range C.DS 2 _).2 hn)

/-- When the public pairing value, or the second point of the verifier, is zero, what is hashed is zero. -/
theorem xverify_weak (hC : IsHash C H) {pub : X64.Sm9.MPub} (qx : All2 (X64.Reduced sm9p) pub.P.x)
    (qy : All2 (X64.Reduced sm9p) pub.P.y) (he : xok pub.e) {A : X64.Sm9.A} {Q : Sm9Point} (hA : X64.Sm9IsAffine A Q)
    (msg id : List Byte) (hid : Byte) (pc : Sm2.PC) (hid1 : 8 * (id.length + 6) < 2 ^ 64)
    (hm : 8 * (msg.length + 389) < 2 ^ 64) {h : Nat} (h0 : 1 ≤ h) (hn : h < sm9n)
    (hz : X64.fp12Den w pub.e = 0 ∨ ∃ T B, Sm9.j2MulG (toBE 32 (sm9H H C.DS 1 (id ++ [hid]))) = some T ∧
      Sm9.j2ToA (Sm9.j2AddA T (loA2 pub.P)) = some B ∧ fp2Den w B.x = 0 ∧ fp2Den w B.y = 0) :
    X64.Sm9.verify C pub (toBE 32 h ++ X64.Sm9.encPoint pc A) msg id hid =
      .returns (decide (h = sm9H H C.DS 2 (msg ++ List.replicate 384 0))) := by
  obtain ⟨l1, l2, l3⟩ := xenc_parse (h := h) pc hA
  have hv := xverify_total hw hC qx qy he l1 l3 msg id hid
  rw [if_pos ⟨hid1, hm⟩, l2, beVal_toBE_n hn] at hv
  obtain ⟨T, B, B', U, W, c1, c2, hB, u1, u2, w1, w2, w3⟩ := hv
  have hW : X64.fp12Den w W = 0 := by
    rw [w2 (by omega)]
    rcases hz with hz | ⟨T0, B0, t1, t2, zx, zy⟩
    · rw [hz, zero_pow (by omega), mul_zero]
    · rw [c1] at t1
      rw [← Option.some.inj t1, c2] at t2
      rw [← Option.some.inj t2] at zx zy
      obtain ⟨V, v1, -, v3⟩ := xpairing_zero hw (loA_sim hA.1 hA.2.1) hB zx zy
      rw [u1] at v1
      rw [Option.some.inj v1, v3, zero_mul]
  have z0 := ws12_zero sm9_ws
  have hbz : X64.Sm9.fp12ToBytes W = List.replicate 384 0 := by
    have h1 := lo12_ro w1
    have e : lo12 W = fp12Zero Sm9.fp :=
      f12_inj hw (r12_l h1) (f12Zero hw).1 ((r12_den h1 w).trans (hW.trans (f12Zero hw).2.symm))
    rw [← r12tb h1, e]
    decide +kernel
  rw [w3, hbz, toBE_beq (sm9H_range C.DS 2 _).2 hn, decide_eq_decide.mpr eq_comm]

/-! ## Sign, then verify -/

/-- What the signer returns. -/
theorem sign_form (hC : IsHash C H) {ks : Nat} (k1 : 1 ≤ ks) (k2 : ks < sm9n) {pub : Sm9.MPub}
    (he : ok12 pub.e) (hv : fp12Den w pub.e = sm9g hw ^ ks) {h1 : Nat}
    (msg rnd : List Byte) (pc : Sm2.PC) (hr : rnd.length = 32)
    (hm : 8 * (msg.length + 389) < 2 ^ 64) (nz : (h1 : ZMod sm9n) + (ks : ZMod sm9n) ≠ 0)
    {D : Sm9.A} (hD : Sm9IsAffine D (((ks : ZMod sm9n) * ((h1 : ZMod sm9n) + (ks : ZMod sm9n))⁻¹).val • sm9G))
    {sig : List Byte} (hs : Sm9.signStep C ⟨D, pub⟩ msg rnd pc = .ok (some sig)) :
    (∃ A, montVal sm9p A.x = 0 ∧ montVal sm9p A.y = 0 ∧ Reduced sm9p A.x ∧ Reduced sm9p A.y ∧
      sig.drop 32 = Sm9.encPoint pc A) ∨
    (∃ A h a, sig = toBE 32 h ++ Sm9.encPoint pc A ∧ 1 ≤ h ∧ h < sm9n ∧ 1 ≤ a ∧ a < sm9n ∧ Sm9IsAffine A (a • sm9G) ∧
      ∀ W, ok12 W → fp12Den w W = sm9g hw ^ (a * (h1 + ks)) * (sm9g hw ^ ks) ^ h →
        sm9H H C.DS 2 (msg ++ Sm9.fp12ToBytes W) = h) := by
  obtain ⟨W, w1, w2, w3⟩ := s9signStep_ok hw hC (key := ⟨D, pub⟩) hD he msg rnd hr pc hm
  simp only at w3
  obtain ⟨c1, c2, c3⟩ := w3
  obtain ⟨h0, hn⟩ := sm9H_range (H := H) C.DS 2 (msg ++ Sm9.fp12ToBytes W)
  generalize hh : sm9H H C.DS 2 (msg ++ Sm9.fp12ToBytes W) = h at *
  generalize hrr : beVal rnd % (sm9n - 1) + 1 = r at *
  by_cases e1 : r = h
  · rw [c1 e1] at hs; cases hs
  by_cases e2 : ((r : ZMod sm9n) - (h : ZMod sm9n)).val = sm9n - 2
  · left
    obtain ⟨A, x1, x2, x3, x4, x5⟩ := c3 e1 e2
    rw [x5] at hs
    have hs' := Option.some.inj (Outcome.ok.inj hs)
    rw [← hs']
    exact ⟨A, x1, x2, x3, x4, List.drop_left' (toBE_len 32 h)⟩
  right
  obtain ⟨l0, A, hA, x5⟩ := c2 e1 e2
  rw [x5] at hs
  have hs' := Option.some.inj (Outcome.ok.inj hs)
  rw [← hs']
  clear hs hs' c1 c2 c3 x5
  generalize hl : ((r : ZMod sm9n) - (h : ZMod sm9n)).val = l at *
  generalize ht : ((ks : ZMod sm9n) * ((h1 : ZMod sm9n) + (ks : ZMod sm9n))⁻¹).val = t at *
  have hlz : (l : ZMod sm9n) = (r : ZMod sm9n) - h := by rw [← hl, ZMod.natCast_zmod_val]
  have htz : (t : ZMod sm9n) = (ks : ZMod sm9n) * ((h1 : ZMod sm9n) + (ks : ZMod sm9n))⁻¹ := by
    rw [← ht, ZMod.natCast_zmod_val]
  have hkz : (ks : ZMod sm9n) ≠ 0 := by
    rw [Ne, ZMod.natCast_eq_zero_iff]
    exact fun h => absurd (Nat.le_of_dvd k1 h) (by omega)
  have hl0 : (l : ZMod sm9n) ≠ 0 := by
    rw [Ne, ZMod.natCast_eq_zero_iff]
    have : l < sm9n := by rw [← hl]; exact ZMod.val_lt _
    exact fun h => absurd (Nat.le_of_dvd l0 h) (by omega)
  have ht0 : (t : ZMod sm9n) ≠ 0 := by rw [htz]; exact mul_ne_zero hkz (inv_ne_zero nz)
  have hA' : Sm9IsAffine A (((l * t) % sm9n) • sm9G) := by
    rw [← nsmul_mod, mul_nsmul']; exact hA
  have ha1 : 1 ≤ (l * t) % sm9n := Nat.pos_of_ne_zero fun h0 => by
    have : ((l * t : Nat) : ZMod sm9n) = 0 := (ZMod.natCast_eq_zero_iff _ _).mpr (Nat.dvd_of_mod_eq_zero h0)
    rw [Nat.cast_mul] at this
    exact mul_ne_zero hl0 ht0 this
  refine ⟨A, h, _, rfl, h0, hn, ha1, Nat.mod_lt _ (by decide +kernel), hA', fun W' v1 v2 => ?_⟩
  have hWW : W' = W := by
    refine f12_inj hw v1 w1 ?_
    rw [v2, w2, hv, ← pow_mul, ← pow_mul, ← pow_add]
    refine pow_mod_eq hw (sm9g_N hw) ?_
    rw [Nat.cast_add, Nat.cast_mul, Nat.cast_mul, Nat.cast_mul, ZMod.natCast_mod, Nat.cast_mul, Nat.cast_add, hlz, htz]
    field_simp
    ring
  rw [hWW, hh]

/-- Signing, then verifying. -/
theorem xsign_verify (hC : IsHash C H) {key : List Byte} (hl : key.length = 32) {mk : X64.Sm9.MPriv}
    (hmk : X64.Sm9.setPriv key = .ok mk) {id : List Byte} {hid : Byte} {sk : X64.Sm9.SPriv}
    (hsk : X64.Sm9.genSignPriv C mk id hid = .ok sk) {msg : List Byte} {rnds : List (List Byte)}
    (hr : ∀ r ∈ rnds, r.length = 32) {pc : Sm2.PC} {sig : List Byte}
    (hs : X64.Sm9.sign C sk msg rnds pc = .ok (some sig))
    (k1 : beVal key ≠ sm9n - 2) (k2 : sm9H H C.DS 1 (id ++ [hid]) ≠ sm9n - 2)
    (k3 : sm9H H C.DS 1 (id ++ [hid]) ≠ beVal key)
    (k4 : (3 * beVal key + 2 * sm9H H C.DS 1 (id ++ [hid])) % sm9n ≠ 0)
    (k5 : (sig.drop 33).take 32 ≠ List.replicate 32 0) :
    X64.Sm9.verify C mk.pub sig msg id hid = .returns true := by
  obtain ⟨q1, q2, -⟩ := xsetPriv_inv hw hl hmk
  obtain ⟨P, e, m1, m2, m3, -⟩ := xsetPriv_ok hw hl q1 q2 k1
  rw [m1] at hmk
  have hmk' := Outcome.ok.inj hmk
  subst hmk'
  have sp : Pub9 (loPub ⟨P, e⟩) ⟨P, e⟩ := loPub_sim m2.1 m2.2.1 m3.1
  have sg := genSignPriv_sim hC (mk := ⟨key, loPub ⟨P, e⟩⟩) (mk' := ⟨key, ⟨P, e⟩⟩) rfl hl sp id hid
  rw [hsk] at sg
  obtain ⟨sk0, g0, hk0⟩ := relOut_ok sg
  have hid1 : 8 * (id.length + 6) < 2 ^ 64 := by
    by_contra hc
    rw [genSignPriv_long hC id hid hc] at g0
    cases g0
  obtain ⟨g1, g2⟩ := genSignPriv_ok hw hC (mk := ⟨key, loPub ⟨P, e⟩⟩) hl id hid hid1
  simp only at g1 g2
  have nz : (sm9H H C.DS 1 (id ++ [hid]) : ZMod sm9n) + (beVal key : ZMod sm9n) ≠ 0 := fun h => by
    rw [g1 h] at g0
    cases g0
  have kz : (beVal key : ZMod sm9n) ≠ 0 := by
    rw [Ne, ZMod.natCast_eq_zero_iff]
    exact fun h => absurd (Nat.le_of_dvd (by omega) h) (by omega)
  have tne := s9t2_ne nz k4
  obtain ⟨D, d1, d2⟩ := g2 nz kz tne
  rw [d1] at g0
  have hsk' := Outcome.ok.inj g0
  subst hsk'
  rw [← s9sign_sim hC hk0.priv hk0.pub.e msg pc hr] at hs
  obtain ⟨rnd, r1, r2⟩ := signLoop_some hs
  have el : ok12 (loPub ⟨P, e⟩).e := r12_l sp.e
  have ev : fp12Den w (loPub ⟨P, e⟩).e = sm9g hw ^ beVal key := (r12_den sp.e w).trans m3.2
  have hm : 8 * (msg.length + 389) < 2 ^ 64 := by
    by_contra hc
    rw [s9signStep_long hw hC (key := ⟨D, loPub ⟨P, e⟩⟩) el msg rnd (hr rnd r1) pc hc] at r2
    cases r2
  rcases sign_form hw hC q1 q2 el ev msg rnd pc (hr rnd r1) hm nz d2 r2 with
    ⟨A, a1, a2, a3, a4, a5⟩ | ⟨A, h, a, s1, s2, s3, s4, s5, s6, s7⟩
  · refine absurd ?_ k5
    rw [show sig.drop 33 = (sig.drop 32).drop 1 by rw [List.drop_drop], a5]
    exact encPoint_x pc a3 a1
  · have sd := s9fromBytes_sim (Sm9.encPoint pc A) (Sm9.encPoint pc A).length
    rw [enc_len hw pc s6] at sd
    obtain ⟨A', -, hA⟩ := relP9_ok' sd
    have nz' : sm9H H C.DS 1 (id ++ [hid]) + beVal key ≠ sm9n :=
      fun h => nz (by rw [← Nat.cast_add, h, ZMod.natCast_self])
    have s6' := (x_affine hA).mp s6
    obtain ⟨B, U, W, b1, b2, b3, b4, b5⟩ := xverify_of hw hC (pub := ⟨P, e⟩) m2 m3.1 q2 s6' msg id hid pc hm hid1 s2 s3
      k2 k3 nz'
    rw [s1, s9encPoint_sim hA, b5]
    have pr := x_pair_gen hw s4 s5 s6' b1
    obtain ⟨V, v1, v2, v3⟩ := b2
    obtain ⟨V', v4, v5, v6⟩ := pr
    rw [v1] at v4
    rw [← Option.some.inj v4, v3] at v6
    have sW := lo12_ro b3
    have := s7 (lo12 W) (r12_l sW) (by rw [r12_den sW, b4, v6, m3.2])
    rw [r12tb sW] at this
    rw [this]
    simp

/-! ## Public keys from octets -/

omit hw [DecidableEq K] [Field K] [Algebra (ZMod sm9p) K] in
theorem bind_ok {α β : Type} {x : Outcome α} {f : α → Outcome β} {b : β} (h : (x >>= f) = .ok b) : ∃ a, x = .ok a ∧ f a = .ok b := by
  cases x with
  | ok a => exact ⟨a, rfl, h⟩
  | throw => cases h
  | ub => cases h

omit hw [DecidableEq K] [Field K] [Algebra (ZMod sm9p) K] in
theorem x2_from_to {a : X64.Sm9.F2} (h : All2 (X64.Reduced sm9p) a) : X64.Sm9.fp2FromBytes (X64.Sm9.fp2ToBytes a) = a := by
  have h1 := lo2_ro h
  have h2 := r2fb (fp2_to_len _ (r2_l h1))
  rw [fp2_from_to _ (r2_l h1), r2tb h1] at h2
  have inj : ∀ {a : List W32} {b c : List W64}, RO a b → RO a c → b = c := fun hb hc =>
    val_inj _ _ (by rw [hb.r.1, hc.r.1]) ((ro_rs hb).eq.symm.trans (ro_rs hc).eq)
  obtain ⟨c, d⟩ := a
  revert h2
  generalize X64.Sm9.fp2FromBytes _ = b
  intro h2
  obtain ⟨c', d'⟩ := b
  rw [Fp2.mk.injEq]
  exact ⟨inj h2.c0 h1.c0, inj h2.c1 h1.c1⟩

theorem s9setPub_sim {x y : List Byte} (hx : x.length = 64) (hy : y.length = 64) :
    (Sm9.setPub x y = .throw ∧ X64.Sm9.setPub x y = .throw) ∨
    (∃ P P' e e' Q, Sm9.setPub x y = .ok ⟨P, e⟩ ∧ X64.Sm9.setPub x y = .ok ⟨P', e'⟩ ∧ RelA (R2 RO) P P' ∧
      P = ⟨Sm9.fp2FromBytes x, Sm9.fp2FromBytes y⟩ ∧ P' = ⟨X64.Sm9.fp2FromBytes x, X64.Sm9.fp2FromBytes y⟩ ∧
      Sm9IsAffine2 w P Q ∧ Sm9.pairing Sm9.p1 P = some e ∧ ok12 e ∧ X64.Sm9.pairing X64.Sm9.p1 P' = some e' ∧ xok e') := by
  have hP : RelA (R2 RO) ⟨Sm9.fp2FromBytes x, Sm9.fp2FromBytes y⟩ ⟨X64.Sm9.fp2FromBytes x, X64.Sm9.fp2FromBytes y⟩ :=
    relA_mk (r2fb hx) (r2fb hy)
  have hc := s9ec2Check_sim hP
  obtain ⟨c1, c2⟩ := setPub_ok hw hx hy
  by_cases hQ : ∃ Q, Sm9IsAffine2 w ⟨Sm9.fp2FromBytes x, Sm9.fp2FromBytes y⟩ Q
  · right
    obtain ⟨Q, hQ⟩ := hQ
    obtain ⟨e, e1, e2, e3⟩ := c1 Q hQ
    obtain ⟨f, -, -, e', u1, u2, -⟩ := x12Pairing hw p1_sim hP
    refine ⟨_, _, e, e', Q, e1, ?_, hP, rfl, rfl, hQ, e3, e2, u1, u2⟩
    have hk := (s9Check2_iff hw (P := ⟨Sm9.fp2FromBytes x, Sm9.fp2FromBytes y⟩) hQ.1 hQ.2.1).mpr ⟨Q, hQ⟩
    rw [hc] at hk
    unfold X64.Sm9.setPub X64.Sm9.pairingP1
    dsimp only
    rw [hk, Bool.not_true, if_neg (by decide), u1, ofOption_some, o_bind]
  · left
    refine ⟨c2 hQ, ?_⟩
    have hk : Sm9.ec2Check ⟨Sm9.fp2FromBytes x, Sm9.fp2FromBytes y⟩ = false := Bool.eq_false_iff.mpr fun h' =>
      hQ ((s9Check2_iff hw (r2_l hP.x) (r2_l hP.y)).mp h')
    rw [hc] at hk
    unfold X64.Sm9.setPub
    dsimp only
    rw [hk, Bool.not_false, if_pos rfl]

/-! ## The builds compared -/

/-- Where no inversion goes wrong in the portable build, the pairings are the same. -/
theorem pairing_sim {A : Sm9.A} {A' : X64.Sm9.A} (hA : RelA RO A A') {P : Sm9.A2} {P' : X64.Sm9.A2}
    (hP : RelA (R2 RO) P P') (hr : PairRight w A P) : RelO (R12 RO) (Sm9.pairing A P) (X64.Sm9.pairing A' P') := by
  obtain ⟨f, f1, f2, U, u1, u2, u3⟩ := x12Pairing hw hA hP
  obtain ⟨i1, i2⟩ := hr f f1
  obtain ⟨r, r1, r2, r3, -⟩ := Props.C63_final_exp_partial hw f f2 i1 i2
  have r0 : Sm9.pairing A P = some r := by
    unfold Sm9.pairing
    rw [f1]
    dsimp only [Option.bind_eq_bind, Option.bind_some]
    exact r1
  rw [u1, r0]
  exact .some (r12_of_den hw r2 u2 (r3.trans u3.symm))

theorem verifyTail_sim (hC : IsHash C H) {pub : Sm9.MPub} {pub' : X64.Sm9.MPub} (hp : Pub9 pub pub') (sig : List Byte) {A : Sm9.A}
    {A' : X64.Sm9.A} (hA : RelA RO A A') (msg id : List Byte) (hid : Byte)
    (hr : ∀ h1 T B, Sm9.hn C id [hid] 1 = .ok h1 → Sm9.j2MulG h1 = some T → Sm9.j2ToA (Sm9.j2AddA T pub.P) = some B →
      PairRight w A B) :
    Sm9.verifyTail C pub sig A msg id hid = X64.Sm9.verifyTail C pub' sig A' msg id hid := by
  unfold Sm9.verifyTail X64.Sm9.verifyTail
  have h1 := ws12_pow sm9_ws hp.e sig
  revert h1
  generalize fp12Pow Sm9.fp pub.e sig = x
  generalize fp12Pow X64.Sm9.fp pub'.e sig = x'
  intro h1
  refine ofOpt_bind h1 fun t t' ht => ?_
  rw [← hn_sim]
  have hlen := fun d => s9hn_len hC (Z1 := id) (Z2 := [hid]) (tag := 1) (d := d)
  revert hlen hr
  generalize Sm9.hn C id [hid] 1 = o
  intro hr hlen
  cases o with
  | throw => rw [t_bind, t_bind]
  | ub => rw [ub_bind', ub_bind']
  | ok d =>
    rw [o_bind, o_bind]
    have hr' := hr d
    have hT := s9Mul2G_sim (hlen d rfl)
    revert hT hr'
    generalize Sm9.j2MulG d = y
    generalize X64.Sm9.j2MulG d = y'
    intro hr' hT
    cases hT with
    | none => rfl
    | some hT =>
      rw [ofOption_some, ofOption_some, o_bind, o_bind]
      dsimp only
      have hB := ws_toA sm9_ws.two (ws_addA sm9_ws.two hT (relA_wk sm9_ws.two hp.P))
      have hr2 := fun B => hr' _ B rfl rfl
      clear hr' hr
      change RelO (RelA (R2 RO)) (Sm9.j2ToA (Sm9.j2AddA _ pub.P)) (X64.Sm9.j2ToA (X64.Sm9.j2AddA _ pub'.P)) at hB
      revert hB hr2
      generalize Sm9.j2ToA (Sm9.j2AddA _ pub.P) = z
      generalize X64.Sm9.j2ToA (X64.Sm9.j2AddA _ pub'.P) = z'
      intro hr2 hB
      cases hB with
      | none => rfl
      | some hB =>
        rw [ofOption_some, ofOption_some, o_bind, o_bind]
        refine ofOpt_bind (pairing_sim hw hA hB (hr2 _ rfl)) fun U U' hU => ?_
        rw [r12tb (ws12_mul sm9_ws (sm9_ws.wk12 hU) (sm9_ws.wk12 ht)), ← hn_sim]

theorem s9verify_sim (hC : IsHash C H) {pub : Sm9.MPub} {pub' : X64.Sm9.MPub} (hp : Pub9 pub pub') (sig msg id : List Byte) (hid : Byte)
    (hr : ∀ A h1 T B, Sm9.ecAFromBytes (sig.drop 32) (sig.length - 32) = .ok (A, sig.length - 32) →
      Sm9.hn C id [hid] 1 = .ok h1 → Sm9.j2MulG h1 = some T → Sm9.j2ToA (Sm9.j2AddA T pub.P) = some B → PairRight w A B) :
    Sm9.verify C pub sig msg id hid = X64.Sm9.verify C pub' sig msg id hid := by
  unfold Sm9.verify X64.Sm9.verify
  refine congrArg Noexcept.of ?_
  unfold Sm9.verifyBody X64.Sm9.verifyBody
  split
  · rfl
  · have hd := s9fromBytes_sim (sig.drop 32) (sig.length - 32)
    revert hd hr
    generalize Sm9.ecAFromBytes (sig.drop 32) (sig.length - 32) = d
    generalize X64.Sm9.ecAFromBytes (sig.drop 32) (sig.length - 32) = d'
    intro hr hd
    cases hd with
    | ub => rfl
    | fail => rfl
    | ok hA =>
      dsimp only
      split
      · rfl
      · rename_i n hn
        refine verifyTail_sim hw hC hp sig hA msg id hid fun h1 T B => hr _ h1 T B ?_
        rw [show n = sig.length - 32 from by omega]

/-- Master keys. -/
theorem s9withPub_sim {key : List Byte} (hl : key.length = 32) :
    RelOut (fun mk mk' => mk.ks = key ∧ mk'.ks = key ∧ RelA (R2 RO) mk.pub.P mk'.pub.P ∧ ok12 mk.pub.e ∧
        Sm9.pairing Sm9.p1 mk.pub.P = some mk.pub.e ∧ X64.Sm9.pairing X64.Sm9.p1 mk'.pub.P = some mk'.pub.e ∧ xok mk'.pub.e)
      (Sm9.withPub key) (X64.Sm9.withPub key) := by
  unfold Sm9.withPub X64.Sm9.withPub Sm9.pairingP1 X64.Sm9.pairingP1
  refine relOut_bind2 (relO_out (s9Mul2G_sim hl)) fun T T' hT => ?_
  refine relOut_bind2 (relO_out (ws_toA sm9_ws.two hT)) fun P P' hP => ?_
  obtain ⟨f, -, -, e', u1, u2, -⟩ := x12Pairing hw p1_sim hP
  obtain ⟨e, e1, e2⟩ := pairing_total hw p1_ok.1 p1_ok.2.1 (r2_l hP.x) (r2_l hP.y)
  rw [e1, u1, ofOption_some, ofOption_some, o_bind, o_bind]
  exact .ok ⟨rfl, rfl, hP, e2, e1, u1, u2⟩

theorem s9setPriv_sim {key : List Byte} (hl : key.length = 32) :
    RelOut (fun mk mk' => mk.ks = key ∧ mk'.ks = key ∧ RelA (R2 RO) mk.pub.P mk'.pub.P ∧ ok12 mk.pub.e ∧
        Sm9.pairing Sm9.p1 mk.pub.P = some mk.pub.e ∧ X64.Sm9.pairing X64.Sm9.p1 mk'.pub.P = some mk'.pub.e ∧ xok mk'.pub.e)
      (Sm9.setPriv key) (X64.Sm9.setPriv key) := by
  unfold Sm9.setPriv X64.Sm9.setPriv
  dsimp only
  rw [ns_equalZero (ns_fromBytes hl), ns_cmp (ns_fromBytes hl) (ns_fromBytes s9n_len)]
  split
  · exact .throw
  · exact s9withPub_sim hw hl

theorem s9pub_right {pub : Sm9.MPub} {pub' : X64.Sm9.MPub} (hP : RelA (R2 RO) pub.P pub'.P)
    (he : Sm9.pairing Sm9.p1 pub.P = some pub.e) (he' : X64.Sm9.pairing X64.Sm9.p1 pub'.P = some pub'.e)
    (hr : PairRight w Sm9.p1 pub.P) : Pub9 pub pub' := by
  have h := pairing_sim hw p1_sim hP hr
  rw [he, he'] at h
  refine ⟨hP, ?_⟩
  cases h with
  | some h => exact h

omit hw [DecidableEq K] [Field K] [Algebra (ZMod sm9p) K] in
/-- A signature with the point (0, 0) is rejected. -/
theorem xverify_zero (pub : X64.Sm9.MPub) {h : List Byte} (hl : h.length = 32) (pc : Sm2.PC) {A : Sm9.A}
    (hx : Reduced sm9p A.x) (hy : Reduced sm9p A.y) (zx : montVal sm9p A.x = 0) (zy : montVal sm9p A.y = 0)
    (msg id : List Byte) (hid : Byte) : X64.Sm9.verify C pub (h ++ Sm9.encPoint pc A) msg id hid = .returns false := by
  have hd : (h ++ Sm9.encPoint pc A).drop 32 = Sm9.encPoint pc A := List.drop_left' hl
  have hlen : (h ++ Sm9.encPoint pc A).length - 32 = (Sm9.encPoint pc A).length := by
    rw [List.length_append, hl]; omega
  refine (xverify_parse pub _ msg id hid).2.2.1 (by rw [List.length_append]; omega) ?_
  rw [hd, hlen]
  have s := s9fromBytes_sim (Sm9.encPoint pc A) (Sm9.encPoint pc A).length
  rw [enc_zero pc hx hy zx zy] at s
  exact relP9_fail s

/-- The key whose point is (0, 0). -/
theorem xkey_violated (hC : IsHash C H) (id : List Byte) (hid : Byte) (hid1 : 8 * (id.length + 6) < 2 ^ 64) :
    ∃ key mk sk, key.length = 32 ∧ X64.Sm9.setPriv key = .ok mk ∧ X64.Sm9.genSignPriv C mk id hid = .ok sk ∧
      ∀ msg rnds pc sig, (∀ r ∈ rnds, r.length = 32) → X64.Sm9.sign C sk msg rnds pc = .ok (some sig) →
        X64.Sm9.verify C mk.pub sig msg id hid = .returns false := by
  obtain ⟨r1, r2⟩ := sm9H_range (H := H) C.DS 1 (id ++ [hid])
  obtain ⟨ks, k1, k2, k3, k4⟩ := s9weak_ks r1 r2
  have hv : beVal (toBE 32 ks) = ks := beVal_toBE_n k2
  have hset : ∃ mk, X64.Sm9.setPriv (toBE 32 ks) = .ok mk := by
    by_cases hk : beVal (toBE 32 ks) = sm9n - 2
    · obtain ⟨P, e, p1, -⟩ := xsetPriv_weak hw (toBE_len _ _) hk
      exact ⟨_, p1⟩
    · obtain ⟨P, e, p1, -⟩ := xsetPriv_ok hw (toBE_len 32 ks) (by rw [hv]; exact k1) (by rw [hv]; exact k2) hk
      exact ⟨_, p1⟩
  obtain ⟨mk, m1⟩ := hset
  obtain ⟨-, -, m2, m3, m4, m5⟩ := xsetPriv_inv hw (toBE_len _ _) m1
  have sp := loPub_sim m3 m4 m5
  obtain ⟨D, d1, d2, d3, d4, d5⟩ := genSignPriv_weak hC (mk := ⟨toBE 32 ks, loPub mk.pub⟩) (toBE_len _ _) id hid hid1
    (by simp only; rw [hv]; exact k3) (by simp only; rw [hv]; exact k4)
  have sg := genSignPriv_sim hC (mk := ⟨toBE 32 ks, loPub mk.pub⟩) (mk' := mk) m2.symm (toBE_len _ _) sp id hid
  rw [d1] at sg
  obtain ⟨sk, g1, g2⟩ := relOut_ok' sg
  refine ⟨_, mk, sk, toBE_len _ _, m1, g1, fun msg rnds pc sig hr hs => ?_⟩
  rw [← s9sign_sim hC g2.priv g2.pub.e msg pc hr] at hs
  obtain ⟨rnd, q1, q2⟩ := signLoop_some hs
  rcases s9signStep_zero hw hC (key := ⟨D, loPub mk.pub⟩) d2 d3 d4 d5 (r12_l sp.e) msg rnd (hr rnd q1) pc with
    h | h | ⟨h, A, a1, a2, a3, a4, a5, a6⟩
  · rw [h] at q2; cases q2
  · rw [h] at q2; cases q2
  · rw [a6] at q2
    rw [← Option.some.inj (Outcome.ok.inj q2)]
    exact xverify_zero mk.pub a1 pc a2 a3 a4 a5 msg id hid

end
end Verif
