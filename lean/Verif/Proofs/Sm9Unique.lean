import Verif.Proofs.Sm9X64Verify
import Verif.Proofs.Sm9X64Enc
/-! # What SM9 keys and signatures determine: lemmas -/
set_option linter.constructorNameAsVariable false
set_option linter.unusedSectionVars false
open WeierstrassCurve WeierstrassCurve.Affine
namespace Verif
open Spec

theorem s9nsmul_iff {P : Sm9Point} (hP : P ≠ 0) {a b : Nat} : a • P = b • P ↔ (a : ZMod sm9n) = b := by
  rw [nsmul_eq_nsmul_iff_modEq, sm9_order hP, ZMod.natCast_eq_natCast_iff]

theorem s9nsmul2_iff {K : Type} [Field K] [Algebra (ZMod sm9p) K] [DecidableEq K] {w : K} (hw : w ^ 12 = -2) {a b : Nat} :
    a • sm9G2 hw = b • sm9G2 hw ↔ (a : ZMod sm9n) = b := by
  rw [nsmul_eq_nsmul_iff_modEq, sm9_order2 hw, ZMod.natCast_eq_natCast_iff]

theorem s9cast_inj {a b : Nat} (ha : a < sm9n) (hb : b < sm9n) (h : (a : ZMod sm9n) = b) : a = b := by
  have := (ZMod.natCast_eq_natCast_iff' _ _ _).mp h
  rwa [Nat.mod_eq_of_lt ha, Nat.mod_eq_of_lt hb] at this

theorem s9be_inj {a b : Nat} (ha : a < sm9n) (hb : b < sm9n) (h : toBE 32 a = toBE 32 b) : a = b := by
  have := congrArg beVal h
  rwa [beVal_toBE_n ha, beVal_toBE_n hb] at this

theorem affine_ne {A : Sm9.A} {Q : Sm9Point} (h : Sm9IsAffine A Q) : Q ≠ 0 := by
  obtain ⟨-, -, n, e⟩ := h
  rw [e]
  exact Point.some_ne_zero _

/-- An array holds one point. -/
theorem affine_fun {A : Sm9.A} {Q Q' : Sm9Point} (h : Sm9IsAffine A Q) (h' : Sm9IsAffine A Q') : Q = Q' := by
  obtain ⟨-, -, n, e⟩ := h
  obtain ⟨-, -, n', e'⟩ := h'
  rw [e, e']

/-- One point is held by one array. -/
theorem affine_inj {A A' : Sm9.A} {Q : Sm9Point} (h : Sm9IsAffine A Q) (h' : Sm9IsAffine A' Q) : A = A' := by
  obtain ⟨x1, y1, n, e⟩ := h
  obtain ⟨x2, y2, n', e'⟩ := h'
  rw [e] at e'
  obtain ⟨a, b⟩ := (Point.some.injEq ..).mp e'
  obtain ⟨x, y⟩ := A
  obtain ⟨x', y'⟩ := A'
  exact congrArg₂ EcA.mk ((Props.C34_unique Sm9.fpCtx_wf _ _ x1 x2).mp a) ((Props.C34_unique Sm9.fpCtx_wf _ _ y1 y2).mp b)

/-- The array holds (0, 0). -/
def ZeroA (A : Sm9.A) : Prop := montVal sm9p A.x = 0 ∧ montVal sm9p A.y = 0 ∧ Reduced sm9p A.x ∧ Reduced sm9p A.y

theorem zero_not_affine {A : Sm9.A} {Q : Sm9Point} (h : Sm9IsAffine A Q) (z : ZeroA A) : False := by
  obtain ⟨-, -, n, -⟩ := h
  have := sm9_onCurve n
  rw [z.1, z.2.1] at this
  refine five_nonsquare 0 ?_
  rw [this]
  ring

theorem zeroA_inj {A A' : Sm9.A} (h : ZeroA A) (h' : ZeroA A') : A = A' := by
  obtain ⟨x, y⟩ := A
  obtain ⟨x', y'⟩ := A'
  exact congrArg₂ EcA.mk ((Props.C34_unique Sm9.fpCtx_wf _ _ h.2.2.1 h'.2.2.1).mp (h.1.trans h'.1.symm))
    ((Props.C34_unique Sm9.fpCtx_wf _ _ h.2.2.2 h'.2.2.2).mp (h.2.1.trans h'.2.1.symm))

theorem fpToBytes_inj {a b : List W32} (ha : Reduced sm9p a) (hb : Reduced sm9p b) (h : Sm9.fpToBytes a = Sm9.fpToBytes b) :
    a = b := by
  have hp : sm9p < 256 ^ 32 := by decide +kernel
  rw [s9To_eq ha, s9To_eq hb] at h
  have h := congrArg beVal h
  unfold sm9Octets at h
  have l1 := ZMod.val_lt (montVal sm9p a)
  have l2 := ZMod.val_lt (montVal sm9p b)
  rw [beVal_toBE, beVal_toBE, Nat.mod_eq_of_lt (by omega), Nat.mod_eq_of_lt (by omega)] at h
  exact (Props.C34_unique Sm9.fpCtx_wf _ _ ha hb).mp (ZMod.val_injective _ h)

section
variable {S : Type} {C : HashClass S} {H : List Byte → List Byte}

/-! ## Signatures -/

theorem s9nonce_congr {rnd rnd' : List Byte} (hr : rnd.length = 32) (hr' : rnd'.length = 32)
    (h : beVal rnd % (sm9n - 1) = beVal rnd' % (sm9n - 1)) : Sm9.nonce rnd = Sm9.nonce rnd' := by
  refine beVal_inj _ _ ((s9nonce_len hr).trans (s9nonce_len hr').symm) ?_
  rw [s9nonce_val hr, s9nonce_val hr', h]

theorem s9sign_congr {key : Sm9.SPriv} {msg rnd rnd' : List Byte} {pc : Sm2.PC} (hr : rnd.length = 32) (hr' : rnd'.length = 32)
    (h : beVal rnd % (sm9n - 1) = beVal rnd' % (sm9n - 1)) :
    Sm9.sign C key msg [rnd] pc = Sm9.sign C key msg [rnd'] pc := by
  unfold Sm9.sign Sm9.signLoop Sm9.signStep
  rw [s9nonce_congr hr hr' h]

theorem enc_inj {pc : Sm2.PC} {A A' : Sm9.A} {Q Q' : Sm9Point} (h : Sm9IsAffine A Q) (h' : Sm9IsAffine A' Q')
    (e : Sm9.encPoint pc A = Sm9.encPoint pc A') : A = A' := by
  obtain ⟨K, _, _, w, hw⟩ := sm9_field_exists
  classical
  have a := enc_len hw pc h
  have b := enc_len hw pc h'
  rw [e, b] at a
  exact (Prod.mk.inj (Sm2.ParseRes.ok.inj a)).1.symm

theorem enc_zero_ne {pc : Sm2.PC} {A A' : Sm9.A} {Q : Sm9Point} (h : Sm9IsAffine A Q) (z : ZeroA A') :
    Sm9.encPoint pc A ≠ Sm9.encPoint pc A' := by
  intro e
  obtain ⟨K, _, _, w, hw⟩ := sm9_field_exists
  classical
  have a := enc_len hw pc h
  rw [e, enc_zero pc z.2.2.1 z.2.2.2 z.1 z.2.1] at a
  cases a

theorem s9draw_lt (rnd : List Byte) : beVal rnd % (sm9n - 1) + 1 < sm9n := by
  have hn : 2 < sm9n := s9_pos
  have := Nat.mod_lt (beVal rnd) (show 0 < sm9n - 1 by omega)
  omega

/-- A signature made with one answer of the generator. -/
theorem s9sign_one {K : Type} [Field K] [Algebra (ZMod sm9p) K] [DecidableEq K] {w : K} (hw : w ^ 12 = -2)
    (hC : IsHash C H) {key : Sm9.SPriv} {D : Sm9Point} (hD : Sm9IsAffine key.priv D)
    (he : All12 (Reduced sm9p) key.pub.e) {msg rnd : List Byte} (hr : rnd.length = 32) {pc : Sm2.PC} {sig : List Byte}
    (h : Sm9.sign C key msg [rnd] pc = .ok (some sig)) :
    ∃ W v A, All12 (Reduced sm9p) W ∧ fp12Den w W = fp12Den w key.pub.e ^ (beVal rnd % (sm9n - 1) + 1) ∧
      v = sm9H H C.DS 2 (msg ++ Sm9.fp12ToBytes W) ∧ v < sm9n ∧ sig = toBE 32 v ++ Sm9.encPoint pc A ∧
      (Sm9IsAffine A ((((beVal rnd % (sm9n - 1) + 1 : Nat) : ZMod sm9n) - (v : ZMod sm9n)).val • D) ∨
        ZeroA A ∧ (((beVal rnd % (sm9n - 1) + 1 : Nat) : ZMod sm9n) - (v : ZMod sm9n)).val = sm9n - 2) := by
  obtain ⟨r, r1, r2⟩ := signLoop_some h
  rw [List.mem_singleton] at r1
  subst r1
  have hm : 8 * (msg.length + 389) < 2 ^ 64 := by
    by_contra hc
    rw [s9signStep_long hw hC he msg r hr pc hc] at r2
    cases r2
  obtain ⟨W, w1, w2, w3⟩ := s9signStep_ok hw hC hD he msg r hr pc hm
  simp only at w3
  obtain ⟨c1, c2, c3⟩ := w3
  refine ⟨W, sm9H H C.DS 2 (msg ++ Sm9.fp12ToBytes W), ?_⟩
  by_cases e1 : beVal r % (sm9n - 1) + 1 = sm9H H C.DS 2 (msg ++ Sm9.fp12ToBytes W)
  · rw [c1 e1] at r2; cases r2
  by_cases e2 : (((beVal r % (sm9n - 1) + 1 : Nat) : ZMod sm9n) -
      ((sm9H H C.DS 2 (msg ++ Sm9.fp12ToBytes W) : Nat) : ZMod sm9n)).val = sm9n - 2
  · obtain ⟨A, x1, x2, x3, x4, x5⟩ := c3 e1 e2
    rw [x5] at r2
    exact ⟨A, w1, w2, rfl, (sm9H_range _ _ _).2, (Option.some.inj (Outcome.ok.inj r2)).symm, Or.inr ⟨⟨x1, x2, x3, x4⟩, e2⟩⟩
  · obtain ⟨l0, A, hA, x5⟩ := c2 e1 e2
    rw [x5] at r2
    exact ⟨A, w1, w2, rfl, (sm9H_range _ _ _).2, (Option.some.inj (Outcome.ok.inj r2)).symm, Or.inl hA⟩

/-- One key, one message: two answers of the generator give the same signature exactly when they give the same nonce. -/
theorem s9sig_nonce (hC : IsHash C H) {key : Sm9.SPriv} {D : Sm9Point} (hD : Sm9IsAffine key.priv D)
    (he : All12 (Reduced sm9p) key.pub.e) {msg rnd rnd' : List Byte} (hr : rnd.length = 32) (hr' : rnd'.length = 32)
    {pc : Sm2.PC} {sig sig' : List Byte} (h : Sm9.sign C key msg [rnd] pc = .ok (some sig))
    (h' : Sm9.sign C key msg [rnd'] pc = .ok (some sig')) :
    sig = sig' ↔ beVal rnd % (sm9n - 1) = beVal rnd' % (sm9n - 1) := by
  constructor
  swap
  · intro e
    rw [s9sign_congr hr hr' e, h'] at h
    exact (Option.some.inj (Outcome.ok.inj h)).symm
  rintro rfl
  obtain ⟨K, _, _, w, hw⟩ := sm9_field_exists
  classical
  obtain ⟨W, v, A, -, -, -, v1, s1, c⟩ := s9sign_one hw hC hD he hr h
  obtain ⟨W', v', A', -, -, -, v1', s1', c'⟩ := s9sign_one hw hC hD he hr' h'
  obtain ⟨e1, e2⟩ := List.append_inj (s1.symm.trans s1') (by rw [toBE_len, toBE_len])
  obtain rfl := s9be_inj v1 v1' e1
  have key : ((beVal rnd % (sm9n - 1) + 1 : Nat) : ZMod sm9n) - (v : ZMod sm9n) =
      ((beVal rnd' % (sm9n - 1) + 1 : Nat) : ZMod sm9n) - (v : ZMod sm9n) := by
    rcases c with c | ⟨z, c⟩ <;> rcases c' with c' | ⟨z', c'⟩
    · have := enc_inj c c' e2
      subst this
      have := (s9nsmul_iff (affine_ne hD)).mp (affine_fun c c')
      simpa only [ZMod.natCast_zmod_val] using this
    · exact absurd e2 (enc_zero_ne c z')
    · exact absurd e2.symm (enc_zero_ne c' z)
    · exact ZMod.val_injective _ (c.trans c'.symm)
  have := s9cast_inj (s9draw_lt rnd) (s9draw_lt rnd') (sub_left_injective key)
  omega

/-- One key, one nonce, two values of `H2`: the private key. -/
theorem s9nonce_reuse (hC : IsHash C H) {key : Sm9.SPriv} {D : Sm9Point} (hD : Sm9IsAffine key.priv D)
    (he : All12 (Reduced sm9p) key.pub.e) {msg msg' rnd rnd' : List Byte} (hr : rnd.length = 32) (hr' : rnd'.length = 32)
    (hk : beVal rnd % (sm9n - 1) = beVal rnd' % (sm9n - 1))
    {pc pc' : Sm2.PC} {v v' : Nat} {A A' : Sm9.A} {Q Q' : Sm9Point} (hv : v < sm9n) (hv' : v' < sm9n) (hne : v ≠ v')
    (hA : Sm9IsAffine A Q) (hA' : Sm9IsAffine A' Q')
    (h : Sm9.sign C key msg [rnd] pc = .ok (some (toBE 32 v ++ Sm9.encPoint pc A)))
    (h' : Sm9.sign C key msg' [rnd'] pc' = .ok (some (toBE 32 v' ++ Sm9.encPoint pc' A'))) :
    D = (((v' : ZMod sm9n) - v)⁻¹).val • (Q - Q') := by
  obtain ⟨K, _, _, w, hw⟩ := sm9_field_exists
  classical
  obtain ⟨W, u, B, -, -, -, v1, s1, c⟩ := s9sign_one hw hC hD he hr h
  obtain ⟨W', u', B', -, -, -, v1', s1', c'⟩ := s9sign_one hw hC hD he hr' h'
  obtain ⟨e1, e2⟩ := List.append_inj s1 (by rw [toBE_len, toBE_len])
  obtain ⟨e1', e2'⟩ := List.append_inj s1' (by rw [toBE_len, toBE_len])
  obtain rfl := s9be_inj hv v1 e1
  obtain rfl := s9be_inj hv' v1' e1'
  rcases c with c | ⟨z, c⟩
  swap
  · exact absurd e2 (enc_zero_ne hA z)
  rcases c' with c' | ⟨z', c'⟩
  swap
  · exact absurd e2' (enc_zero_ne hA' z')
  obtain rfl := enc_inj hA c e2
  obtain rfl := enc_inj hA' c' e2'
  rw [affine_fun hA c, affine_fun hA' c', ← hk, eq_comm]
  have h0 : (v' : ZMod sm9n) - v ≠ 0 := fun h0 => hne (s9cast_inj hv hv' (sub_eq_zero.mp h0).symm)
  rw [nsmul_sub, sub_eq_iff_eq_add, ← mul_nsmul', ← mul_nsmul', ← succ_nsmul', s9nsmul_iff (affine_ne hD)]
  push_cast
  simp only [ZMod.natCast_zmod_val]
  have := inv_mul_cancel₀ h0
  linear_combination this

/-! ## Keys of two identities -/

theorem s9key_ids (hC : IsHash C H) {mk : Sm9.MPriv} (hl : mk.ks.length = 32) (k1 : 1 ≤ beVal mk.ks) (k2 : beVal mk.ks < sm9n)
    {id id' : List Byte} {hid hid' : Byte} {sk sk' : Sm9.SPriv} (h : Sm9.genSignPriv C mk id hid = .ok sk)
    (h' : Sm9.genSignPriv C mk id' hid' = .ok sk') :
    Sm9.getSignPriv sk = Sm9.getSignPriv sk' ↔ sm9H H C.DS 1 (id ++ [hid]) = sm9H H C.DS 1 (id' ++ [hid']) := by
  obtain ⟨K, _, _, w, hw⟩ := sm9_field_exists
  classical
  have kz : (beVal mk.ks : ZMod sm9n) ≠ 0 := by
    rw [Ne, ZMod.natCast_eq_zero_iff]
    exact fun h => absurd (Nat.le_of_dvd (by omega) h) (by omega)
  have form : ∀ {id : List Byte} {hid : Byte} {sk : Sm9.SPriv}, Sm9.genSignPriv C mk id hid = .ok sk →
      sk.pub = mk.pub ∧ (sm9H H C.DS 1 (id ++ [hid]) : ZMod sm9n) + (beVal mk.ks : ZMod sm9n) ≠ 0 ∧
      (Sm9IsAffine sk.priv (((beVal mk.ks : ZMod sm9n) *
        ((sm9H H C.DS 1 (id ++ [hid]) : ZMod sm9n) + (beVal mk.ks : ZMod sm9n))⁻¹).val • sm9G) ∧
        ((beVal mk.ks : ZMod sm9n) *
          ((sm9H H C.DS 1 (id ++ [hid]) : ZMod sm9n) + (beVal mk.ks : ZMod sm9n))⁻¹).val ≠ sm9n - 2 ∨
      ZeroA sk.priv ∧ ((beVal mk.ks : ZMod sm9n) *
        ((sm9H H C.DS 1 (id ++ [hid]) : ZMod sm9n) + (beVal mk.ks : ZMod sm9n))⁻¹).val = sm9n - 2) := by
    intro id hid sk h
    have hid1 : 8 * (id.length + 6) < 2 ^ 64 := by
      by_contra hc
      rw [genSignPriv_long hC id hid hc] at h
      cases h
    obtain ⟨g1, g2⟩ := genSignPriv_ok hw hC (mk := mk) hl id hid hid1
    have nz : (sm9H H C.DS 1 (id ++ [hid]) : ZMod sm9n) + (beVal mk.ks : ZMod sm9n) ≠ 0 := fun h0 => by
      rw [g1 h0] at h
      cases h
    by_cases e : ((beVal mk.ks : ZMod sm9n) *
        ((sm9H H C.DS 1 (id ++ [hid]) : ZMod sm9n) + (beVal mk.ks : ZMod sm9n))⁻¹).val = sm9n - 2
    · obtain ⟨D, d1, d2, d3, d4, d5⟩ := genSignPriv_weak hC hl id hid hid1 nz e
      rw [d1] at h
      rw [← Outcome.ok.inj h]
      exact ⟨rfl, nz, Or.inr ⟨⟨d4, d5, d2, d3⟩, e⟩⟩
    · obtain ⟨D, d1, d2⟩ := g2 nz kz e
      rw [d1] at h
      rw [← Outcome.ok.inj h]
      exact ⟨rfl, nz, Or.inl ⟨d2, e⟩⟩
  obtain ⟨p, nz, c⟩ := form h
  obtain ⟨p', nz', c'⟩ := form h'
  constructor
  · intro e
    unfold Sm9.getSignPriv at e
    obtain ⟨ex, e⟩ := Prod.mk.inj e
    obtain ⟨ey, -⟩ := Prod.mk.inj e
    have red : ∀ {A : Sm9.A} {Q : Sm9Point} {P P' : Prop}, Sm9IsAffine A Q ∧ P' ∨ ZeroA A ∧ P → Reduced sm9p A.x ∧ Reduced sm9p A.y := by
      rintro A Q P P' (⟨h, -⟩ | ⟨h, -⟩)
      · exact ⟨h.1, h.2.1⟩
      · exact ⟨h.2.2.1, h.2.2.2⟩
    have eA : sk.priv = sk'.priv := by
      have a := fpToBytes_inj (red c).1 (red c').1 ex
      have b := fpToBytes_inj (red c).2 (red c').2 ey
      revert a b
      generalize sk.priv = X, sk'.priv = Y
      rintro a b
      cases X; cases Y
      exact congrArg₂ EcA.mk a b
    have ht : (beVal mk.ks : ZMod sm9n) * ((sm9H H C.DS 1 (id ++ [hid]) : ZMod sm9n) + (beVal mk.ks : ZMod sm9n))⁻¹ =
        (beVal mk.ks : ZMod sm9n) * ((sm9H H C.DS 1 (id' ++ [hid']) : ZMod sm9n) + (beVal mk.ks : ZMod sm9n))⁻¹ := by
      rw [← eA] at c'
      rcases c with ⟨c, n⟩ | ⟨z, c⟩ <;> rcases c' with ⟨c', n'⟩ | ⟨z', c'⟩
      · have := (s9nsmul_iff sm9G_ne).mp (affine_fun c c')
        simpa only [ZMod.natCast_zmod_val] using this
      · exact (zero_not_affine c z').elim
      · exact (zero_not_affine c' z).elim
      · exact ZMod.val_injective _ (c.trans c'.symm)
    have := add_right_cancel (inv_injective (mul_left_cancel₀ kz ht))
    exact s9cast_inj (sm9H_range _ _ _).2 (sm9H_range _ _ _).2 this
  · intro e
    rw [← e] at c'
    have eA : sk.priv = sk'.priv := by
      rcases c with ⟨c, n⟩ | ⟨z, c⟩ <;> rcases c' with ⟨c', n'⟩ | ⟨z', c'⟩
      · exact affine_inj c c'
      · exact absurd c' n
      · exact absurd c n'
      · exact zeroA_inj z z'
    unfold Sm9.getSignPriv
    rw [eA, p, p']

end

/-! ## Master public keys -/

section
variable {K : Type} [Field K] [Algebra (ZMod sm9p) K] [DecidableEq K] {w : K} (hw : w ^ 12 = -2)
include hw

theorem fp2ToBytes_inj {a b : Sm9.F2} (ha : All2 (Reduced sm9p) a) (hb : All2 (Reduced sm9p) b)
    (h : Sm9.fp2ToBytes a = Sm9.fp2ToBytes b) : a = b := by
  rw [← fp2_from_to a ha, h, fp2_from_to b hb]

theorem zero_not_affine2 {A : Sm9.A2} {Q : Sm9Point2 w} (h : Sm9IsAffine2 w A Q) (hx : fp2Den w A.x = 0)
    (hy : fp2Den w A.y = 0) : False := by
  obtain ⟨-, -, n, -⟩ := h
  have e := sm9_onCurve2 n
  rw [hx, hy] at e
  have h5 : (5 : K) ≠ 0 := by
    have : (5 : ZMod sm9p) ≠ 0 := fun h => five_nonsquare 0 (by rw [h]; ring)
    rw [← map_ofNat (algebraMap (ZMod sm9p) K) 5]
    exact (map_ne_zero _).mpr this
  have hw0 : w ≠ 0 := sm9w_ne hw
  have : (5 : K) * w ^ 6 = 0 := by linear_combination -e
  exact mul_ne_zero h5 (pow_ne_zero _ hw0) this

theorem s9master_pub {key key' : List Byte} (hl : key.length = 32) (hl' : key'.length = 32) {mk mk' : Sm9.MPriv}
    (h : Sm9.setPriv key = .ok mk) (h' : Sm9.setPriv key' = .ok mk') :
    Sm9.getPub mk.pub = Sm9.getPub mk'.pub ↔ key = key' := by
  have form : ∀ {key : List Byte} {mk : Sm9.MPriv}, key.length = 32 → Sm9.setPriv key = .ok mk →
      beVal key < sm9n ∧ (Sm9IsAffine2 w mk.pub.P (beVal key • sm9G2 hw) ∨
        (fp2Den w mk.pub.P.x = 0 ∧ fp2Den w mk.pub.P.y = 0) ∧ beVal key = sm9n - 2) := by
    intro key mk hl h
    by_cases hr : beVal key = 0 ∨ sm9n ≤ beVal key
    · obtain ⟨z1, z2⟩ := s9range_iff hl
      unfold Sm9.setPriv at h
      simp only at h
      rw [if_pos (hr.imp z1.mpr z2.mpr)] at h
      cases h
    push Not at hr
    refine ⟨hr.2, ?_⟩
    by_cases hne : beVal key = sm9n - 2
    · obtain ⟨P, e, p1, -, -, p2, p3, -⟩ := setPriv_weak hw hl hne
      rw [p1] at h
      rw [← Outcome.ok.inj h]
      exact Or.inr ⟨⟨p2, p3⟩, hne⟩
    · obtain ⟨P, e, p1, p2, -⟩ := setPriv_ok hw hl (by omega) hr.2 hne
      rw [p1] at h
      rw [← Outcome.ok.inj h]
      exact Or.inl p2
  constructor
  swap
  · rintro rfl
    rw [h] at h'
    rw [Outcome.ok.inj h']
  intro e
  obtain ⟨l, c⟩ := form hl h
  obtain ⟨l', c'⟩ := form hl' h'
  obtain ⟨r1, r2, -⟩ := setPriv_red hw hl h
  obtain ⟨r1', r2', -⟩ := setPriv_red hw hl' h'
  unfold Sm9.getPub at e
  obtain ⟨ex, ey⟩ := Prod.mk.inj e
  have ex := fp2ToBytes_inj hw r1 r1' ex
  have ey := fp2ToBytes_inj hw r2 r2' ey
  have eP : mk.pub.P = mk'.pub.P := by
    revert ex ey
    generalize mk.pub.P = X, mk'.pub.P = Y
    intro ex ey
    cases X; cases Y
    exact congrArg₂ EcA.mk ex ey
  rw [← eP] at c'
  refine beVal_inj _ _ (hl.trans hl'.symm) ?_
  rcases c with c | ⟨z, c⟩ <;> rcases c' with c' | ⟨z', c'⟩
  · obtain ⟨-, -, n, e1⟩ := c
    obtain ⟨-, -, n', e2⟩ := c'
    exact s9cast_inj l l' ((s9nsmul2_iff hw).mp (e1.trans e2.symm))
  · exact (zero_not_affine2 hw c z'.1 z'.2).elim
  · exact (zero_not_affine2 hw c' z.1 z.2).elim
  · exact c.trans c'.symm

/-! ## The point of an accepted signature -/

theorem sm9g_pow_inj {a b : Nat} (h : sm9g hw ^ a = sm9g hw ^ b) : (a : ZMod sm9n) = b := by
  have ho : orderOf (sm9g hw) = sm9n :=
    haveI : Fact sm9n.Prime := ⟨sm9n_prime⟩
    orderOf_eq_prime (sm9g_N hw) (sm9g_ne1 hw)
  have hf : IsOfFinOrder (sm9g hw) := isOfFinOrder_iff_pow_eq_one.mpr ⟨sm9n, by decide +kernel, sm9g_N hw⟩
  rw [ZMod.natCast_eq_natCast_iff, ← ho]
  exact hf.pow_eq_pow_iff_modEq.mp h

omit hw in
theorem s9point_mul (Q : Sm9Point) (h : Q ≠ 0) : ∃ a, 1 ≤ a ∧ a < sm9n ∧ a • sm9G = Q := by
  have : Fact sm9n.Prime := ⟨sm9n_prime⟩
  obtain ⟨a, ha⟩ := AddSubmonoid.mem_multiples_iff _ _ |>.mp (mem_multiples_of_prime_card sm9_card sm9G_ne (g' := Q))
  refine ⟨a % sm9n, Nat.pos_of_ne_zero fun h0 => h ?_, Nat.mod_lt _ (by decide +kernel), by rw [← nsmul_mod]; exact ha⟩
  rw [← ha, nsmul_mod, h0, zero_nsmul]

theorem pairsTo_fun {A : X64.Sm9.A} {B : X64.Sm9.A2} {u v : K} (h : X64.PairsTo w A B u) (h' : X64.PairsTo w A B v) : u = v := by
  obtain ⟨r, a, -, b⟩ := h
  obtain ⟨r', a', -, b'⟩ := h'
  rw [a] at a'
  rw [← b, ← b', Option.some.inj a']

theorem x12_bytes_inj {W W' : X64.Sm9.F12} (h : All12 (X64.Reduced sm9p) W) (h' : All12 (X64.Reduced sm9p) W')
    (e : X64.Sm9.fp12ToBytes W = X64.Sm9.fp12ToBytes W') : W = W' := by
  have h1 := lo12_ro h
  have h2 := lo12_ro h'
  rw [← r12tb h1, ← r12tb h2] at e
  have : lo12 W = lo12 W' := by
    rw [← fp12_from_to _ (r12_l h1), e, fp12_from_to _ (r12_l h2)]
  rw [this] at h1
  exact r12_inj h1 h2

variable {S : Type} {C : HashClass S} {H : List Byte → List Byte}

theorem x9point_unique (hC : IsHash C H) {pub : X64.Sm9.MPub} {ks : Nat} (hks : ks < sm9n)
    (hP : X64.Sm9IsAffine2 w pub.P (ks • sm9G2 hw)) (he : All12 (X64.Reduced sm9p) pub.e) (he0 : X64.fp12Den w pub.e ≠ 0)
    {A A' : X64.Sm9.A} {Q Q' : Sm9Point} (hA : X64.Sm9IsAffine A Q) (hA' : X64.Sm9IsAffine A' Q')
    {msg id : List Byte} {hid : Byte} {pc pc' : Sm2.PC} (hm : 8 * (msg.length + 389) < 2 ^ 64)
    (hid1 : 8 * (id.length + 6) < 2 ^ 64) {h : Nat} (h0 : 1 ≤ h) (hn : h < sm9n)
    (k2 : sm9H H C.DS 1 (id ++ [hid]) ≠ sm9n - 2) (k3 : sm9H H C.DS 1 (id ++ [hid]) ≠ ks)
    (k4 : sm9H H C.DS 1 (id ++ [hid]) + ks ≠ sm9n)
    (v : X64.Sm9.verify C pub (toBE 32 h ++ X64.Sm9.encPoint pc A) msg id hid = .returns true)
    (v' : X64.Sm9.verify C pub (toBE 32 h ++ X64.Sm9.encPoint pc' A') msg id hid = .returns true) :
    Q = Q' ∨ ∃ W W' : List Byte, W.length = 384 ∧ W'.length = 384 ∧ W ≠ W' ∧ sm9H H C.DS 2 (msg ++ W) = h ∧
      sm9H H C.DS 2 (msg ++ W') = h := by
  obtain ⟨B, U, W, b1, b2, b3, b4, b5⟩ := xverify_of hw hC hP he hks hA msg id hid pc hm hid1 h0 hn k2 k3 k4
  obtain ⟨B', U', W', c1, c2, c3, c4, c5⟩ := xverify_of hw hC hP he hks hA' msg id hid pc' hm hid1 h0 hn k2 k3 k4
  rw [b5] at v
  rw [c5] at v'
  have v := of_decide_eq_true (Noexcept.returns.inj v)
  have v' := of_decide_eq_true (Noexcept.returns.inj v')
  by_cases e : X64.Sm9.fp12ToBytes W = X64.Sm9.fp12ToBytes W'
  swap
  · exact Or.inr ⟨_, _, x384 b3, x384 c3, e, v, v'⟩
  left
  have ne : ∀ {A : X64.Sm9.A} {Q : Sm9Point}, X64.Sm9IsAffine A Q → Q ≠ 0 := by
    rintro A Q ⟨-, -, n, e⟩
    rw [e]
    exact Point.some_ne_zero _
  obtain ⟨a, a1, a2, rfl⟩ := s9point_mul Q (ne hA)
  obtain ⟨a', a1', a2', rfl⟩ := s9point_mul Q' (ne hA')
  rw [x12_bytes_inj hw b3 c3 e, c4] at b4
  have hU := mul_right_cancel₀ (pow_ne_zero h he0) b4
  rw [pairsTo_fun hw b2 (x_pair_gen hw a1 a2 hA b1), pairsTo_fun hw c2 (x_pair_gen hw a1' a2' hA' c1)] at hU
  have hz := sm9g_pow_inj hw hU
  push_cast at hz
  have nz : ((sm9H H C.DS 1 (id ++ [hid]) : Nat) : ZMod sm9n) + (ks : ZMod sm9n) ≠ 0 := by
    intro h0
    obtain ⟨r1, r2⟩ := sm9H_range (H := H) C.DS 1 (id ++ [hid])
    rw [← Nat.cast_add, ZMod.natCast_eq_zero_iff] at h0
    obtain ⟨c, hc⟩ := h0
    match c, hc with
    | 0, hc => omega
    | 1, hc => omega
    | c + 2, hc =>
      have : sm9n * (c + 2) = sm9n * c + 2 * sm9n := by ring
      omega
  rw [s9cast_inj a2 a2' (mul_right_cancel₀ nz hz).symm]

end
end Verif
