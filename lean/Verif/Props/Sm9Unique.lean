import Verif.Proofs.Sm9Unique
import Verif.Props.Sm9X64
/-!
# C97: what SM9 master keys, user keys and signatures determine

As in C52-C56 and C81 the theorems hold for every hash class `C` that computes a hash function `H`; `rnd` is one 32-octet
answer of the generator, from which the nonce `rnd mod (N - 1) + 1` is made. The theorems on keys and on signing are stated
for both builds. The theorem on verification is stated for the build with 64-bit limbs, where the pairing is right for every
pair of points (C80); `Props/Sm9Point` has the portable build.
-/
namespace Verif.Props
open Verif Spec WeierstrassCurve WeierstrassCurve.Affine

/-- C97: two imported master private keys have the same public key exactly when they are the same. -/
theorem C97_master_keys (key key' : List Byte) (hl : key.length = 32) (hl' : key'.length = 32) (mk mk' : Sm9.MPriv)
    (h : Sm9.setPriv key = .ok mk) (h' : Sm9.setPriv key' = .ok mk') :
    Sm9.getPub mk.pub = Sm9.getPub mk'.pub ↔ key = key' := by
  obtain ⟨K, _, _, w, hw⟩ := sm9_field_exists
  classical
  exact s9master_pub hw hl hl' h h'

section
variable {S : Type} {C : HashClass S} {H : List Byte → List Byte}

/-- C97: one master key issues the same private key to two identities exactly when `H1` gives the two the same value. -/
theorem C97_identity_keys (hC : IsHash C H) (key : List Byte) (hl : key.length = 32) (mk : Sm9.MPriv)
    (hmk : Sm9.setPriv key = .ok mk) (id id' : List Byte) (hid hid' : Byte) (sk sk' : Sm9.SPriv)
    (h : Sm9.genSignPriv C mk id hid = .ok sk) (h' : Sm9.genSignPriv C mk id' hid' = .ok sk') :
    Sm9.getSignPriv sk = Sm9.getSignPriv sk' ↔ sm9H H C.DS 1 (id ++ [hid]) = sm9H H C.DS 1 (id' ++ [hid']) := by
  obtain ⟨K, _, _, w, hw⟩ := sm9_field_exists
  classical
  have sm := s9setPriv_sim hw hl
  rw [hmk] at sm
  obtain ⟨mk2, e, e1, -⟩ := relOut_ok' sm
  obtain ⟨q1, q2, -⟩ := xsetPriv_inv hw hl e
  exact s9key_ids hC (by rw [e1]; exact hl) (by rw [e1]; exact q1) (by rw [e1]; exact q2) h h'

/-- C97: for one key and message, two answers of the generator give the same signature exactly when they give the same
nonce. -/
theorem C97_signature_nonce (hC : IsHash C H) (key : Sm9.SPriv) (D : Sm9Point) (hD : Sm9IsAffine key.priv D)
    (he : All12 (Reduced sm9p) key.pub.e) (msg rnd rnd' : List Byte) (hr : rnd.length = 32) (hr' : rnd'.length = 32)
    (pc : Sm2.PC) (sig sig' : List Byte) (h : Sm9.sign C key msg [rnd] pc = .ok (some sig))
    (h' : Sm9.sign C key msg [rnd'] pc = .ok (some sig')) :
    sig = sig' ↔ beVal rnd % (sm9n - 1) = beVal rnd' % (sm9n - 1) := s9sig_nonce hC hD he hr hr' h h'

/-- C97: two signatures of one key made with the same nonce, whose first halves differ, determine the private key: it is this
function of the two signatures. -/
theorem C97_nonce_reuse (hC : IsHash C H) (key : Sm9.SPriv) (D : Sm9Point) (hD : Sm9IsAffine key.priv D)
    (he : All12 (Reduced sm9p) key.pub.e) (msg msg' rnd rnd' : List Byte) (hr : rnd.length = 32) (hr' : rnd'.length = 32)
    (hk : beVal rnd % (sm9n - 1) = beVal rnd' % (sm9n - 1)) (pc pc' : Sm2.PC) (v v' : Nat) (hv : v < sm9n) (hv' : v' < sm9n)
    (hne : v ≠ v') (A A' : Sm9.A) (Q Q' : Sm9Point) (hA : Sm9IsAffine A Q) (hA' : Sm9IsAffine A' Q')
    (h : Sm9.sign C key msg [rnd] pc = .ok (some (toBE 32 v ++ Sm9.encPoint pc A)))
    (h' : Sm9.sign C key msg' [rnd'] pc' = .ok (some (toBE 32 v' ++ Sm9.encPoint pc' A'))) :
    D = (((v' : ZMod sm9n) - v)⁻¹).val • (Q - Q') := s9nonce_reuse hC hD he hr hr' hk hv hv' hne hA hA' h h'

end
end Verif.Props

namespace Verif.X64.Props
open Verif Verif.Spec WeierstrassCurve WeierstrassCurve.Affine

/-- C97: two imported master private keys have the same public key exactly when they are the same. -/
theorem C97_x64_master_keys (key key' : List Byte) (hl : key.length = 32) (hl' : key'.length = 32) (mk mk' : X64.Sm9.MPriv)
    (h : X64.Sm9.setPriv key = .ok mk) (h' : X64.Sm9.setPriv key' = .ok mk') :
    X64.Sm9.getPub mk.pub = X64.Sm9.getPub mk'.pub ↔ key = key' := by
  obtain ⟨K, _, _, w, hw⟩ := sm9_field_exists
  classical
  have s := s9setPriv_sim hw hl
  have s' := s9setPriv_sim hw hl'
  rw [h] at s
  rw [h'] at s'
  obtain ⟨a, a1, -, -, a2, -⟩ := relOut_ok s
  obtain ⟨b, b1, -, -, b2, -⟩ := relOut_ok s'
  rw [← Verif.Props.C97_master_keys key key' hl hl' a b a1 b1]
  unfold X64.Sm9.getPub Verif.Sm9.getPub
  rw [r2tb a2.x, r2tb a2.y, r2tb b2.x, r2tb b2.y]

theorem first_half {v : Nat} (hv : v < 2 ^ 256) {l : List Byte} : beVal ((toBE 32 v ++ l).take 32) = v := by
  rw [List.take_left' (toBE_len 32 v), beVal_toBE]
  exact Nat.mod_eq_of_lt (by rw [show (256 : Nat) ^ 32 = 2 ^ 256 by decide]; exact hv)

section
variable {S : Type} {C : HashClass S} {H : List Byte → List Byte}

/-- C97: one master key issues the same private key to two identities exactly when `H1` gives the two the same value. -/
theorem C97_x64_identity_keys (hC : IsHash C H) (key : List Byte) (hl : key.length = 32) (mk : X64.Sm9.MPriv)
    (hmk : X64.Sm9.setPriv key = .ok mk) (id id' : List Byte) (hid hid' : Byte) (sk sk' : X64.Sm9.SPriv)
    (h : X64.Sm9.genSignPriv C mk id hid = .ok sk) (h' : X64.Sm9.genSignPriv C mk id' hid' = .ok sk') :
    X64.Sm9.getSignPriv sk = X64.Sm9.getSignPriv sk' ↔
      sm9H H C.DS 1 (id ++ [hid]) = sm9H H C.DS 1 (id' ++ [hid']) := by
  obtain ⟨K, _, _, w, hw⟩ := sm9_field_exists
  classical
  obtain ⟨q1, q2, q3, q4, q5, q6⟩ := xsetPriv_inv hw hl hmk
  have sp := loPub_sim q4 q5 q6
  have sg := genSignPriv_sim hC (mk := ⟨key, loPub mk.pub⟩) (mk' := mk) q3.symm hl sp id hid
  have sg' := genSignPriv_sim hC (mk := ⟨key, loPub mk.pub⟩) (mk' := mk) q3.symm hl sp id' hid'
  rw [h] at sg
  rw [h'] at sg'
  obtain ⟨a, a1, a2⟩ := relOut_ok sg
  obtain ⟨b, b1, b2⟩ := relOut_ok sg'
  rw [← s9key_ids hC hl q1 q2 a1 b1]
  unfold X64.Sm9.getSignPriv Verif.Sm9.getSignPriv X64.Sm9.getPub Verif.Sm9.getPub
  rw [rtb a2.priv.x, rtb a2.priv.y, rtb b2.priv.x, rtb b2.priv.y, r2tb a2.pub.P.x, r2tb a2.pub.P.y, r2tb b2.pub.P.x,
    r2tb b2.pub.P.y]

/-- C97: for one key and message, two answers of the generator give the same signature exactly when they give the same
nonce. -/
theorem C97_x64_signature_nonce (hC : IsHash C H) (key : X64.Sm9.SPriv) (D : Sm9Point) (hD : X64.Sm9IsAffine key.priv D)
    (he : All12 (X64.Reduced sm9p) key.pub.e) (msg rnd rnd' : List Byte) (hr : rnd.length = 32) (hr' : rnd'.length = 32)
    (pc : Verif.Sm2.PC) (sig sig' : List Byte) (h : X64.Sm9.sign C key msg [rnd] pc = .ok (some sig))
    (h' : X64.Sm9.sign C key msg [rnd'] pc = .ok (some sig')) :
    sig = sig' ↔ beVal rnd % (sm9n - 1) = beVal rnd' % (sm9n - 1) := by
  have sp := loA_sim hD.1 hD.2.1
  have se := lo12_ro he
  rw [← s9sign_sim hC (key := ⟨loA key.priv, ⟨Verif.Sm9.p2, lo12 key.pub.e⟩⟩) sp se msg pc (by simpa using hr)] at h
  rw [← s9sign_sim hC (key := ⟨loA key.priv, ⟨Verif.Sm9.p2, lo12 key.pub.e⟩⟩) sp se msg pc (by simpa using hr')] at h'
  exact s9sig_nonce hC ((x_affine sp).mpr hD) (r12_l se) hr hr' h h'

/-- C97: two signatures of one key made with the same nonce, whose first halves differ, determine the private key: it is this
function of the two signatures. -/
theorem C97_x64_nonce_reuse (hC : IsHash C H) (key : X64.Sm9.SPriv) (D : Sm9Point) (hD : X64.Sm9IsAffine key.priv D)
    (he : All12 (X64.Reduced sm9p) key.pub.e) (msg msg' rnd rnd' : List Byte) (hr : rnd.length = 32) (hr' : rnd'.length = 32)
    (hk : beVal rnd % (sm9n - 1) = beVal rnd' % (sm9n - 1)) (pc pc' : Verif.Sm2.PC) (v v' : Nat) (hv : v < sm9n)
    (hv' : v' < sm9n) (hne : v ≠ v') (A A' : X64.Sm9.A) (Q Q' : Sm9Point) (hA : X64.Sm9IsAffine A Q)
    (hA' : X64.Sm9IsAffine A' Q')
    (h : X64.Sm9.sign C key msg [rnd] pc = .ok (some (toBE 32 v ++ X64.Sm9.encPoint pc A)))
    (h' : X64.Sm9.sign C key msg' [rnd'] pc' = .ok (some (toBE 32 v' ++ X64.Sm9.encPoint pc' A'))) :
    D = (((v' : ZMod sm9n) - v)⁻¹).val • (Q - Q') := by
  have sp := loA_sim hD.1 hD.2.1
  have se := lo12_ro he
  have sA := loA_sim hA.1 hA.2.1
  have sA' := loA_sim hA'.1 hA'.2.1
  rw [← s9sign_sim hC (key := ⟨loA key.priv, ⟨Verif.Sm9.p2, lo12 key.pub.e⟩⟩) sp se msg pc (by simpa using hr),
    ← s9encPoint_sim sA] at h
  rw [← s9sign_sim hC (key := ⟨loA key.priv, ⟨Verif.Sm9.p2, lo12 key.pub.e⟩⟩) sp se msg' pc' (by simpa using hr'),
    ← s9encPoint_sim sA'] at h'
  exact s9nonce_reuse hC ((x_affine sp).mpr hD) (r12_l se) hr hr' hk hv hv' hne ((x_affine sA).mpr hA)
    ((x_affine sA').mpr hA') h h'

/-- **C97, partial** under one master key, for one identity, message and first half `v`, two accepted points are the same
point, whatever their octet forms, unless two different 384-octet values with the message in front have the same `H2`. Missing:
the master key `N - 2` and the identities whose `H1` is the master key, its negative or `N - 2`, for which every point of the
curve is accepted or none is (`C97_x64_point_violated`). -/
theorem C97_x64_point_partial (hC : IsHash C H) (key : List Byte) (hl : key.length = 32) (mk : X64.Sm9.MPriv)
    (hmk : X64.Sm9.setPriv key = .ok mk) (id : List Byte) (hid : Byte) (msg : List Byte) (v : Nat) (hv : v < 2 ^ 256)
    (pc pc' : Verif.Sm2.PC) (A A' : X64.Sm9.A) (Q Q' : Sm9Point) (hA : X64.Sm9IsAffine A Q) (hA' : X64.Sm9IsAffine A' Q')
    (k1 : beVal key ≠ sm9n - 2) (k2 : sm9H H C.DS 1 (id ++ [hid]) ≠ sm9n - 2)
    (k3 : sm9H H C.DS 1 (id ++ [hid]) ≠ beVal key) (k4 : sm9H H C.DS 1 (id ++ [hid]) + beVal key ≠ sm9n)
    (h : X64.Sm9.verify C mk.pub (toBE 32 v ++ X64.Sm9.encPoint pc A) msg id hid = .returns true)
    (h' : X64.Sm9.verify C mk.pub (toBE 32 v ++ X64.Sm9.encPoint pc' A') msg id hid = .returns true) :
    Q = Q' ∨ ∃ W W' : List Byte, W.length = 384 ∧ W'.length = 384 ∧ W ≠ W' ∧
      sm9H H C.DS 2 (msg ++ W) = sm9H H C.DS 2 (msg ++ W') := by
  obtain ⟨K, _, _, w, hw⟩ := sm9_field_exists
  classical
  obtain ⟨q1, q2, q3, q4, q5, q6⟩ := xsetPriv_inv hw hl hmk
  obtain ⟨P, e, p1, p2, p3, -⟩ := xsetPriv_ok hw hl q1 q2 k1
  rw [p1] at hmk
  obtain rfl := Outcome.ok.inj hmk
  obtain ⟨-, i1, i2, i3, i4, -⟩ := C81_x64_accept hC _ q4 q5 q6 _ msg id hid h
  rw [first_half hv] at i3 i4
  have he0 : X64.fp12Den w e ≠ 0 := by rw [p3.2]; exact pow_ne_zero _ (sm9g_ne0 hw)
  have r := x9point_unique (pub := ⟨P, e⟩) hw hC q2 p2 p3.1 he0 hA hA' i2 i1 i3 i4 k2 k3 k4 h h'
  refine r.imp_right ?_
  rintro ⟨W, W', a, b, c, d, e⟩
  exact ⟨W, W', a, b, c, d.trans e.symm⟩

/-- **C97, the failure** for the identities left out above, acceptance does not depend on the point: if one point of the
curve is accepted with a first half, every point of the curve is. -/
theorem C97_x64_point_violated (hC : IsHash C H) (key : List Byte) (hl : key.length = 32) (mk : X64.Sm9.MPriv)
    (hmk : X64.Sm9.setPriv key = .ok mk) (id : List Byte) (hid : Byte)
    (hk : sm9H H C.DS 1 (id ++ [hid]) = beVal key ∨ sm9H H C.DS 1 (id ++ [hid]) = sm9n - 2 ∨
      sm9H H C.DS 1 (id ++ [hid]) + beVal key = sm9n)
    (msg : List Byte) (v : Nat) (hv : v < 2 ^ 256) (pc pc' : Verif.Sm2.PC) (A A' : X64.Sm9.A) (Q Q' : Sm9Point)
    (hA : X64.Sm9IsAffine A Q) (hA' : X64.Sm9IsAffine A' Q')
    (h : X64.Sm9.verify C mk.pub (toBE 32 v ++ X64.Sm9.encPoint pc A) msg id hid = .returns true) :
    X64.Sm9.verify C mk.pub (toBE 32 v ++ X64.Sm9.encPoint pc' A') msg id hid = .returns true := by
  obtain ⟨K, _, _, w, hw⟩ := sm9_field_exists
  classical
  obtain ⟨q1, q2, q3, q4, q5, q6⟩ := xsetPriv_inv hw hl hmk
  obtain ⟨-, i1, i2, i3, i4, -⟩ := C81_x64_accept hC _ q4 q5 q6 _ msg id hid h
  rw [first_half hv] at i3 i4
  rw [C81_x64_identity_violated hC key hl mk hmk id hid hk msg i1 i2 v i3 i4 pc A Q hA] at h
  rw [C81_x64_identity_violated hC key hl mk hmk id hid hk msg i1 i2 v i3 i4 pc' A' Q' hA', h]

end

/-- The hypotheses can be met: the generator is a private key and a point of a signature in both builds, and two points are
different. -/
example : X64.Sm9IsAffine X64.Sm9.p1 sm9G ∧ Sm9IsAffine Verif.Sm9.p1 sm9G ∧ sm9G ≠ 2 • sm9G := by
  refine ⟨(x_affine p1_sim).mp p1_ok, p1_ok, fun h => ?_⟩
  have := (s9nsmul_iff sm9G_ne (a := 1) (b := 2)).mp (by rw [one_nsmul]; exact h)
  exact absurd (s9cast_inj (by decide +kernel) (by decide +kernel) this) (by decide)

/-- Two answers of the generator that give the same nonce. -/
example : beVal (toBE 32 0) % (sm9n - 1) = beVal (toBE 32 (sm9n - 1)) % (sm9n - 1) := by decide +kernel

end Verif.X64.Props
