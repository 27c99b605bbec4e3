import Verif.Proofs.Sm9X64Verify
import Verif.Props.Sm9
/-!
# C80 - C82: SM9 in the build with 64-bit limbs

On processors with MOVBE and BMI2 the library is compiled with 64-bit arithmetic, in which the negation of zero is zero
(C36); in the portable build it is the unreduced `p`, and this is what makes `sm9_fp12_inv`, the final exponentiation and
the pairing wrong for some operands there (C51, C63, C66).  `X64.Sm9.…` are the functions over 64-bit limbs,
`Verif.Sm9.…` the portable ones; `X64.fp12Den w`, `X64.Sm9IsAffine`, `X64.PairsTo` read the arrays of the 64-bit build
(Spec/Sm9X64).  Hash class, messages, identities and answers of the generator are arbitrary.
-/
set_option linter.unusedSectionVars false
namespace Verif.X64.Props
open Verif Verif.Spec WeierstrassCurve WeierstrassCurve.Affine

section
variable {K : Type} [Field K] [Algebra (ZMod sm9p) K] [DecidableEq K] {w : K} (hw : w ^ 12 = -2)
include hw

/-! ## C80: the field of the pairing, the final exponentiation, the pairing -/

/-- **C80** inversion in the field of `p¹²` elements is right for every element (and gives 0 for 0). -/
theorem C80_x64_fp12_inv (a : X64.Sm9.F12) (ha : All12 (X64.Reduced sm9p) a) :
    ∃ r, fp12Inv X64.Sm9.fp a = some r ∧ All12 (X64.Reduced sm9p) r ∧ X64.fp12Den w r = (X64.fp12Den w a)⁻¹ :=
  x12Inv hw (is_rfl ha)

/-- **C80** multiplication and squaring, powers with a non-zero exponent, and the Frobenius maps. -/
theorem C80_x64_fp12 (a b : X64.Sm9.F12) (ha : All12 (X64.Reduced sm9p) a) (hb : All12 (X64.Reduced sm9p) b) (e : List Byte)
    (he : beVal (e.take 32) ≠ 0) :
    (All12 (X64.Reduced sm9p) (fp12Mul X64.Sm9.fp a b) ∧
      X64.fp12Den w (fp12Mul X64.Sm9.fp a b) = X64.fp12Den w a * X64.fp12Den w b) ∧
    (All12 (X64.Reduced sm9p) (fp12Sqr X64.Sm9.fp a) ∧ X64.fp12Den w (fp12Sqr X64.Sm9.fp a) = X64.fp12Den w a ^ 2) ∧
    (∃ r, fp12Pow X64.Sm9.fp a e = some r ∧ All12 (X64.Reduced sm9p) r ∧
      X64.fp12Den w r = X64.fp12Den w a ^ beVal (e.take 32)) ∧
    (All12 (X64.Reduced sm9p) (X64.Sm9.fp12Frob a) ∧ X64.fp12Den w (X64.Sm9.fp12Frob a) = X64.fp12Den w a ^ sm9p) ∧
    (All12 (X64.Reduced sm9p) (X64.Sm9.fp12Frob2 a) ∧ X64.fp12Den w (X64.Sm9.fp12Frob2 a) = X64.fp12Den w a ^ sm9p ^ 2) ∧
    (All12 (X64.Reduced sm9p) (X64.Sm9.fp12Frob3 a) ∧ X64.fp12Den w (X64.Sm9.fp12Frob3 a) = X64.fp12Den w a ^ sm9p ^ 3) ∧
    (All12 (X64.Reduced sm9p) (X64.Sm9.fp12Frob6 a) ∧ X64.fp12Den w (X64.Sm9.fp12Frob6 a) = X64.fp12Den w a ^ sm9p ^ 6) :=
  ⟨x12Mul hw (is_rfl ha) (is_rfl hb), x12Sqr hw (is_rfl ha), x12Pow hw (is_rfl ha) e he, x12Frob hw (is_rfl ha),
    x12Frob2 hw (is_rfl ha), x12Frob3 hw (is_rfl ha), x12Frob6 hw (is_rfl ha)⟩

/-- **C80** the final exponentiation raises every element to the power `(p¹² - 1)/N`; the result of a non-zero element has
order dividing `N`. -/
theorem C80_x64_final_exp (f : X64.Sm9.F12) (hf : All12 (X64.Reduced sm9p) f) :
    ∃ r, X64.Sm9.finalExp f = some r ∧ All12 (X64.Reduced sm9p) r ∧
      X64.fp12Den w r = X64.fp12Den w f ^ ((sm9p ^ 12 - 1) / sm9n) ∧
      (X64.fp12Den w f ≠ 0 → X64.fp12Den w r ^ sm9n = 1) := by
  obtain ⟨r, r1, r2, r3⟩ := x12Final hw (is_rfl hf)
  refine ⟨r, r1, r2, r3, fun h0 => ?_⟩
  have hl := lo12_ro hf
  rw [r3, ← r12_den hl]
  exact f12Final_order hw (f := lo12 f) (by rw [r12_den hl]; exact h0)

/-- **C80** the pairing function returns, with a reduced result, for all reduced coordinates, on the curves or not. -/
theorem C80_x64_pairing_total (P : X64.Sm9.A) (Q : X64.Sm9.A2) (hx : X64.Reduced sm9p P.x) (hy : X64.Reduced sm9p P.y)
    (qx : All2 (X64.Reduced sm9p) Q.x) (qy : All2 (X64.Reduced sm9p) Q.y) :
    ∃ r, X64.Sm9.pairing P Q = some r ∧ All12 (X64.Reduced sm9p) r := xpairing_total hw hx hy qx qy

/-- **C80** the pairing is bilinear and not degenerate: there is an element `g ≠ 1` with `g ^ N = 1` such that the value
at `[a]P1` and `[b]P2` is `g ^ (a b)`, for all finite such points. -/
theorem C80_x64_pairing : ∃ g : K, g ≠ 1 ∧ g ^ sm9n = 1 ∧ ∀ a b : Nat, 1 ≤ a → a < sm9n →
    ∀ (P : X64.Sm9.A) (Q : X64.Sm9.A2), X64.Sm9IsAffine P (a • sm9G) → X64.Sm9IsAffine2 w Q (b • sm9G2 hw) →
      X64.PairsTo w P Q (g ^ (a * b)) :=
  ⟨sm9g hw, sm9g_ne1 hw, sm9g_N hw, fun _ _ a1 a2 _ _ hP hQ => x_pair_gen hw a1 a2 hP hQ⟩

/-- The generators meet the hypotheses. -/
example : X64.Sm9IsAffine X64.Sm9.p1 (1 • sm9G) ∧ X64.Sm9IsAffine2 w X64.Sm9.p2 (1 • sm9G2 hw) := by
  rw [one_nsmul, one_nsmul]
  exact ⟨(x_affine p1_sim).mp p1_ok, (x_affine2 p2_sim).mp (p2_ok hw)⟩

/-- **C80, where the builds differ** `sm9_fp12_inv(1)` is 1 in this build and `1 - w` in the portable build. -/
theorem C80_x64_inv_one_differs :
    (∃ r, fp12Inv X64.Sm9.fp (fp12One X64.Sm9.fp) = some r ∧ X64.fp12Den w r = 1) ∧
    (∃ r, fp12Inv Verif.Sm9.fp (fp12One Verif.Sm9.fp) = some r ∧ fp12Den w r = 1 - w) ∧ (1 - w : K) ≠ 1 := by
  obtain ⟨r, r1, -, r3⟩ := Verif.Props.C51_inv_one hw
  have o := x12_of (w := w) (ws12_one sm9_ws) (f12One hw)
  obtain ⟨s, s1, s2⟩ := x12Inv hw o
  refine ⟨⟨s, s1, by rw [s2.2, inv_one]⟩, ⟨r, r1, r3⟩, fun h => ?_⟩
  exact sm9w_ne hw (by linear_combination -h)

/-- The pairing value at (0, 0), which is what the library holds for the point at infinity of `G2`, is 0 (and not 1). -/
theorem C80_x64_pairing_zero_violated (A : X64.Sm9.A) (P : X64.Sm9.A2) (hx : X64.Reduced sm9p A.x)
    (hy : X64.Reduced sm9p A.y) (qx : All2 (X64.Reduced sm9p) P.x) (qy : All2 (X64.Reduced sm9p) P.y)
    (zx : X64.fp2Den w P.x = 0) (zy : X64.fp2Den w P.y = 0) : X64.PairsTo w A P 0 := by
  have hP := loA2_sim qx qy
  exact xpairing_zero hw (loA_sim hx hy) hP ((r2_den hP.x w).trans zx) ((r2_den hP.y w).trans zy)

/-! ## C81: keys and signatures -/

/-- **C81** `set_priv` on a key in `[1, N-1]` returns, keeps the key, and stores the pairing of the generator with the
public point; except for the key `N - 2` the public point is `[ks]P2` and the stored pairing is `g ^ ks`. -/
theorem C81_x64_set_priv_partial (key : List Byte) (hl : key.length = 32) (h1 : 1 ≤ beVal key) (h2 : beVal key < sm9n) :
    ∃ mk, X64.Sm9.setPriv key = .ok mk ∧ X64.Sm9.getPriv mk = key ∧ All2 (X64.Reduced sm9p) mk.pub.P.x ∧
      All2 (X64.Reduced sm9p) mk.pub.P.y ∧ X64.PairsTo w X64.Sm9.p1 mk.pub.P (X64.fp12Den w mk.pub.e) ∧
      (beVal key ≠ sm9n - 2 → X64.Sm9IsAffine2 w mk.pub.P (beVal key • sm9G2 hw) ∧
        ∃ g : K, g ≠ 1 ∧ g ^ sm9n = 1 ∧ X64.PairsTo w X64.Sm9.p1 X64.Sm9.p2 g ∧
          X64.fp12Den w mk.pub.e = g ^ beVal key) := by
  by_cases hne : beVal key = sm9n - 2
  · obtain ⟨P, e, p1, p2, p3, p4, p5, p6, p7⟩ := xsetPriv_weak hw hl hne
    exact ⟨_, p1, rfl, p2, p3, ⟨e, p7, p6.1, rfl⟩, fun h => absurd hne h⟩
  · obtain ⟨P, e, p1, p2, p3, p4⟩ := xsetPriv_ok hw hl h1 h2 hne
    refine ⟨_, p1, rfl, p2.1, p2.2.1, ⟨e, p4, p3.1, rfl⟩, fun _ => ⟨p2, sm9g hw, sm9g_ne1 hw, sm9g_N hw, ?_, p3.2⟩⟩
    have := x_pair_gen hw (a := 1) (b := 1) le_rfl (by decide +kernel)
      (by rw [one_nsmul]; exact (x_affine p1_sim).mp p1_ok) (by rw [one_nsmul]; exact (x_affine2 p2_sim).mp (p2_ok hw))
    rwa [one_mul, pow_one] at this

/-- The hypotheses hold for the key 1, whose public point is the generator. -/
example : ∃ mk, X64.Sm9.setPriv (toBE 32 1) = .ok mk ∧ X64.Sm9IsAffine2 w mk.pub.P (sm9G2 hw) ∧
    ∃ g : K, g ≠ 1 ∧ X64.fp12Den w mk.pub.e = g := by
  have hv : beVal (toBE 32 1) = 1 := by decide +kernel
  obtain ⟨mk, m1, -, -, -, -, m6⟩ := C81_x64_set_priv_partial hw (toBE 32 1) (by decide) (by rw [hv])
    (by rw [hv]; decide +kernel)
  obtain ⟨n1, g, g1, -, -, g4⟩ := m6 (by rw [hv]; decide +kernel)
  rw [hv, one_nsmul] at n1
  exact ⟨mk, m1, n1, g, g1, by rw [g4, hv, pow_one]⟩

end

/-- **C81** `set_priv` throws exactly for the keys outside `[1, N-1]`. -/
theorem C81_x64_set_priv_range (key : List Byte) (hl : key.length = 32) :
    X64.Sm9.setPriv key = .throw ↔ beVal key = 0 ∨ sm9n ≤ beVal key := by
  obtain ⟨K, _, _, w, hw⟩ := sm9_field_exists
  classical
  refine ⟨fun h => ?_, fun h => xsetPriv_throw hw hl h⟩
  by_contra hc
  push Not at hc
  obtain ⟨mk, m1, -⟩ := C81_x64_set_priv_partial hw key hl (by omega) hc.2
  rw [m1] at h
  cases h

/-- **C81** `gen_priv` gives the key `(rnd mod (N-1)) + 1`, in `[1, N-1]`, as `set_priv` would set it. -/
theorem C81_x64_gen_priv (rnd : List Byte) (hr : rnd.length = 32) :
    X64.Sm9.genPriv rnd = X64.Sm9.setPriv (toBE 32 (beVal rnd % (sm9n - 1) + 1)) := by
  obtain ⟨n1, n2⟩ := s9nonce_range hr
  have hln := s9nonce_len hr
  have hv := s9nonce_val hr
  have he : Verif.Sm9.nonce rnd = toBE 32 (beVal rnd % (sm9n - 1) + 1) := by
    rw [← hv, ← hln, toBE_beVal]
  rw [← he]
  unfold X64.Sm9.genPriv X64.Sm9.setPriv
  rw [← s9nonce_sim hr]
  dsimp only
  rw [if_neg (by rw [s9range_sim hln]; omega)]

section
variable {S : Type} {C : HashClass S} {H : List Byte → List Byte}

/-- **C81, partial** every signature that `sign` returns under a key issued by a master key is accepted by `verify` under
the master public key, the identity and the message. Missing, with `h1 = H1(id)`: `ks = N - 2`, `h1 = N - 2`, `h1 = ks`,
`3 ks + 2 h1 = 0 mod N`, a signature whose point came out as (0, 0). These five cases are failures of the code:
`C81_x64_forgery_violated`, `C81_x64_identity_violated`, `C81_x64_key_violated`, `C81_x64_point_violated`. Unlike
`C56_sign_verify_partial` nothing is assumed about the pairings. -/
theorem C81_x64_sign_verify_partial (hC : IsHash C H) (key : List Byte) (hl : key.length = 32) (mk : X64.Sm9.MPriv)
    (hmk : X64.Sm9.setPriv key = .ok mk) (id : List Byte) (hid : Byte) (sk : X64.Sm9.SPriv)
    (hsk : X64.Sm9.genSignPriv C mk id hid = .ok sk) (msg : List Byte) (rnds : List (List Byte))
    (hr : ∀ r ∈ rnds, r.length = 32) (pc : Verif.Sm2.PC) (sig : List Byte)
    (hs : X64.Sm9.sign C sk msg rnds pc = .ok (some sig))
    (k1 : beVal key ≠ sm9n - 2) (k2 : sm9H H C.DS 1 (id ++ [hid]) ≠ sm9n - 2)
    (k3 : sm9H H C.DS 1 (id ++ [hid]) ≠ beVal key)
    (k4 : (3 * beVal key + 2 * sm9H H C.DS 1 (id ++ [hid])) % sm9n ≠ 0)
    (k5 : (sig.drop 33).take 32 ≠ List.replicate 32 0) :
    X64.Sm9.verify C mk.pub sig msg id hid = .returns true := by
  obtain ⟨K, _, _, w, hw⟩ := sm9_field_exists
  classical
  exact xsign_verify hw hC hl hmk hsk hr hs k1 k2 k3 k4 k5

/-- **C81, the failure** anyone forges signatures under the public key of the master key `N - 2`: for every identity and
every message, `H2(msg ‖ 0...0)` followed by any point of the curve is accepted. -/
theorem C81_x64_forgery_violated (hC : IsHash C H) (mk : X64.Sm9.MPriv) (h : X64.Sm9.setPriv (toBE 32 (sm9n - 2)) = .ok mk)
    (msg id : List Byte) (hid : Byte) (pc : Verif.Sm2.PC) (A : X64.Sm9.A) (Q : Sm9Point) (hA : X64.Sm9IsAffine A Q)
    (hid1 : 8 * (id.length + 6) < 2 ^ 64) (hm : 8 * (msg.length + 389) < 2 ^ 64) :
    X64.Sm9.verify C mk.pub (toBE 32 (sm9H H C.DS 2 (msg ++ List.replicate 384 0)) ++ X64.Sm9.encPoint pc A) msg id hid =
      .returns true := by
  obtain ⟨K, _, _, w, hw⟩ := sm9_field_exists
  classical
  obtain ⟨P, e, p1, p2, p3, p4, p5, p6, -⟩ := xsetPriv_weak hw (key := toBE 32 (sm9n - 2)) (toBE_len _ _) (by decide +kernel)
  rw [p1] at h
  rw [← Outcome.ok.inj h]
  obtain ⟨r1, r2⟩ := sm9H_range (H := H) C.DS 2 (msg ++ List.replicate 384 0)
  rw [xverify_weak hw hC (pub := ⟨P, e⟩) p2 p3 p6.1 hA msg id hid pc hid1 hm r1 r2 (Or.inl p6.2)]
  rw [decide_eq_true rfl]

/-- The key `N - 2` is accepted. -/
example : ∃ mk, X64.Sm9.setPriv (toBE 32 (sm9n - 2)) = .ok mk := by
  obtain ⟨K, _, _, w, hw⟩ := sm9_field_exists
  classical
  obtain ⟨P, e, p1, -⟩ := xsetPriv_weak hw (key := toBE 32 (sm9n - 2)) (toBE_len _ _) (by decide +kernel)
  exact ⟨_, p1⟩

/-- **C81, the failure** for every identity there is a master key (`ks = -2 H1(id) / 3 mod N`) under which the private key
of that identity is issued but has coordinates (0, 0), and `verify` rejects everything `sign` returns with it. -/
theorem C81_x64_key_violated (hC : IsHash C H) (id : List Byte) (hid : Byte) (hid1 : 8 * (id.length + 6) < 2 ^ 64) :
    ∃ key mk sk, key.length = 32 ∧ X64.Sm9.setPriv key = .ok mk ∧ X64.Sm9.genSignPriv C mk id hid = .ok sk ∧
      ∀ msg rnds pc sig, (∀ r ∈ rnds, r.length = 32) → X64.Sm9.sign C sk msg rnds pc = .ok (some sig) →
        X64.Sm9.verify C mk.pub sig msg id hid = .returns false := by
  obtain ⟨K, _, _, w, hw⟩ := sm9_field_exists
  classical
  exact xkey_violated hw hC id hid hid1

/-- **C81, the failure** when the hash of the identity is the master private key, its negative (when no private key can be
issued), or `N - 2`, verification ignores the public key: `verify` accepts `H2(msg ‖ 0...0)` with any point of the curve,
and no other first half of a signature. -/
theorem C81_x64_identity_violated (hC : IsHash C H) (key : List Byte) (hl : key.length = 32) (mk : X64.Sm9.MPriv)
    (hmk : X64.Sm9.setPriv key = .ok mk) (id : List Byte) (hid : Byte)
    (h : sm9H H C.DS 1 (id ++ [hid]) = beVal key ∨ sm9H H C.DS 1 (id ++ [hid]) = sm9n - 2 ∨
      sm9H H C.DS 1 (id ++ [hid]) + beVal key = sm9n)
    (msg : List Byte) (hid1 : 8 * (id.length + 6) < 2 ^ 64) (hm : 8 * (msg.length + 389) < 2 ^ 64)
    (v : Nat) (v1 : 1 ≤ v) (v2 : v < sm9n) (pc : Verif.Sm2.PC) (A : X64.Sm9.A) (Q : Sm9Point) (hA : X64.Sm9IsAffine A Q) :
    X64.Sm9.verify C mk.pub (toBE 32 v ++ X64.Sm9.encPoint pc A) msg id hid =
      .returns (decide (v = sm9H H C.DS 2 (msg ++ List.replicate 384 0))) := by
  obtain ⟨K, _, _, w, hw⟩ := sm9_field_exists
  classical
  obtain ⟨q1, q2, -⟩ := xsetPriv_inv hw hl hmk
  obtain ⟨s1, s2⟩ := sm9H_range (H := H) C.DS 1 (id ++ [hid])
  by_cases k : beVal key = sm9n - 2
  · obtain ⟨P, e, p1, p2, p3, p4, p5, p6, -⟩ := xsetPriv_weak hw hl k
    rw [p1] at hmk
    rw [← Outcome.ok.inj hmk]
    exact xverify_weak hw hC (pub := ⟨P, e⟩) p2 p3 p6.1 hA msg id hid pc hid1 hm v1 v2 (Or.inl p6.2)
  · obtain ⟨P, e, p1, p2, p3, -⟩ := xsetPriv_ok hw hl q1 q2 k
    rw [p1] at hmk
    rw [← Outcome.ok.inj hmk]
    exact xverify_weak hw hC (pub := ⟨P, e⟩) p2.1 p2.2.1 p3.1 hA msg id hid pc hid1 hm v1 v2
      (Or.inr (verPoint_weak hw ((x_affine2 (loA2_sim p2.1 p2.2.1)).mpr p2) s2 h))

/-- For every identity there is such a master key. -/
example (id : List Byte) (hid : Byte) : ∃ key mk, key.length = 32 ∧ X64.Sm9.setPriv key = .ok mk ∧
    sm9H H C.DS 1 (id ++ [hid]) = beVal key := by
  obtain ⟨K, _, _, w, hw⟩ := sm9_field_exists
  classical
  obtain ⟨s1, s2⟩ := sm9H_range (H := H) C.DS 1 (id ++ [hid])
  have hv := beVal_toBE_n s2
  obtain ⟨mk, m1, -⟩ := C81_x64_set_priv_partial hw (toBE 32 (sm9H H C.DS 1 (id ++ [hid]))) (toBE_len _ _)
    (by rw [hv]; exact s1) (by rw [hv]; exact s2)
  exact ⟨_, mk, toBE_len _ _, m1, hv.symm⟩

/-- **C81, the failure** a signature whose point came out with coordinates (0, 0) (`r - h = N - 2`) is rejected. -/
theorem C81_x64_point_violated (pub : X64.Sm9.MPub) (h : List Byte) (hl : h.length = 32) (pc : Verif.Sm2.PC) (A : X64.Sm9.A)
    (hx : X64.Reduced sm9p A.x) (hy : X64.Reduced sm9p A.y) (zx : montVal sm9p A.x = 0) (zy : montVal sm9p A.y = 0)
    (msg id : List Byte) (hid : Byte) : X64.Sm9.verify C pub (h ++ X64.Sm9.encPoint pc A) msg id hid = .returns false := by
  have hA := loA_sim hx hy
  rw [← s9encPoint_sim hA]
  exact xverify_zero pub hl pc hA.x.l hA.y.l (hA.x.eq.trans zx) (hA.y.eq.trans zy) msg id hid

section
variable {K : Type} [Field K] [Algebra (ZMod sm9p) K] [DecidableEq K] {w : K} (hw : w ^ 12 = -2)
include hw

/-- **C81, partial** the equation: `verify` computes `g^h · e(S, [h1]P2 + Ppub)` and compares its `H2` with `h`.
Missing: `h1 = N - 2`, `h1 = ks`, `h1 + ks = N`, where the second point comes out as (0, 0) and what is hashed does not
depend on the key: `C81_x64_identity_violated`. -/
theorem C81_x64_equation_partial (hC : IsHash C H) (ks : Nat) (hks : ks < sm9n) (pub : X64.Sm9.MPub)
    (hP : X64.Sm9IsAffine2 w pub.P (ks • sm9G2 hw)) (he : All12 (X64.Reduced sm9p) pub.e)
    (A : X64.Sm9.A) (Q : Sm9Point) (hA : X64.Sm9IsAffine A Q)
    (msg id : List Byte) (hid : Byte) (pc : Verif.Sm2.PC) (hm : 8 * (msg.length + 389) < 2 ^ 64)
    (hid1 : 8 * (id.length + 6) < 2 ^ 64) (h : Nat) (h0 : 1 ≤ h) (hn : h < sm9n)
    (k2 : sm9H H C.DS 1 (id ++ [hid]) ≠ sm9n - 2) (k3 : sm9H H C.DS 1 (id ++ [hid]) ≠ ks)
    (k4 : sm9H H C.DS 1 (id ++ [hid]) + ks ≠ sm9n) :
    ∃ B u W, X64.Sm9IsAffine2 w B (sm9H H C.DS 1 (id ++ [hid]) • sm9G2 hw + ks • sm9G2 hw) ∧ X64.PairsTo w A B u ∧
      All12 (X64.Reduced sm9p) W ∧ X64.fp12Den w W = u * X64.fp12Den w pub.e ^ h ∧
        X64.Sm9.verify C pub (toBE 32 h ++ X64.Sm9.encPoint pc A) msg id hid =
          .returns (decide (sm9H H C.DS 2 (msg ++ X64.Sm9.fp12ToBytes W) = h)) := by
  obtain ⟨B, U, W, b1, b2⟩ := xverify_of hw hC hP he hks hA msg id hid pc hm hid1 h0 hn k2 k3 k4
  exact ⟨B, U, W, by rw [← add_nsmul]; exact b1, b2⟩

end

/-- **C81** what `verify` does with a signature it accepts: more than 32 octets, of which the first 32 are a number in
`[1, N-1]` and the value of `H2` on the message and some 384 octets, and the others exactly an encoding of a point of
the curve. -/
theorem C81_x64_accept (hC : IsHash C H) (pub : X64.Sm9.MPub) (qx : All2 (X64.Reduced sm9p) pub.P.x)
    (qy : All2 (X64.Reduced sm9p) pub.P.y) (he : All12 (X64.Reduced sm9p) pub.e) (sig msg id : List Byte) (hid : Byte)
    (h : X64.Sm9.verify C pub sig msg id hid = .returns true) :
    32 < sig.length ∧ 8 * (id.length + 6) < 2 ^ 64 ∧ 8 * (msg.length + 389) < 2 ^ 64 ∧
    1 ≤ beVal (sig.take 32) ∧ beVal (sig.take 32) < sm9n ∧
    (∃ A Q, X64.Sm9.ecAFromBytes (sig.drop 32) (sig.length - 32) = .ok (A, sig.length - 32) ∧ X64.Sm9IsAffine A Q) ∧
    ∃ W, W.length = 384 ∧ beVal (sig.take 32) = sm9H H C.DS 2 (msg ++ W) := by
  obtain ⟨K, _, _, w, hw⟩ := sm9_field_exists
  classical
  obtain ⟨v1, v2, v3, v4⟩ := xverify_parse (C := C) pub sig msg id hid
  have hl : 32 ≤ sig.length := by
    by_contra hc
    rw [v1 (by omega)] at h
    cases h
  have sd := s9fromBytes_sim (sig.drop 32) (sig.length - 32)
  cases hd : X64.Sm9.ecAFromBytes (sig.drop 32) (sig.length - 32) with
  | ub => rw [v2 hl hd] at h; cases h
  | fail => rw [v3 hl hd] at h; cases h
  | ok r =>
    obtain ⟨A, n⟩ := r
    by_cases hn : n = sig.length - 32
    · subst hn
      rw [hd] at sd
      obtain ⟨A0, a1, a2⟩ := relP9_ok sd
      obtain ⟨⟨Q, hQ⟩, -⟩ := Verif.Props.C65_decode_on_curve _ _ _ _ a1
      obtain ⟨b, rest, hb, -⟩ := s9dec_tag a1
      have hlt : 32 < sig.length := by
        have := congrArg List.length hb
        rw [List.length_drop, List.length_cons] at this
        omega
      have ht := xverify_total hw hC qx qy he hl hd msg id hid
      split_ifs at ht with hsz
      · obtain ⟨-, -, -, U, W, -, -, -, -, -, w2, -, w4⟩ := ht
        rw [h] at w4
        have w5 := (Noexcept.returns.inj w4).symm
        rw [beq_iff_eq] at w5
        obtain ⟨r1, r2⟩ := sm9H_range (H := H) C.DS 2 (msg ++ X64.Sm9.fp12ToBytes W)
        have w6 := congrArg beVal w5
        rw [beVal_toBE_n r2] at w6
        exact ⟨hlt, hsz.1, hsz.2, by omega, by omega, ⟨A, Q, rfl, (x_affine a2).mp hQ⟩, _, x384 w2, w6.symm⟩
      · rw [ht] at h; cases h
    · rw [v4 A n hl hd hn] at h; cases h

/-- **C81** `verify` is declared `noexcept`; it ends the program exactly when the signature parses and the identity or
the message is too long to be hashed, and has undefined behaviour exactly when the decoding of the point reads past the
signature. Otherwise it returns. -/
theorem C81_x64_total (hC : IsHash C H) (pub : X64.Sm9.MPub) (qx : All2 (X64.Reduced sm9p) pub.P.x)
    (qy : All2 (X64.Reduced sm9p) pub.P.y) (he : All12 (X64.Reduced sm9p) pub.e) (sig msg id : List Byte) (hid : Byte) :
    (X64.Sm9.verify C pub sig msg id hid = .ub ↔
      32 ≤ sig.length ∧ X64.Sm9.ecAFromBytes (sig.drop 32) (sig.length - 32) = .ub) ∧
    (X64.Sm9.verify C pub sig msg id hid = .terminates ↔ 32 ≤ sig.length ∧
      (∃ A, X64.Sm9.ecAFromBytes (sig.drop 32) (sig.length - 32) = .ok (A, sig.length - 32)) ∧
      ¬ (8 * (id.length + 6) < 2 ^ 64 ∧ 8 * (msg.length + 389) < 2 ^ 64)) := by
  obtain ⟨K, _, _, w, hw⟩ := sm9_field_exists
  classical
  obtain ⟨v1, v2, v3, v4⟩ := xverify_parse (C := C) pub sig msg id hid
  by_cases hl : 32 ≤ sig.length
  · cases hd : X64.Sm9.ecAFromBytes (sig.drop 32) (sig.length - 32) with
    | ub => rw [v2 hl hd]; simp [hl]
    | fail => rw [v3 hl hd]; simp [hl]
    | ok r =>
      obtain ⟨A, n⟩ := r
      by_cases hn : n = sig.length - 32
      · subst hn
        have ht := xverify_total hw hC qx qy he hl hd msg id hid
        split_ifs at ht with hsz
        · obtain ⟨-, -, -, U, W, -, -, -, -, -, -, -, w4⟩ := ht
          rw [w4]
          exact ⟨⟨fun h => (nomatch h), fun h => (nomatch h.2)⟩, fun h => (nomatch h), fun h => absurd hsz h.2.2⟩
        · rw [ht]; simp only [hl, true_and, hsz, not_false_eq_true, and_true, reduceCtorEq]
          simp
      · rw [v4 A n hl hd hn]; simp [hn]
  · rw [v1 (by omega)]; simp [hl]

/-- Every master public key that the library makes meets the hypotheses of `C81_x64_accept` and `C81_x64_total`. -/
theorem C81_x64_keys_ok : (∀ key mk, key.length = 32 → X64.Sm9.setPriv key = .ok mk → All2 (X64.Reduced sm9p) mk.pub.P.x ∧
      All2 (X64.Reduced sm9p) mk.pub.P.y ∧ All12 (X64.Reduced sm9p) mk.pub.e) ∧
    (∀ x y pub, x.length = 64 → y.length = 64 → X64.Sm9.setPub x y = .ok pub → All2 (X64.Reduced sm9p) pub.P.x ∧
      All2 (X64.Reduced sm9p) pub.P.y ∧ All12 (X64.Reduced sm9p) pub.e) := by
  obtain ⟨K, _, _, w, hw⟩ := sm9_field_exists
  classical
  refine ⟨fun key mk hl h => (xsetPriv_inv hw hl h).2.2.2, fun x y pub hx hy h => ?_⟩
  rcases s9setPub_sim hw hx hy with ⟨-, h'⟩ | ⟨P, P', e, e', Q, -, h', hP, -, -, -, -, -, -, he⟩
  · rw [h'] at h; cases h
  · rw [h'] at h
    rw [← Outcome.ok.inj h]
    exact ⟨r2_r hP.x, r2_r hP.y, he⟩

/-- **C81** `set_pub` on two 64-octet coordinates `x1 ‖ x0`, `y1 ‖ y0`: it throws exactly when `(x0 + x1 u, y0 + y1 u)` is
not on the twist, and otherwise holds that point and its pairing with the generator of `G1`. -/
theorem C81_x64_set_pub {K : Type} [Field K] [Algebra (ZMod sm9p) K] [DecidableEq K] {w : K} (hw : w ^ 12 = -2)
    (x y : List Byte) (hx : x.length = 64) (hy : y.length = 64) :
    let X : K := beVal (x.drop 32) + beVal (x.take 32) * w ^ 6
    let Y : K := beVal (y.drop 32) + beVal (y.take 32) * w ^ 6
    (Y ^ 2 ≠ X ^ 3 + 5 * w ^ 6 → X64.Sm9.setPub x y = .throw) ∧
    (Y ^ 2 = X ^ 3 + 5 * w ^ 6 → ∃ pub h, X64.Sm9.setPub x y = .ok pub ∧
      X64.Sm9IsAffine2 w pub.P (.some X Y h) ∧ X64.PairsTo w X64.Sm9.p1 pub.P (X64.fp12Den w pub.e)) := by
  intro X Y
  obtain ⟨c1, c2⟩ := Verif.Props.C69_set_pub hw x y hx hy
  rcases s9setPub_sim hw hx hy with ⟨h, h'⟩ | ⟨P, P', e, e', Q, h, h', hP, -, -, -, -, -, he1, he2⟩
  · refine ⟨fun _ => h', fun hc => ?_⟩
    obtain ⟨pub, -, p1, -⟩ := c2 hc
    rw [h] at p1; cases p1
  · refine ⟨fun hc => ?_, fun hc => ?_⟩
    · have := c1 hc
      rw [h] at this; cases this
    · obtain ⟨pub, hn, p1, p2, -⟩ := c2 hc
      rw [h] at p1
      rw [← Outcome.ok.inj p1] at p2
      exact ⟨_, hn, h', (x_affine2 hP).mp p2, e', he1, he2, rfl⟩

/-- **C81** a public key made from octets survives `get_pub`, then `set_pub`. -/
theorem C81_x64_pub_round_trip (x y : List Byte) (hx : x.length = 64) (hy : y.length = 64) (pub : X64.Sm9.MPub)
    (h : X64.Sm9.setPub x y = .ok pub) :
    X64.Sm9.setPub (X64.Sm9.getPub pub).1 (X64.Sm9.getPub pub).2 = .ok pub := by
  obtain ⟨K, _, _, w, hw⟩ := sm9_field_exists
  classical
  rcases s9setPub_sim hw hx hy with ⟨-, h'⟩ | ⟨P, P', e, e', Q, -, h', hP, -, hP', -⟩
  · rw [h'] at h; cases h
  · rw [h'] at h
    rw [← Outcome.ok.inj h]
    have h2 := h'
    unfold X64.Sm9.setPub at h2 ⊢
    unfold X64.Sm9.getPub
    dsimp only at h2 ⊢
    rw [← hP'] at h2
    rw [x2_from_to (r2_r hP.x), x2_from_to (r2_r hP.y)]
    exact h2

/-- **C81** the public key of every master key but `N - 2` survives the trip through octets. -/
theorem C81_x64_master_pub_partial (key : List Byte) (hl : key.length = 32) (hne : beVal key ≠ sm9n - 2) (mk : X64.Sm9.MPriv)
    (h : X64.Sm9.setPriv key = .ok mk) : X64.Sm9.setPub (X64.Sm9.getPub mk.pub).1 (X64.Sm9.getPub mk.pub).2 = .ok mk.pub := by
  obtain ⟨K, _, _, w, hw⟩ := sm9_field_exists
  classical
  obtain ⟨q1, q2, -⟩ := xsetPriv_inv hw hl h
  obtain ⟨P, e, p1, p2, p3, p4⟩ := xsetPriv_ok hw hl q1 q2 hne
  rw [p1] at h
  rw [← Outcome.ok.inj h]
  have hP := loA2_sim p2.1 p2.2.1
  have hk := (s9Check2_iff hw (r2_l hP.x) (r2_l hP.y)).mpr ⟨_, (x_affine2 hP).mpr p2⟩
  have hk' : X64.Sm9.ec2Check P = true := by rw [← s9ec2Check_sim hP]; exact hk
  unfold X64.Sm9.setPub X64.Sm9.getPub X64.Sm9.pairingP1
  dsimp only
  rw [x2_from_to p2.1, x2_from_to p2.2.1]
  change (if (!X64.Sm9.ec2Check P) = true then _ else Outcome.ofOption (X64.Sm9.pairing X64.Sm9.p1 P) >>= _) = _
  rw [hk', Bool.not_true, if_neg (by decide), p4, ofOption_some, o_bind]

/-! ## C82: the two builds side by side -/

/-- **C82** master keys: both builds accept the same keys and export the same octets. -/
theorem C82_x64_master_octets (key : List Byte) (hl : key.length = 32) :
    (X64.Sm9.setPriv key >>= fun mk => Outcome.ok (X64.Sm9.getPriv mk, X64.Sm9.getPub mk.pub)) =
      (Verif.Sm9.setPriv key >>= fun mk => Outcome.ok (Verif.Sm9.getPriv mk, Verif.Sm9.getPub mk.pub)) := by
  obtain ⟨K, _, _, w, hw⟩ := sm9_field_exists
  classical
  refine (relOut_bind (s9setPriv_sim hw hl) fun mk mk' h => ?_).symm
  obtain ⟨h1, h2, h3, -⟩ := h
  unfold Verif.Sm9.getPriv X64.Sm9.getPriv Verif.Sm9.getPub X64.Sm9.getPub
  rw [h1, h2, r2tb h3.x, r2tb h3.y]

/-- **C82** generated master keys: with the same answer of the generator both builds make the same key. -/
theorem C82_x64_generated_octets (rnd : List Byte) (hr : rnd.length = 32) :
    (X64.Sm9.genPriv rnd >>= fun mk => Outcome.ok (X64.Sm9.getPriv mk, X64.Sm9.getPub mk.pub)) =
      (Verif.Sm9.genPriv rnd >>= fun mk => Outcome.ok (Verif.Sm9.getPriv mk, Verif.Sm9.getPub mk.pub)) := by
  rw [C81_x64_gen_priv rnd hr, Verif.Props.C67_gen_priv rnd hr]
  exact C82_x64_master_octets _ (toBE_len _ _)

/-- **C82** public keys from octets: both builds accept the same octets and give them back the same. -/
theorem C82_x64_public_octets (x y : List Byte) (hx : x.length = 64) (hy : y.length = 64) :
    (X64.Sm9.setPub x y >>= fun p => Outcome.ok (X64.Sm9.getPub p)) =
      (Verif.Sm9.setPub x y >>= fun p => Outcome.ok (Verif.Sm9.getPub p)) := by
  obtain ⟨K, _, _, w, hw⟩ := sm9_field_exists
  classical
  rcases s9setPub_sim hw hx hy with ⟨h, h'⟩ | ⟨P, P', e, e', Q, h, h', hP, -⟩
  · rw [h, h', t_bind, t_bind]
  · rw [h, h', o_bind, o_bind]
    unfold Verif.Sm9.getPub X64.Sm9.getPub
    rw [r2tb hP.x, r2tb hP.y]

/-- **C81, the failure** the key `N - 2` is accepted; its public point has coordinates (0, 0), is not on the curve, and
`set_pub` does not take it back. -/
theorem C81_x64_weak_key_violated : ∃ mk, X64.Sm9.setPriv (toBE 32 (sm9n - 2)) = .ok mk ∧
    X64.Sm9.getPub mk.pub = (List.replicate 64 0, List.replicate 64 0) ∧
    X64.Sm9.setPub (X64.Sm9.getPub mk.pub).1 (X64.Sm9.getPub mk.pub).2 = .throw := by
  obtain ⟨mk0, m1, -, m3, m4⟩ := Verif.Props.C67_weak_key_violated
  have h := C82_x64_master_octets (toBE 32 (sm9n - 2)) (toBE_len _ _)
  rw [m1, o_bind] at h
  obtain ⟨mk, n1, n2⟩ := bind_ok h
  have n3 : X64.Sm9.getPub mk.pub = Verif.Sm9.getPub mk0.pub := (Prod.mk.inj (Outcome.ok.inj n2)).2
  refine ⟨mk, n1, n3.trans m3, ?_⟩
  rw [n3]
  have hp := C82_x64_public_octets (Verif.Sm9.getPub mk0.pub).1 (Verif.Sm9.getPub mk0.pub).2 (by rw [m3]; decide) (by rw [m3]; decide)
  rw [m4, t_bind] at hp
  revert hp
  generalize X64.Sm9.setPub _ _ = o
  intro hp
  cases o with
  | ok p => cases hp
  | throw => rfl
  | ub => cases hp

/-- **C82** key issue: for every master key and identity both builds issue the same private key, or throw alike. -/
theorem C82_x64_issued_octets (hC : IsHash C H) (key : List Byte) (hl : key.length = 32) (id : List Byte) (hid : Byte) :
    (X64.Sm9.setPriv key >>= fun mk => X64.Sm9.genSignPriv C mk id hid >>= fun sk => Outcome.ok (X64.Sm9.getSignPriv sk)) =
      (Verif.Sm9.setPriv key >>= fun mk =>
        Verif.Sm9.genSignPriv C mk id hid >>= fun sk => Outcome.ok (Verif.Sm9.getSignPriv sk)) := by
  obtain ⟨K, _, _, w, hw⟩ := sm9_field_exists
  classical
  refine (relOut_bind (s9setPriv_sim hw hl) fun mk mk' h => ?_).symm
  obtain ⟨h1, h2, h3, -⟩ := h
  refine relOut_bind (genSignPriv_sim0 hC (h1.trans h2.symm) (by rw [h1]; exact hl) id hid) fun sk sk' h => ?_
  obtain ⟨g1, g2, g3⟩ := h
  unfold Verif.Sm9.getSignPriv X64.Sm9.getSignPriv Verif.Sm9.getPub X64.Sm9.getPub
  rw [g2, g3, rtb g1.x, rtb g1.y, r2tb h3.x, r2tb h3.y]

section
variable {K : Type} [Field K] [Algebra (ZMod sm9p) K] [DecidableEq K] {w : K} (hw : w ^ 12 = -2)
include hw

/-- **C82, partial** signatures: with the same answers of the generator both builds return the same signature. Missing:
master keys for whose pairing an inversion goes wrong in the portable build (`PairRight`, C66). -/
theorem C82_x64_sign_partial (hC : IsHash C H) (key : List Byte) (hl : key.length = 32)
    (hp : ∀ mk, Verif.Sm9.setPriv key = .ok mk → PairRight w Verif.Sm9.p1 mk.pub.P) (id : List Byte) (hid : Byte)
    (msg : List Byte) (rnds : List (List Byte)) (hr : ∀ r ∈ rnds, r.length = 32) (pc : Verif.Sm2.PC) :
    (X64.Sm9.setPriv key >>= fun mk => X64.Sm9.genSignPriv C mk id hid >>= fun sk => X64.Sm9.sign C sk msg rnds pc) =
      (Verif.Sm9.setPriv key >>= fun mk =>
        Verif.Sm9.genSignPriv C mk id hid >>= fun sk => Verif.Sm9.sign C sk msg rnds pc) := by
  have h0 := s9setPriv_sim hw hl
  revert h0 hp
  generalize Verif.Sm9.setPriv key = x
  generalize X64.Sm9.setPriv key = x'
  intro hp h0
  cases h0 with
  | throw => rw [t_bind, t_bind]
  | ub => rw [ub_bind', ub_bind']
  | ok h =>
    rw [o_bind, o_bind]
    obtain ⟨h1, h2, h3, -, h4, h5, -⟩ := h
    refine (relOut_bind (genSignPriv_sim hC (h1.trans h2.symm) (by rw [h1]; exact hl)
      (s9pub_right hw h3 h4 h5 (hp _ rfl)) id hid) fun sk sk' h => ?_).symm
    exact s9sign_sim hC h.priv h.pub.e msg pc hr

/-- **C82, partial** verification: both builds give the same verdict on every signature, also on those that do not parse.
Missing: master keys and signatures for whose pairing an inversion goes wrong in the portable build. -/
theorem C82_x64_verify_partial (hC : IsHash C H) (key : List Byte) (hl : key.length = 32) (mk : Verif.Sm9.MPriv)
    (mk' : X64.Sm9.MPriv) (hk : Verif.Sm9.setPriv key = .ok mk) (hk' : X64.Sm9.setPriv key = .ok mk')
    (hp : PairRight w Verif.Sm9.p1 mk.pub.P) (sig msg id : List Byte) (hid : Byte)
    (hr : ∀ A h1 T B, Verif.Sm9.ecAFromBytes (sig.drop 32) (sig.length - 32) = .ok (A, sig.length - 32) →
      Verif.Sm9.hn C id [hid] 1 = .ok h1 → Verif.Sm9.j2MulG h1 = some T →
      Verif.Sm9.j2ToA (Verif.Sm9.j2AddA T mk.pub.P) = some B → PairRight w A B) :
    X64.Sm9.verify C mk'.pub sig msg id hid = Verif.Sm9.verify C mk.pub sig msg id hid := by
  have h0 := s9setPriv_sim hw hl
  rw [hk, hk'] at h0
  cases h0 with
  | ok h =>
    obtain ⟨h1, h2, h3, -, h4, h5, -⟩ := h
    exact (s9verify_sim hw hC (s9pub_right hw h3 h4 h5 hp) sig msg id hid hr).symm

/-- **C82, partial** a signature made by the portable build is accepted by the 64-bit build. Missing: the cases of
`C81_x64_sign_verify_partial`, and master keys for whose pairing an inversion goes wrong in the portable build. -/
theorem C82_x64_accepts_portable_partial (hC : IsHash C H) (key : List Byte) (hl : key.length = 32) (mk : Verif.Sm9.MPriv)
    (mk' : X64.Sm9.MPriv) (hmk : Verif.Sm9.setPriv key = .ok mk) (hmk' : X64.Sm9.setPriv key = .ok mk')
    (id : List Byte) (hid : Byte) (sk : Verif.Sm9.SPriv)
    (hsk : Verif.Sm9.genSignPriv C mk id hid = .ok sk) (msg : List Byte) (rnds : List (List Byte))
    (hr : ∀ r ∈ rnds, r.length = 32) (pc : Verif.Sm2.PC) (sig : List Byte)
    (hs : Verif.Sm9.sign C sk msg rnds pc = .ok (some sig))
    (k1 : beVal key ≠ sm9n - 2) (k2 : sm9H H C.DS 1 (id ++ [hid]) ≠ sm9n - 2)
    (k3 : sm9H H C.DS 1 (id ++ [hid]) ≠ beVal key)
    (k4 : (3 * beVal key + 2 * sm9H H C.DS 1 (id ++ [hid])) % sm9n ≠ 0)
    (k5 : (sig.drop 33).take 32 ≠ List.replicate 32 0) (p1 : PairRight w Verif.Sm9.p1 mk.pub.P) :
    X64.Sm9.verify C mk'.pub sig msg id hid = .returns true := by
  have h0 := s9setPriv_sim hw hl
  rw [hmk, hmk'] at h0
  cases h0 with
  | ok h =>
    obtain ⟨h1, h2, h3, -, h4, h5, -⟩ := h
    have sg := genSignPriv_sim hC (h1.trans h2.symm) (by rw [h1]; exact hl) (s9pub_right hw h3 h4 h5 p1) id hid
    rw [hsk] at sg
    obtain ⟨sk', g1, g2⟩ := relOut_ok' sg
    rw [s9sign_sim hC g2.priv g2.pub.e msg pc hr] at hs
    exact xsign_verify hw hC hl hmk' g1 hr hs k1 k2 k3 k4 k5

/-- The signature of "Chinese IBS standard" by "Alice" under the master key 1, with SM3, meets all the hypotheses of
`C81_x64_sign_verify_partial`, `C82_x64_sign_partial` and `C82_x64_accepts_portable_partial`. -/
example : ∃ mk sk sig, X64.Sm9.setPriv (toBE 32 1) = .ok mk ∧ X64.Sm9.genSignPriv Sm3.cls mk alId 1 = .ok sk ∧
    X64.Sm9.sign Sm3.cls sk alMsg [toBE 32 0] .compressed = .ok (some sig) ∧
    (∃ mk0, Verif.Sm9.setPriv (toBE 32 1) = .ok mk0 ∧ PairRight w Verif.Sm9.p1 mk0.pub.P) ∧
    X64.Sm9.verify Sm3.cls mk.pub sig alMsg alId 1 = .returns true := by
  obtain ⟨mk0, sk0, sig, m1, m2, m3, m4, m5, -⟩ := al_sign hw
  have hv : beVal (toBE 32 1) = 1 := by decide +kernel
  have hr : ∀ r ∈ [toBE 32 0], r.length = 32 := fun r hr => by rw [List.mem_singleton.mp hr, toBE_len]
  have h0 := s9setPriv_sim hw (key := toBE 32 1) (toBE_len _ _)
  rw [m1] at h0
  obtain ⟨mk, n1, h1, h2, h3, -, h4, h5, -⟩ := relOut_ok' h0
  have sg := genSignPriv_sim sm3_isHash (h1.trans h2.symm) (by rw [h1]; exact toBE_len _ _)
    (s9pub_right hw h3 h4 h5 m5) alId 1
  rw [m2] at sg
  obtain ⟨sk, g1, g2⟩ := relOut_ok' sg
  have hs := m3
  rw [s9sign_sim sm3_isHash g2.priv g2.pub.e alMsg .compressed hr] at hs
  refine ⟨mk, sk, sig, n1, g1, hs, ⟨mk0, m1, m5⟩,
    C81_x64_sign_verify_partial sm3_isHash (toBE 32 1) (toBE_len _ _) mk n1 alId 1 sk g1 alMsg _ hr .compressed sig hs
      ?_ ?_ ?_ ?_ ?_⟩
  · rw [hv]; decide +kernel
  · rw [al_H1]; decide +kernel
  · rw [al_H1, hv]; exact (by decide +kernel : alH1 ≠ 1)
  · rw [al_H1, hv]; exact (by decide +kernel : (3 * 1 + 2 * alH1) % sm9n ≠ 0)
  · rw [m4]; decide +kernel

end
end
end Verif.X64.Props
