import Verif.Proofs.Sm9Keys
import Verif.Proofs.Sm9Alice
/-!
# Properties of the SM9 pairing, keys and signatures (C52, C56, C66 - C69)

Statements are over an arbitrary hash class `C` that computes `H` (`IsHash`, Spec/Sm2Scheme.lean), in particular SM3.
`sm9G`, `sm9G2 hw` are the published generators of `G1` and `G2`, of prime order `sm9n` (C40, C57); `K` is any field over
`F_p` with an element `w`, `w¹² = -2`, in which the elements of the tower are seen (such fields exist: Props/Sm9Field).
-/
set_option linter.unusedSectionVars false
namespace Verif.Props
open Spec WeierstrassCurve WeierstrassCurve.Affine

/-! ## C52: hashing to [1, N-1] -/

section
variable {S : Type} {C : HashClass S} {H : List Byte → List Byte}

/-- **C52** `sm9_Hn` gives `(Ha mod (N-1)) + 1` in 32 octets, a number in `[1, N-1]`; it throws exactly when the input is
too long for the hash function. -/
theorem C52_hash_to_range (hC : IsHash C H) (Z1 Z2 : List Byte) (tag : Byte) :
    (8 * (Z1.length + Z2.length + 5) < 2 ^ 64 → ∃ d, Sm9.hn C Z1 Z2 tag = .ok d ∧ d.length = 32 ∧
      beVal d = beVal (sm9Ha H C.DS tag (Z1 ++ Z2)) % (sm9n - 1) + 1 ∧ 1 ≤ beVal d ∧ beVal d ≤ sm9n - 1) ∧
    (¬ 8 * (Z1.length + Z2.length + 5) < 2 ^ 64 → Sm9.hn C Z1 Z2 tag = .throw) := by
  have hh := hn_ok hC Z1 Z2 tag
  obtain ⟨r1, r2⟩ := sm9H_range (H := H) C.DS tag (Z1 ++ Z2)
  refine ⟨fun h => ?_, fun h => by rw [hh, if_neg h]⟩
  rw [if_pos h] at hh
  refine ⟨_, hh, toBE_len _ _, ?_, ?_, ?_⟩
  all_goals rw [beVal_toBE_n r2]
  · rfl
  · exact r1
  · omega

/-- With SM3: the value `H1("Alice" ‖ 01)` printed in GM/T 0044.5. -/
example : Sm9.hn Sm3.cls [0x41, 0x6C, 0x69, 0x63, 0x65] [1] 1 =
    .ok (toBE 32 0x2ACC468C3926B0BDB2767E99FF26E084DE9CED8DBC7D5FBF418027B667862FAB) := by decide +kernel

end

section
variable {K : Type} [Field K] [Algebra (ZMod sm9p) K] [DecidableEq K] {w : K} (hw : w ^ 12 = -2)
include hw

/-! ## C66: the pairing -/

/-- **C66** the pairing function returns, with a reduced result, for all reduced coordinates, on the curves or not. -/
theorem C66_pairing_total (P : Sm9.A) (Q : Sm9.A2) (hx : Reduced sm9p P.x) (hy : Reduced sm9p P.y)
    (qx : All2 (Reduced sm9p) Q.x) (qy : All2 (Reduced sm9p) Q.y) :
    ∃ r, Sm9.pairing P Q = some r ∧ All12 (Reduced sm9p) r := pairing_total hw hx hy qx qy

/-- **C66, partial** the pairing is bilinear and not degenerate: there is an element `g ≠ 1` of order `N` such that the
value at `[a]P1` and `[b]P2` is `g ^ (a b)`. Missing: pairs of points for which one of the two inversions of the final
exponentiation is a case `sm9_fp12_inv` gets wrong (C51, `C51_inv_violated`); `PairRight` excludes them. -/
theorem C66_pairing_partial : ∃ g : K, g ≠ 1 ∧ g ^ sm9n = 1 ∧ ∀ a b : Nat, 1 ≤ a → a < sm9n →
    ∀ (P : Sm9.A) (Q : Sm9.A2), Sm9IsAffine P (a • sm9G) → Sm9IsAffine2 w Q (b • sm9G2 hw) → PairRight w P Q →
      PairsTo w P Q (g ^ (a * b)) :=
  ⟨sm9g hw, sm9g_ne1 hw, sm9g_N hw, fun _ _ a1 a2 _ _ hP hQ hr => pair_gen hw a1 a2 hP hQ hr⟩

/-- The generators themselves meet the hypotheses. -/
example : Sm9IsAffine Sm9.p1 (1 • sm9G) ∧ Sm9IsAffine2 w Sm9.p2 (1 • sm9G2 hw) ∧ PairRight w Sm9.p1 Sm9.p2 := by
  rw [one_nsmul, one_nsmul]
  exact ⟨p1_ok, p2_ok hw, genPts_right hw p1_ok (p2_ok hw)⟩

/-- The pairing value at (0, 0), which is what the library holds for the point at infinity of `G2`, is 0 (and not 1). -/
theorem C66_pairing_zero_violated (A : Sm9.A) (P : Sm9.A2) (hx : Reduced sm9p A.x) (hy : Reduced sm9p A.y)
    (qx : All2 (Reduced sm9p) P.x) (qy : All2 (Reduced sm9p) P.y) (zx : fp2Den w P.x = 0) (zy : fp2Den w P.y = 0) :
    PairsTo w A P 0 := by
  obtain ⟨e, e1, e2, e3⟩ := pairing_zero hw hx hy qx qy zx zy
  exact ⟨e, e1, e2, e3⟩

/-! ## C67: master keys -/

/-- **C67** `set_priv` on a key in `[1, N-1]` returns, keeps the key, and stores the pairing of the generator with the
public point; except for the key `N - 2` the public point is `[ks]P2`, and then the stored pairing is `g ^ ks` unless
the inversion of the final exponentiation goes wrong (C66). -/
theorem C67_set_priv_partial (key : List Byte) (hl : key.length = 32) (h1 : 1 ≤ beVal key) (h2 : beVal key < sm9n) :
    ∃ mk, Sm9.setPriv key = .ok mk ∧ Sm9.getPriv mk = key ∧ All2 (Reduced sm9p) mk.pub.P.x ∧
      All2 (Reduced sm9p) mk.pub.P.y ∧ PairsTo w Sm9.p1 mk.pub.P (fp12Den w mk.pub.e) ∧
      (beVal key ≠ sm9n - 2 → Sm9IsAffine2 w mk.pub.P (beVal key • sm9G2 hw) ∧
        ∃ g : K, g ≠ 1 ∧ g ^ sm9n = 1 ∧ PairsTo w Sm9.p1 Sm9.p2 g ∧
          (PairRight w Sm9.p1 mk.pub.P → fp12Den w mk.pub.e = g ^ beVal key)) := by
  by_cases hne : beVal key = sm9n - 2
  · obtain ⟨P, e, p1, p2, p3, p4, p5, p6, p7, p8⟩ := setPriv_weak hw hl hne
    exact ⟨_, p1, rfl, p2, p3, ⟨e, p8, p6, rfl⟩, fun h => absurd hne h⟩
  · obtain ⟨P, e, p1, p2, p3, p4, p5⟩ := setPriv_ok hw hl h1 h2 hne
    refine ⟨_, p1, rfl, p2.1, p2.2.1, ⟨e, p4, p3, rfl⟩, fun _ => ⟨p2, sm9g hw, sm9g_ne1 hw, sm9g_N hw, ?_, p5⟩⟩
    have := pair_gen hw (a := 1) (b := 1) le_rfl (by decide +kernel) (by rw [one_nsmul]; exact p1_ok)
      (by rw [one_nsmul]; exact p2_ok hw) (genPts_right hw p1_ok (p2_ok hw))
    rwa [one_mul, pow_one] at this

/-- The hypotheses hold for the key 1, whose public point is the generator. -/
example : ∃ mk, Sm9.setPriv (toBE 32 1) = .ok mk ∧ Sm9IsAffine2 w mk.pub.P (sm9G2 hw) ∧
    ∃ g : K, g ≠ 1 ∧ fp12Den w mk.pub.e = g := by
  have hv : beVal (toBE 32 1) = 1 := by decide +kernel
  obtain ⟨mk, m1, -, -, -, -, m6⟩ := C67_set_priv_partial hw (toBE 32 1) (by decide) (by rw [hv])
    (by rw [hv]; decide +kernel)
  obtain ⟨n1, g, g1, -, -, g4⟩ := m6 (by rw [hv]; decide +kernel)
  rw [hv, one_nsmul] at n1
  exact ⟨mk, m1, n1, g, g1, by rw [g4 (genPts_right hw p1_ok n1), hv, pow_one]⟩

end

/-- **C67** `set_priv` throws exactly for the keys outside `[1, N-1]`. -/
theorem C67_set_priv_range (key : List Byte) (hl : key.length = 32) :
    Sm9.setPriv key = .throw ↔ beVal key = 0 ∨ sm9n ≤ beVal key := by
  obtain ⟨K, _, _, w, hw⟩ := sm9_field_exists
  classical
  obtain ⟨z1, z2⟩ := s9range_iff hl
  constructor
  · intro h
    by_contra hc
    push Not at hc
    obtain ⟨mk, m1, -⟩ := C67_set_priv_partial hw key hl (by omega) hc.2
    rw [m1] at h
    cases h
  · intro h
    unfold Sm9.setPriv
    simp only
    rw [if_pos (h.imp z1.mpr z2.mpr)]

/-- **C67** `gen_priv` gives the key `(rnd mod (N-1)) + 1`, in `[1, N-1]`, as `set_priv` would set it. -/
theorem C67_gen_priv (rnd : List Byte) (hr : rnd.length = 32) :
    Sm9.genPriv rnd = Sm9.setPriv (toBE 32 (beVal rnd % (sm9n - 1) + 1)) := by
  obtain ⟨n1, n2⟩ := s9nonce_range hr
  have hln := s9nonce_len hr
  have hv := s9nonce_val hr
  have he : Sm9.nonce rnd = toBE 32 (beVal rnd % (sm9n - 1) + 1) := by
    rw [← hv, ← hln, toBE_beVal]
  rw [← he]
  obtain ⟨z1, z2⟩ := s9range_iff hln
  unfold Sm9.genPriv Sm9.setPriv
  simp only
  rw [if_neg (by rintro (h | h); exacts [by have := z1.mp h; omega, by have := z2.mp h; omega])]

/-- **C67, the failure** the key `N - 2` is accepted, and can be drawn by `gen_priv`; its public point has coordinates
(0, 0), is not on the curve, and `set_pub` does not take it back. -/
theorem C67_weak_key_violated : ∃ mk, Sm9.setPriv (toBE 32 (sm9n - 2)) = .ok mk ∧
    Sm9.genPriv (toBE 32 (sm9n - 3)) = .ok mk ∧ Sm9.getPub mk.pub = (List.replicate 64 0, List.replicate 64 0) ∧
    Sm9.setPub (Sm9.getPub mk.pub).1 (Sm9.getPub mk.pub).2 = .throw := by
  obtain ⟨K, _, _, w, hw⟩ := sm9_field_exists
  classical
  obtain ⟨P, e, p1, p2, p3, p4, p5, -⟩ := setPriv_weak hw (key := toBE 32 (sm9n - 2)) (toBE_len _ _) (by decide +kernel)
  have zero2 : ∀ {a : Sm9.F2}, All2 (Reduced sm9p) a → fp2Den w a = 0 →
      a = Sm9.fp2FromBytes (List.replicate 64 0) := fun {a} h h0 => by
    obtain ⟨b1, b2⟩ := fp2From_ok hw (x := List.replicate 64 0) (by decide)
    rw [show beVal ((List.replicate 64 (0 : Byte)).drop 32) = 0 by decide,
      show beVal ((List.replicate 64 (0 : Byte)).take 32) = 0 by decide, Nat.cast_zero, zero_mul, add_zero] at b2
    exact f2_inj hw h b1 (h0.trans b2.symm)
  have eP : P = ⟨Sm9.fp2FromBytes (List.replicate 64 0), Sm9.fp2FromBytes (List.replicate 64 0)⟩ := by
    obtain ⟨x, y⟩ := P
    exact congrArg₂ EcA.mk (zero2 p2 p4) (zero2 p3 p5)
  have hz : Sm9.fp2ToBytes (Sm9.fp2FromBytes (List.replicate 64 0)) = List.replicate 64 0 := by decide +kernel
  have hg : Sm9.getPub ⟨P, e⟩ = (List.replicate 64 0, List.replicate 64 0) := by
    unfold Sm9.getPub
    rw [eP, hz]
  refine ⟨_, p1, ?_, hg, ?_⟩
  · rw [C67_gen_priv _ (toBE_len _ _), show beVal (toBE 32 (sm9n - 3)) % (sm9n - 1) + 1 = sm9n - 2 by decide +kernel, p1]
  · simp only
    rw [hg]
    unfold Sm9.setPub
    simp only
    rw [if_pos (by decide +kernel)]

section
variable {S : Type} {C : HashClass S} {H : List Byte → List Byte}

/-- **C67, the failure** anyone forges signatures under the public key of the master key `N - 2`: for every identity and
every message, `H2(msg ‖ 0...0)` followed by any point of the curve is accepted. -/
theorem C67_forgery_violated (hC : IsHash C H) (mk : Sm9.MPriv) (h : Sm9.setPriv (toBE 32 (sm9n - 2)) = .ok mk)
    (msg id : List Byte) (hid : Byte) (pc : Sm2.PC) (A : Sm9.A) (Q : Sm9Point) (hA : Sm9IsAffine A Q)
    (hid1 : 8 * (id.length + 6) < 2 ^ 64) (hm : 8 * (msg.length + 389) < 2 ^ 64) :
    Sm9.verify C mk.pub (toBE 32 (sm9H H C.DS 2 (msg ++ List.replicate 384 0)) ++ Sm9.encPoint pc A) msg id hid =
      .returns true := by
  obtain ⟨K, _, _, w, hw⟩ := sm9_field_exists
  classical
  obtain ⟨P, e, p1, p2, p3, p4, p5, p6, p7, -⟩ := setPriv_weak hw (key := toBE 32 (sm9n - 2)) (toBE_len _ _)
    (by decide +kernel)
  rw [p1] at h
  rw [← Outcome.ok.inj h]
  obtain ⟨r1, r2⟩ := sm9H_range (H := H) C.DS 2 (msg ++ List.replicate 384 0)
  generalize hv : sm9H H C.DS 2 (msg ++ List.replicate 384 0) = v at *
  have ht : (toBE 32 v ++ Sm9.encPoint pc A).take 32 = toBE 32 v := List.take_left' (toBE_len 32 v)
  have hd : (toBE 32 v ++ Sm9.encPoint pc A).drop 32 = Sm9.encPoint pc A := List.drop_left' (toBE_len 32 v)
  have hlen : (toBE 32 v ++ Sm9.encPoint pc A).length = 32 + (Sm9.encPoint pc A).length := by
    rw [List.length_append, toBE_len]
  have := verify_weak hw hC (pub := ⟨P, e⟩) p2 p3 p6 (sig := toBE 32 v ++ Sm9.encPoint pc A) (A := A) (by omega)
    (by rw [ht, beVal_toBE_n r2]; omega)
    (by rw [hd, hlen, Nat.add_sub_cancel_left]; exact enc_len hw pc hA) msg id hid hid1 hm (Or.inl p7)
  rw [this, ht, hv, beq_self_eq_true]


/-! ## C56: signatures verify -/

section
variable {K : Type} [Field K] [Algebra (ZMod sm9p) K] [DecidableEq K] {w : K} (hw : w ^ 12 = -2)
include hw

/-- **C56, partial** every signature that `sign` returns under a key issued by a master key is accepted by `verify` under
the master public key, the identity and the message. Missing, with `h1 = H1(id)`: `ks = N - 2`, `h1 = N - 2`, `h1 = ks`,
`3 ks + 2 h1 = 0 mod N`, a signature whose point came out as (0, 0), and pairings with an inversion that goes wrong. The
first five cases are failures of the code: `C67_forgery_violated`, `C56_identity_violated`, `C56_key_violated`,
`C56_point_violated`. -/
theorem C56_sign_verify_partial (hC : IsHash C H) (key : List Byte) (hl : key.length = 32) (mk : Sm9.MPriv)
    (hmk : Sm9.setPriv key = .ok mk) (id : List Byte) (hid : Byte) (sk : Sm9.SPriv)
    (hsk : Sm9.genSignPriv C mk id hid = .ok sk) (msg : List Byte) (rnds : List (List Byte))
    (hr : ∀ r ∈ rnds, r.length = 32) (pc : Sm2.PC) (sig : List Byte)
    (hs : Sm9.sign C sk msg rnds pc = .ok (some sig))
    (k1 : beVal key ≠ sm9n - 2) (k2 : sm9H H C.DS 1 (id ++ [hid]) ≠ sm9n - 2)
    (k3 : sm9H H C.DS 1 (id ++ [hid]) ≠ beVal key)
    (k4 : (3 * beVal key + 2 * sm9H H C.DS 1 (id ++ [hid])) % sm9n ≠ 0)
    (k5 : (sig.drop 33).take 32 ≠ List.replicate 32 0)
    (p1 : PairRight w Sm9.p1 mk.pub.P)
    (p2 : ∀ A B, Sm9.ecAFromBytes (sig.drop 32) (sig.length - 32) = .ok (A, sig.length - 32) →
      Sm9IsAffine2 w B ((sm9H H C.DS 1 (id ++ [hid]) + beVal key) • sm9G2 hw) → PairRight w A B) :
    Sm9.verify C mk.pub sig msg id hid = .returns true := by
  have hrange : ¬ (beVal key = 0 ∨ sm9n ≤ beVal key) := fun h => by
    rw [(C67_set_priv_range key hl).mpr h] at hmk; cases hmk
  push Not at hrange
  obtain ⟨P, e, m1, m2, m3, -, m5⟩ := setPriv_ok hw hl (by omega) hrange.2 k1
  rw [m1] at hmk
  have hmk' := Outcome.ok.inj hmk
  subst hmk'
  simp only at p1 ⊢
  have hid1 : 8 * (id.length + 6) < 2 ^ 64 := by
    by_contra hc
    rw [genSignPriv_long hC id hid hc] at hsk
    cases hsk
  obtain ⟨g1, g2⟩ := genSignPriv_ok hw hC (mk := ⟨key, ⟨P, e⟩⟩) hl id hid hid1
  simp only at g1 g2
  have nz : (sm9H H C.DS 1 (id ++ [hid]) : ZMod sm9n) + (beVal key : ZMod sm9n) ≠ 0 := fun h => by
    rw [g1 h] at hsk
    cases hsk
  have kz : (beVal key : ZMod sm9n) ≠ 0 := by
    rw [Ne, ZMod.natCast_eq_zero_iff]
    exact fun h => absurd (Nat.le_of_dvd (by omega) h) (by omega)
  have tne := s9t2_ne nz k4
  obtain ⟨D, d1, d2⟩ := g2 nz kz tne
  rw [d1] at hsk
  have hsk' := Outcome.ok.inj hsk
  subst hsk'
  obtain ⟨rnd, r1, r2⟩ := signLoop_some hs
  have hm : 8 * (msg.length + 389) < 2 ^ 64 := by
    by_contra hc
    rw [s9signStep_long hw hC m3 msg rnd (hr rnd r1) pc hc] at r2
    cases r2
  rcases sign_verify hw hC (by omega) hrange.2 (pub := ⟨P, e⟩) m2 m3 (m5 p1) msg id rnd hid pc (hr rnd r1) hm hid1 k2 k3
    nz d2 r2 with ⟨A, a1, a2, a3, a4, a5⟩ | ⟨A, B, a1, a2, a3⟩
  · refine absurd ?_ k5
    rw [show sig.drop 33 = (sig.drop 32).drop 1 by rw [List.drop_drop], a5]
    exact encPoint_x pc a3 a1
  · exact a3 (p2 A B a1 a2)

/-- The signature of "Chinese IBS standard" by "Alice" under the master key 1 with the random number 1, with SM3, meets all
the hypotheses. -/
example : ∃ mk sk sig, Sm9.setPriv (toBE 32 1) = .ok mk ∧ Sm9.genSignPriv Sm3.cls mk alId 1 = .ok sk ∧
    Sm9.sign Sm3.cls sk alMsg [toBE 32 0] .compressed = .ok (some sig) ∧
    Sm9.verify Sm3.cls mk.pub sig alMsg alId 1 = .returns true := by
  obtain ⟨mk, sk, sig, m1, m2, m3, m4, m5, m6, A, a1, a2, a3⟩ := al_sign hw
  have hv : beVal (toBE 32 1) = 1 := by decide +kernel
  refine ⟨mk, sk, sig, m1, m2, m3, C56_sign_verify_partial hw sm3_isHash (toBE 32 1) (toBE_len _ _) mk m1 alId 1 sk m2 alMsg
    [toBE 32 0] (fun r hr => ?_) .compressed sig m3 ?_ ?_ ?_ ?_ ?_ m5 (fun A' B h hB => ?_)⟩
  · rw [List.mem_singleton.mp hr, toBE_len]
  · rw [hv]; decide +kernel
  · rw [al_H1]; decide +kernel
  · rw [al_H1, hv]; exact (by decide +kernel : alH1 ≠ 1)
  · rw [al_H1, hv]; exact (by decide +kernel : (3 * 1 + 2 * alH1) % sm9n ≠ 0)
  · rw [m4]; decide +kernel
  · have e : ∀ n, n = alH1 + 1 → Sm9IsAffine2 w B (n • sm9G2 hw) → PairRight w A B := fun n hn h => by
      subst hn; exact al_right hw a2 h
    rw [a3 _ _ h]
    exact e _ (by rw [hv, al_H1]) hB

end

/-- **C56, the failure** for every identity there is a master key (`ks = -2 H1(id) / 3 mod N`) under which the private key
of that identity is issued but has coordinates (0, 0), and `verify` rejects everything `sign` returns with it. -/
theorem C56_key_violated (hC : IsHash C H) (id : List Byte) (hid : Byte) (hid1 : 8 * (id.length + 6) < 2 ^ 64) :
    ∃ key mk sk, key.length = 32 ∧ Sm9.setPriv key = .ok mk ∧ Sm9.genSignPriv C mk id hid = .ok sk ∧
      ∀ msg rnds pc sig, (∀ r ∈ rnds, r.length = 32) → Sm9.sign C sk msg rnds pc = .ok (some sig) →
        Sm9.verify C mk.pub sig msg id hid = .returns false := by
  obtain ⟨K, _, _, w, hw⟩ := sm9_field_exists
  classical
  obtain ⟨r1, r2⟩ := sm9H_range (H := H) C.DS 1 (id ++ [hid])
  obtain ⟨ks, k1, k2, k3, k4⟩ := s9weak_ks r1 r2
  have hv : beVal (toBE 32 ks) = ks := beVal_toBE_n k2
  obtain ⟨mk, m1, m2, -⟩ := C67_set_priv_partial hw (toBE 32 ks) (toBE_len _ _) (by rw [hv]; exact k1)
    (by rw [hv]; exact k2)
  have hks : mk.ks = toBE 32 ks := m2
  obtain ⟨D, d1, d2, d3, d4, d5⟩ := genSignPriv_weak hC (mk := mk) (by rw [hks, toBE_len]) id hid hid1
    (by rw [hks, hv]; exact k3) (by rw [hks, hv]; exact k4)
  have he : All12 (Reduced sm9p) mk.pub.e := (setPriv_red hw (toBE_len _ _) m1).2.2
  refine ⟨_, mk, _, toBE_len _ _, m1, d1, fun msg rnds pc sig hr hs => ?_⟩
  obtain ⟨rnd, q1, q2⟩ := signLoop_some hs
  rcases s9signStep_zero hw hC (key := ⟨D, mk.pub⟩) d2 d3 d4 d5 he msg rnd (hr rnd q1) pc with h | h | ⟨h, A, a1, a2, a3, a4, a5, a6⟩
  · rw [h] at q2; cases q2
  · rw [h] at q2; cases q2
  · rw [a6] at q2
    rw [← Option.some.inj (Outcome.ok.inj q2)]
    exact verify_zero mk.pub a1 pc a2 a3 a4 a5 msg id hid

/-- **C56, the failure** when the hash of the identity is the master private key, its negative (when no private key can be
issued), or `N - 2`, verification ignores the public key: `verify` accepts `H2(msg ‖ 0...0)` with any point of the curve,
and no other first half of a signature. -/
theorem C56_identity_violated (hC : IsHash C H) (key : List Byte) (hl : key.length = 32) (mk : Sm9.MPriv)
    (hmk : Sm9.setPriv key = .ok mk) (id : List Byte) (hid : Byte)
    (h : sm9H H C.DS 1 (id ++ [hid]) = beVal key ∨ sm9H H C.DS 1 (id ++ [hid]) = sm9n - 2 ∨
      sm9H H C.DS 1 (id ++ [hid]) + beVal key = sm9n)
    (msg : List Byte) (hid1 : 8 * (id.length + 6) < 2 ^ 64) (hm : 8 * (msg.length + 389) < 2 ^ 64)
    (v : Nat) (v1 : 1 ≤ v) (v2 : v < sm9n) (pc : Sm2.PC) (A : Sm9.A) (Q : Sm9Point) (hA : Sm9IsAffine A Q) :
    Sm9.verify C mk.pub (toBE 32 v ++ Sm9.encPoint pc A) msg id hid =
      .returns (decide (v = sm9H H C.DS 2 (msg ++ List.replicate 384 0))) := by
  obtain ⟨K, _, _, w, hw⟩ := sm9_field_exists
  classical
  have hrange : ¬ (beVal key = 0 ∨ sm9n ≤ beVal key) := fun h => by
    rw [(C67_set_priv_range key hl).mpr h] at hmk; cases hmk
  push Not at hrange
  obtain ⟨r1, r2⟩ := sm9H_range (H := H) C.DS 2 (msg ++ List.replicate 384 0)
  obtain ⟨s1, s2⟩ := sm9H_range (H := H) C.DS 1 (id ++ [hid])
  have ht : (toBE 32 v ++ Sm9.encPoint pc A).take 32 = toBE 32 v := List.take_left' (toBE_len 32 v)
  have hd : (toBE 32 v ++ Sm9.encPoint pc A).drop 32 = Sm9.encPoint pc A := List.drop_left' (toBE_len 32 v)
  have hlen : (toBE 32 v ++ Sm9.encPoint pc A).length = 32 + (Sm9.encPoint pc A).length := by
    rw [List.length_append, toBE_len]
  have fin : ∀ {pub : Sm9.MPub}, All2 (Reduced sm9p) pub.P.x → All2 (Reduced sm9p) pub.P.y → All12 (Reduced sm9p) pub.e →
      (fp12Den w pub.e = 0 ∨ ∃ T B, Sm9.j2MulG (toBE 32 (sm9H H C.DS 1 (id ++ [hid]))) = some T ∧
        Sm9.j2ToA (Sm9.j2AddA T pub.P) = some B ∧ fp2Den w B.x = 0 ∧ fp2Den w B.y = 0) →
      Sm9.verify C pub (toBE 32 v ++ Sm9.encPoint pc A) msg id hid =
        .returns (decide (v = sm9H H C.DS 2 (msg ++ List.replicate 384 0))) := fun {pub} q1 q2 q3 q4 => by
    have := verify_weak hw hC (pub := pub) q1 q2 q3 (sig := toBE 32 v ++ Sm9.encPoint pc A) (A := A) (by omega)
      (by rw [ht, beVal_toBE_n v2]; omega)
      (by rw [hd, hlen, Nat.add_sub_cancel_left]; exact enc_len hw pc hA) msg id hid hid1 hm q4
    rw [this, ht, toBE_beq r2 v2, decide_eq_decide.mpr eq_comm]
  by_cases k : beVal key = sm9n - 2
  · obtain ⟨P, e, p1, p2, p3, p4, p5, p6, p7, -⟩ := setPriv_weak hw hl k
    rw [p1] at hmk
    rw [← Outcome.ok.inj hmk]
    exact fin p2 p3 p6 (Or.inl p7)
  · obtain ⟨P, e, p1, p2, p3, -⟩ := setPriv_ok hw hl (by omega) hrange.2 k
    rw [p1] at hmk
    rw [← Outcome.ok.inj hmk]
    exact fin p2.1 p2.2.1 p3 (Or.inr (verPoint_weak hw p2 s2 h))

/-- For every identity there is such a master key. -/
example (id : List Byte) (hid : Byte) : ∃ key mk, key.length = 32 ∧ Sm9.setPriv key = .ok mk ∧
    sm9H H C.DS 1 (id ++ [hid]) = beVal key := by
  obtain ⟨K, _, _, w, hw⟩ := sm9_field_exists
  classical
  obtain ⟨s1, s2⟩ := sm9H_range (H := H) C.DS 1 (id ++ [hid])
  have hv := beVal_toBE_n s2
  obtain ⟨mk, m1, -⟩ := C67_set_priv_partial hw (toBE 32 (sm9H H C.DS 1 (id ++ [hid]))) (toBE_len _ _)
    (by rw [hv]; exact s1) (by rw [hv]; exact s2)
  exact ⟨_, mk, toBE_len _ _, m1, hv.symm⟩

/-- **C56, the failure** a signature whose point came out with coordinates (0, 0) (`r - h = N - 2`) is rejected. -/
theorem C56_point_violated (pub : Sm9.MPub) (h : List Byte) (hl : h.length = 32) (pc : Sm2.PC) (A : Sm9.A)
    (hx : Reduced sm9p A.x) (hy : Reduced sm9p A.y) (zx : montVal sm9p A.x = 0) (zy : montVal sm9p A.y = 0)
    (msg id : List Byte) (hid : Byte) : Sm9.verify C pub (h ++ Sm9.encPoint pc A) msg id hid = .returns false :=
  verify_zero pub hl pc hx hy zx zy msg id hid

/-! ## C68: what `verify` does -/

section
variable {K : Type} [Field K] [Algebra (ZMod sm9p) K] [DecidableEq K] {w : K} (hw : w ^ 12 = -2)
include hw

/-- **C68, partial** the equation: `verify` computes `g^h · e(S, [h1]P2 + Ppub)` and compares its `H2` with `h`.
Missing: `h1 = N - 2`, `h1 = ks`, `h1 + ks = N`, where the second point comes out as (0, 0) and what is hashed does not
depend on the key: `C56_identity_violated`. -/
theorem C68_equation_partial (hC : IsHash C H) (ks : Nat) (hks : ks < sm9n) (pub : Sm9.MPub) (g : K)
    (hp : Sm9PubIs w pub (ks • sm9G2 hw) g) (A : Sm9.A) (Q : Sm9Point) (hA : Sm9IsAffine A Q)
    (msg id : List Byte) (hid : Byte) (pc : Sm2.PC) (hm : 8 * (msg.length + 389) < 2 ^ 64)
    (hid1 : 8 * (id.length + 6) < 2 ^ 64) (h : Nat) (h0 : 1 ≤ h) (hn : h < sm9n)
    (k2 : sm9H H C.DS 1 (id ++ [hid]) ≠ sm9n - 2) (k3 : sm9H H C.DS 1 (id ++ [hid]) ≠ ks)
    (k4 : sm9H H C.DS 1 (id ++ [hid]) + ks ≠ sm9n) :
    ∃ B, Sm9IsAffine2 w B (sm9H H C.DS 1 (id ++ [hid]) • sm9G2 hw + ks • sm9G2 hw) ∧
      ∀ u, PairsTo w A B u → ∃ W, All12 (Reduced sm9p) W ∧ fp12Den w W = u * g ^ h ∧
        Sm9.verify C pub (toBE 32 h ++ Sm9.encPoint pc A) msg id hid =
          .returns (decide (sm9H H C.DS 2 (msg ++ Sm9.fp12ToBytes W) = h)) := by
  obtain ⟨B, b1, b2⟩ := verify_of hw hC hp.1 hp.2.1 hks hA msg id hid pc hm hid1 h0 hn k2 k3 k4
  refine ⟨B, by rw [← add_nsmul]; exact b1, fun u hu => ?_⟩
  have := b2 u hu
  rwa [hp.2.2] at this

/-- The same signature: its point pairs with `[h1]P2 + Ppub` to a value of `PairsTo`. -/
example : ∃ (pub : Sm9.MPub) (g u : K) (A : Sm9.A), Sm9PubIs w pub (1 • sm9G2 hw) g ∧ Sm9IsAffine A (alA • sm9G) ∧
    sm9H SM3.hash Sm3.cls.DS 1 (alId ++ [1]) ≠ sm9n - 2 ∧ sm9H SM3.hash Sm3.cls.DS 1 (alId ++ [1]) ≠ 1 ∧
    sm9H SM3.hash Sm3.cls.DS 1 (alId ++ [1]) + 1 ≠ sm9n ∧
    ∀ B, Sm9IsAffine2 w B (sm9H SM3.hash Sm3.cls.DS 1 (alId ++ [1]) • sm9G2 hw + 1 • sm9G2 hw) → PairsTo w A B u := by
  obtain ⟨mk, sk, sig, m1, m2, m3, m4, m5, m6, A, a1, a2, a3⟩ := al_sign hw
  refine ⟨mk.pub, sm9g hw, sm9g hw ^ (alA * (alH1 + 1)), A, by rw [one_nsmul]; exact m6, a2, by rw [al_H1]; decide +kernel,
    by rw [al_H1]; decide +kernel, by rw [al_H1]; decide +kernel, fun B hB => ?_⟩
  rw [al_H1, ← add_nsmul] at hB
  exact pair_gen hw (by decide +kernel) (by decide +kernel) a2 hB (al_right hw a2 hB)

end

/-- **C68** what `verify` does with a signature it accepts: more than 32 octets, of which the first 32 are a number in
`[1, N-1]` and the value of `H2` on the message and some 384 octets, and the others exactly an encoding of a point of
the curve. -/
theorem C68_accept (hC : IsHash C H) (pub : Sm9.MPub) (qx : All2 (Reduced sm9p) pub.P.x)
    (qy : All2 (Reduced sm9p) pub.P.y) (he : All12 (Reduced sm9p) pub.e) (sig msg id : List Byte) (hid : Byte)
    (h : Sm9.verify C pub sig msg id hid = .returns true) :
    32 < sig.length ∧ 8 * (id.length + 6) < 2 ^ 64 ∧ 8 * (msg.length + 389) < 2 ^ 64 ∧
    1 ≤ beVal (sig.take 32) ∧ beVal (sig.take 32) < sm9n ∧
    (∃ A Q, Sm9.ecAFromBytes (sig.drop 32) (sig.length - 32) = .ok (A, sig.length - 32) ∧ Sm9IsAffine A Q) ∧
    ∃ W, W.length = 384 ∧ beVal (sig.take 32) = sm9H H C.DS 2 (msg ++ W) := by
  obtain ⟨K, _, _, w, hw⟩ := sm9_field_exists
  classical
  obtain ⟨v1, v2, v3, v4⟩ := verify_parse (C := C) pub sig msg id hid
  have hl : 32 ≤ sig.length := by
    by_contra hc
    rw [v1 (by omega)] at h
    cases h
  cases hd : Sm9.ecAFromBytes (sig.drop 32) (sig.length - 32) with
  | ub => rw [v2 hl hd] at h; cases h
  | fail => rw [v3 hl hd] at h; cases h
  | ok r =>
    obtain ⟨A, n⟩ := r
    by_cases hn : n = sig.length - 32
    · subst hn
      obtain ⟨⟨Q, hQ⟩, -⟩ := C65_decode_on_curve _ _ _ _ hd
      obtain ⟨b, rest, hb, -⟩ := s9dec_tag hd
      have hlt : 32 < sig.length := by
        have := congrArg List.length hb
        rw [List.length_drop, List.length_cons] at this
        omega
      have ht := verify_total hw hC qx qy he hl hd msg id hid
      split_ifs at ht with hsz
      · obtain ⟨U, W, -, w2, -, w4⟩ := ht
        rw [h] at w4
        have w5 := (Noexcept.returns.inj w4).symm
        rw [beq_iff_eq] at w5
        obtain ⟨r1, r2⟩ := sm9H_range (H := H) C.DS 2 (msg ++ Sm9.fp12ToBytes W)
        have w6 := congrArg beVal w5
        rw [beVal_toBE_n r2] at w6
        exact ⟨hlt, hsz.1, hsz.2, by omega, by omega, ⟨A, Q, rfl, hQ⟩, _, (C51_bytes W w2).1, w6.symm⟩
      · rw [ht] at h; cases h
    · rw [v4 A n hl hd hn] at h; cases h

/-- **C68** `verify` is declared `noexcept`; it ends the program exactly when the signature parses and the identity or
the message is too long to be hashed, and has undefined behaviour exactly when the decoding of the point reads past the
signature. Otherwise it returns. -/
theorem C68_total (hC : IsHash C H) (pub : Sm9.MPub) (qx : All2 (Reduced sm9p) pub.P.x)
    (qy : All2 (Reduced sm9p) pub.P.y) (he : All12 (Reduced sm9p) pub.e) (sig msg id : List Byte) (hid : Byte) :
    (Sm9.verify C pub sig msg id hid = .ub ↔
      32 ≤ sig.length ∧ Sm9.ecAFromBytes (sig.drop 32) (sig.length - 32) = .ub) ∧
    (Sm9.verify C pub sig msg id hid = .terminates ↔ 32 ≤ sig.length ∧
      (∃ A, Sm9.ecAFromBytes (sig.drop 32) (sig.length - 32) = .ok (A, sig.length - 32)) ∧
      ¬ (8 * (id.length + 6) < 2 ^ 64 ∧ 8 * (msg.length + 389) < 2 ^ 64)) := by
  obtain ⟨K, _, _, w, hw⟩ := sm9_field_exists
  classical
  obtain ⟨v1, v2, v3, v4⟩ := verify_parse (C := C) pub sig msg id hid
  by_cases hl : 32 ≤ sig.length
  · cases hd : Sm9.ecAFromBytes (sig.drop 32) (sig.length - 32) with
    | ub => rw [v2 hl hd]; simp [hl]
    | fail => rw [v3 hl hd]; simp [hl]
    | ok r =>
      obtain ⟨A, n⟩ := r
      by_cases hn : n = sig.length - 32
      · subst hn
        have ht := verify_total hw hC qx qy he hl hd msg id hid
        split_ifs at ht with hsz
        · obtain ⟨U, W, -, -, -, w4⟩ := ht
          rw [w4]
          exact ⟨⟨fun h => (nomatch h), fun h => (nomatch h.2)⟩, fun h => (nomatch h), fun h => absurd hsz h.2.2⟩
        · rw [ht]; simp only [hl, true_and, hsz, not_false_eq_true, and_true, reduceCtorEq]
          simp
      · rw [v4 A n hl hd hn]; simp [hn]
  · rw [v1 (by omega)]; simp [hl]

/-- Every master public key that the library makes meets the hypotheses of `C68_accept` and `C68_total`. -/
theorem C68_keys_ok : (∀ key mk, key.length = 32 → Sm9.setPriv key = .ok mk → All2 (Reduced sm9p) mk.pub.P.x ∧
      All2 (Reduced sm9p) mk.pub.P.y ∧ All12 (Reduced sm9p) mk.pub.e) ∧
    (∀ x y pub, x.length = 64 → y.length = 64 → Sm9.setPub x y = .ok pub → All2 (Reduced sm9p) pub.P.x ∧
      All2 (Reduced sm9p) pub.P.y ∧ All12 (Reduced sm9p) pub.e) := by
  obtain ⟨K, _, _, w, hw⟩ := sm9_field_exists
  classical
  refine ⟨fun key mk hl h => setPriv_red hw hl h, fun x y pub hx hy h => ?_⟩
  obtain ⟨c1, c2⟩ := setPub_ok hw hx hy
  by_cases hQ : ∃ Q, Sm9IsAffine2 w ⟨Sm9.fp2FromBytes x, Sm9.fp2FromBytes y⟩ Q
  · obtain ⟨Q, hQ⟩ := hQ
    obtain ⟨e, e1, e2, -⟩ := c1 Q hQ
    rw [e1] at h
    rw [← Outcome.ok.inj h]
    exact ⟨hQ.1, hQ.2.1, e2⟩
  · rw [c2 hQ] at h; cases h

/-- The decoder can read past the signature: 33 octets that end with the tag 04. -/
example (pub : Sm9.MPub) (msg id : List Byte) (hid : Byte) :
    Sm9.verify C pub (List.replicate 32 1 ++ [4]) msg id hid = .ub :=
  (verify_parse pub _ msg id hid).2.1 (by decide) (by decide)

/-! ## C69: public keys and private keys as octets -/

section
variable {K : Type} [Field K] [Algebra (ZMod sm9p) K] [DecidableEq K] {w : K} (hw : w ^ 12 = -2)
include hw

/-- **C69** `set_pub` on two 64-octet coordinates `x1 ‖ x0`, `y1 ‖ y0`: it throws exactly when `(x0 + x1 u, y0 + y1 u)` is
not on the twist, and otherwise holds that point and its pairing with the generator of `G1`. -/
theorem C69_set_pub (x y : List Byte) (hx : x.length = 64) (hy : y.length = 64) :
    let X : K := beVal (x.drop 32) + beVal (x.take 32) * w ^ 6
    let Y : K := beVal (y.drop 32) + beVal (y.take 32) * w ^ 6
    (Y ^ 2 ≠ X ^ 3 + 5 * w ^ 6 → Sm9.setPub x y = .throw) ∧
    (Y ^ 2 = X ^ 3 + 5 * w ^ 6 → ∃ pub h, Sm9.setPub x y = .ok pub ∧
      Sm9IsAffine2 w pub.P (.some X Y h) ∧ PairsTo w Sm9.p1 pub.P (fp12Den w pub.e)) := by
  intro X Y
  obtain ⟨x1, x2⟩ := fp2From_ok hw hx
  obtain ⟨y1, y2⟩ := fp2From_ok hw hy
  obtain ⟨c1, c2⟩ := setPub_ok hw hx hy
  refine ⟨fun h => c2 ?_, fun h => ?_⟩
  · rintro ⟨Q, -, -, hn, -⟩
    have := sm9_onCurve2 hn
    rw [x2, y2] at this
    exact h this
  · have hn : (sm9Twist w).Nonsingular X Y := sm9_nonsing2 hw h
    have hQ : Sm9IsAffine2 w ⟨Sm9.fp2FromBytes x, Sm9.fp2FromBytes y⟩ (.some X Y hn) :=
      ⟨x1, y1, some_congr rfl x2.symm y2.symm⟩
    obtain ⟨e, e1, e2, e3⟩ := c1 _ hQ
    exact ⟨_, hn, e1, hQ, e, e3, e2, rfl⟩

/-- **C69, the failure** `set_pub` accepts a point of the twist whose order is not `N`, outside `G2`. -/
theorem C69_subgroup_violated : ∃ x y, x.length = 64 ∧ y.length = 64 ∧ ∃ pub Q, Sm9.setPub x y = .ok pub ∧
    Sm9IsAffine2 w pub.P Q ∧ sm9n • Q ≠ 0 := by
  have hb : ∀ a b : Nat, a < sm9p → b < sm9p →
      (beVal ((toBE 32 b ++ toBE 32 a).drop 32) : K) + (beVal ((toBE 32 b ++ toBE 32 a).take 32) : K) * w ^ 6 = ev2 w (a, b) :=
    fun a b ha hb => by
      have hp : sm9p < 256 ^ 32 := by decide +kernel
      rw [List.drop_left' (toBE_len _ _), List.take_left' (toBE_len _ _), beVal_toBE, beVal_toBE,
        Nat.mod_eq_of_lt (by omega), Nat.mod_eq_of_lt (by omega)]
      rfl
  have l : ∀ a b : Nat, (toBE 32 b ++ toBE 32 a).length = 64 := fun a b => by rw [List.length_append, toBE_len, toBE_len]
  obtain ⟨-, h⟩ := C69_set_pub hw (toBE 32 0 ++ toBE 32 1) (toBE 32 tw2y1 ++ toBE 32 tw2y0) (l _ _) (l _ _)
  rw [hb 1 0 (by decide +kernel) (by decide +kernel), hb tw2y0 tw2y1 (by decide +kernel) (by decide +kernel)] at h
  obtain ⟨pub, hn, p1, p2, -⟩ := h (tw_eq hw)
  exact ⟨_, _, l _ _, l _ _, pub, _, p1, p2, tw_order hw hn⟩

end

/-- **C69** a public key on the twist survives `get_pub`, then `set_pub`. -/
theorem C69_pub_round_trip (x y : List Byte) (hx : x.length = 64) (hy : y.length = 64) (pub : Sm9.MPub)
    (h : Sm9.setPub x y = .ok pub) :
    (Sm9.getPub pub).1.length = 64 ∧ (Sm9.getPub pub).2.length = 64 ∧
      Sm9.setPub (Sm9.getPub pub).1 (Sm9.getPub pub).2 = .ok pub := by
  obtain ⟨q1, q2, -⟩ := C68_keys_ok.2 x y pub hx hy h
  refine ⟨fp2_to_len _ q1, fp2_to_len _ q2, ?_⟩
  have e : (⟨Sm9.fp2FromBytes x, Sm9.fp2FromBytes y⟩ : Sm9.A2) = pub.P := setPub_P h
  have h' := h
  unfold Sm9.setPub at h' ⊢
  unfold Sm9.getPub
  simp only at h' ⊢
  rw [fp2_from_to _ q1, fp2_from_to _ q2]
  rw [e] at h'
  exact h'

/-- **C69** the public key of every master key but `N - 2` survives the trip through octets. -/
theorem C69_master_pub_partial (key : List Byte) (hl : key.length = 32) (hne : beVal key ≠ sm9n - 2) (mk : Sm9.MPriv)
    (h : Sm9.setPriv key = .ok mk) : Sm9.setPub (Sm9.getPub mk.pub).1 (Sm9.getPub mk.pub).2 = .ok mk.pub := by
  obtain ⟨K, _, _, w, hw⟩ := sm9_field_exists
  classical
  have hrange : ¬ (beVal key = 0 ∨ sm9n ≤ beVal key) := fun h' => by
    rw [(C67_set_priv_range key hl).mpr h'] at h; cases h
  push Not at hrange
  obtain ⟨P, e, p1, p2, p3, p4, -⟩ := setPriv_ok hw hl (by omega) hrange.2 hne
  rw [p1] at h
  rw [← Outcome.ok.inj h]
  exact setPub_getPub hw p2 p4

/-- **C69** a private key made by `gen_SignPrivateKey` survives the trip through octets, unless its point or the master
public point is (0, 0). -/
theorem C69_priv_partial (sk : Sm9.SPriv) (Q : Sm9Point) (hQ : Sm9IsAffine sk.priv Q)
    (h : Sm9.setPub (Sm9.getPub sk.pub).1 (Sm9.getPub sk.pub).2 = .ok sk.pub) :
    Sm9.setSignPriv (Sm9.getSignPriv sk).1 (Sm9.getSignPriv sk).2.1 (Sm9.getSignPriv sk).2.2.1
      (Sm9.getSignPriv sk).2.2.2 = .ok sk := by
  unfold Sm9.setSignPriv Sm9.getSignPriv
  simp only
  rw [fp_from_to _ hQ.1, fp_from_to _ hQ.2.1, h, o_bind]
  rw [show Sm9.ecCheck ⟨sk.priv.x, sk.priv.y⟩ = true from (s9Check_iff hQ.1 hQ.2.1).mpr ⟨Q, hQ⟩, Bool.not_true,
    if_neg (by decide)]

/-- The key `[1]P1` under the master key 1 meets the hypotheses. -/
example : ∃ sk : Sm9.SPriv, ∃ mk, Sm9.setPriv (toBE 32 1) = .ok mk ∧ sk = ⟨Sm9.p1, mk.pub⟩ ∧ Sm9IsAffine sk.priv sm9G ∧
    Sm9.setPub (Sm9.getPub sk.pub).1 (Sm9.getPub sk.pub).2 = .ok sk.pub := by
  obtain ⟨K, _, _, w, hw⟩ := sm9_field_exists
  classical
  have hv : beVal (toBE 32 1) = 1 := by decide +kernel
  obtain ⟨mk, m1, -⟩ := C67_set_priv_partial hw (toBE 32 1) (toBE_len _ _) (by rw [hv]) (by rw [hv]; decide +kernel)
  exact ⟨⟨Sm9.p1, mk.pub⟩, mk, m1, rfl, p1_ok, C69_master_pub_partial _ (toBE_len _ _) (by rw [hv]; decide +kernel) mk m1⟩

/-- **C69** `SM9SignPrivateKey::set_priv` throws when the private point is not on the curve, or `set_pub` does. -/
theorem C69_set_sign_priv (px py x y : List Byte) (hx : px.length = 32) (hy : py.length = 32) :
    ((beVal py : ZMod sm9p) ^ 2 ≠ (beVal px : ZMod sm9p) ^ 3 + 5 → Sm9.setSignPriv px py x y = .throw) ∧
    ((beVal py : ZMod sm9p) ^ 2 = (beVal px : ZMod sm9p) ^ 3 + 5 →
      (Sm9.setPub x y = .throw → Sm9.setSignPriv px py x y = .throw) ∧
      ∀ pub, Sm9.setPub x y = .ok pub → ∃ T h, Sm9.setSignPriv px py x y = .ok ⟨T, pub⟩ ∧
        Sm9IsAffine T (.some (beVal px : ZMod sm9p) (beVal py : ZMod sm9p) h)) := by
  obtain ⟨x1, x2⟩ := s9From_ok hx
  obtain ⟨y1, y2⟩ := s9From_ok hy
  have hc := s9Check_iff (P := ⟨Sm9.fpFromBytes px, Sm9.fpFromBytes py⟩) x1 y1
  constructor
  · intro h
    unfold Sm9.setSignPriv
    simp only
    rw [if_pos]
    rw [Bool.not_eq_true']
    refine Bool.eq_false_iff.mpr fun h' => ?_
    obtain ⟨Q, -, -, hn, -⟩ := hc.mp h'
    have := sm9_onCurve hn
    rw [x2, y2] at this
    exact h this
  · intro h
    have hn : sm9Curve.Nonsingular (beVal px : ZMod sm9p) (beVal py : ZMod sm9p) := sm9_nonsing h
    have hQ : Sm9IsAffine ⟨Sm9.fpFromBytes px, Sm9.fpFromBytes py⟩ (.some _ _ hn) :=
      ⟨x1, y1, some_congr rfl x2.symm y2.symm⟩
    have hk := hc.mpr ⟨_, hQ⟩
    unfold Sm9.setSignPriv
    simp only
    rw [hk, Bool.not_true, if_neg (by decide)]
    refine ⟨fun h => by rw [h, t_bind], fun pub hp => ⟨_, hn, by rw [hp, o_bind], hQ⟩⟩

end
end Verif.Props
