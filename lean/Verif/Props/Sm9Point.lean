import Verif.Props.Sm9Unique
import Verif.Proofs.Sm9Alice
/-!
# C97, last clause, for the portable build

As in `Props/Sm9Unique`: what the point in an accepted signature is determined by.  In the portable build the claim is proved
for pairings in which no inversion goes wrong (`PairRight`, C51 and C66).
-/
namespace Verif.Props
open Verif Spec WeierstrassCurve WeierstrassCurve.Affine

section
variable {K : Type} [Field K] [Algebra (ZMod sm9p) K] [DecidableEq K] {w : K} (hw : w ^ 12 = -2)
include hw
variable {S : Type} {C : HashClass S} {H : List Byte → List Byte}

/-- **C97, partial** (portable build) under one master key, for one identity, message and first half `v`, two accepted points
are the same point, whatever their octet forms, unless two different 384-octet values with the message in front have the same
`H2`.  Missing: pairings in which an inversion goes wrong, and, as in the 64-bit build, the master key `N - 2` and the
identities whose `H1` is the master key, its negative or `N - 2` (`C97_point_violated`). -/
theorem C97_point_partial (hC : IsHash C H) (key : List Byte) (hl : key.length = 32) (mk : Sm9.MPriv)
    (hmk : Sm9.setPriv key = .ok mk) (hp : PairRight w Sm9.p1 mk.pub.P) (id : List Byte) (hid : Byte) (msg : List Byte)
    (v : Nat) (hv : v < 2 ^ 256) (pc pc' : Sm2.PC) (A A' : Sm9.A) (Q Q' : Sm9Point) (hA : Sm9IsAffine A Q)
    (hA' : Sm9IsAffine A' Q')
    (hr : ∀ B, Sm9IsAffine2 w B ((sm9H H C.DS 1 (id ++ [hid]) + beVal key) • sm9G2 hw) →
      PairRight w A B ∧ PairRight w A' B)
    (k1 : beVal key ≠ sm9n - 2) (k2 : sm9H H C.DS 1 (id ++ [hid]) ≠ sm9n - 2)
    (k3 : sm9H H C.DS 1 (id ++ [hid]) ≠ beVal key) (k4 : sm9H H C.DS 1 (id ++ [hid]) + beVal key ≠ sm9n)
    (h : Sm9.verify C mk.pub (toBE 32 v ++ Sm9.encPoint pc A) msg id hid = .returns true)
    (h' : Sm9.verify C mk.pub (toBE 32 v ++ Sm9.encPoint pc' A') msg id hid = .returns true) :
    Q = Q' ∨ ∃ W W' : List Byte, W.length = 384 ∧ W'.length = 384 ∧ W ≠ W' ∧
      sm9H H C.DS 2 (msg ++ W) = sm9H H C.DS 2 (msg ++ W') := by
  have hrange : ¬ (beVal key = 0 ∨ sm9n ≤ beVal key) := fun h => by
    rw [(C67_set_priv_range key hl).mpr h] at hmk; cases hmk
  push Not at hrange
  obtain ⟨P, e, p1, p2, p3, -, p5⟩ := setPriv_ok hw hl (by omega) hrange.2 k1
  rw [p1] at hmk
  obtain rfl := Outcome.ok.inj hmk
  have he0 : fp12Den w e ≠ 0 := by rw [p5 hp]; exact pow_ne_zero _ (sm9g_ne0 hw)
  obtain ⟨-, i1, i2, i3, i4, -⟩ := C68_accept hC ⟨P, e⟩ p2.1 p2.2.1 p3 _ msg id hid h
  rw [X64.Props.first_half hv] at i3 i4
  have ne : ∀ {A : Sm9.A} {Q : Sm9Point}, Sm9IsAffine A Q → Q ≠ 0 := by
    rintro A Q ⟨-, -, n, e⟩
    rw [e]
    exact Point.some_ne_zero _
  obtain ⟨a, a1, a2, rfl⟩ := s9point_mul Q (ne hA)
  obtain ⟨a', a1', a2', rfl⟩ := s9point_mul Q' (ne hA')
  obtain ⟨B, b1, b2⟩ := verify_of hw hC (pub := ⟨P, e⟩) p2 p3 hrange.2 hA msg id hid pc i2 i1 i3 i4 k2 k3 k4
  obtain ⟨B', c1, c2⟩ := verify_of hw hC (pub := ⟨P, e⟩) p2 p3 hrange.2 hA' msg id hid pc' i2 i1 i3 i4 k2 k3 k4
  obtain ⟨W, w1, w2, w3⟩ := b2 _ (pair_gen hw a1 a2 hA b1 (hr B b1).1)
  obtain ⟨W', w1', w2', w3'⟩ := c2 _ (pair_gen hw a1' a2' hA' c1 (hr B' c1).2)
  rw [w3] at h
  rw [w3'] at h'
  have h := of_decide_eq_true (Noexcept.returns.inj h)
  have h' := of_decide_eq_true (Noexcept.returns.inj h')
  by_cases e12 : Sm9.fp12ToBytes W = Sm9.fp12ToBytes W'
  swap
  · exact Or.inr ⟨_, _, fp12_to_len _ w1, fp12_to_len _ w1', e12, h.trans h'.symm⟩
  left
  have eW : W = W' := by rw [← fp12_from_to _ w1, e12, fp12_from_to _ w1']
  rw [eW, w2'] at w2
  have hz := sm9g_pow_inj hw (mul_right_cancel₀ (pow_ne_zero v he0) w2)
  push_cast at hz
  have nz : ((sm9H H C.DS 1 (id ++ [hid]) : Nat) : ZMod sm9n) + (beVal key : ZMod sm9n) ≠ 0 := by
    intro h0
    obtain ⟨r1, r2⟩ := sm9H_range (H := H) C.DS 1 (id ++ [hid])
    rw [← Nat.cast_add, ZMod.natCast_eq_zero_iff] at h0
    obtain ⟨c, hc⟩ := h0
    match c, hc with
    | 0, hc => omega
    | 1, hc => omega
    | c + 2, hc =>
      have : sm9n * (c + 2) = sm9n * c + 2 * sm9n := by ring
      omega
  rw [s9cast_inj a2 a2' (mul_right_cancel₀ nz hz).symm]

end

section
variable {S : Type} {C : HashClass S} {H : List Byte → List Byte}

/-- **C97, the failure** (portable build) for the identities left out above, acceptance does not depend on the point. -/
theorem C97_point_violated (hC : IsHash C H) (key : List Byte) (hl : key.length = 32) (mk : Sm9.MPriv)
    (hmk : Sm9.setPriv key = .ok mk) (id : List Byte) (hid : Byte)
    (hk : sm9H H C.DS 1 (id ++ [hid]) = beVal key ∨ sm9H H C.DS 1 (id ++ [hid]) = sm9n - 2 ∨
      sm9H H C.DS 1 (id ++ [hid]) + beVal key = sm9n)
    (msg : List Byte) (v : Nat) (hv : v < 2 ^ 256) (pc pc' : Sm2.PC) (A A' : Sm9.A) (Q Q' : Sm9Point)
    (hA : Sm9IsAffine A Q) (hA' : Sm9IsAffine A' Q')
    (h : Sm9.verify C mk.pub (toBE 32 v ++ Sm9.encPoint pc A) msg id hid = .returns true) :
    Sm9.verify C mk.pub (toBE 32 v ++ Sm9.encPoint pc' A') msg id hid = .returns true := by
  obtain ⟨K, _, _, w, hw⟩ := sm9_field_exists
  classical
  have hrange : ¬ (beVal key = 0 ∨ sm9n ≤ beVal key) := fun h => by
    rw [(C67_set_priv_range key hl).mpr h] at hmk; cases hmk
  push Not at hrange
  have red : All2 (Reduced sm9p) mk.pub.P.x ∧ All2 (Reduced sm9p) mk.pub.P.y ∧ All12 (Reduced sm9p) mk.pub.e := by
    by_cases hne : beVal key = sm9n - 2
    · obtain ⟨P, e, p1, p2, p3, p4, p5, p6, p7, p8⟩ := setPriv_weak hw hl hne
      rw [p1] at hmk
      obtain rfl := Outcome.ok.inj hmk
      exact ⟨p2, p3, p6⟩
    · obtain ⟨P, e, p1, p2, p3, p4, p5⟩ := setPriv_ok hw hl (by omega) hrange.2 hne
      rw [p1] at hmk
      obtain rfl := Outcome.ok.inj hmk
      exact ⟨p2.1, p2.2.1, p3⟩
  obtain ⟨-, i1, i2, i3, i4, -⟩ := C68_accept hC mk.pub red.1 red.2.1 red.2.2 _ msg id hid h
  rw [X64.Props.first_half hv] at i3 i4
  rw [C56_identity_violated hC key hl mk hmk id hid hk msg i1 i2 v i3 i4 pc A Q hA] at h
  rw [C56_identity_violated hC key hl mk hmk id hid hk msg i1 i2 v i3 i4 pc' A' Q' hA', h]

end

/-- The hypotheses can be met: the signature of C68, with the master key 1. -/
example {K : Type} [Field K] [Algebra (ZMod sm9p) K] [DecidableEq K] {w : K} (hw : w ^ 12 = -2) :
    ∃ mk A, Sm9.setPriv (toBE 32 1) = .ok mk ∧ PairRight w Sm9.p1 mk.pub.P ∧ Sm9IsAffine A (alA • sm9G) ∧
      ∀ B, Sm9IsAffine2 w B ((sm9H SM3.hash Sm3.cls.DS 1 (alId ++ [1]) + beVal (toBE 32 1)) • sm9G2 hw) →
        PairRight w A B := by
  obtain ⟨mk, sk, sig, m1, -, -, -, m5, -, A, -, a2, -⟩ := al_sign hw
  refine ⟨mk, A, m1, m5, a2, fun B hB => al_right hw a2 ?_⟩
  rw [al_H1, show beVal (toBE 32 1) = 1 by decide +kernel] at hB
  exact hB

end Verif.Props
