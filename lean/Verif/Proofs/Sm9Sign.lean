import Verif.Proofs.Sm9Pair
import Verif.Proofs.Sm9Scheme
/-! # SM9 signatures: the pairing never fails to return; sign, then verify -/
set_option linter.unusedSectionVars false
open WeierstrassCurve WeierstrassCurve.Affine
namespace Verif
open Spec

section
variable {K : Type} [Field K] [Algebra (ZMod sm9p) K] [DecidableEq K] {w : K} (hw : w ^ 12 = -2)
include hw

local notation "ok12" => All12 (Reduced sm9p)

theorem finalExpHard_total {f : Sm9.F12} (h : ok12 f) :
    ∃ r, Sm9.finalExpHard f = some r ∧ ok12 r ∧ (fp12Den w f = 0 → fp12Den w r = 0) := by
  have W := fun {a : Sm9.F12} {s : K} (h : Is ok12 (fp12Den w) a s) => f12w hw h
  have M := fun {a b : Sm9.F12} {s t : K} (h : Is (All12 (AtMost sm9p)) (fp12Den w) a s)
    (h' : Is (All12 (AtMost sm9p)) (fp12Den w) b t) => f12w hw (f12Mul hw h h')
  have S := fun {a : Sm9.F12} {s : K} (h : Is (All12 (AtMost sm9p)) (fp12Den w) a s) => f12w hw (f12Sqr hw h)
  have hf : Is ok12 (fp12Den w) f (fp12Den w f) := is_rfl h
  obtain ⟨t0, t0e, t0i⟩ := f12Pow hw hf Sm9.a3 (by decide +kernel)
  obtain ⟨y, ye, yok, -⟩ := f12Inv hw t0i.1
  have yi : Is ok12 (fp12Den w) y (fp12Den w y) := is_rfl yok
  have hf' := W hf
  have t1 := M (W yi) (f12Frob hw (W yi))
  have t2 := f12Frob hw hf'
  have t3 := M t2 hf'
  have t3' := M (S (S (S t3))) t3
  have t0' := M (M (W yi) t1) t3'
  have t0'' := M t0' (S (S hf'))
  have t2' := M (S t2) t1
  have t1' := f12Mul hw (f12Frob2 hw hf') t2'
  obtain ⟨q, qe, qi⟩ := f12Pow hw t1' Sm9.a2 (by decide +kernel)
  have fin := f12Mul hw (f12Frob3 hw hf') (M (W qi) t0'')
  refine ⟨_, ?_, fin.1, fun h0 => by
    rw [fin.2, h0, zero_pow (pow_ne_zero 3 (show sm9p ≠ 0 by decide +kernel)), zero_mul]⟩
  unfold Sm9.finalExpHard
  rw [t0e]; dsimp only [Option.bind_eq_bind, Option.bind_some]
  rw [ye]; dsimp only [Option.bind_eq_bind, Option.bind_some]
  rw [qe]; rfl

theorem finalExp_total {f : Sm9.F12} (h : ok12 f) :
    ∃ r, Sm9.finalExp f = some r ∧ ok12 r ∧ (fp12Den w f = 0 → fp12Den w r = 0) := by
  have hf : Is ok12 (fp12Den w) f (fp12Den w f) := is_rfl h
  obtain ⟨y, ye, yok, -⟩ := f12Inv hw h
  have yi : Is ok12 (fp12Den w) y (fp12Den w y) := is_rfl yok
  have t0 := f12w hw (f12Mul hw (f12Frob6 hw (f12w hw hf)) (f12w hw yi))
  have t1 := f12Mul hw t0 (f12Frob2 hw t0)
  obtain ⟨r, re, ri, rz⟩ := finalExpHard_total hw t1.1
  refine ⟨r, ?_, ri, fun h0 => rz (by
    rw [t1.2, h0, zero_pow (pow_ne_zero 6 (show sm9p ≠ 0 by decide +kernel)), zero_mul, zero_mul])⟩
  unfold Sm9.finalExp
  rw [ye]; dsimp only [Option.bind_eq_bind, Option.bind_some]
  exact re

omit [DecidableEq K] in
theorem fpDen_val (a : List W32) : fpDen (K := K) a = ((montVal sm9p a).val : Nat) := by
  unfold fpDen
  rw [← map_natCast (algebraMap (ZMod sm9p) K), ZMod.natCast_zmod_val]

theorem miller_total {P : Sm9.A} {Q : Sm9.A2} (hx : Reduced sm9p P.x) (hy : Reduced sm9p P.y)
    (qx : All2 (Reduced sm9p) Q.x) (qy : All2 (Reduced sm9p) Q.y) : ∃ f, Sm9.miller P Q = some f ∧ ok12 f := by
  have e : ∀ x : Sm9.F2, fp2Den w x = ev2 w ((montVal sm9p x.c0).val, (montVal sm9p x.c1).val) := fun x => by
    unfold fp2Den den2 ev2
    rw [fpDen_val hw, fpDen_val hw]
  obtain ⟨f, l, f1, -, f3⟩ := nMiller_sim hw (p := P) (A := Q) (x := (montVal sm9p P.x).val) (y := (montVal sm9p P.y).val)
    (B := ⟨((montVal sm9p Q.x.c0).val, (montVal sm9p Q.x.c1).val), ((montVal sm9p Q.y.c0).val, (montVal sm9p Q.y.c1).val)⟩)
    ⟨hx, fpDen_val hw _⟩ ⟨hy, fpDen_val hw _⟩ ⟨qx, e _⟩ ⟨qy, e _⟩ (show (montVal sm9p Q.x.c1).val ≤ sm9p from (ZMod.val_lt _).le)
    (show (montVal sm9p Q.y.c1).val ≤ sm9p from (ZMod.val_lt _).le)
  exact ⟨f, f1, f3.1⟩

/-- The pairing function returns, with a reduced result, for all reduced coordinates (on the curves or not). -/
theorem pairing_total {P : Sm9.A} {Q : Sm9.A2} (hx : Reduced sm9p P.x) (hy : Reduced sm9p P.y)
    (qx : All2 (Reduced sm9p) Q.x) (qy : All2 (Reduced sm9p) Q.y) : ∃ r, Sm9.pairing P Q = some r ∧ ok12 r := by
  obtain ⟨f, f1, f2⟩ := miller_total hw hx hy qx qy
  obtain ⟨r, r1, r2, -⟩ := finalExp_total hw f2
  refine ⟨r, ?_, r2⟩
  unfold Sm9.pairing
  rw [f1]
  dsimp only [Option.bind_eq_bind, Option.bind_some]
  exact r1

/-- The master key: public point, and the pairing value when the inversions are right. -/
theorem setPriv_ok {key : List Byte} (hl : key.length = 32) (h1 : 1 ≤ beVal key) (h2 : beVal key < sm9n)
    (hne : beVal key ≠ sm9n - 2) :
    ∃ P e, Sm9.setPriv key = .ok ⟨key, ⟨P, e⟩⟩ ∧ Sm9IsAffine2 w P (beVal key • sm9G2 hw) ∧ ok12 e ∧
      Sm9.pairing Sm9.p1 P = some e ∧ (PairRight w Sm9.p1 P → fp12Den w e = sm9g hw ^ beVal key) := by
  obtain ⟨R, P, r1, -, r3, r4⟩ := s9mulG2_affine hw hl h1 h2 hne
  obtain ⟨e, e1, e2⟩ := pairing_total hw p1_ok.1 p1_ok.2.1 r4.1 r4.2.1
  refine ⟨P, e, ?_, r4, e2, e1, fun hr => ?_⟩
  · obtain ⟨z1, z2⟩ := s9range_iff hl
    unfold Sm9.setPriv
    simp only
    rw [if_neg (by rintro (h | h); exacts [by have := z1.mp h; omega, by have := z2.mp h; omega])]
    unfold Sm9.withPub Sm9.pairingP1
    rw [r1, ofOption_some, o_bind, r3, ofOption_some, o_bind, e1, ofOption_some, o_bind]
  · have p1' : Sm9IsAffine Sm9.p1 (1 • sm9G) := by rw [one_nsmul]; exact p1_ok
    obtain ⟨e', a1, -, a3⟩ := pair_gen hw (a := 1) le_rfl (by decide +kernel) p1' r4 hr
    rw [e1] at a1
    rw [Option.some.inj a1, a3, one_mul]

variable {S : Type} {C : HashClass S} {H : List Byte → List Byte}

omit hw [DecidableEq K] [Algebra (ZMod sm9p) K] in
theorem signLoop_some {key : Sm9.SPriv} {msg : List Byte} {pc : Sm2.PC} {sig : List Byte} :
    ∀ {rnds : List (List Byte)}, Sm9.signLoop C key msg pc rnds = .ok (some sig) →
      ∃ rnd ∈ rnds, Sm9.signStep C key msg rnd pc = .ok (some sig)
  | [], h => by unfold Sm9.signLoop at h; cases h
  | rnd :: rest, h => by
    unfold Sm9.signLoop at h
    cases hs : Sm9.signStep C key msg rnd pc with
    | ok o =>
      rw [hs, o_bind] at h
      cases o with
      | some s => exact ⟨rnd, List.mem_cons_self, by rw [hs]; exact h⟩
      | none =>
        obtain ⟨r, r1, r2⟩ := signLoop_some h
        exact ⟨r, List.mem_cons_of_mem _ r1, r2⟩
    | throw => rw [hs, t_bind] at h; cases h
    | ub => rw [hs] at h; cases h

omit hw [DecidableEq K] [Algebra (ZMod sm9p) K] in
theorem nsmul_mod (a : Nat) : a • sm9G = (a % sm9n) • sm9G := by
  conv_lhs => rw [← Nat.div_add_mod a sm9n]
  rw [add_nsmul, mul_comm, mul_nsmul', sm9_nG, nsmul_zero, zero_add]

/-- Signing, then verifying. -/
theorem sign_verify (hC : IsHash C H) {ks : Nat} (k1 : 1 ≤ ks) (k2 : ks < sm9n) {pub : Sm9.MPub}
    (hP : Sm9IsAffine2 w pub.P (ks • sm9G2 hw)) (he : ok12 pub.e) (hv : fp12Den w pub.e = sm9g hw ^ ks)
    (msg id rnd : List Byte) (hid : Byte) (pc : Sm2.PC) (hr : rnd.length = 32)
    (hm : 8 * (msg.length + 389) < 2 ^ 64) (hid1 : 8 * (id.length + 6) < 2 ^ 64)
    (a3 : sm9H H C.DS 1 (id ++ [hid]) ≠ sm9n - 2) (ne : sm9H H C.DS 1 (id ++ [hid]) ≠ ks)
    (nz : (sm9H H C.DS 1 (id ++ [hid]) : ZMod sm9n) + (ks : ZMod sm9n) ≠ 0)
    {D : Sm9.A} (hD : Sm9IsAffine D
      (((ks : ZMod sm9n) * ((sm9H H C.DS 1 (id ++ [hid]) : ZMod sm9n) + (ks : ZMod sm9n))⁻¹).val • sm9G))
    {sig : List Byte} (hs : Sm9.signStep C ⟨D, pub⟩ msg rnd pc = .ok (some sig)) :
    (∃ A, montVal sm9p A.x = 0 ∧ montVal sm9p A.y = 0 ∧ Reduced sm9p A.x ∧ Reduced sm9p A.y ∧
      sig.drop 32 = Sm9.encPoint pc A) ∨
    (∃ A B, Sm9.ecAFromBytes (sig.drop 32) (sig.length - 32) = .ok (A, sig.length - 32) ∧ 
      Sm9IsAffine2 w B ((sm9H H C.DS 1 (id ++ [hid]) + ks) • sm9G2 hw) ∧
      (PairRight w A B → Sm9.verify C pub sig msg id hid = .returns true)) := by
  obtain ⟨W, w1, w2, w3⟩ := s9signStep_ok hw hC (key := ⟨D, pub⟩) hD he msg rnd hr pc hm
  simp only at w3
  obtain ⟨c1, c2, c3⟩ := w3
  obtain ⟨h0, hn⟩ := sm9H_range (H := H) C.DS 2 (msg ++ Sm9.fp12ToBytes W)
  generalize hh : sm9H H C.DS 2 (msg ++ Sm9.fp12ToBytes W) = h at *
  generalize hrr : beVal rnd % (sm9n - 1) + 1 = r at *
  generalize hh1 : sm9H H C.DS 1 (id ++ [hid]) = h1 at *
  by_cases e1 : r = h
  · rw [c1 e1] at hs; cases hs
  by_cases e2 : ((r : ZMod sm9n) - (h : ZMod sm9n)).val = sm9n - 2
  · left
    obtain ⟨A, x1, x2, x3, x4, x5⟩ := c3 e1 e2
    rw [x5] at hs
    have hs' := Option.some.inj (Outcome.ok.inj hs)
    rw [← hs']
    exact ⟨A, x1, x2, x3, x4, List.drop_left' (toBE_len 32 h)⟩
  right
  obtain ⟨l0, A, hA, x5⟩ := c2 e1 e2
  rw [x5] at hs
  have hs' := Option.some.inj (Outcome.ok.inj hs)
  rw [← hs']
  clear hs hs' c1 c2 c3 x5
  generalize hl : ((r : ZMod sm9n) - (h : ZMod sm9n)).val = l at *
  generalize ht : ((ks : ZMod sm9n) * ((h1 : ZMod sm9n) + (ks : ZMod sm9n))⁻¹).val = t at *
  have hlz : (l : ZMod sm9n) = (r : ZMod sm9n) - h := by rw [← hl, ZMod.natCast_zmod_val]
  have htz : (t : ZMod sm9n) = (ks : ZMod sm9n) * ((h1 : ZMod sm9n) + (ks : ZMod sm9n))⁻¹ := by
    rw [← ht, ZMod.natCast_zmod_val]
  have hkz : (ks : ZMod sm9n) ≠ 0 := by
    rw [Ne, ZMod.natCast_eq_zero_iff]
    exact fun h => absurd (Nat.le_of_dvd k1 h) (by omega)
  have hl0 : (l : ZMod sm9n) ≠ 0 := by
    rw [Ne, ZMod.natCast_eq_zero_iff]
    have : l < sm9n := by rw [← hl]; exact ZMod.val_lt _
    exact fun h => absurd (Nat.le_of_dvd l0 h) (by omega)
  have ht0 : (t : ZMod sm9n) ≠ 0 := by rw [htz]; exact mul_ne_zero hkz (inv_ne_zero nz)
  have hA' : Sm9IsAffine A (((l * t) % sm9n) • sm9G) := by
    rw [← nsmul_mod, mul_nsmul']; exact hA
  have ha1 : 1 ≤ (l * t) % sm9n := Nat.pos_of_ne_zero fun h0 => by
    have : ((l * t : Nat) : ZMod sm9n) = 0 := (ZMod.natCast_eq_zero_iff _ _).mpr (Nat.dvd_of_mod_eq_zero h0)
    rw [Nat.cast_mul] at this
    exact mul_ne_zero hl0 ht0 this
  have nz' : h1 + ks ≠ sm9n := fun h => nz (by rw [← Nat.cast_add, h, ZMod.natCast_self])
  obtain ⟨B, b1, b2⟩ := verify_of hw hC hP he k2 hA' msg id hid pc hm hid1 h0 hn (by rw [hh1]; exact a3)
    (by rw [hh1]; exact ne) (by rw [hh1]; exact nz')
  rw [hh1] at b1
  have hd : (toBE 32 h ++ Sm9.encPoint pc A).drop 32 = Sm9.encPoint pc A := List.drop_left' (toBE_len 32 h)
  have hlen : (toBE 32 h ++ Sm9.encPoint pc A).length = 32 + (Sm9.encPoint pc A).length := by
    rw [List.length_append, toBE_len]
  refine ⟨A, B, ?_, b1, fun hR => ?_⟩
  · rw [hd, hlen, Nat.add_sub_cancel_left]; exact enc_len hw pc hA'
  have pr := pair_gen hw ha1 (Nat.mod_lt _ (by decide +kernel)) hA' b1 hR
  obtain ⟨W', v1, v2, v3⟩ := b2 _ pr
  have hWW : W' = W := by
    refine f12_inj hw v1 w1 ?_
    rw [v2, w2, hv, ← pow_mul, ← pow_mul, ← pow_add]
    refine pow_mod_eq hw (sm9g_N hw) ?_
    rw [Nat.cast_add, Nat.cast_mul, Nat.cast_mul, Nat.cast_mul, ZMod.natCast_mod, Nat.cast_mul, Nat.cast_add, hlz, htz]
    field_simp
    ring
  rw [v3, hWW, hh]
  simp

end
end Verif
