import Verif.Proofs.Sm9Zero
/-! # SM9 key objects: uniqueness of coordinates, a point of the twist outside the group of order `N` -/
set_option linter.unusedSectionVars false
set_option linter.constructorNameAsVariable false
open WeierstrassCurve WeierstrassCurve.Affine
namespace Verif
open Spec

section
variable {K : Type} [Field K] [Algebra (ZMod sm9p) K] [DecidableEq K] {w : K} (hw : w ^ 12 = -2)
include hw

theorem f2_inj {x y : Sm9.F2} (hx : All2 (Reduced sm9p) x) (hy : All2 (Reduced sm9p) y)
    (h : fp2Den w x = fp2Den w y) : x = y := by
  have e : (fp2Ops Sm9.fp).eq x y = true := ((sm9fp2_wk hw).eq hx hy).mpr h
  change (u256Equal x.c0 y.c0 && u256Equal x.c1 y.c1) = true at e
  rw [Bool.and_eq_true] at e
  have l : ∀ {s t : List W32}, Reduced sm9p s → Reduced sm9p t → u256Equal s t = true → s = t := fun hs ht q =>
    val_inj _ _ (by rw [hs.1, ht.1]) ((Props.C31_cmp _ _ hs.1 ht.1).2.mp q)
  cases x; cases y
  rw [Fp2.mk.injEq]
  exact ⟨l hx.1 hy.1 e.1, l hx.2 hy.2 e.2⟩

end

def tw2y0 : Nat := 0x79a8eb911912ef24a4a0796b7a21a0935854b7cb00ee547f244a76f4c3718630
def tw2y1 : Nat := 0x453e9be88d22ccfe209a420669cac8b9ec1fccf14061eb8bd714e6a1f6a3ee1

/-- A point of the twist of another order. -/
def tw2nat : EcA (Nat × Nat) := ⟨(1, 0), (tw2y0, tw2y1)⟩

theorem tw_ladder2 : ((ladder2 sm9p tw2nat (bitsBelow sm9n 255) ⟨tw2nat.x, tw2nat.y, (1, 0)⟩).map
    fun T => (nat2Ops sm9p).isZero T.z) = some false := by decide +kernel

section
variable {K : Type} [Field K] [Algebra (ZMod sm9p) K] [DecidableEq K] {w : K} (hw : w ^ 12 = -2)
include hw

theorem fp2From_ok {x : List Byte} (h : x.length = 64) :
    All2 (Reduced sm9p) (Sm9.fp2FromBytes x) ∧
      fp2Den w (Sm9.fp2FromBytes x) = (beVal (x.drop 32) : K) + (beVal (x.take 32) : K) * w ^ 6 := by
  obtain ⟨b1, b2⟩ := s9From_ok (bs := (x.drop 32).take 32) (by simp [h])
  obtain ⟨b3, b4⟩ := s9From_ok (bs := x.take 32) (by simp [h])
  rw [List.take_of_length_le (by simp [h])] at b1 b2
  unfold Sm9.fp2FromBytes
  rw [List.take_of_length_le (l := x.drop 32) (by simp [h])]
  refine ⟨⟨b1, b3⟩, ?_⟩
  unfold fp2Den den2
  rw [fpDen_natCast b2, fpDen_natCast b4]

theorem setPub_ok {x y : List Byte} (hx : x.length = 64) (hy : y.length = 64) :
    (∀ Q, Sm9IsAffine2 w ⟨Sm9.fp2FromBytes x, Sm9.fp2FromBytes y⟩ Q → ∃ e,
      Sm9.setPub x y = .ok ⟨⟨Sm9.fp2FromBytes x, Sm9.fp2FromBytes y⟩, e⟩ ∧ All12 (Reduced sm9p) e ∧
        Sm9.pairing Sm9.p1 ⟨Sm9.fp2FromBytes x, Sm9.fp2FromBytes y⟩ = some e) ∧
    ((¬ ∃ Q, Sm9IsAffine2 w ⟨Sm9.fp2FromBytes x, Sm9.fp2FromBytes y⟩ Q) → Sm9.setPub x y = .throw) := by
  obtain ⟨x1, -⟩ := fp2From_ok hw hx
  obtain ⟨y1, -⟩ := fp2From_ok hw hy
  have hc := s9Check2_iff hw (P := ⟨Sm9.fp2FromBytes x, Sm9.fp2FromBytes y⟩) x1 y1
  unfold Sm9.setPub Sm9.pairingP1
  simp only
  constructor
  · intro Q hQ
    obtain ⟨e, e1, e2⟩ := pairing_total hw p1_ok.1 p1_ok.2.1 hQ.1 hQ.2.1
    refine ⟨e, ?_, e2, e1⟩
    rw [hc.mpr ⟨Q, hQ⟩, Bool.not_true, if_neg (by decide), e1, ofOption_some, o_bind]
  · intro h
    rw [if_pos]
    rw [Bool.not_eq_true']
    exact Bool.eq_false_iff.mpr fun h' => h (hc.mp h')

theorem tw_eq : ev2 w tw2nat.y ^ 2 = ev2 w tw2nat.x ^ 3 + 5 * w ^ 6 := by
  have H := nat2Ops_hom hw
  have hx : Is (fun _ => True) (ev2 w) tw2nat.x (ev2 w tw2nat.x) := ⟨trivial, rfl⟩
  have hy : Is (fun _ => True) (ev2 w) tw2nat.y (ev2 w tw2nat.y) := ⟨trivial, rfl⟩
  have hb : Is (fun _ => True) (ev2 w) (0, 5) (5 * w ^ 6) := ⟨trivial, by simp [ev2]⟩
  have e1 : Is (fun _ => True) (ev2 w) ((nat2Ops sm9p).sqr tw2nat.y) (ev2 w tw2nat.y ^ 2) := by is_tac H
  have e2 : Is (fun _ => True) (ev2 w)
    ((nat2Ops sm9p).add ((nat2Ops sm9p).mul ((nat2Ops sm9p).sqr tw2nat.x) tw2nat.x) (0, 5))
      (ev2 w tw2nat.x ^ 2 * ev2 w tw2nat.x + 5 * w ^ 6) := by is_tac H
  have e : (nat2Ops sm9p).sqr tw2nat.y =
      (nat2Ops sm9p).add ((nat2Ops sm9p).mul ((nat2Ops sm9p).sqr tw2nat.x) tw2nat.x) (0, 5) := by decide +kernel
  rw [e] at e1
  rw [← e1.2, e2.2]
  ring

/-- `N` times the point is not zero. -/
theorem tw_order (hn : (sm9Twist w).Nonsingular (ev2 w tw2nat.x) (ev2 w tw2nat.y)) :
    sm9n • (Point.some _ _ hn : Sm9Point2 w) ≠ 0 := by
  have hn' : (shortCurve 0 (5 * w ^ 6)).Nonsingular (ev2 w tw2nat.x) (ev2 w tw2nat.y) := hn
  obtain ⟨R, hR, hz⟩ := Option.map_eq_some_iff.mp tw_ladder2
  have h1 : IsJ (fun _ => True) (ev2 w) ⟨tw2nat.x, tw2nat.y, (1, 0)⟩
      (⟨ev2 w tw2nat.x, ev2 w tw2nat.y, 1⟩ : EcJ K) :=
    ⟨⟨trivial, rfl⟩, ⟨trivial, rfl⟩, ⟨trivial, by simp [ev2]⟩⟩
  obtain ⟨J', j1, j2⟩ := ladder2_spec hw hn' (bitsBelow sm9n 255) _ R _ 1 h1
    (by rw [one_nsmul]; exact rep_fromA hn') hR
  rw [sm9_bits] at j2
  have z0 : J'.z ≠ 0 := fun h => by
    have := ((nat2Ops_hom hw).isZero trivial).mpr (j1.2.2.2.trans h)
    rw [hz] at this
    cases this
  change sm9n • (Point.some _ _ hn') ≠ 0
  intro h0
  rw [h0] at j2
  exact z0 j2

end

/-! ## Auxiliary facts on keys -/

/-- `ks / (h1 + ks) = -2` only if `3 ks + 2 h1 = 0`. -/
theorem s9t2_ne {h1 ks : Nat} (nz : (h1 : ZMod sm9n) + (ks : ZMod sm9n) ≠ 0) (h : (3 * ks + 2 * h1) % sm9n ≠ 0) :
    ((ks : ZMod sm9n) * ((h1 : ZMod sm9n) + (ks : ZMod sm9n))⁻¹).val ≠ sm9n - 2 := by
  intro e
  have e' : (ks : ZMod sm9n) * ((h1 : ZMod sm9n) + (ks : ZMod sm9n))⁻¹ = -2 := by
    rw [← ZMod.natCast_zmod_val ((ks : ZMod sm9n) * _), e, Nat.cast_sub s9_pos.le, ZMod.natCast_self, zero_sub, Nat.cast_ofNat]
  rw [← div_eq_mul_inv, div_eq_iff nz] at e'
  apply h
  rw [← Nat.dvd_iff_mod_eq_zero, ← ZMod.natCast_eq_zero_iff]
  push_cast
  linear_combination e'

/-- The master key that spoils the key of an identity. -/
theorem s9weak_ks {h1 : Nat} (r1 : 1 ≤ h1) (r2 : h1 < sm9n) :
    ∃ ks, 1 ≤ ks ∧ ks < sm9n ∧ (h1 : ZMod sm9n) + (ks : ZMod sm9n) ≠ 0 ∧
      ((ks : ZMod sm9n) * ((h1 : ZMod sm9n) + (ks : ZMod sm9n))⁻¹).val = sm9n - 2 := by
  have hz : (h1 : ZMod sm9n) ≠ 0 := by
    rw [Ne, ZMod.natCast_eq_zero_iff]
    exact fun h => absurd (Nat.le_of_dvd r1 h) (by omega)
  have n0 : ∀ k : Nat, 0 < k → k < sm9n → (k : ZMod sm9n) ≠ 0 := fun k k0 k1 => by
    rw [Ne, ZMod.natCast_eq_zero_iff]
    exact fun h => absurd (Nat.le_of_dvd k0 h) (by omega)
  have h3 : (3 : ZMod sm9n) ≠ 0 := by exact_mod_cast n0 3 (by decide) (by decide +kernel)
  have h2 : (2 : ZMod sm9n) ≠ 0 := by exact_mod_cast n0 2 (by decide) (by decide +kernel)
  obtain ⟨k, hk⟩ : ∃ k : ZMod sm9n, k = -2 * h1 / 3 := ⟨_, rfl⟩
  have hs : (h1 : ZMod sm9n) + k = h1 / 3 := by rw [hk]; field_simp; ring
  have hk0 : k ≠ 0 := by
    rw [hk]; exact div_ne_zero (mul_ne_zero (neg_ne_zero.mpr h2) hz) h3
  refine ⟨k.val, Nat.pos_of_ne_zero fun h => hk0 ((ZMod.val_eq_zero k).mp h), ZMod.val_lt _, ?_, ?_⟩
  · rw [ZMod.natCast_zmod_val, hs]; exact div_ne_zero hz h3
  · rw [ZMod.natCast_zmod_val, hs, hk]
    have e : -2 * (h1 : ZMod sm9n) / 3 * ((h1 : ZMod sm9n) / 3)⁻¹ = ((sm9n - 2 : Nat) : ZMod sm9n) := by
      rw [Nat.cast_sub s9_pos.le, ZMod.natCast_self, zero_sub, Nat.cast_ofNat]
      field_simp
    rw [e, ZMod.val_natCast, Nat.mod_eq_of_lt (by have := s9_pos; omega)]

/-- The octets of `x` in an encoding. -/
theorem encPoint_x (pc : Sm2.PC) {A : Sm9.A} (hx : Reduced sm9p A.x) (zx : montVal sm9p A.x = 0) :
    ((Sm9.encPoint pc A).drop 1).take 32 = List.replicate 32 0 := by
  have e : Sm9.fpToBytes A.x = List.replicate 32 0 := by
    rw [s9To_eq hx, zx]; decide +kernel
  have l : (List.replicate 32 (0 : Byte)).length = 32 := by decide
  cases pc
  · show ((Sm9.fpToBytes A.x ++ Sm9.fpToBytes A.y)).take 32 = _
    rw [e, List.take_left' l]
  · show (Sm9.fpToBytes A.x).take 32 = _
    rw [e]; decide
  · show ((Sm9.fpToBytes A.x ++ Sm9.fpToBytes A.y)).take 32 = _
    rw [e, List.take_left' l]

theorem setPub_P {x y : List Byte} {pub : Sm9.MPub} (h : Sm9.setPub x y = .ok pub) :
    (⟨Sm9.fp2FromBytes x, Sm9.fp2FromBytes y⟩ : Sm9.A2) = pub.P := by
  unfold Sm9.setPub at h
  simp only at h
  generalize (⟨Sm9.fp2FromBytes x, Sm9.fp2FromBytes y⟩ : Sm9.A2) = T at *
  by_cases c : (!Sm9.ec2Check T) = true
  · rw [if_pos c] at h; cases h
  · rw [if_neg c] at h
    cases he : Sm9.pairingP1 T with
    | none => rw [he] at h; cases h
    | some e =>
      rw [he, ofOption_some, o_bind] at h
      rw [← Outcome.ok.inj h]

section
variable {K : Type} [Field K] [Algebra (ZMod sm9p) K] [DecidableEq K] {w : K} (hw : w ^ 12 = -2)
include hw

theorem setPriv_red {key : List Byte} {mk : Sm9.MPriv} (hl : key.length = 32) (h : Sm9.setPriv key = .ok mk) :
    All2 (Reduced sm9p) mk.pub.P.x ∧ All2 (Reduced sm9p) mk.pub.P.y ∧ All12 (Reduced sm9p) mk.pub.e := by
  obtain ⟨z1, z2⟩ := s9range_iff hl
  by_cases hr : beVal key = 0 ∨ sm9n ≤ beVal key
  · unfold Sm9.setPriv at h
    simp only at h
    rw [if_pos (hr.imp z1.mpr z2.mpr)] at h
    cases h
  push Not at hr
  by_cases hne : beVal key = sm9n - 2
  · obtain ⟨P, e, p1, p2, p3, p4, p5, p6, p7, p8⟩ := setPriv_weak hw hl hne
    rw [p1] at h
    rw [← Outcome.ok.inj h]
    exact ⟨p2, p3, p6⟩
  · obtain ⟨P, e, p1, p2, p3, p4, p5⟩ := setPriv_ok hw hl (by omega) hr.2 hne
    rw [p1] at h
    rw [← Outcome.ok.inj h]
    exact ⟨p2.1, p2.2.1, p3⟩

theorem setPub_getPub {P : Sm9.A2} {e : Sm9.F12} {Q : Sm9Point2 w} (hP : Sm9IsAffine2 w P Q)
    (he : Sm9.pairing Sm9.p1 P = some e) :
    Sm9.setPub (Sm9.getPub ⟨P, e⟩).1 (Sm9.getPub ⟨P, e⟩).2 = .ok ⟨P, e⟩ := by
  unfold Sm9.setPub Sm9.getPub Sm9.pairingP1
  simp only
  rw [fp2_from_to _ hP.1, fp2_from_to _ hP.2.1]
  rw [show Sm9.ec2Check ⟨P.x, P.y⟩ = true from (s9Check2_iff hw hP.1 hP.2.1).mpr ⟨Q, hP⟩, Bool.not_true,
    if_neg (by decide)]
  rw [show Sm9.pairing Sm9.p1 ⟨P.x, P.y⟩ = some e from he, ofOption_some, o_bind]

end

end Verif
