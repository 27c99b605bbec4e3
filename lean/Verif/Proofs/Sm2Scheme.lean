import Verif.Proofs.Sm2Hash
import Verif.Proofs.Sm2Misc
import Verif.Props.Sm2Ec
/-! # SM2 signatures and encryption -/
namespace Verif
open Spec WeierstrassCurve WeierstrassCurve.Affine

theorem range_iff {bs : List Byte} (h : bs.length = 32) :
    (u256EqualZero (u256FromBytes bs) = true ↔ beVal bs = 0) ∧
    (u256Cmp (u256FromBytes bs) (u256FromBytes Sm2.sm2CurveN) ≥ 0 ↔ sm2n ≤ beVal bs) := by
  obtain ⟨l, v⟩ := u256FromBytes_spec bs h
  obtain ⟨ln, vn⟩ := u256FromBytes_spec Sm2.sm2CurveN (by decide)
  have hn : beVal Sm2.sm2CurveN = sm2n := by decide +kernel
  rw [hn] at vn
  refine ⟨by rw [u256EqualZero_iff, v], ?_⟩
  have hc := (Props.C31_cmp _ _ l ln).1
  rw [v, vn] at hc
  rw [hc]
  split_ifs <;> omega

/-- The decision of the code on the point `s • G + t • Q`. -/
def AcceptsPoint (R : Sm2Point) (e r : Nat) : Prop :=
  (∃ x y h, R = .some x y h ∧ (e + x.val) % sm2n = r) ∨ (R = 0 ∧ e % sm2n = r)

theorem zmod_eq_iff {a r : Nat} (hr : r < sm2n) : ((a : Nat) : ZMod sm2n) = (r : ZMod sm2n) ↔ a % sm2n = r := by
  rw [ZMod.natCast_eq_natCast_iff', Nat.mod_eq_of_lt hr]

theorem accept_some {e r : Nat} {x y : ZMod sm2p} {h : sm2Curve.Nonsingular x y} :
    AcceptsPoint (.some x y h) e r ↔ (e + x.val) % sm2n = r := by
  constructor
  · rintro (⟨x', y', h', e1, e2⟩ | ⟨e1, -⟩)
    · obtain ⟨rfl, rfl⟩ := (Point.some.injEq ..).mp e1
      exact e2
    · exact absurd e1 (Point.some_ne_zero _)
  · exact fun h2 => Or.inl ⟨x, y, h, rfl, h2⟩

theorem accept_zero {e r : Nat} : AcceptsPoint 0 e r ↔ e % sm2n = r := by
  constructor
  · rintro (⟨x', y', h', e1, e2⟩ | ⟨-, h⟩)
    · exact absurd e1.symm (Point.some_ne_zero _)
    · exact h
  · exact fun h2 => Or.inr ⟨rfl, h2⟩

theorem if_decide {b : Bool} {p : Prop} [Decidable p] (h : b = true ↔ p) :
    (if b = true then Outcome.ok true else Outcome.ok false) = Outcome.ok (decide p) := by
  by_cases hb : b = true
  · rw [if_pos hb, decide_eq_true (h.mp hb)]
  · rw [if_neg hb, decide_eq_false (fun hp => hb (h.mpr hp))]

section
variable {S : Type} {C : HashClass S} {H : List Byte → List Byte}

/-- The part of `verify_` after the digest. -/
def verifyTail (pub : Sm2.Pub) (sigR sigS E : List Byte) : Outcome Bool :=
  let r := mont256FromBytes Sm2.fnCtx sigR
  let s := mont256FromBytes Sm2.fnCtx sigS
  let tmp := mont256Add Sm2.fnCtx r s
  if mont256EqualZero Sm2.fnCtx tmp then .ok false
  else do
    let t := mont256ToBytes Sm2.fnCtx tmp
    let tPa : Sm2.A := ⟨Sm2.fpFromBytes pub.x, Sm2.fpFromBytes pub.y⟩
    let sG ← Outcome.ofOption (Sm2.jMulG sigS)
    let tP ← Outcome.ofOption (Sm2.jMulA t tPa)
    let tP ← Outcome.ofOption (Sm2.jAdd sG tP)
    let a ← Outcome.ofOption (Sm2.jToA tP)
    let tmp := Sm2.fnFromFp a.x
    let e ← Outcome.ofOption (mont256FromBytesEx Sm2.fnCtx E)
    let tmp := mont256Add Sm2.fnCtx e tmp
    if mont256Equal Sm2.fnCtx tmp r then .ok true else .ok false

open Classical in
theorem verifyTail_ok {pub : Sm2.Pub} {Q : Sm2Point} (hp : Sm2PubIs pub Q) {sigR sigS : List Byte} (E : List Byte)
    (hR : sigR.length = 32) (hS : sigS.length = 32) (_r0 : 1 ≤ beVal sigR) (rn : beVal sigR < sm2n)
    (s0 : 1 ≤ beVal sigS) (sn : beVal sigS < sm2n) :
    verifyTail pub sigR sigS E = .ok (decide ((beVal sigR + beVal sigS) % sm2n ≠ 0 ∧
      AcceptsPoint (beVal sigS • sm2G + ((beVal sigR + beVal sigS) % sm2n) • Q) (beVal E) (beVal sigR))) := by
  have hr := fn_fromBytes hR
  have hs := fn_fromBytes hS
  have ht := fn_add hr hs
  have n0 : 0 < sm2n := by decide +kernel
  unfold verifyTail
  simp only
  by_cases h0 : (beVal sigR + beVal sigS) % sm2n = 0
  · rw [if_pos ((fn_zero_iff ht).mpr _)]
    · simp [h0]
    · rw [← Nat.cast_add, ZMod.natCast_eq_zero_iff]; exact Nat.dvd_of_mod_eq_zero h0
  · rw [if_neg (fun h => h0 (by
      have := (fn_zero_iff ht).mp h
      rw [← Nat.cast_add, ZMod.natCast_eq_zero_iff] at this
      exact Nat.mod_eq_zero_of_dvd this))]
    have htb := fn_toBytes ht
    rw [← Nat.cast_add, ZMod.val_natCast] at htb
    generalize ht' : (beVal sigR + beVal sigS) % sm2n = t at *
    have htn : t < sm2n := by rw [← ht']; exact Nat.mod_lt _ n0
    rw [htb]
    have htv : beVal (toBE 32 t) = t := by
      rw [beVal_toBE, Nat.mod_eq_of_lt]
      exact htn.trans (by decide +kernel)
    obtain ⟨lx, ly, -, hq, hQ⟩ := hp
    have hA : Sm2IsAffine ⟨Sm2.fpFromBytes pub.x, Sm2.fpFromBytes pub.y⟩ Q := by
      obtain ⟨x1, x2⟩ := fpFromBytes_ok lx
      obtain ⟨y1, y2⟩ := fpFromBytes_ok ly
      refine ⟨x1, y1, ?_⟩
      exact some_congr hQ x2.symm y2.symm
    have hQ0 : Q ≠ 0 := by rw [hQ]; exact Point.some_ne_zero _
    obtain ⟨J1, j1, j2⟩ := jMulA_ok hS g_ok
    obtain ⟨J2, k1, k2⟩ := jMulA_ok (toBE_len 32 t) hA
    rw [htv] at k2
    have ns : beVal sigS • sm2G ≠ 0 := nsmul_ne_zero_of sm2G_ne s0 sn
    have nt : t • Q ≠ 0 := nsmul_ne_zero_of hQ0 (Nat.pos_of_ne_zero h0) htn
    obtain ⟨J3, l1, l2⟩ := jAdd_ok j2 k2 (iff_of_false ns nt)
    obtain ⟨e, e1, e2⟩ := fn_fromBytesEx E
    have j1' : Sm2.jMulG sigS = some J1 := j1
    rw [j1', ofOption_some, o_bind, k1, ofOption_some, o_bind, l1, ofOption_some, o_bind]
    generalize beVal sigS • sm2G + t • Q = R at l2
    cases R with
    | zero =>
      change Sm2IsJacobian J3 0 at l2
      rw [jToA_inf l2, ofOption_some, o_bind, e1, ofOption_some, o_bind]
      have hz : Reduced sm2p u256Zero := by unfold Reduced; decide +kernel
      have hv : fpVal u256Zero = 0 := by
        unfold fpVal montVal; rw [show val u256Zero = 0 by decide]; simp
      have hx := fn_fromFp hz
      rw [hv] at hx
      have := fn_eq_iff (fn_add e2 hx) hr
      rw [ZMod.val_zero, Nat.cast_zero, add_zero, zmod_eq_iff rn] at this
      refine if_decide (this.trans (Iff.intro (fun h => And.intro h0 (accept_zero.mpr h)) (fun h => accept_zero.mp h.2)))
    | some x y h =>
      obtain ⟨a, a1, a2⟩ := jToA_ok l2 (Point.some_ne_zero _)
      rw [a1, ofOption_some, o_bind, e1, ofOption_some, o_bind]
      obtain ⟨b1, b2, b3, b4⟩ := a2
      obtain ⟨hx, -⟩ := (Point.some.injEq ..).mp b4
      have hx' := fn_fromFp b1
      rw [← hx] at hx'
      have := fn_eq_iff (fn_add e2 hx') hr
      rw [← Nat.cast_add, zmod_eq_iff rn] at this
      refine if_decide (this.trans (Iff.intro (fun h => And.intro h0 (accept_some.mpr h)) (fun h => accept_some.mp h.2)))

open Classical in
theorem verifyBody_ok (hC : IsHash C H) {pub : Sm2.Pub} {Q : Sm2Point} (hp : Sm2PubIs pub Q) {sigR sigS : List Byte}
    (msg id : List Byte) (hR : sigR.length = 32) (hS : sigS.length = 32) :
    Sm2.verifyBody C pub sigR sigS msg id =
      if ¬ (1 ≤ beVal sigR ∧ beVal sigR < sm2n ∧ 1 ≤ beVal sigS ∧ beVal sigS < sm2n) then .ok false
      else if ¬ (8 * id.length ≤ 65535 ∧ 8 * (C.DS + msg.length) < 2 ^ 64) then .throw
      else .ok (decide ((beVal sigR + beVal sigS) % sm2n ≠ 0 ∧
        AcceptsPoint (beVal sigS • sm2G + ((beVal sigR + beVal sigS) % sm2n) • Q)
          (sm2E H id pub.x pub.y msg) (beVal sigR))) := by
  obtain ⟨hr1, hr2⟩ := range_iff hR
  obtain ⟨hs1, hs2⟩ := range_iff hS
  have e : Sm2.verifyBody C pub sigR sigS msg id =
      if u256EqualZero (u256FromBytes sigR) ∨ u256Cmp (u256FromBytes sigR) (u256FromBytes Sm2.sm2CurveN) ≥ 0 ∨
        u256EqualZero (u256FromBytes sigS) ∨ u256Cmp (u256FromBytes sigS) (u256FromBytes Sm2.sm2CurveN) ≥ 0
      then .ok false
      else (do
        let Z ← Sm2.computeZ C id pub.x pub.y
        let Z ← C.stream [Z.take C.DS, msg] []
        verifyTail pub sigR sigS (Z.take C.DS)) := rfl
  rw [e]
  by_cases h : 1 ≤ beVal sigR ∧ beVal sigR < sm2n ∧ 1 ≤ beVal sigS ∧ beVal sigS < sm2n
  · rw [if_neg, if_neg (not_not.mpr h), computeZ_ok hC id _ _ hp.1 hp.2.1]
    swap
    · rw [hr1, hr2, hs1, hs2]; omega
    by_cases h1 : 8 * id.length ≤ 65535
    · rw [if_pos h1, o_bind, digest_ok hC (sm2Z H id pub.x pub.y) msg (hC.len _)]
      by_cases h2 : 8 * (C.DS + msg.length) < 2 ^ 64
      · rw [if_pos h2, o_bind, if_neg (not_not.mpr ⟨h1, h2⟩), List.take_of_length_le (by rw [hC.len])]
        exact verifyTail_ok hp _ hR hS h.1 h.2.1 h.2.2.1 h.2.2.2
      · rw [if_neg h2, t_bind, if_pos (fun h => h2 h.2)]
    · rw [if_neg h1, t_bind, if_pos (fun h => h1 h.1)]
  · rw [if_pos, if_pos h]
    rw [hr1, hr2, hs1, hs2]
    omega

theorem nsmul_congr {P : Sm2Point} {a b : Nat} (h : a % sm2n = b % sm2n) : a • P = b • P := by
  have key : ∀ c : Nat, c • P = (c % sm2n) • P := fun c => by
    conv_lhs => rw [← Nat.div_add_mod c sm2n]
    rw [add_nsmul, mul_comm, mul_nsmul, smul_comm, sm2_nsmul, nsmul_zero, zero_add]
  rw [key a, key b, h]

/-- A standard signature satisfies the verification equation. -/
theorem sig_valid {d e k r s : Nat} (hk0 : 1 ≤ k) (hkn : k < sm2n) (h : IsSm2Sig sm2G d e k r s) :
    Sm2Valid sm2G (d • sm2G) e r s := by
  obtain ⟨⟨x, y, hn, e1, e2⟩, r0, rk, sn, s0, he⟩ := h
  have n0 : 0 < sm2n := by decide +kernel
  have rn : r < sm2n := by rw [e2]; exact Nat.mod_lt _ n0
  refine ⟨by omega, rn, by omega, sn, ?_, x, y, hn, ?_, e2.symm⟩
  · intro h0
    have hd : sm2n ∣ r + k := by
      have h1 : sm2n ∣ r + s := Nat.dvd_of_mod_eq_zero h0
      have h2 : (s * (1 + d) + r * d) ≡ k [MOD sm2n] := he
      have h3 : s * (1 + d) + r * d = s + (r + s) * d := by ring
      rw [h3] at h2
      have h4 : r + k ≡ 0 [MOD sm2n] := by
        calc r + k ≡ r + (s + (r + s) * d) [MOD sm2n] := Nat.ModEq.add_left _ h2.symm
          _ = (r + s) * (1 + d) := by ring
          _ ≡ 0 [MOD sm2n] := (Nat.modEq_zero_iff_dvd.mpr (Dvd.dvd.mul_right h1 _))
      exact Nat.modEq_zero_iff_dvd.mp h4
    obtain ⟨c, hc⟩ := hd
    have : c = 1 := by
      have hc1 : 0 < c := Nat.pos_of_ne_zero (by rintro rfl; omega)
      have hc2 : c < 2 := by
        by_contra hcon
        have : sm2n * 2 ≤ sm2n * c := Nat.mul_le_mul_left _ (by omega)
        omega
      omega
    subst this
    omega
  · rw [← e1, ← mul_nsmul', ← add_nsmul]
    apply nsmul_congr
    rw [← he, Nat.add_mod, Nat.mod_mul_mod, ← Nat.add_mod]
    congr 1
    ring

/-! ## Signing -/

theorem signStep_ok {d Z rnd : List Byte} (hd : d.length = 32) (hr : rnd.length = 32) :
    ∃ x y h, (beVal rnd % (sm2n - 1) + 1) • sm2G = .some x y h ∧
      Sm2.signStep d Z rnd =
        let k := beVal rnd % (sm2n - 1) + 1
        let r : ZMod sm2n := (beVal Z : ZMod sm2n) + (x.val : ZMod sm2n)
        let s : ZMod sm2n := (1 + (beVal d : ZMod sm2n))⁻¹ * ((k : ZMod sm2n) - r * (beVal d : ZMod sm2n))
        if r = 0 ∨ r + (k : ZMod sm2n) = 0 ∨ s = 0 then .ok none
        else .ok (some (toBE 32 r.val ++ toBE 32 s.val)) := by
  obtain ⟨k1, k2⟩ := nonce_range hr
  obtain ⟨R, a, r1, a1, a2⟩ := mulG_affine (nonce_len hr) k1 k2
  have hk := fn_fromBytes (nonce_len hr)
  rw [nonce_val hr] at a2 hk
  obtain ⟨b1, b2, b3, b4⟩ := a2
  refine ⟨_, _, b3, b4, ?_⟩
  obtain ⟨e, e1, e2⟩ := fn_fromBytesEx Z
  have hr' := fn_add e2 (fn_fromFp b1)
  have hrk := fn_add hr' hk
  have hd' := fn_fromBytes hd
  obtain ⟨i, i1, i2⟩ := fn_inv (fn_add fn_one hd')
  have hs := fn_mul i2 (fn_sub hk (fn_mul hr' hd'))
  unfold Sm2.signStep
  simp only
  rw [r1, ofOption_some, o_bind, a1, ofOption_some, o_bind, e1, ofOption_some, o_bind]
  by_cases h : (beVal Z : ZMod sm2n) + ((fpVal a.x).val : ZMod sm2n) = 0 ∨
      (beVal Z : ZMod sm2n) + ((fpVal a.x).val : ZMod sm2n) + ((beVal rnd % (sm2n - 1) + 1 : Nat) : ZMod sm2n) = 0
  · rw [if_pos, if_pos]
    · rcases h with h | h
      · exact Or.inl h
      · exact Or.inr (Or.inl h)
    · rw [Bool.or_eq_true, fn_zero_iff hr', fn_zero_iff hrk]; exact h
  · rw [if_neg, i1, ofOption_some, o_bind]
    · by_cases h0 : (1 + (beVal d : ZMod sm2n))⁻¹ * (((beVal rnd % (sm2n - 1) + 1 : Nat) : ZMod sm2n) -
          ((beVal Z : ZMod sm2n) + ((fpVal a.x).val : ZMod sm2n)) * (beVal d : ZMod sm2n)) = 0
      · rw [if_pos ((fn_zero_iff hs).mpr h0), if_pos (Or.inr (Or.inr h0))]
      · rw [if_neg (fun h => h0 ((fn_zero_iff hs).mp h)), if_neg, fn_toBytes hr', fn_toBytes hs]
        rintro (h1 | h1 | h1)
        · exact h (Or.inl h1)
        · exact h (Or.inr h1)
        · exact h0 h1
    · rw [Bool.or_eq_true, fn_zero_iff hr', fn_zero_iff hrk]; exact h

end
end Verif
