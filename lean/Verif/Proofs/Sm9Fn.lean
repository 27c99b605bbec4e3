import Verif.Spec.Sm9Scheme
import Verif.Proofs.Sm2Fn
import Verif.Proofs.Sm9Curve
/-! # Arithmetic modulo the group order in SM9 -/
namespace Verif
open Spec

abbrev IsS9 := Is (Reduced sm9n) (montVal sm9n)

theorem s9fn_add {a b : List W32} {x y : ZMod sm9n} (ha : IsS9 a x) (hb : IsS9 b y) :
    IsS9 (mont256Add Sm9.fnCtx a b) (x + y) := by
  obtain ⟨⟨h1, -, h2⟩, -⟩ := Props.C35_mont_linear Sm9.fnCtx_wf a b ha.1 hb.1
  exact ⟨h1, by rw [h2, ha.2, hb.2]⟩

theorem s9fn_sub {a b : List W32} {x y : ZMod sm9n} (ha : IsS9 a x) (hb : IsS9 b y) :
    IsS9 (mont256Sub Sm9.fnCtx a b) (x - y) := by
  obtain ⟨-, ⟨h1, -, h2⟩, -⟩ := Props.C35_mont_linear Sm9.fnCtx_wf a b ha.1 hb.1
  exact ⟨h1, by rw [h2, ha.2, hb.2]⟩

theorem s9fn_mul {a b : List W32} {x y : ZMod sm9n} (ha : IsS9 a x) (hb : IsS9 b y) :
    IsS9 (mont256Mul Sm9.fnCtx a b) (x * y) := by
  obtain ⟨h1, h2, -⟩ := Props.C34_mont_mul_sqr Sm9.fnCtx_wf a b ha.1 hb.1
  exact ⟨h1, by rw [h2, ha.2, hb.2]⟩

theorem s9fn_zero_iff {a : List W32} {x : ZMod sm9n} (ha : IsS9 a x) :
    mont256EqualZero Sm9.fnCtx a = true ↔ x = 0 := by
  have hz : Reduced sm9n u256Zero := by unfold Reduced; decide +kernel
  have h0 : montVal sm9n u256Zero = 0 := by unfold montVal; rw [show val u256Zero = 0 by decide]; simp
  unfold mont256EqualZero
  rw [u256EqualZero_iff, ← ha.2, ← h0, Props.C34_unique Sm9.fnCtx_wf a u256Zero ha.1 hz]
  constructor
  · intro h
    exact val_inj _ _ (by rw [ha.1.1]; rfl) (by rw [h]; decide)
  · rintro rfl; decide

theorem s9fn_eq_iff {a b : List W32} {x y : ZMod sm9n} (ha : IsS9 a x) (hb : IsS9 b y) :
    mont256Equal Sm9.fnCtx a b = true ↔ x = y := by
  unfold mont256Equal
  rw [(Props.C31_cmp a b ha.1.1 hb.1.1).2, ← ha.2, ← hb.2, Props.C34_unique Sm9.fnCtx_wf a b ha.1 hb.1]
  exact ⟨fun h => val_inj _ _ (by rw [ha.1.1, hb.1.1]) h, fun h => by rw [h]⟩

theorem s9fn_one : IsS9 (mont256SetOne Sm9.fnCtx) 1 := by
  refine ⟨by unfold Reduced; decide +kernel, ?_⟩
  have hp := Sm9.fnCtx_wf.P.2
  unfold mont256SetOne
  have := montVal_one Sm9.fnCtx_wf.ok
  rw [hp] at this
  exact this

theorem s9fn_inv {a : List W32} {x : ZMod sm9n} (ha : IsS9 a x) :
    ∃ r, mont256Inv Sm9.fnCtx a = some r ∧ IsS9 r x⁻¹ := by
  obtain ⟨r, r1, r2, r3, r4⟩ := Props.C37_mont_inv Sm9.fnCtx_wf sm9n_prime a ha.1
  refine ⟨r, r1, r2, ?_⟩
  have hz := s9fn_zero_iff ha
  unfold mont256EqualZero at hz
  rw [u256EqualZero_iff] at hz
  by_cases h0 : val a = 0
  · have hx := hz.mp h0
    rw [hx, inv_zero]
    unfold montVal
    rw [r4 h0]; simp
  · have h3 := r3 h0
    rw [ha.2] at h3
    exact eq_inv_of_mul_eq_one_left h3

theorem s9fn_fromBytes {bs : List Byte} (h : bs.length = 32) :
    IsS9 (mont256FromBytes Sm9.fnCtx bs) (beVal bs : ZMod sm9n) := by
  obtain ⟨h1, h2, -⟩ := Props.C39_from_to_bytes Sm9.fnCtx_wf bs h
  exact ⟨h1, h2⟩

theorem s9fn_toBytes {a : List W32} {x : ZMod sm9n} (ha : IsS9 a x) :
    mont256ToBytes Sm9.fnCtx a = toBE 32 x.val := by
  obtain ⟨m, x1, x2, x3, -⟩ := Props.C39_to_bytes Sm9.fnCtx_wf a ha.1
  rw [x3, ← ha.2, ← x2, ZMod.val_natCast, Nat.mod_eq_of_lt x1]

/-! ## Big numbers -/

theorem s9bnModNSub1_ok {a : List W32} (ha : a.length = 8) :
    (Sm9.bnModNSub1 a).length = 8 ∧ val (Sm9.bnModNSub1 a) = val a % (sm9n - 1) := by
  have hl : Sm9.nSub1.length = 8 := by decide +kernel
  have hv : val Sm9.nSub1 = sm9n - 1 := by decide +kernel
  have hlt := len8_lt ha
  have h2 : (2 : Nat) ^ 256 < 2 * (sm9n - 1) := by decide +kernel
  have hc := (Props.C31_cmp a Sm9.nSub1 ha hl).1
  unfold Sm9.bnModNSub1
  rw [hc, hv]
  by_cases h : val a < sm9n - 1
  · rw [if_neg (by omega : ¬ val a > sm9n - 1), if_pos h, if_neg (by decide)]
    exact ⟨ha, (Nat.mod_eq_of_lt h).symm⟩
  · have e : (if val a > sm9n - 1 then (1 : Int) else if val a < sm9n - 1 then -1 else 0) ≥ 0 := by
      rw [if_neg h]; split <;> decide
    rw [if_pos e]
    obtain ⟨s1, s2, -, s4⟩ := Props.C31_sub a Sm9.nSub1 ha hl
    rw [hv] at s2 s4
    rw [s4.mpr (by omega)] at s2
    refine ⟨s1, ?_⟩
    rw [Nat.mod_eq_sub_mod (by omega), Nat.mod_eq_of_lt (by omega)]
    have : (0 : CInt).toInt = 0 := rfl
    rw [this] at s2
    omega

theorem s9nonce_ok {rnd : List Byte} (h : rnd.length = 32) :
    Sm9.nonce rnd = toBE 32 (beVal rnd % (sm9n - 1) + 1) := by
  obtain ⟨l, v⟩ := u256FromBytes_spec rnd h
  obtain ⟨l1, v1⟩ := s9bnModNSub1_ok l
  unfold Sm9.nonce
  rw [v] at v1
  have hm : beVal rnd % (sm9n - 1) < sm9n - 1 := Nat.mod_lt _ (by decide +kernel)
  have hn : sm9n < 2 ^ 256 := by decide +kernel
  have l2 : (u256AddWord (Sm9.bnModNSub1 (u256FromBytes rnd)) 1).1.length = 8 := by
    unfold u256AddWord
    rw [addCarryLoop_len _ _ _ (by rw [l1]; rfl), l1]
  have hw := (Props.C31_word_ops (Sm9.bnModNSub1 (u256FromBytes rnd)) 1 l1).1
  rw [v1] at hw
  have hlt := len8_lt l2
  simp only
  rw [u256ToBytes_eq l2]
  congr 1
  have h1 : (1 : W32).toNat = 1 := rfl
  rw [h1] at hw
  generalize val (u256AddWord (Sm9.bnModNSub1 (u256FromBytes rnd)) 1).1 = X at *
  generalize (u256AddWord (Sm9.bnModNSub1 (u256FromBytes rnd)) 1).2.toNat = Y at *
  rcases Nat.eq_zero_or_pos Y with hY | hY
  · subst hY; omega
  · exfalso
    have : 2 ^ 256 * 1 ≤ 2 ^ 256 * Y := Nat.mul_le_mul_left _ hY
    omega

theorem s9nonce_len {rnd : List Byte} (h : rnd.length = 32) : (Sm9.nonce rnd).length = 32 := by
  rw [s9nonce_ok h, toBE_len]

theorem s9nonce_val {rnd : List Byte} (h : rnd.length = 32) :
    beVal (Sm9.nonce rnd) = beVal rnd % (sm9n - 1) + 1 := by
  have hm : beVal rnd % (sm9n - 1) < sm9n - 1 := Nat.mod_lt _ (by decide +kernel)
  have hn : sm9n < 256 ^ 32 := by decide +kernel
  rw [s9nonce_ok h, beVal_toBE, Nat.mod_eq_of_lt (by omega)]

theorem s9nonce_range {rnd : List Byte} (h : rnd.length = 32) :
    1 ≤ beVal (Sm9.nonce rnd) ∧ beVal (Sm9.nonce rnd) < sm9n := by
  have hm : beVal rnd % (sm9n - 1) < sm9n - 1 := Nat.mod_lt _ (by decide +kernel)
  rw [s9nonce_val h]; omega

end Verif
