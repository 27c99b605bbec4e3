import Verif.Proofs.Sm9Fn
import Verif.Proofs.Sm2Hash
/-! # Hashing in SM9 -/
namespace Verif
open Spec

section
variable {S : Type} {C : HashClass S} {H : List Byte → List Byte}

theorem haLoop_ok (hC : IsHash C H) (chunks : List (List Byte)) (hb : 8 * (chunks.flatten.length + 4) < 2 ^ 64) :
    ∀ (n c : Nat) (Ha : List Byte), c + n < 2 ^ 32 →
      Sm9.haLoop C chunks n (BitVec.ofNat 32 c) Ha =
        .ok (Ha ++ (List.range n).flatMap fun i => H (chunks.flatten ++ toBE 4 (c + i))) := by
  intro n
  induction n with
  | zero => intro c Ha _; simp [Sm9.haLoop]
  | succ n ih =>
    intro c Ha hc
    unfold Sm9.haLoop
    rw [hC.stream, store32be_eq _ (by omega), if_pos (by rw [List.length_append, toBE_len]; omega), o_bind,
      show BitVec.ofNat 32 c + 1 = BitVec.ofNat 32 (c + 1) from (BitVec.ofNat_add ..).symm, ih (c + 1) _ (by omega),
      List.range_succ_eq_map, List.flatMap_cons, List.flatMap_map, List.append_assoc]
    simp only [Nat.add_zero, Nat.succ_eq_add_one]
    congr 3
    apply List.flatMap_congr
    intro i _
    rw [show c + 1 + i = c + (i + 1) by omega]

theorem haLoop_throw (hC : IsHash C H) (chunks : List (List Byte)) (hb : ¬ 8 * (chunks.flatten.length + 4) < 2 ^ 64)
    (n : Nat) (c : W32) (Ha : List Byte) : Sm9.haLoop C chunks (n + 1) c Ha = .throw := by
  unfold Sm9.haLoop
  have hl : (MemUtil.store32be c).length = 4 := rfl
  rw [hC.stream, if_neg (by rw [List.length_append, hl]; exact hb), t_bind]

theorem s9nSub1 : Sm9.nSub1.length = 8 ∧ val Sm9.nSub1 = sm9n - 1 := by decide +kernel

theorem sm9H_range (v : Nat) (tag : Byte) (Z : List Byte) : 1 ≤ sm9H H v tag Z ∧ sm9H H v tag Z < sm9n := by
  have : beVal (sm9Ha H v tag Z) % (sm9n - 1) < sm9n - 1 := Nat.mod_lt _ (by decide +kernel)
  unfold sm9H
  omega

theorem add_one_bytes {a : List W32} (ha : a.length = 8) (hv : val a < sm9n - 1) :
    u256ToBytes (u256AddWord a 1).1 = toBE 32 (val a + 1) := by
  have hn : sm9n < 2 ^ 256 := by decide +kernel
  have l2 : (u256AddWord a 1).1.length = 8 := by
    unfold u256AddWord
    rw [addCarryLoop_len _ _ _ (by rw [ha]; rfl), ha]
  have hw := (Props.C31_word_ops a 1 ha).1
  have hlt := len8_lt l2
  rw [u256ToBytes_eq l2]
  congr 1
  have h1 : (1 : W32).toNat = 1 := rfl
  rw [h1] at hw
  generalize val (u256AddWord a 1).1 = X at *
  generalize (u256AddWord a 1).2.toNat = Y at *
  rcases Nat.eq_zero_or_pos Y with hY | hY
  · subst hY; omega
  · exfalso
    have : 2 ^ 256 * 1 ≤ 2 ^ 256 * Y := Nat.mul_le_mul_left _ hY
    omega

theorem hn_ok (hC : IsHash C H) (Z1 Z2 : List Byte) (tag : Byte) :
    Sm9.hn C Z1 Z2 tag =
      if 8 * (Z1.length + Z2.length + 5) < 2 ^ 64 then .ok (toBE 32 (sm9H H C.DS tag (Z1 ++ Z2))) else .throw := by
  have hp := hC.pos
  have hle : 1 ≤ (40 + C.DS - 1) / C.DS := (Nat.one_le_div_iff hp).mpr (by omega)
  have hle2 : (40 + C.DS - 1) / C.DS ≤ 40 := by
    refine Nat.div_le_of_le_mul ?_
    have : C.DS * 40 = C.DS + C.DS * 39 := by ring
    omega
  have hfl : ([[tag], Z1, Z2].flatten).length = Z1.length + Z2.length + 1 := by simp
  unfold Sm9.hn
  by_cases h : 8 * (Z1.length + Z2.length + 5) < 2 ^ 64
  · rw [if_pos h, show (1 : W32) = BitVec.ofNat 32 1 from rfl,
      haLoop_ok hC _ (by rw [hfl]; omega) _ 1 [] (by omega), o_bind]
    have e : (([] ++ (List.range ((40 + C.DS - 1) / C.DS)).flatMap fun i =>
        H ([[tag], Z1, Z2].flatten ++ toBE 4 (1 + i))).take 40) = sm9Ha H C.DS tag (Z1 ++ Z2) := by
      unfold sm9Ha
      rw [List.nil_append]
      congr 1
      apply List.flatMap_congr
      intro i _
      simp [Nat.add_comm]
    rw [e]
    obtain ⟨r, r1, r2, r3⟩ := u256Mod_spec Sm9.nSub1 s9nSub1.1 (by rw [s9nSub1.2]; decide +kernel)
      (sm9Ha H C.DS tag (Z1 ++ Z2))
    rw [r1, ofOption_some, o_bind]
    rw [s9nSub1.2] at r3
    have hlt : val r < sm9n - 1 := by rw [r3]; exact Nat.mod_lt _ (by decide +kernel)
    show Outcome.ok (u256ToBytes (u256AddWord r 1).1) = _
    rw [add_one_bytes r2 hlt, r3]
    rfl
  · rw [if_neg h]
    obtain ⟨n, hn⟩ : ∃ n, (40 + C.DS - 1) / C.DS = n + 1 := ⟨_, (Nat.sub_add_cancel hle).symm⟩
    rw [hn, haLoop_throw hC _ (by rw [hfl]; omega), t_bind]

end
end Verif
