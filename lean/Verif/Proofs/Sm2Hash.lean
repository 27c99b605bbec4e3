import Verif.Proofs.Sm2Fn
import Verif.Props.Hash
import Verif.Props.MemUtil
/-! # Hashing in SM2: `Z`, the message digest, the key derivation function -/
namespace Verif
open Spec

/-- The SM3 class meets the hash interface of the SM2 and SM9 classes. -/
theorem sm3_isHash : IsHash Sm3.cls Spec.SM3.hash where
  pos := by decide
  small := by decide
  len := fun m => rfl
  stream := fun chunks last => Props.C01_sm3_stream chunks last

section
variable {S : Type} {C : HashClass S} {H : List Byte → List Byte}

theorem entl_eq (l : Nat) (h : l ≤ 65535) :
    [(BitVec.ofNat 16 l >>> 8).setWidth 8, (BitVec.ofNat 16 l &&& 0xFF#16).setWidth 8] = toBE 2 l := by
  simp only [toBE, List.nil_append, List.cons_append]
  congr 1
  · apply BitVec.eq_of_toNat_eq
    simp only [BitVec.toNat_setWidth, BitVec.toNat_ushiftRight, BitVec.toNat_ofNat, Nat.shiftRight_eq_div_pow]
    omega
  · congr 1
    apply BitVec.eq_of_toNat_eq
    simp only [BitVec.toNat_setWidth, BitVec.toNat_and, BitVec.toNat_ofNat]
    rw [show 255 % 2 ^ 16 = 2 ^ 8 - 1 by decide, Nat.and_two_pow_sub_one_eq_mod]
    omega

theorem curve_bytes : Sm2.sm2CurveA = toBE 32 sm2a ∧ Sm2.sm2CurveB = toBE 32 sm2b ∧
    Sm2.sm2CurveGx = toBE 32 sm2gx ∧ Sm2.sm2CurveGy = toBE 32 sm2gy := by decide +kernel

theorem computeZ_ok (hC : IsHash C H) (id x y : List Byte) (hx : x.length = 32) (hy : y.length = 32) :
    Sm2.computeZ C id x y = if 8 * id.length ≤ 65535 then .ok (sm2Z H id x y) else .throw := by
  unfold Sm2.computeZ
  obtain ⟨e1, e2, e3, e4⟩ := curve_bytes
  have la : Sm2.sm2CurveA.length = 32 := by decide
  have lb : Sm2.sm2CurveB.length = 32 := by decide
  have lx : Sm2.sm2CurveGx.length = 32 := by decide
  have ly : Sm2.sm2CurveGy.length = 32 := by decide
  by_cases h : 8 * id.length ≤ 65535
  · rw [if_pos h, if_neg (by omega)]
    simp only
    rw [hC.stream, entl_eq _ (by omega), if_pos]
    · unfold sm2Z
      rw [e1, e2, e3, e4, mul_comm id.length]
      simp [List.append_assoc]
    · simp only [List.flatten_cons, List.flatten_nil, List.length_append, toBE_len, la, lb, lx, ly, hx, hy,
        List.length_nil]
      omega
  · rw [if_neg h]
    by_cases h2 : (id.length * 8) % 2 ^ 64 > 65535
    · rw [if_pos h2]
    · rw [if_neg h2]
      simp only
      rw [hC.stream, if_neg]
      simp only [List.flatten_cons, List.flatten_nil, List.length_append, List.length_cons, List.length_nil]
      omega

theorem digest_ok (hC : IsHash C H) (Z msg : List Byte) (hZ : Z.length = C.DS) :
    C.stream [Z.take C.DS, msg] [] =
      if 8 * (C.DS + msg.length) < 2 ^ 64 then .ok (H (Z ++ msg)) else .throw := by
  rw [hC.stream, List.take_of_length_le (by omega)]
  simp [hZ]

theorem hash3_ok (hC : IsHash C H) (a m b : List Byte) (ha : a.length = 32) (hb : b.length = 32) :
    C.stream [a, m, b] [] = if 8 * (64 + m.length) < 2 ^ 64 then .ok (H (a ++ m ++ b)) else .throw := by
  rw [hC.stream]
  simp only [List.flatten_cons, List.flatten_nil, List.append_nil, List.length_append, ha, hb, List.append_assoc]
  rw [show 8 * (32 + (m.length + 32)) = 8 * (64 + m.length) by omega]

/-! ## Key derivation -/

/-- The key stream from counter `c + 1` on. -/
def kdfFrom (H : List Byte → List Byte) (v : Nat) (Z : List Byte) (c n : Nat) : List Byte :=
  ((List.range ((n + v - 1) / v)).flatMap fun i => H (Z ++ toBE 4 (c + i + 1))).take n

theorem kdfFrom_zero (H : List Byte → List Byte) (v : Nat) (Z : List Byte) (c : Nat) : kdfFrom H v Z c 0 = [] := by
  simp [kdfFrom]

theorem kdfFrom_ge (hC : IsHash C H) (Z : List Byte) (c n : Nat) (h : C.DS ≤ n) :
    kdfFrom H C.DS Z c n = H (Z ++ toBE 4 (c + 1)) ++ kdfFrom H C.DS Z (c + 1) (n - C.DS) := by
  have hp := hC.pos
  have e : (n + C.DS - 1) / C.DS = (n - C.DS + C.DS - 1) / C.DS + 1 := by
    rw [show n + C.DS - 1 = (n - C.DS + C.DS - 1) + C.DS by omega, Nat.add_div_right _ hp]
  unfold kdfFrom
  rw [e, List.range_succ_eq_map, List.flatMap_cons, List.flatMap_map, List.take_append, hC.len,
    List.take_of_length_le (by rw [hC.len]; exact h)]
  simp only [Nat.add_zero, Nat.succ_eq_add_one]
  congr 2
  apply List.flatMap_congr
  intro i _
  rw [show c + (i + 1) + 1 = c + 1 + i + 1 by omega]

theorem kdfFrom_lt (hC : IsHash C H) (Z : List Byte) (c n : Nat) (h0 : 0 < n) (h : n < C.DS) :
    kdfFrom H C.DS Z c n = (H (Z ++ toBE 4 (c + 1))).take n := by
  have hp := hC.pos
  have e : (n + C.DS - 1) / C.DS = 1 := Nat.div_eq_of_lt_le (by omega) (by omega)
  unfold kdfFrom
  rw [e]
  simp

theorem kdfFrom_len (hC : IsHash C H) (Z : List Byte) (n : Nat) : ∀ c, (kdfFrom H C.DS Z c n).length = n := by
  have hp := hC.pos
  induction n using Nat.strong_induction_on with
  | _ n ih =>
    intro c
    rcases Nat.eq_zero_or_pos n with rfl | h0
    · simp [kdfFrom]
    · by_cases h : C.DS ≤ n
      · rw [kdfFrom_ge hC Z c n h, List.length_append, hC.len, ih (n - C.DS) (by omega)]
        omega
      · rw [kdfFrom_lt hC Z c n h0 (by omega), List.length_take, hC.len]
        omega

theorem store32be_eq (c : Nat) (h : c < 2 ^ 32) : MemUtil.store32be (BitVec.ofNat 32 c) = toBE 4 c := by
  have hv := (Props.C22_stores 0 (BitVec.ofNat 32 c) 0).2.2.1
  have hl : (MemUtil.store32be (BitVec.ofNat 32 c)).length = 4 := rfl
  rw [← toBE_beVal (MemUtil.store32be (BitVec.ofNat 32 c)), hl, hv, BitVec.toNat_ofNat, Nat.mod_eq_of_lt h]

/-- All octets are zero. -/
def allZ (l : List Byte) : Bool := l.all (· == 0)

theorem replicate_beq (l : List Byte) : (List.replicate l.length 0 == l) = allZ l := by
  induction l with
  | nil => rfl
  | cons a l ih =>
    simp only [List.length_cons, List.replicate_succ, allZ, List.all_cons]
    rw [List.cons_beq_cons, ih, Bool.beq_comm]
    congr 1

theorem allZ_append (a b : List Byte) : allZ (a ++ b) = (allZ a && allZ b) := List.all_append

theorem zipWith_comm_xor (a b : List Byte) : xorBytes a b = xorBytes b a := by
  unfold xorBytes
  rw [List.zipWith_comm]
  congr 1
  funext x y
  exact BitVec.xor_comm _ _

theorem kdfLoop_ok (hC : IsHash C H) (Z : List Byte) (hZ : 8 * (Z.length + 4) < 2 ^ 64) :
    ∀ (fuel : Nat) (c : Nat) (az : Bool) (inp out : List Byte), inp.length < fuel →
      c * C.DS + inp.length < C.DS * (2 ^ 32 - 1) →
      Sm2.kdfLoop C Z fuel (BitVec.ofNat 32 (c + 1)) az inp out =
        .ok (out ++ xorBytes inp (kdfFrom H C.DS Z c inp.length), az && allZ (kdfFrom H C.DS Z c inp.length)) := by
  have hp := hC.pos
  intro fuel
  induction fuel with
  | zero => intro c az inp out h; omega
  | succ fuel ih =>
    intro c az inp out hf hc
    have hc1 : c + 1 < 2 ^ 32 := by
      by_contra hcon
      have : (2 ^ 32 - 1) * C.DS ≤ c * C.DS := Nat.mul_le_mul_right _ (by omega)
      rw [mul_comm (2 ^ 32 - 1)] at this
      omega
    have hs : C.stream [Z] (MemUtil.store32be (BitVec.ofNat 32 (c + 1))) = .ok (H (Z ++ toBE 4 (c + 1))) := by
      rw [hC.stream, store32be_eq _ hc1, if_pos]
      · simp
      · simp only [List.flatten_cons, List.flatten_nil, List.append_nil, List.length_append, toBE_len]
        omega
    unfold Sm2.kdfLoop
    by_cases h : inp.length ≥ C.DS
    · rw [if_pos h, hs, o_bind]
      simp only
      rw [show BitVec.ofNat 32 (c + 1) + 1 = BitVec.ofNat 32 (c + 1 + 1) from (BitVec.ofNat_add ..).symm]
      rw [ih (c + 1) _ (inp.drop C.DS) _ (by rw [List.length_drop]; omega)
        (by rw [List.length_drop, Nat.add_mul]; omega)]
      rw [List.length_drop, kdfFrom_ge hC Z c inp.length h, allZ_append]
      have e1 : (List.replicate C.DS 0 == (H (Z ++ toBE 4 (c + 1))).take C.DS) = allZ (H (Z ++ toBE 4 (c + 1))) := by
        rw [List.take_of_length_le (by rw [hC.len]), ← replicate_beq, hC.len]
      have e2 : xorBytes inp (H (Z ++ toBE 4 (c + 1)) ++ kdfFrom H C.DS Z (c + 1) (inp.length - C.DS)) =
          xorBytes (inp.take C.DS) (H (Z ++ toBE 4 (c + 1))) ++
            xorBytes (inp.drop C.DS) (kdfFrom H C.DS Z (c + 1) (inp.length - C.DS)) := by
        conv_lhs => rw [← List.take_append_drop C.DS inp]
        unfold xorBytes
        rw [List.zipWith_append (by rw [hC.len, List.length_take]; omega)]
        simp
      rw [e1, e2, Bool.and_assoc, List.append_assoc]
    · rw [if_neg h]
      by_cases h0 : inp.length ≠ 0
      · rw [if_pos h0, hs, o_bind]
        simp only
        rw [kdfFrom_lt hC Z c inp.length (by omega) (by omega), zipWith_comm_xor]
        have e1 : (List.replicate inp.length 0 == (H (Z ++ toBE 4 (c + 1))).take inp.length) =
            allZ ((H (Z ++ toBE 4 (c + 1))).take inp.length) := by
          rw [← replicate_beq, List.length_take, hC.len, Nat.min_eq_left (by omega)]
        rw [e1]
      · rw [if_neg h0]
        push Not at h0
        have : inp = [] := List.eq_nil_of_length_eq_zero h0
        subst this
        simp [kdfFrom, allZ, xorBytes]

theorem kdfXor_ok (hC : IsHash C H) (Z inp : List Byte) (hZ : 8 * (Z.length + 4) < 2 ^ 64) :
    Sm2.kdfXor C inp Z =
      if inp.length ≥ C.DS * (2 ^ 32 - 1) then .throw
      else if inp ≠ [] ∧ (∀ b ∈ sm2Kdf H C.DS Z inp.length, b = 0) then .ok none
      else .ok (some (xorBytes inp (sm2Kdf H C.DS Z inp.length))) := by
  have e0 : sm2Kdf H C.DS Z inp.length = kdfFrom H C.DS Z 0 inp.length := by
    unfold sm2Kdf kdfFrom; simp
  have hp := hC.pos
  have hs := hC.small
  unfold Sm2.kdfXor
  rw [Nat.mod_eq_of_lt (by calc C.DS * (2 ^ 32 - 1) < 2 ^ 32 * (2 ^ 32 - 1) := Nat.mul_lt_mul_of_pos_right (by omega) (by decide)
      _ < 2 ^ 64 := by decide)]
  by_cases h : inp.length ≥ C.DS * (2 ^ 32 - 1)
  · rw [if_pos h, if_pos h]
  · rw [if_neg h, if_neg h]
    by_cases h0 : inp.length = 0
    · rw [if_pos h0]
      have : inp = [] := List.eq_nil_of_length_eq_zero h0
      subst this
      simp [xorBytes]
    · rw [if_neg h0]
      have hne : inp ≠ [] := fun h => h0 (by rw [h]; rfl)
      have := kdfLoop_ok hC Z hZ (inp.length + 1) 0 true inp [] (by omega) (by omega)
      rw [show (BitVec.ofNat 32 (0 + 1)) = 1 from rfl] at this
      rw [this, o_bind, ← e0]
      simp only [Bool.true_and, List.nil_append]
      by_cases hz : ∀ b ∈ sm2Kdf H C.DS Z inp.length, b = 0
      · have ha : allZ (sm2Kdf H C.DS Z inp.length) = true := by
          unfold allZ
          rw [List.all_eq_true]
          intro b hb
          rw [hz b hb]; rfl
        rw [if_pos ha, if_pos ⟨hne, hz⟩]
      · have ha : ¬ allZ (sm2Kdf H C.DS Z inp.length) = true := by
          intro h
          unfold allZ at h
          rw [List.all_eq_true] at h
          exact hz (fun b hb => by simpa using h b hb)
        rw [if_neg ha, if_neg (fun h => hz h.2)]

theorem sm2Kdf_len (hC : IsHash C H) (Z : List Byte) (n : Nat) : (sm2Kdf H C.DS Z n).length = n := by
  have e0 : sm2Kdf H C.DS Z n = kdfFrom H C.DS Z 0 n := by
    unfold sm2Kdf kdfFrom; simp
  rw [e0, kdfFrom_len hC]

end
end Verif
