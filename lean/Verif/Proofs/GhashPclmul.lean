import Verif.Model.GhashPclmul
import Verif.Proofs.Ghash2
/-!
# The carry-less multiplication backend of GHASH
-/
namespace Verif.GhashPclmul
open Verif.Spec Verif.Spec.GF128 Verif.Ghash Polynomial

attribute [local irreducible] modulus

/-! ## Bits of the vector operations -/

theorem lane_bit (w : Nat) (x : M128) (i k : Nat) :
    (lane w x i).getLsbD k = (decide (k < w) && x.getLsbD (w * i + k)) := by
  unfold lane; rw [BitVec.getLsbD_extractLsb']

theorem pack_bit_aux (w : Nat) (hw : 0 < w) (f : Nat → BitVec w) (n : Nat) (hn : w * n ≤ 128) (k : Nat) :
    ((List.range n).foldl (fun acc i => acc ||| ((f i).setWidth 128 <<< (w * i))) (0 : M128)).getLsbD k =
      (decide (k < w * n) && (f (k / w)).getLsbD (k % w)) := by
  induction n with
  | zero => simp
  | succ n ih =>
    rw [List.range_succ, List.foldl_append, List.foldl_cons, List.foldl_nil, BitVec.getLsbD_or,
      ih (by rw [Nat.mul_succ] at hn; omega), BitVec.getLsbD_shiftLeft, BitVec.getLsbD_setWidth]
    rw [Nat.mul_succ] at hn ⊢
    by_cases h1 : k < w * n
    · simp [h1, show k < w * n + w by omega]
    · by_cases h2 : k < w * n + w
      · have hd : k / w = n := by
          rw [Nat.div_eq_iff hw, Nat.mul_comm]; omega
        have hm : k % w = k - w * n := by
          have := Nat.div_add_mod k w; rw [hd] at this; omega
        rw [hd, hm]
        simp [h1, h2, show k < 128 by omega, show k - w * n < 128 by omega]
      · rw [BitVec.getLsbD_of_ge (f n) _ (by omega)]
        simp [h1, h2]

theorem pack_bit (w n : Nat) (hw : 0 < w) (h : w * n = 128) (f : Nat → BitVec w) (k : Nat) (hk : k < 128) :
    (pack w n f).getLsbD k = (f (k / w)).getLsbD (k % w) := by
  unfold pack
  rw [pack_bit_aux w hw f n h.le k, h]
  simp [hk]

theorem m_ext {a b : M128} (h : ∀ k, k < 128 → a.getLsbD k = b.getLsbD k) : a = b :=
  BitVec.eq_of_getLsbD_eq h

theorem pack_xor (w n : Nat) (hw : 0 < w) (h : w * n = 128) (f g : Nat → BitVec w) :
    pack w n (fun i => f i ^^^ g i) = pack w n f ^^^ pack w n g := by
  apply m_ext
  intro k hk
  rw [pack_bit w n hw h _ k hk, BitVec.getLsbD_xor, BitVec.getLsbD_xor, pack_bit w n hw h _ k hk, pack_bit w n hw h _ k hk]

theorem lane_xor (w : Nat) (a b : M128) (i : Nat) : lane w (a ^^^ b) i = lane w a i ^^^ lane w b i := by
  apply BitVec.eq_of_getLsbD_eq
  intro k hk
  rw [BitVec.getLsbD_xor, lane_bit, lane_bit, lane_bit, BitVec.getLsbD_xor]
  simp [hk]

theorem srli_xor (s : Nat) (a b : M128) : srliEpi32 (a ^^^ b) s = srliEpi32 a s ^^^ srliEpi32 b s := by
  unfold srliEpi32
  rw [← pack_xor 32 4 (by decide) rfl]
  congr 1; funext i
  rw [lane_xor, BitVec.ushiftRight_xor_distrib]

theorem slli_xor (s : Nat) (a b : M128) : slliEpi32 (a ^^^ b) s = slliEpi32 a s ^^^ slliEpi32 b s := by
  unfold slliEpi32
  rw [← pack_xor 32 4 (by decide) rfl]
  congr 1; funext i
  rw [lane_xor, BitVec.shiftLeft_xor_distrib]

theorem shuf_xor (imm : Nat) (a b : M128) : shuffleEpi32 (a ^^^ b) imm = shuffleEpi32 a imm ^^^ shuffleEpi32 b imm := by
  unfold shuffleEpi32
  rw [← pack_xor 32 4 (by decide) rfl]
  congr 1; funext i
  rw [lane_xor]

theorem and_xor (m a b : M128) : m &&& (a ^^^ b) = (m &&& a) ^^^ (m &&& b) := by
  apply m_ext
  intro k _
  simp only [BitVec.getLsbD_xor, BitVec.getLsbD_and]
  cases m.getLsbD k <;> simp

/-! ## Polynomials, least significant bit first -/

noncomputable def P {n : Nat} (v : BitVec n) : GF := ∑ i ∈ Finset.range n, if v.getLsbD i then x ^ i else 0

theorem P_xor {n : Nat} (a b : BitVec n) : P (a ^^^ b) = P a + P b := by
  unfold P
  rw [← Finset.sum_add_distrib]
  refine Finset.sum_congr rfl fun i _ => ?_
  rw [BitVec.getLsbD_xor]
  cases a.getLsbD i <;> cases b.getLsbD i <;> simp [add_self]

theorem P_zero {n : Nat} : P (0 : BitVec n) = 0 := by simp [P]

theorem P_halves (a : M128) : P a = P (lane 64 a 0) + x ^ 64 * P (lane 64 a 1) := by
  have e : P a = ∑ i ∈ Finset.range (64 + 64), if a.getLsbD i then x ^ i else 0 := rfl
  rw [e, Finset.sum_range_add]
  unfold P
  rw [Finset.mul_sum]
  refine congrArg₂ (· + ·) ?_ ?_
  · refine Finset.sum_congr rfl fun i hi => ?_
    have hi : i < 64 := Finset.mem_range.mp hi
    rw [lane_bit]; simp [hi]
  · refine Finset.sum_congr rfl fun i hi => ?_
    have hi : i < 64 := Finset.mem_range.mp hi
    rw [lane_bit]
    simp only [hi, decide_true, Bool.true_and, Nat.mul_one]
    split
    · rw [pow_add]
    · simp

theorem P_one (i : Nat) (hi : i < 128) : P ((1 : M128) <<< i) = x ^ i := by
  unfold P
  rw [Finset.sum_eq_single i]
  · have : ((1 : M128) <<< i).getLsbD i = true := by
      rw [BitVec.getLsbD_shiftLeft]
      simp [hi]
    rw [if_pos this]
  · intro j hj hne
    have hj : j < 128 := Finset.mem_range.mp hj
    have : ((1 : M128) <<< i).getLsbD j = false := by
      rw [BitVec.getLsbD_shiftLeft]
      by_cases h : j < i
      · simp [h]
      · have : j - i ≠ 0 := by omega
        simp [this, h, hj, BitVec.getLsbD_one]
    rw [this]; rfl
  · intro h; exact absurd (Finset.mem_range.mpr hi) h

/-- A 64-bit word moved up by at most 64 places loses nothing. -/
theorem P_shl (a : W64) (i : Nat) (hi : i ≤ 64) : P ((a.setWidth 128 : M128) <<< i) = x ^ i * P a := by
  unfold P
  rw [show 128 = i + (64 + (64 - i)) by omega, Finset.sum_range_add, Finset.sum_range_add, Finset.mul_sum]
  rw [Finset.sum_eq_zero (s := Finset.range i), Finset.sum_eq_zero (s := Finset.range (64 - i)), zero_add, add_zero]
  · refine Finset.sum_congr rfl fun k hk => ?_
    have hk : k < 64 := Finset.mem_range.mp hk
    rw [show (BitVec.setWidth (i + (64 + (64 - i))) a <<< i).getLsbD (i + k) = a.getLsbD k by
      rw [BitVec.getLsbD_shiftLeft, BitVec.getLsbD_setWidth]
      simp [show i + k < i + (64 + (64 - i)) by omega, show k < i + (64 + (64 - i)) by omega]]
    split
    · rw [pow_add]
    · simp
  · intro k hk
    rw [show (BitVec.setWidth (i + (64 + (64 - i))) a <<< i).getLsbD (i + (64 + k)) = false by
      rw [BitVec.getLsbD_shiftLeft, BitVec.getLsbD_setWidth, BitVec.getLsbD_of_ge a _ (by omega)]
      simp]
    rfl
  · intro k hk
    have hk : k < i := Finset.mem_range.mp hk
    rw [show (BitVec.setWidth (i + (64 + (64 - i))) a <<< i).getLsbD k = false by
      rw [BitVec.getLsbD_shiftLeft]; simp [hk]]
    rfl

theorem P_clmul (a b : W64) : P (clmul a b) = P a * P b := by
  have h : ∀ n, n ≤ 64 → P ((List.range n).foldl
      (fun acc i => if b.getLsbD i then acc ^^^ ((a.setWidth 128 : M128) <<< i) else acc) 0) =
      P a * ∑ i ∈ Finset.range n, if b.getLsbD i then x ^ i else 0 := by
    intro n
    induction n with
    | zero => intro _; simp [P]
    | succ n ih =>
      intro hn
      rw [List.range_succ, List.foldl_append, List.foldl_cons, List.foldl_nil, Finset.sum_range_succ, mul_add,
        ← ih (by omega)]
      split
      · rw [P_xor, P_shl a n (by omega)]; ring
      · simp
  exact h 64 (Nat.le_refl _)

/-! ## Linear maps are determined by the basis -/

theorem low_step (v : M128) (k : Nat) (hk : k < 128) :
    v &&& BitVec.ofNat 128 (2 ^ (k + 1) - 1) =
      (v &&& BitVec.ofNat 128 (2 ^ k - 1)) ^^^ (if v.getLsbD k then (1 : M128) <<< k else 0) := by
  apply m_ext
  intro j hj
  have hm : ∀ n, (BitVec.ofNat 128 (2 ^ n - 1)).getLsbD j = decide (j < n) := by
    intro n
    rw [BitVec.getLsbD_ofNat, Nat.testBit_two_pow_sub_one]; simp [hj]
  rw [BitVec.getLsbD_xor, BitVec.getLsbD_and, BitVec.getLsbD_and, hm, hm]
  have h1 : ((1 : M128) <<< k).getLsbD j = decide (j = k) := by
    rw [BitVec.getLsbD_shiftLeft]
    by_cases h : j < k
    · simp [h]; omega
    · by_cases e : j = k
      · subst e; simp [hj]
      · have : j - k ≠ 0 := by omega
        simp [this, h, hj, BitVec.getLsbD_one, e]
  have h2 : (if v.getLsbD k = true then (1 : M128) <<< k else 0).getLsbD j = (v.getLsbD k && decide (j = k)) := by
    split
    · rename_i h; rw [h1, h]; simp
    · rename_i h; simp at h; rw [h]; simp
  rw [h2]
  by_cases e : j = k
  · subst e; simp
  · have : (j < k + 1) ↔ (j < k) := by omega
    simp [e, this]

theorem linear_basis (f : M128 → GF) (hf : ∀ a b, f (a ^^^ b) = f a + f b) (v : M128) :
    f v = ∑ i ∈ Finset.range 128, if v.getLsbD i then f ((1 : M128) <<< i) else 0 := by
  have h0 : f 0 = 0 := by
    have := hf 0 0
    rw [BitVec.xor_self] at this
    have h2 := add_self (f 0)
    rw [← this] at h2; exact h2
  have h : ∀ n, n ≤ 128 → f (v &&& BitVec.ofNat 128 (2 ^ n - 1)) =
      ∑ i ∈ Finset.range n, if v.getLsbD i then f ((1 : M128) <<< i) else 0 := by
    intro n
    induction n with
    | zero => intro _; simp [show f 0#128 = 0 from h0]
    | succ n ih =>
      intro hn
      rw [low_step v n (by omega), hf, ih (by omega), Finset.sum_range_succ]
      split
      · rfl
      · rw [h0]
  have := h 128 (Nat.le_refl _)
  rwa [show BitVec.ofNat 128 (2 ^ 128 - 1) = BitVec.allOnes 128 by decide, BitVec.and_allOnes] at this

/-! ## The reduction -/

theorem reduce_split (a t : M128) : reduce a t = a ^^^ reduce 0 t := by
  unfold reduce
  simp only [BitVec.xor_assoc]
  rw [show ∀ v : M128, 0 ^^^ v = v from fun v => BitVec.zero_xor]

theorem reduce_xor (s t : M128) : reduce 0 (s ^^^ t) = reduce 0 s ^^^ reduce 0 t := by
  unfold reduce
  simp only [srli_xor, slli_xor, shuf_xor, and_xor]
  ac_rfl

/-- `x^j` for `j < 128`, and `x^j = x^(j-128)(x^7+x^2+x+1)` above. -/
def e (j : Nat) : M128 := if j < 128 then (1 : M128) <<< j else
  (1 : M128) <<< (j - 128) ^^^ (1 : M128) <<< (j - 127) ^^^ (1 : M128) <<< (j - 126) ^^^ (1 : M128) <<< (j - 121)

theorem P_e (j : Nat) (hj : j < 140) : P (e j) = x ^ j := by
  unfold e
  split
  · exact P_one j ‹_›
  · rw [P_xor, P_xor, P_xor, P_one _ (by omega), P_one _ (by omega), P_one _ (by omega), P_one _ (by omega)]
    obtain ⟨k, rfl⟩ : ∃ k, j = 128 + k := ⟨j - 128, by omega⟩
    rw [show 128 + k - 128 = k by omega, show 128 + k - 127 = k + 1 by omega, show 128 + k - 126 = k + 2 by omega,
      show 128 + k - 121 = k + 7 by omega]
    simp only [pow_add, x_pow_128]; ring

theorem reduce_basis : ∀ i : Fin 128, reduce 0 ((1 : M128) <<< i.val) = e i ^^^ e (i + 1) ^^^ e (i + 2) ^^^ e (i + 7) := by
  decide +kernel

theorem P_reduce (a t : M128) : P (reduce a t) = P a + x ^ 128 * P t := by
  rw [reduce_split, P_xor]
  congr 1
  rw [linear_basis (fun t => P (reduce 0 t)) (fun a b => by rw [reduce_xor, P_xor]) t]
  conv_rhs => unfold P
  rw [Finset.mul_sum]
  refine Finset.sum_congr rfl fun i hi => ?_
  have hi : i < 128 := Finset.mem_range.mp hi
  split
  · have := reduce_basis ⟨i, hi⟩
    simp only at this
    rw [this, P_xor, P_xor, P_xor, P_e _ (by omega), P_e _ (by omega), P_e _ (by omega), P_e _ (by omega), x_pow_128]
    ring
  · simp

/-! ## Multiplication -/

theorem swap_low (a : M128) : lane 64 (shuffleEpi32 a 78) 0 = lane 64 a 1 := by
  apply BitVec.eq_of_getLsbD_eq
  intro k hk
  rw [lane_bit, lane_bit]
  unfold shuffleEpi32
  rw [pack_bit 32 4 (by decide) rfl _ _ (by omega), lane_bit]
  simp only [hk, decide_true, Bool.true_and, Nat.mul_zero, Nat.zero_add, Nat.mul_one, Nat.mod_lt _ (show 0 < 32 by decide)]
  rcases (show k / 32 = 0 ∨ k / 32 = 1 by omega) with h | h
  · rw [h]; congr 1; norm_num; omega
  · rw [h]; congr 1; norm_num; omega

theorem P_shl64 (a : M128) : P (a <<< 64) = x ^ 64 * P (lane 64 a 0) := by
  rw [P_halves (a <<< 64)]
  have h0 : lane 64 (a <<< 64) 0 = 0 := by
    apply BitVec.eq_of_getLsbD_eq
    intro k hk
    rw [lane_bit, BitVec.getLsbD_shiftLeft]
    simp [hk]
  have h1 : lane 64 (a <<< 64) 1 = lane 64 a 0 := by
    apply BitVec.eq_of_getLsbD_eq
    intro k hk
    rw [lane_bit, lane_bit, BitVec.getLsbD_shiftLeft]
    simp [hk]; omega
  rw [h0, h1, P_zero, zero_add]

theorem P_shr64 (a : M128) : P (a >>> 64) = P (lane 64 a 1) := by
  rw [P_halves (a >>> 64)]
  have h0 : lane 64 (a >>> 64) 0 = lane 64 a 1 := by
    apply BitVec.eq_of_getLsbD_eq
    intro k hk
    rw [lane_bit, lane_bit, BitVec.getLsbD_ushiftRight]
    simp
  have h1 : lane 64 (a >>> 64) 1 = 0 := by
    apply BitVec.eq_of_getLsbD_eq
    intro k hk
    rw [lane_bit, BitVec.getLsbD_ushiftRight, BitVec.getLsbD_of_ge a _ (by omega)]
    simp
  rw [h0, h1, P_zero, mul_zero, add_zero]

theorem P_gfmul (a b : M128) : P (gfmul a b) = P a * P b := by
  unfold gfmul
  simp only
  rw [P_reduce, P_xor, P_xor, P_shl64, P_shr64]
  have k3 : P (clmulepi64 a b 0x00) = P (lane 64 a 0) * P (lane 64 b 0) := P_clmul _ _
  have k6 : P (clmulepi64 a b 0x11) = P (lane 64 a 1) * P (lane 64 b 1) := P_clmul _ _
  have k4 : P (clmulepi64 (shuffleEpi32 a 78 ^^^ a) (shuffleEpi32 b 78 ^^^ b) 0x00) =
      (P (lane 64 a 1) + P (lane 64 a 0)) * (P (lane 64 b 1) + P (lane 64 b 0)) := by
    unfold clmulepi64
    rw [P_clmul]
    simp only [Nat.zero_mod, Nat.zero_div, lane_xor, swap_low, P_xor]
  generalize clmulepi64 (shuffleEpi32 a 78 ^^^ a) (shuffleEpi32 b 78 ^^^ b) 0x00 = t4 at *
  have hh := P_halves (t4 ^^^ clmulepi64 a b 0x00 ^^^ clmulepi64 a b 0x11)
  rw [P_xor, P_xor, k3, k4, k6] at hh
  rw [k3, k6, P_halves a, P_halves b]
  have two : ∀ z : GF, z + z = 0 := add_self
  have e1 : x ^ 128 = x ^ 64 * x ^ 64 := by rw [← pow_add]
  have hh2 := congrArg (x ^ 64 * ·) hh
  rw [e1]
  have t1 := two (x ^ 64 * (P (lane 64 a 0) * P (lane 64 b 0)))
  have t2 := two (x ^ 64 * (P (lane 64 a 1) * P (lane 64 b 1)))
  linear_combination t1 + t2 - hh2


/-! ## Reflection -/

def maskF : M128 := setEpi32 0x0f0f0f0f 0x0f0f0f0f 0x0f0f0f0f 0x0f0f0f0f
def lowT : M128 := setEpi32 0x0f070b03 0x0d050901 0x0e060a02 0x0c040800
def highT : M128 := setEpi32 0xf070b030 0xd0509010 0xe060a020 0xc0408000

theorem maskF_bit : ∀ j : Fin 128, maskF.getLsbD j.val = decide (j.val % 8 < 4) := by decide +kernel

/-- The two table look-ups reverse a byte. -/
theorem tables_reverse : ∀ b : BitVec 8,
    (if (b &&& 0x0f).getLsbD 7 then 0 else lane 8 highT ((b &&& 0x0f).toNat % 16)) ^^^
      (if (b >>> 4).getLsbD 7 then 0 else lane 8 lowT ((b >>> 4).toNat % 16)) = b.reverse := by decide +kernel

theorem lane_pack (w n : Nat) (hw : 0 < w) (h : w * n = 128) (f : Nat → BitVec w) (i : Nat) (hi : i < n) :
    lane w (pack w n f) i = f i := by
  apply BitVec.eq_of_getLsbD_eq
  intro k hk
  have hb : w * i + k < 128 := by
    rw [← h]
    calc w * i + k < w * i + w := by omega
      _ = w * (i + 1) := by rw [Nat.mul_succ]
      _ ≤ w * n := Nat.mul_le_mul_left w hi
  rw [lane_bit, pack_bit w n hw h f _ hb, Nat.mul_add_div hw, Nat.div_eq_of_lt hk, Nat.mul_add_mod, Nat.mod_eq_of_lt hk]
  simp [hk]

theorem low_nibble (X : M128) (i : Nat) (hi : i < 16) : lane 8 (X &&& maskF) i = lane 8 X i &&& 0x0f := by
  apply BitVec.eq_of_getLsbD_eq
  intro k hk
  have hm := maskF_bit ⟨8 * i + k, by omega⟩
  simp only at hm
  have hf : ∀ j : Fin 8, (0x0f#8).getLsbD j.val = decide (j.val < 4) := by decide
  have := hf ⟨k, hk⟩
  simp only at this
  rw [lane_bit, BitVec.getLsbD_and, BitVec.getLsbD_and, lane_bit, hm, show (0x0f : BitVec 8) = 0x0f#8 from rfl, this,
    Nat.mul_add_mod, Nat.mod_eq_of_lt hk]
  simp [hk]

theorem high_nibble (X : M128) (i : Nat) (hi : i < 16) : lane 8 (srliEpi16 X 4 &&& maskF) i = lane 8 X i >>> 4 := by
  apply BitVec.eq_of_getLsbD_eq
  intro k hk
  have hm := maskF_bit ⟨8 * i + k, by omega⟩
  simp only at hm
  rw [lane_bit, BitVec.getLsbD_and, BitVec.getLsbD_ushiftRight, lane_bit, hm, Nat.mul_add_mod, Nat.mod_eq_of_lt hk]
  unfold srliEpi16
  rw [pack_bit 16 8 (by decide) rfl _ _ (by omega), BitVec.getLsbD_ushiftRight, lane_bit]
  by_cases h4 : k < 4
  · have e1 : 16 * ((8 * i + k) / 16) + (4 + (8 * i + k) % 16) = 8 * i + (4 + k) := by omega
    have e2 : 4 + (8 * i + k) % 16 < 16 := by omega
    rw [e1]
    simp [hk, h4, e2, show 4 + k < 8 by omega]
  · simp [h4, show ¬ (4 + k < 8) by omega]

theorem lane_reflect (X : M128) (i : Nat) (hi : i < 16) : lane 8 (reflectXmm X) i = (lane 8 X i).reverse := by
  have h : reflectXmm X = shuffleEpi8 highT (X &&& maskF) ^^^ shuffleEpi8 lowT (srliEpi16 X 4 &&& maskF) := rfl
  rw [h, lane_xor, shuffleEpi8, shuffleEpi8, lane_pack 8 16 (by decide) rfl _ i hi, lane_pack 8 16 (by decide) rfl _ i hi,
    low_nibble X i hi, high_nibble X i hi]
  exact tables_reverse (lane 8 X i)

theorem P_bytes (v : M128) : P v = ∑ j ∈ Finset.range 16, x ^ (8 * j) * P (lane 8 v j) := by
  have h : ∀ n, n ≤ 16 → (∑ i ∈ Finset.range (8 * n), if v.getLsbD i then x ^ i else 0) =
      ∑ j ∈ Finset.range n, x ^ (8 * j) * P (lane 8 v j) := by
    intro n
    induction n with
    | zero => intro _; simp
    | succ n ih =>
      intro hn
      rw [Nat.mul_succ, Finset.sum_range_add, ih (by omega), Finset.sum_range_succ (fun j => x ^ (8 * j) * P (lane 8 v j))]
      congr 1
      unfold P
      rw [Finset.mul_sum]
      refine Finset.sum_congr rfl fun k hk => ?_
      have hk : k < 8 := Finset.mem_range.mp hk
      rw [lane_bit]
      simp only [hk, decide_true, Bool.true_and]
      split
      · rw [pow_add]
      · simp
  exact h 16 (Nat.le_refl _)

theorem P_reverse (b : BitVec 8) : P b.reverse = ofByte b := by
  unfold P ofByte
  refine Finset.sum_congr rfl fun i _ => ?_
  rw [BitVec.getLsbD_reverse]

theorem ofByte_reverse (b : BitVec 8) : ofByte b.reverse = P b := by
  unfold P ofByte
  refine Finset.sum_congr rfl fun i _ => ?_
  rw [BitVec.getMsbD_reverse]

theorem ofBytes_sum (f : Nat → BitVec 8) (n : Nat) :
    ofBytes ((List.range n).map f) = ∑ j ∈ Finset.range n, x ^ (8 * j) * ofByte (f j) := by
  induction n with
  | zero => rfl
  | succ n ih =>
    rw [List.range_succ, List.map_append, ofBytes_append, ih, Finset.sum_range_succ, List.length_map, List.length_range]
    simp [ofBytes]

theorem P_load (b rest : List Byte) (hb : b.length = 16) : P (reflectXmm (loadu (b ++ rest))) = ofBytes b := by
  have hl : b = (List.range 16).map fun i => (b ++ rest).getD i 0 := by
    apply List.ext_getElem
    · simp [hb]
    · intro i h1 h2
      rw [List.getElem_map, List.getElem_range, List.getD_eq_getElem?_getD, List.getElem?_append_left h1,
        List.getElem?_eq_getElem h1]
      rfl
  conv_rhs => rw [hl]
  rw [P_bytes, ofBytes_sum]
  refine Finset.sum_congr rfl fun j hj => ?_
  have hj : j < 16 := Finset.mem_range.mp hj
  rw [lane_reflect _ j hj, P_reverse, loadu, lane_pack 8 16 (by decide) rfl _ j hj]

theorem ofBytes_store (s : M128) : ofBytes (storeu (reflectXmm s)) = P s := by
  unfold storeu
  rw [ofBytes_sum, P_bytes s]
  refine Finset.sum_congr rfl fun j hj => ?_
  rw [lane_reflect _ j (Finset.mem_range.mp hj), ofByte_reverse]

theorem store_len (s : M128) : (storeu s).length = 16 := by simp [storeu]

/-! ## Simulation of the table backend -/

def Sim (c : Ctx) (d : Ghash.Ctx) : Prop :=
  ∃ H : List Byte, H.length = 16 ∧ d.T = Ghash.lutTable H ∧ P c.H = ofBytes H ∧ P c.state = pp d.state

theorem sim_init (H : List Byte) (h : H.length = 16) : Sim (ghashInit H) (Ghash.ghashInit H) := by
  refine ⟨H, h, by simp only [Ghash.ghashInit], ?_, ?_⟩
  · have := P_load H [] h
    rwa [List.append_nil] at this
  · show P (0 : M128) = pp ((0, 0) : Ghash.Pair)
    rw [P_zero, pp, p64_zero]; ring

theorem sim_reset {c d} (h : Sim c d) : Sim (ghashReset c) (Ghash.ghashReset d) := by
  obtain ⟨H, h1, h2, h3, _⟩ := h
  refine ⟨H, h1, h2, h3, ?_⟩
  show P (0 : M128) = pp ((0, 0) : Ghash.Pair)
  rw [P_zero, pp, p64_zero]; ring

theorem sim_update (n : Nat) : ∀ (inp : List Byte) (c : Ctx) (d : Ghash.Ctx), 16 * n ≤ inp.length → Sim c d →
    Sim (updateBlocks c inp n) (Ghash.updateBlocks d inp n) := by
  induction n with
  | zero => intro _ _ _ _ h; exact h
  | succ n ih =>
    intro inp c d hl h
    obtain ⟨H, h1, h2, h3, h4⟩ := h
    rw [updateBlocks, Ghash.updateBlocks]
    apply ih _ _ _ (by rw [List.length_drop]; omega)
    refine ⟨H, h1, h2, h3, ?_⟩
    have ht : (inp.take 16).length = 16 := by rw [List.length_take]; omega
    show P (gfmul (c.state ^^^ reflectXmm (loadu inp)) c.H) = pp (gmulBlock d.T d.state inp)
    rw [h2, P_gfmul, P_xor, gmulBlock_spec, h3, h4, pp_load' H h1]
    have e1 := P_load (inp.take 16) (inp.drop 16) ht
    have e2 := pp_load (inp.take 16) (inp.drop 16) ht
    rw [List.take_append_drop] at e1 e2
    rw [e1, e2]

theorem sim_digest {c : Ctx} {d : Ghash.Ctx} (h : Sim c d) :
    storeu (reflectXmm c.state) = Sm3.memStore64BE d.state.1 ++ Sm3.memStore64BE d.state.2 := by
  obtain ⟨H, h1, h2, h3, h4⟩ := h
  apply ofBytes_inj _ _ (store_len _) rfl
  rw [ofBytes_store, pp_store, h4]

/-! ## Simulation of the object -/

def ObjSim (h : HashObj Ctx) (g : HashObj Ghash.Ctx) : Prop := h.buf = g.buf ∧ Sim h.st g.st

theorem sim_setKey {h : HashObj Ctx} {g : HashObj Ghash.Ctx} (hb : h.buf = g.buf) (H : List Byte) (hH : H.length = 16) :
    ObjSim (setKey h H) (Ghash.setKey g H) := by
  unfold setKey Ghash.setKey
  refine ⟨hb, ?_⟩
  dsimp only
  exact sim_init H hH

/-- The same outcome, with related results. -/
def OutSim {α β : Type} (R : α → β → Prop) : Outcome α → Outcome β → Prop
  | .ok a, .ok b => R a b
  | .throw, .throw => True
  | .ub, .ub => True
  | _, _ => False

theorem OutSim.bind {α β γ δ : Type} {R : α → β → Prop} {Q : γ → δ → Prop} {a : Outcome α} {b : Outcome β}
    {f : α → Outcome γ} {g : β → Outcome δ} (h : OutSim R a b) (hf : ∀ x y, R x y → OutSim Q (f x) (g y)) :
    OutSim Q (a >>= f) (b >>= g) := by
  cases a <;> cases b <;> first | exact h.elim | trivial | exact hf _ _ h

theorem sim_absorb {c : Ctx} {d : Ghash.Ctx} (h : Sim c d) (inp : List Byte) (n : Nat) :
    OutSim ObjSim (hashAbsorb 16 impl c inp n) (hashAbsorb 16 Ghash.impl d inp n) := by
  unfold hashAbsorb
  by_cases hl : inp.length < n * 16
  · rw [if_pos hl, if_pos hl]; trivial
  · rw [if_neg hl, if_neg hl]
    have hs := sim_update n inp c d (by omega) h
    refine OutSim.bind (R := Sim) hs ?_
    intro a b hab
    dsimp only
    split
    · exact ⟨rfl, hab⟩
    · unfold memcpyBuf
      split
      · exact ⟨rfl, hab⟩
      · trivial

theorem sim_hashUpdate {h : HashObj Ctx} {g : HashObj Ghash.Ctx} (hs : ObjSim h g) (inp : List Byte) :
    OutSim ObjSim (hashUpdate 16 impl h inp) (hashUpdate 16 Ghash.impl g inp) := by
  obtain ⟨hb, hs⟩ := hs
  unfold hashUpdate
  rw [hb]
  by_cases h0 : inp.length = 0
  · rw [if_pos h0, if_pos h0]; exact ⟨hb, hs⟩
  rw [if_neg h0, if_neg h0]
  by_cases h1 : g.buf.length = 0
  · rw [if_pos h1, if_pos h1]; exact sim_absorb hs _ _
  rw [if_neg h1, if_neg h1]
  dsimp only
  generalize (if 16 - g.buf.length > inp.length then inp.length else 16 - g.buf.length) = size
  have hm : OutSim (fun a b : List Byte => a = b) (memcpyBuf 16 g.buf (inp.take size)) (memcpyBuf 16 g.buf (inp.take size)) := by
    unfold memcpyBuf; split <;> trivial
  refine OutSim.bind hm ?_
  rintro a b rfl
  by_cases h2 : a.length = 16
  · rw [if_pos h2, if_pos h2]
    refine OutSim.bind (R := Sim) (sim_update 1 a h.st g.st (by omega) hs) ?_
    intro c d hcd
    split
    · exact ⟨rfl, hcd⟩
    · exact sim_absorb hcd _ _
  · rw [if_neg h2, if_neg h2]; exact ⟨rfl, hs⟩

theorem sim_hashFinal {h : HashObj Ctx} {g : HashObj Ghash.Ctx} (hs : ObjSim h g) (inp : List Byte) :
    OutSim (fun a b => ObjSim a.1 b.1 ∧ a.2 = b.2) (hashFinal 16 impl h inp) (hashFinal 16 Ghash.impl g inp) := by
  unfold hashFinal
  refine OutSim.bind (sim_hashUpdate hs inp) ?_
  intro a b hab
  have hf : OutSim (fun r q : _ × List Byte => Sim r.1 q.1 ∧ r.2 = q.2) (impl.finalBlock a.st a.buf)
      (Ghash.impl.finalBlock b.st b.buf) := by
    show OutSim _ (finalBlock a.st a.buf) (Ghash.finalBlock b.st b.buf)
    unfold finalBlock Ghash.finalBlock
    rw [hab.1]
    by_cases h0 : b.buf.length ≠ 0
    · rw [if_pos h0, if_pos h0]; trivial
    · rw [if_neg h0, if_neg h0]; exact ⟨hab.2, sim_digest hab.2⟩
  refine OutSim.bind hf ?_
  intro r q hrq
  exact ⟨⟨hab.1, hrq.1⟩, hrq.2⟩

end Verif.GhashPclmul
