import Verif.Proofs.NumMemX64
import Verif.Props.NumMem
import Verif.Props.NumberX64
/-!
# Property C100 for the 64-bit build: the integer functions on arrays that overlap

The statements of `Props/NumMem.lean` about the programs of mpz_x64.cpp and uint256_x64.cpp.
-/
namespace Verif.X64.Props
open Verif Verif.X64 Verif.NumMem
open Verif.Spec (val beVal)
open Verif.Props (Fits)

/-! ## Addition and subtraction -/

/-- **C100 (64-bit limbs)** `mpz_add_carry` and `mpz_sub_borrow` of any number of words are exact for every placement of
the result that fits both operands, and they change nothing else. -/
theorem C100_x64_mpz_add_sub (n : Nat) (hn : 0 < n) (r a b : Nat) (ha : Fits r a n) (hb : Fits r b n)
    (m : Verif.NumMem.Mem 64) :
    (∀ c : CInt, c = 0 ∨ c = 1 →
      val (words (X64.NumMem.mpzAdd n r a b c m).1 r n) +
          2 ^ (64 * n) * (X64.NumMem.mpzAdd n r a b c m).2.toNat =
        val (words m a n) + val (words m b n) + c.toNat ∧ Same m (X64.NumMem.mpzAdd n r a b c m).1 r n) ∧
    (∀ c : CInt, c = 0 ∨ c = -1 →
      (val (words (X64.NumMem.mpzSub n r a b c m).1 r n) : Int) +
          2 ^ (64 * n) * (X64.NumMem.mpzSub n r a b c m).2.toInt =
        val (words m a n) - val (words m b n) + c.toInt ∧ Same m (X64.NumMem.mpzSub n r a b c m).1 r n) := by
  refine ⟨fun c hc => ?_, fun c hc => ?_⟩
  · obtain ⟨h1, h2, h3⟩ := chain_spec X64.NumMem.addStep n r (.mem a) (.mem b) (c.setWidth 8) m ha hb
    have h := (C30_x64_mpz_add n hn _ _ (words_len m a n) (words_len m b n) c hc).2.1
    unfold X64.mpzAddCarry at h
    rw [if_neg (by omega), List.take_of_length_le (by simp), List.take_of_length_le (by simp)] at h
    rw [X64.NumMem.vloop_add, Opd.words_mem, Opd.words_mem] at h1 h2
    unfold X64.NumMem.mpzAdd
    rw [if_neg (by omega)]
    simp only
    rw [h1, h2]
    exact ⟨h, h3⟩
  · obtain ⟨h1, h2, h3⟩ := chain_spec X64.NumMem.subStep n r (.mem a) (.mem b) ((-c).setWidth 8) m ha hb
    have h := (C30_x64_mpz_sub n hn _ _ (words_len m a n) (words_len m b n) c hc).2.1
    unfold X64.mpzSubBorrow at h
    rw [if_neg (by omega), List.take_of_length_le (by simp), List.take_of_length_le (by simp)] at h
    rw [X64.NumMem.vloop_sub, Opd.words_mem, Opd.words_mem] at h1 h2
    unfold X64.NumMem.mpzSub
    rw [if_neg (by omega)]
    simp only
    rw [h1, h2]
    exact ⟨h, h3⟩

example : words (X64.NumMem.mpzAdd 3 10 10 11 1 (fun x => BitVec.ofNat 64 (2 ^ 64 - 1 - x))).1 10 3 =
    [0xFFFFFFFFFFFFFFEA, 0xFFFFFFFFFFFFFFE8, 0xFFFFFFFFFFFFFFE6] := by decide +kernel

/-- **C100 (64-bit limbs)** The condition on the placement is the exact one for addition. -/
theorem C100_x64_mpz_add_exact (n : Nat) (hn : 0 < n) (r a b : Nat) :
    (∀ m : Verif.NumMem.Mem 64, val (words (X64.NumMem.mpzAdd n r a b 0 m).1 r n) +
        2 ^ (64 * n) * (X64.NumMem.mpzAdd n r a b 0 m).2.toNat =
      val (words m a n) + val (words m b n)) ↔ Fits r a n ∧ Fits r b n := by
  constructor
  · intro h
    by_contra hc
    obtain ⟨d, hd, hne⟩ := bad_add X64.NumMem.addStep (0 : Byte) (by decide +kernel) (by decide +kernel)
      (by decide +kernel) (by decide +kernel) n r a b hc
    have h1 := h ones
    unfold X64.NumMem.mpzAdd at h1
    rw [if_neg (by omega), words_ones, words_ones] at h1
    exact hne (all_two (by decide) n r _ _ h1 d hd)
  · rintro ⟨ha, hb⟩ m
    exact ((C100_x64_mpz_add_sub n hn r a b ha hb m).1 0 (Or.inl rfl)).1

/-- **C100 (64-bit limbs)** For subtraction too, but for the difference of an array and itself, which is right
everywhere. -/
theorem C100_x64_mpz_sub_exact (n : Nat) (hn : 0 < n) (r a b : Nat) :
    (∀ m : Verif.NumMem.Mem 64, (val (words (X64.NumMem.mpzSub n r a b 0 m).1 r n) : Int) +
        2 ^ (64 * n) * (X64.NumMem.mpzSub n r a b 0 m).2.toInt =
      val (words m a n) - val (words m b n)) ↔ a = b ∨ (Fits r a n ∧ Fits r b n) := by
  constructor
  · intro h
    by_contra hc
    rw [not_or] at hc
    obtain ⟨d, hd, hne⟩ := bad_sub X64.NumMem.subStep (0 : Byte) (by decide +kernel) (by decide +kernel)
      (by decide +kernel) n r a b hc.1 hc.2
    have h1 := h ones
    unfold X64.NumMem.mpzSub at h1
    rw [if_neg (by omega), words_ones, words_ones, Int.sub_self] at h1
    exact hne (all_zero n r _ _ h1 d hd)
  · rintro (rfl | ⟨ha, hb⟩) m
    · have h0 := chain_self X64.NumMem.subStep (0 : Byte) X64.NumMem.subStep_self n r a m
      have hz : (-(0 : CInt)).setWidth 8 = (0 : Byte) := by decide
      unfold X64.NumMem.mpzSub
      rw [if_neg (by omega)]
      simp only [hz]
      rw [h0.1, h0.2, val_replicate_zero]
      simp
    · have := ((C100_x64_mpz_add_sub n hn r a b ha hb m).2 0 (Or.inl rfl)).1
      simpa using this

/-- **C100 (64-bit limbs)** The `uint256_*` functions that run through the words from the bottom up. -/
theorem C100_x64_uint256 (r a b : Nat) (ha : Fits r a 4) (hb : Fits r b 4) (d : W64) (m : Verif.NumMem.Mem 64) :
    (val (words (X64.NumMem.add r (.mem a) (.mem b) m).1 r 4) +
        2 ^ 256 * (X64.NumMem.add r (.mem a) (.mem b) m).2.toNat = val (words m a 4) + val (words m b 4) ∧
      Same m (X64.NumMem.add r (.mem a) (.mem b) m).1 r 4) ∧
    ((val (words (X64.NumMem.sub r (.mem a) (.mem b) m).1 r 4) : Int) +
        2 ^ 256 * (X64.NumMem.sub r (.mem a) (.mem b) m).2.toInt = val (words m a 4) - val (words m b 4) ∧
      Same m (X64.NumMem.sub r (.mem a) (.mem b) m).1 r 4) ∧
    (val (words (X64.NumMem.dbl r a m).1 r 4) + 2 ^ 256 * (X64.NumMem.dbl r a m).2.toNat = 2 * val (words m a 4) ∧
      Same m (X64.NumMem.dbl r a m).1 r 4) ∧
    (val (words (X64.NumMem.tpl r a m).1 r 4) + 2 ^ 256 * (X64.NumMem.tpl r a m).2.toNat = 3 * val (words m a 4) ∧
      Same m (X64.NumMem.tpl r a m).1 r 4) ∧
    (val (words (X64.NumMem.addWord r a d m).1 r 4) + 2 ^ 256 * (X64.NumMem.addWord r a d m).2.toNat =
        val (words m a 4) + d.toNat ∧ Same m (X64.NumMem.addWord r a d m).1 r 4) ∧
    ((val (words (X64.NumMem.subWord r a d m).1 r 4) : Int) + 2 ^ 256 * (X64.NumMem.subWord r a d m).2.toInt =
        val (words m a 4) - d.toNat ∧ Same m (X64.NumMem.subWord r a d m).1 r 4) ∧
    (val (words (X64.NumMem.mulWord r a d m).1 r 4) + 2 ^ 256 * (X64.NumMem.mulWord r a d m).2.toNat =
        val (words m a 4) * d.toNat ∧ Same m (X64.NumMem.mulWord r a d m).1 r 4) := by
  have la := words_len m a 4
  have lb := words_len m b 4
  obtain ⟨x1, x2, x3, _⟩ := C31_x64_add_dbl_tpl (words m a 4) (words m b 4) la lb
  obtain ⟨_, x4, _⟩ := C31_x64_sub (words m a 4) (words m b 4) la lb
  obtain ⟨x5, x6, x7, _⟩ := C31_x64_word_ops (words m a 4) d la
  have hlit : (Opd.lit [d]).words m 4 = d :: List.replicate 3 0 := by
    rw [Opd.words, Opd.tl, List.tail_cons, Opd.words_nil]; rfl
  refine ⟨?_, ?_, ?_, ?_, ?_, ?_, ?_⟩
  · obtain ⟨h1, h2, h3⟩ := X64.NumMem.addC_eq 4 r (.mem a) (.mem b) m ha hb
    unfold X64.NumMem.add
    simp only
    rw [h1, h2, Opd.words_mem, Opd.words_mem]
    exact ⟨x1, h3⟩
  · obtain ⟨h1, h2, h3⟩ := X64.NumMem.subC_eq 4 r (.mem a) (.mem b) m ha hb
    unfold X64.NumMem.sub
    simp only
    rw [h1, h2, Opd.words_mem, Opd.words_mem]
    exact ⟨x4, h3⟩
  · obtain ⟨h1, h2, h3⟩ := X64.NumMem.addC_eq 4 r (.mem a) (.mem a) m ha ha
    unfold X64.NumMem.dbl X64.NumMem.add
    simp only
    rw [h1, h2, Opd.words_mem]
    exact ⟨x2, h3⟩
  · have lt : (addLoop (words m a 4) (words m a 4) 0).1.length = 4 := by
      rw [addLoop_len _ _ _ rfl, words_len]
    obtain ⟨h1, h2, h3⟩ := X64.NumMem.addC_eq 4 r (.mem a) (.lit (addLoop (words m a 4) (words m a 4) 0).1) m ha trivial
    rw [Opd.words_mem, X64.NumMem.words_lit_take m 4 _ (by omega), List.take_of_length_le (by omega)] at h1 h2
    unfold X64.NumMem.tpl
    simp only
    rw [h1, h2]
    exact ⟨x3, h3⟩
  · obtain ⟨h1, h2, h3⟩ := X64.NumMem.addC_eq 4 r (.mem a) (.lit [d]) m ha trivial
    unfold X64.NumMem.addWord X64.NumMem.add
    simp only
    rw [h1, h2, Opd.words_mem, hlit]
    exact ⟨x5, h3⟩
  · obtain ⟨h1, h2, h3⟩ := X64.NumMem.subC_eq 4 r (.mem a) (.lit [d]) m ha trivial
    unfold X64.NumMem.subWord X64.NumMem.sub
    simp only
    rw [h1, h2, Opd.words_mem, hlit]
    exact ⟨x7, h3⟩
  · obtain ⟨h1, h2, h3⟩ := X64.NumMem.mulWord_eq r a d m ha
    rw [h1, h2]
    exact ⟨x6, h3⟩

example : words (X64.NumMem.mulWord 5 6 3 (fun x => BitVec.ofNat 64 (x * 0x3000000000000000))).1 5 4 =
    [0x6000000000000000, 0xF000000000000000, 0x8000000000000000, 0x1000000000000001] := by
  decide +kernel

/-- **C100 (64-bit limbs)** `uint256_div_uint64` runs from the top down: the quotient may be the dividend or begin above
it. -/
theorem C100_x64_div_word (q a : Nat) (h : a ≤ q ∨ q + 4 ≤ a) (d : W64) (hd : d ≠ 0) (m : Verif.NumMem.Mem 64) :
    ∃ m' rem, X64.NumMem.divWord q a d m = some (m', rem) ∧ val (words m' q 4) = val (words m a 4) / d.toNat ∧
      rem.toNat = val (words m a 4) % d.toNat ∧ Same m m' q 4 := by
  obtain ⟨h1, h2, h3⟩ := down_spec (X64.NumMem.divStep d) 4 q a 0 m h
  obtain ⟨qs, rem, e1, _, e2, e3⟩ := C31_x64_div_word (words m a 4) d hd
  unfold X64.u256DivWord at e1
  rw [if_neg hd] at e1
  simp only [Option.some.injEq, Prod.mk.injEq] at e1
  rw [X64.NumMem.vdown_div] at h1 h2
  refine ⟨_, (down (X64.NumMem.divStep d) 4 q a 0 m).2, ?_, ?_, ?_, h3⟩
  · unfold X64.NumMem.divWord; rw [if_neg hd]
  · rw [h2, e1.1, e2]
  · rw [h1, e1.2, e3]

example : (X64.NumMem.divWord 3 3 0x10 (fun x => BitVec.ofNat 64 x)).map (fun s => (words s.1 3 4, s.2)) =
    some ([0x4000000000000000, 0x5000000000000000, 0x6000000000000000, 0], 3) := by
  decide +kernel

/-! ## Multiplication -/

/-- **C100 (64-bit limbs)** `mpz_mul` of any number of words, and `uint256_mul`, which goes through its words in another
order: exact when the product lies apart from the operands, when the multiplicand is the upper half of the product or
begins above it, and when the multiplier begins at the last word of the product.  Missing: the product stored over an
operand, see `C100_x64_mul_in_place_violated`. -/
theorem C100_x64_mul_partial (m : Verif.NumMem.Mem 64) (r a b : Nat) :
    (∀ n, (a + n ≤ r ∨ r + 2 * n ≤ a + 1) → (b + n ≤ r ∨ r + n ≤ b) →
      val (words (X64.NumMem.mpzMul n r a b m) r (2 * n)) = val (words m a n) * val (words m b n) ∧
      Same m (X64.NumMem.mpzMul n r a b m) r (2 * n)) ∧
    ((a + 4 ≤ r ∨ r + 8 ≤ a + 1) → (b + 4 ≤ r ∨ r + 4 ≤ b) →
      val (words (X64.NumMem.mul r a b m) r 8) = val (words m a 4) * val (words m b 4) ∧
      Same m (X64.NumMem.mul r a b m) r 8) := by
  refine ⟨fun n ha hb => ?_, fun ha hb => ?_⟩
  · obtain ⟨h1, h2⟩ := X64.NumMem.mpzMul_eq n r a b m ha hb
    refine ⟨?_, h2⟩
    rw [h1]
    rcases Nat.eq_zero_or_pos n with rfl | hn
    · rfl
    · exact (C30_x64_mpz_mul n hn _ _ (words_len m a n) (words_len m b n)).2
  · obtain ⟨h1, h2⟩ := X64.NumMem.mul_eq r a b m ha hb
    refine ⟨?_, h2⟩
    rw [h1]
    exact (C31_x64_mul_sqr _ _ (words_len m a 4) (words_len m b 4)).1

example : (0 + 4 ≤ 4 ∨ 4 + 8 ≤ 0 + 1) ∧ (8 + 4 ≤ 4 ∨ 4 + 4 ≤ 8) := by decide

/-- **C100 is violated** in the 64-bit build too: a product stored over its multiplier, or over its multiplicand, is
wrong. -/
theorem C100_x64_mul_in_place_violated :
    ¬ (∀ m : Verif.NumMem.Mem 64, val (words (X64.NumMem.mul 0 0 100 m) 0 8) = val (words m 0 4) * val (words m 100 4)) ∧
    ¬ (∀ m : Verif.NumMem.Mem 64, val (words (X64.NumMem.mul 0 100 0 m) 0 8) = val (words m 100 4) * val (words m 0 4)) ∧
    ¬ (∀ m : Verif.NumMem.Mem 64, val (words (X64.NumMem.sqr 0 0 m) 0 8) = val (words m 0 4) ^ 2) := by
  refine ⟨fun h => ?_, fun h => ?_, fun h => ?_⟩
  · exact absurd (h (fun _ => 3)) (by decide +kernel)
  · exact absurd (h (fun _ => 3)) (by decide +kernel)
  · exact absurd (h (fun _ => 3)) (by decide +kernel)

/-- **C100 (64-bit limbs)** No other placement is right for `uint256_mul`. -/
theorem C100_x64_mul_placement_exact :
    (∀ a, (∀ m : Verif.NumMem.Mem 64,
        val (words (X64.NumMem.mul 8 a 100 m) 8 8) = val (words m a 4) * val (words m 100 4)) →
      a + 4 ≤ 8 ∨ 8 + 8 ≤ a + 1) ∧
    (∀ b, (∀ m : Verif.NumMem.Mem 64,
        val (words (X64.NumMem.mul 8 100 b m) 8 8) = val (words m 100 4) * val (words m b 4)) →
      b + 4 ≤ 8 ∨ 8 + 4 ≤ b) := by
  have h1 : ∀ k : Fin 10, val (words (X64.NumMem.mul 8 (5 + k) 100 (fun _ => 3)) 8 8) ≠
      val (words (fun _ => (3 : W64)) (5 + k) 4) * val (words (fun _ => (3 : W64)) 100 4) := by decide +kernel
  have h2 : ∀ k : Fin 7, val (words (X64.NumMem.mul 8 100 (5 + k) (fun _ => 3)) 8 8) ≠
      val (words (fun _ => (3 : W64)) 100 4) * val (words (fun _ => (3 : W64)) (5 + k) 4) := by decide +kernel
  refine ⟨fun a h => ?_, fun b h => ?_⟩
  · by_contra hc
    refine h1 ⟨a - 5, by omega⟩ ?_
    rw [show 5 + (a - 5) = a by omega]
    exact h _
  · by_contra hc
    refine h2 ⟨b - 5, by omega⟩ ?_
    rw [show 5 + (b - 5) = b by omega]
    exact h _

/-! ## Modular functions -/

/-- **C100 (64-bit limbs)** `uint256_mod_add` and `uint256_mod_sub` on reduced numbers, the result fitting the operands and
apart from the divisor.  Missing: the result stored over the divisor, see `C100_x64_mod_add_over_divisor`. -/
theorem C100_x64_mod_add_sub_partial (r a b d : Nat) (ha : Fits r a 4) (hb : Fits r b 4) (hd : Apart r d 4)
    (m : Verif.NumMem.Mem 64) (h1 : val (words m a 4) < val (words m d 4))
    (h2 : val (words m b 4) < val (words m d 4)) :
    (val (words (X64.NumMem.modAdd r (.mem a) (.mem b) d m) r 4) =
        (val (words m a 4) + val (words m b 4)) % val (words m d 4) ∧
      Same m (X64.NumMem.modAdd r (.mem a) (.mem b) d m) r 4) ∧
    (val (words (X64.NumMem.modSub r (.mem a) (.mem b) d m) r 4) =
        (val (words m a 4) + val (words m d 4) - val (words m b 4)) % val (words m d 4) ∧
      Same m (X64.NumMem.modSub r (.mem a) (.mem b) d m) r 4) := by
  have la := words_len m a 4
  have lb := words_len m b 4
  have ld := words_len m d 4
  obtain ⟨p1, p2⟩ := X64.NumMem.modAdd_eq r (.mem a) (.mem b) d m ha hb hd
  obtain ⟨q1, q2⟩ := X64.NumMem.modSub_eq r (.mem a) (.mem b) d m ha hb hd
  rw [Opd.words_mem, Opd.words_mem] at p1 q1
  refine ⟨⟨?_, p2⟩, ⟨?_, q2⟩⟩
  · rw [p1, X64.u256ModAdd_spec _ _ _ (by omega) (by omega) (by omega) (by omega)]
    split
    · rw [Nat.mod_eq_sub_mod (by omega), Nat.mod_eq_of_lt (by omega)]
    · rw [Nat.mod_eq_of_lt (by omega)]
  · rw [q1, X64.u256ModSub_spec _ _ _ (by omega) (by omega) (by omega) (by omega)]
    split
    · rw [Nat.mod_eq_sub_mod (by omega), Nat.mod_eq_of_lt (by omega)]
      omega
    · rw [Nat.mod_eq_of_lt (by omega)]

example : Fits 0 0 4 ∧ Fits 0 4 4 ∧ Apart 0 16 4 ∧
    words (X64.NumMem.modAdd 0 (.mem 0) (.mem 0) 16 (fun x => if x = 0 then 5 else if x = 16 then 7 else 0)) 0 4 =
      3 :: List.replicate 3 0 := by
  refine ⟨Or.inl (by decide), Or.inl (by decide), Or.inl (by decide), by decide +kernel⟩

/-- **C100 is violated** in the 64-bit build too by every call that stores the sum or the difference over the divisor. -/
theorem C100_x64_mod_add_over_divisor (r a b : Nat) (ha : Fits r a 4) (hb : Fits r b 4) (m : Verif.NumMem.Mem 64) :
    val (words (X64.NumMem.modAdd r (.mem a) (.mem b) r m) r 4) = 0 ∧
    ((val (words (X64.NumMem.modSub r (.mem a) (.mem b) r m) r 4) : Int) ≡
      2 * (val (words m a 4) - val (words m b 4)) [ZMOD 2 ^ 256]) := by
  have hcmp : ∀ x : List W64, X64.u256Cmp x x ≥ 0 := by
    intro x
    rw [show X64.u256Cmp x x = _ from X64.cmp_spec x x rfl]
    simp
  constructor
  · have h1 := (chain_self X64.NumMem.subStep (0 : Byte) X64.NumMem.subStep_self 4 r r
      (chain X64.NumMem.addStep 4 r (.mem a) (.mem b) 0 m).1).1
    unfold X64.NumMem.modAdd
    simp only
    rw [if_pos (Or.inr (hcmp _)), h1, val_replicate_zero]
  · obtain ⟨s1, s2, _⟩ := X64.NumMem.subC_eq 4 r (.mem a) (.mem b) m ha hb
    have hs := (C31_x64_sub (words m a 4) (words m b 4) (words_len _ _ _) (words_len _ _ _)).2.1
    unfold X64.u256SubBorrow at hs
    simp only at hs
    rw [Opd.words_mem, Opd.words_mem] at s1 s2
    rw [← s1, ← s2] at hs
    obtain ⟨a1, a2, _⟩ := X64.NumMem.addC_eq 4 r (.mem r) (.mem r)
      (chain X64.NumMem.subStep 4 r (.mem a) (.mem b) 0 m).1 (Or.inl (Nat.le_refl r)) (Or.inl (Nat.le_refl r))
    rw [Opd.words_mem] at a1 a2
    have hA := (C31_x64_add_dbl_tpl (words (chain X64.NumMem.subStep 4 r (.mem a) (.mem b) 0 m).1 r 4) _
      (words_len _ _ _) (words_len (chain X64.NumMem.subStep 4 r (.mem a) (.mem b) 0 m).1 r 4)).1
    unfold X64.u256AddCarry at hA
    simp only at hA
    unfold X64.NumMem.modSub
    simp only
    rw [if_pos (Or.inr (hcmp _)), a2]
    rw [← hs]
    have hA' := congrArg (Nat.cast : Nat → Int) hA
    push_cast at hA'
    refine (Int.modEq_iff_dvd.mpr ⟨((addLoop (words (chain X64.NumMem.subStep 4 r (.mem a) (.mem b) 0 m).1 r 4)
        (words (chain X64.NumMem.subStep 4 r (.mem a) (.mem b) 0 m).1 r 4) 0).2.setWidth 32 : CInt).toNat +
        2 * (-((chain X64.NumMem.subStep 4 r (.mem a) (.mem b) 0 m).2.setWidth 32 : CInt)).toInt, ?_⟩)
    linarith

/-- **C100 (64-bit limbs)** `uint256_mod` with the remainder apart from the divisor. -/
theorem C100_x64_mod_partial (r d : Nat) (hd : Apart r d 4) (data : List Byte) (m : Verif.NumMem.Mem 64)
    (h0 : val (words m d 4) ≠ 0) :
    ∃ m', X64.NumMem.mod X64.loopFuel r data d m = some m' ∧ val (words m' r 4) = beVal data % val (words m d 4) ∧
      Same m m' r 4 := by
  obtain ⟨x, e1, _, e2⟩ := C32_x64_uint256_mod data (words m d 4) (words_len m d 4) h0
  rcases X64.NumMem.mod_eq r d hd data m with ⟨_, h⟩ | ⟨m', h1, h2, h3⟩
  · rw [e1] at h; simp at h
  · rw [e1] at h3
    simp only [Option.some.injEq] at h3
    exact ⟨m', h1, by rw [← h3, e2], h2⟩

example : Apart 0 8 4 ∧ val (words (fun x => if x = 8 then (7 : W64) else 0) 8 4) = 7 := by
  refine ⟨Or.inl (by decide), by decide +kernel⟩

/-- **C100 is violated** in the 64-bit build too: `uint256_mod` with the remainder stored over the divisor never
returns. -/
theorem C100_x64_mod_over_divisor_violated (fuel r : Nat) (data : List Byte) (hne : data ≠ [])
    (m : Verif.NumMem.Mem 64) : X64.NumMem.mod fuel r data r m = none := X64.NumMem.mod_self fuel r data hne m

end Verif.X64.Props
