import Verif.Proofs.NumMem
import Verif.Proofs.NumMemBad
import Verif.Props.Number
/-!
# Property C100: the integer functions on arrays that overlap

`Model/NumMem.lean` holds the functions of mpz_common.cpp and uint256_common.cpp as programs on one memory of words.
`words m a n` are the `n` words at address `a`, `val` is the integer they denote, and `Same m m' r n` says that the call
changed no word outside the `n` words at `r`.
-/
namespace Verif.Props
open Verif Verif.Spec Verif.NumMem

/-- A result of `n` words at `r` begins at or below the operand of `n` words at `x`, or they have no common word.
`r = x`, the function called in place, is included. -/
def Fits (r x n : Nat) : Prop := r ≤ x ∨ x + n ≤ r

/-! ## Addition and subtraction -/

/-- **C100** `mpz_add_carry` and `mpz_sub_borrow` of any number of words are exact for every placement of the result that
fits both operands, and they change nothing else. -/
theorem C100_mpz_add_sub (n : Nat) (hn : 0 < n) (r a b : Nat) (ha : Fits r a n) (hb : Fits r b n) (m : Mem 32) :
    (∀ c : CInt, c = 0 ∨ c = 1 →
      val (words (mpzAdd n r a b c m).1 r n) + 2 ^ (32 * n) * (mpzAdd n r a b c m).2.toNat =
        val (words m a n) + val (words m b n) + c.toNat ∧ Same m (mpzAdd n r a b c m).1 r n) ∧
    (∀ c : CInt, c = 0 ∨ c = -1 →
      (val (words (mpzSub n r a b c m).1 r n) : Int) + 2 ^ (32 * n) * (mpzSub n r a b c m).2.toInt =
        val (words m a n) - val (words m b n) + c.toInt ∧ Same m (mpzSub n r a b c m).1 r n) := by
  refine ⟨fun c hc => ?_, fun c hc => ?_⟩
  · obtain ⟨h1, h2, h3⟩ := chain_spec addCarry n r (.mem a) (.mem b) c m ha hb
    have h := (C30_mpz_add n hn _ _ (words_len m a n) (words_len m b n) c hc).2.1
    unfold Verif.mpzAddCarry at h
    rw [if_neg (by omega), List.take_of_length_le (by simp), List.take_of_length_le (by simp)] at h
    rw [vloop_add, Opd.words_mem, Opd.words_mem] at h1 h2
    unfold mpzAdd
    rw [if_neg (by omega), h1, h2]
    exact ⟨h, h3⟩
  · obtain ⟨h1, h2, h3⟩ := chain_spec subBorrow n r (.mem a) (.mem b) c m ha hb
    have h := (C30_mpz_sub n hn _ _ (words_len m a n) (words_len m b n) c hc).2.1
    unfold Verif.mpzSubBorrow at h
    rw [if_neg (by omega), List.take_of_length_le (by simp), List.take_of_length_le (by simp)] at h
    rw [vloop_sub, Opd.words_mem, Opd.words_mem] at h1 h2
    unfold mpzSub
    rw [if_neg (by omega), h1, h2]
    exact ⟨h, h3⟩

/-- In place, and with a result that begins one word below an operand. -/
example : Fits 10 10 8 ∧ Fits 10 11 8 := ⟨Or.inl (by decide), Or.inl (by decide)⟩

example : words (mpzAdd 3 10 10 11 1 (fun x => BitVec.ofNat 32 (2 ^ 32 - 1 - x))).1 10 3 =
    [0xFFFFFFEA, 0xFFFFFFE8, 0xFFFFFFE6] := by decide +kernel

/-- **C100** The condition on the placement is the exact one for addition. -/
theorem C100_mpz_add_exact (n : Nat) (hn : 0 < n) (r a b : Nat) :
    (∀ m : Mem 32, val (words (mpzAdd n r a b 0 m).1 r n) + 2 ^ (32 * n) * (mpzAdd n r a b 0 m).2.toNat =
      val (words m a n) + val (words m b n)) ↔ Fits r a n ∧ Fits r b n := by
  constructor
  · intro h
    by_contra hc
    obtain ⟨d, hd, hne⟩ := bad_add addCarry (0 : CInt) (by decide) (by decide) (by decide) (by decide) n r a b hc
    have h1 := h ones
    unfold mpzAdd at h1
    rw [if_neg (by omega), words_ones, words_ones] at h1
    exact hne (all_two (by decide) n r _ _ h1 d hd)
  · rintro ⟨ha, hb⟩ m
    exact ((C100_mpz_add_sub n hn r a b ha hb m).1 0 (Or.inl rfl)).1

/-- **C100** For subtraction too, but for the difference of an array and itself, which is right everywhere. -/
theorem C100_mpz_sub_exact (n : Nat) (hn : 0 < n) (r a b : Nat) :
    (∀ m : Mem 32, (val (words (mpzSub n r a b 0 m).1 r n) : Int) + 2 ^ (32 * n) * (mpzSub n r a b 0 m).2.toInt =
      val (words m a n) - val (words m b n)) ↔ a = b ∨ (Fits r a n ∧ Fits r b n) := by
  constructor
  · intro h
    by_contra hc
    rw [not_or] at hc
    obtain ⟨d, hd, hne⟩ := bad_sub subBorrow (0 : CInt) (by decide) (by decide) (by decide) n r a b hc.1 hc.2
    have h1 := h ones
    unfold mpzSub at h1
    rw [if_neg (by omega), words_ones, words_ones, Int.sub_self] at h1
    exact hne (all_zero n r _ _ h1 d hd)
  · rintro (rfl | ⟨ha, hb⟩) m
    · have h0 := chain_self subBorrow (0 : CInt) subBorrow_self n r a m
      unfold mpzSub
      rw [if_neg (by omega), h0.1, h0.2, val_replicate_zero]
      simp
    · have := ((C100_mpz_add_sub n hn r a b ha hb m).2 0 (Or.inl rfl)).1
      simpa using this

/-- The sum stored one word above its operand is wrong. -/
example : words (mpzAdd 2 1 0 8 0 (fun _ => 1)).1 1 2 = [2, 3] := by decide +kernel

/-- **C100** The `uint256_*` functions that run once through the words from the bottom up. -/
theorem C100_uint256 (r a b : Nat) (ha : Fits r a 8) (hb : Fits r b 8) (d : W32) (m : Mem 32) :
    (val (words (NumMem.add r (.mem a) (.mem b) m).1 r 8) + 2 ^ 256 * (NumMem.add r (.mem a) (.mem b) m).2.toNat =
      val (words m a 8) + val (words m b 8) ∧ Same m (NumMem.add r (.mem a) (.mem b) m).1 r 8) ∧
    ((val (words (NumMem.sub r (.mem a) (.mem b) m).1 r 8) : Int) +
        2 ^ 256 * (NumMem.sub r (.mem a) (.mem b) m).2.toInt =
      val (words m a 8) - val (words m b 8) ∧ Same m (NumMem.sub r (.mem a) (.mem b) m).1 r 8) ∧
    (val (words (dbl r a m).1 r 8) + 2 ^ 256 * (dbl r a m).2.toNat = 2 * val (words m a 8) ∧
      Same m (dbl r a m).1 r 8) ∧
    (val (words (tpl r a m).1 r 8) + 2 ^ 256 * (tpl r a m).2.toNat = 3 * val (words m a 8) ∧
      Same m (tpl r a m).1 r 8) ∧
    (val (words (addWord r a d m).1 r 8) + 2 ^ 256 * (addWord r a d m).2.toNat = val (words m a 8) + d.toNat ∧
      Same m (addWord r a d m).1 r 8) ∧
    ((val (words (subWord r a d m).1 r 8) : Int) + 2 ^ 256 * (subWord r a d m).2.toInt =
      val (words m a 8) - d.toNat ∧ Same m (subWord r a d m).1 r 8) ∧
    (val (words (mulWord r a d m).1 r 8) + 2 ^ 256 * (mulWord r a d m).2.toNat = val (words m a 8) * d.toNat ∧
      Same m (mulWord r a d m).1 r 8) := by
  have la := words_len m a 8
  have lb := words_len m b 8
  obtain ⟨x1, x2, x3, _⟩ := C31_add_dbl_tpl (words m a 8) (words m b 8) la lb
  obtain ⟨_, x4, _⟩ := C31_sub (words m a 8) (words m b 8) la lb
  obtain ⟨x5, x6, x7, _⟩ := C31_word_ops (words m a 8) d la
  have hlit : (Opd.lit [d]).words m 8 = d :: List.replicate 7 0 := by
    rw [Opd.words, Opd.tl, List.tail_cons, Opd.words_nil]; rfl
  have hl : (Opd.lit ([] : List W32)).words m 8 = List.replicate 8 0 := Opd.words_nil m 8
  refine ⟨?_, ?_, ?_, ?_, ?_, ?_, ?_⟩
  · obtain ⟨h1, h2, h3⟩ := add_eq r (.mem a) (.mem b) m ha hb
    rw [h1, h2, Opd.words_mem, Opd.words_mem]
    exact ⟨x1, h3⟩
  · obtain ⟨h1, h2, h3⟩ := sub_eq r (.mem a) (.mem b) m ha hb
    rw [h1, h2, Opd.words_mem, Opd.words_mem]
    exact ⟨x4, h3⟩
  · obtain ⟨h1, h2, h3⟩ := chain_spec (fun x _ c => dblCarry x c) 8 r (.mem a) (.lit []) (0 : CInt) m ha trivial
    rw [vloop_dbl _ _ (by simp), Opd.words_mem] at h1 h2
    unfold dbl
    rw [h1, h2]
    exact ⟨x2, h3⟩
  · obtain ⟨h1, h2, h3⟩ := chain_spec (fun x _ c => tplCarry x c) 8 r (.mem a) (.lit []) (0 : CInt) m ha trivial
    rw [vloop_tpl _ _ (by simp), Opd.words_mem] at h1 h2
    unfold tpl
    rw [h1, h2]
    exact ⟨x3, h3⟩
  · obtain ⟨h1, h2, h3⟩ := add_eq r (.mem a) (.lit [d]) m ha trivial
    unfold addWord
    rw [h1, h2, Opd.words_mem, hlit]
    exact ⟨x5, h3⟩
  · obtain ⟨h1, h2, h3⟩ := sub_eq r (.mem a) (.lit [d]) m ha trivial
    unfold subWord
    rw [h1, h2, Opd.words_mem, hlit]
    exact ⟨x7, h3⟩
  · obtain ⟨h1, h2, h3⟩ := chain_spec (fun x _ c => mulCarry x d c) 8 r (.mem a) (.lit []) (0 : W32) m ha trivial
    rw [vloop_mulWord _ _ (by simp), Opd.words_mem] at h1 h2
    unfold mulWord
    rw [h1, h2]
    exact ⟨x6, h3⟩

example : words (tpl 5 5 (fun x => BitVec.ofNat 32 (x * 0x30000000))).1 5 8 =
    [0xD0000000, 0x60000002, 0xF0000000, 0x80000000, 0x10000001, 0xA0000002, 0x30000002, 0xC0000000] := by
  decide +kernel

/-- **C100** `uint256_div_uint32` runs from the top down: the quotient may be the dividend or begin above it. -/
theorem C100_div_word (q a : Nat) (h : a ≤ q ∨ q + 8 ≤ a) (d : W32) (hd : d ≠ 0) (m : Mem 32) :
    ∃ m' rem, divWord q a d m = some (m', rem) ∧ val (words m' q 8) = val (words m a 8) / d.toNat ∧
      rem.toNat = val (words m a 8) % d.toNat ∧ Same m m' q 8 := by
  obtain ⟨h1, h2, h3⟩ := down_spec (NumMem.divStep d) 8 q a 0 m h
  obtain ⟨qs, rem, e1, _, e2, e3⟩ := C31_div_word (words m a 8) d hd
  unfold u256DivWord at e1
  rw [if_neg hd] at e1
  simp only [Option.some.injEq, Prod.mk.injEq] at e1
  rw [vdown_div] at h1 h2
  refine ⟨_, (down (NumMem.divStep d) 8 q a 0 m).2.setWidth 32, ?_, ?_, ?_, h3⟩
  · unfold divWord; rw [if_neg hd]
  · rw [h2, e1.1, e2]
  · rw [h1, e1.2, e3]

example : (divWord 3 3 0x10 (fun x => BitVec.ofNat 32 x)).map (fun s => (words s.1 3 8, s.2)) =
    some ([0x40000000, 0x50000000, 0x60000000, 0x70000000, 0x80000000, 0x90000000, 0xA0000000, 0], 3) := by
  decide +kernel

/-! ## Multiplication -/

/-- **C100** `mpz_mul` of any number of words, and with it `uint256_mul` and `uint256_sqr`: exact when the product lies
apart from the operands.  Two more placements are right: the multiplicand may be the upper half of the product or begin
above it, and the multiplier may begin at the last word of the product. Missing: the product stored over an operand, see
`C100_mul_in_place_violated`. -/
theorem C100_mul_partial (n : Nat) (r a b : Nat) (ha : a + n ≤ r ∨ r + 2 * n ≤ a + 1) (hb : b + n ≤ r ∨ r + n ≤ b)
    (m : Mem 32) :
    val (words (NumMem.mpzMul n r a b m) r (2 * n)) = val (words m a n) * val (words m b n) ∧
    Same m (NumMem.mpzMul n r a b m) r (2 * n) := by
  obtain ⟨h1, h2⟩ := mpzMul_eq n r a b m ha hb
  refine ⟨?_, h2⟩
  rw [h1]
  rcases Nat.eq_zero_or_pos n with rfl | hn
  · rfl
  · exact (C30_mpz_mul n hn _ _ (words_len m a n) (words_len m b n)).2

/-- Apart, and the multiplicand in the upper half of the product. -/
example : (0 + 8 ≤ 8 ∨ 8 + 2 * 8 ≤ 0 + 1) ∧ (16 + 8 ≤ 8 ∨ 8 + 8 ≤ 16) := by decide

/-- **C100 is violated**: a product stored over its multiplier, or over its multiplicand, is wrong. -/
theorem C100_mul_in_place_violated :
    ¬ (∀ m : Mem 32, val (words (NumMem.mul 0 0 100 m) 0 16) = val (words m 0 8) * val (words m 100 8)) ∧
    ¬ (∀ m : Mem 32, val (words (NumMem.mul 0 100 0 m) 0 16) = val (words m 100 8) * val (words m 0 8)) ∧
    ¬ (∀ m : Mem 32, val (words (sqr 0 0 m) 0 16) = val (words m 0 8) ^ 2) := by
  refine ⟨fun h => ?_, fun h => ?_, fun h => ?_⟩
  · exact absurd (h (fun x => if x = 0 ∨ x = 1 ∨ x = 100 ∨ x = 101 then 2 else 0)) (by decide +kernel)
  · exact absurd (h (fun x => if x = 0 ∨ x = 1 ∨ x = 100 ∨ x = 101 then 2 else 0)) (by decide +kernel)
  · exact absurd (h (fun x => if x = 0 ∨ x = 1 then 2 else 0)) (by decide +kernel)

/-- **C100** No other placement is right: with the multiplicand elsewhere, every multiplier that begins less than eight
words below the product or inside it before its last word gives a wrong product for some memory; and the same for a
multiplicand less than eight words below or in the lower half. -/
theorem C100_mul_placement_exact :
    (∀ a, (∀ m : Mem 32, val (words (NumMem.mul 16 a 100 m) 16 16) = val (words m a 8) * val (words m 100 8)) →
      a + 8 ≤ 16 ∨ 16 + 16 ≤ a + 1) ∧
    (∀ b, (∀ m : Mem 32, val (words (NumMem.mul 16 100 b m) 16 16) = val (words m 100 8) * val (words m b 8)) →
      b + 8 ≤ 16 ∨ 16 + 8 ≤ b) := by
  have h1 : ∀ k : Fin 22, val (words (NumMem.mul 16 (9 + k) 100 (fun _ => 3)) 16 16) ≠
      val (words (fun _ => (3 : W32)) (9 + k) 8) * val (words (fun _ => (3 : W32)) 100 8) := by decide +kernel
  have h2 : ∀ k : Fin 15, val (words (NumMem.mul 16 100 (9 + k) (fun _ => 3)) 16 16) ≠
      val (words (fun _ => (3 : W32)) 100 8) * val (words (fun _ => (3 : W32)) (9 + k) 8) := by decide +kernel
  refine ⟨fun a h => ?_, fun b h => ?_⟩
  · by_contra hc
    refine h1 ⟨a - 9, by omega⟩ ?_
    rw [show 9 + (a - 9) = a by omega]
    exact h _
  · by_contra hc
    refine h2 ⟨b - 9, by omega⟩ ?_
    rw [show 9 + (b - 9) = b by omega]
    exact h _

/-! ## Modular functions -/

/-- **C100** `uint256_mod_add` and `uint256_mod_sub` store the residue of the sum and of the difference of two reduced
numbers when the result fits the operands and lies apart from the divisor.  Missing: the result stored over the divisor,
see `C100_mod_add_over_divisor`. -/
theorem C100_mod_add_sub_partial (r a b d : Nat) (ha : Fits r a 8) (hb : Fits r b 8) (hd : Apart r d 8) (m : Mem 32)
    (h1 : val (words m a 8) < val (words m d 8)) (h2 : val (words m b 8) < val (words m d 8)) :
    (val (words (modAdd r (.mem a) (.mem b) d m) r 8) =
        (val (words m a 8) + val (words m b 8)) % val (words m d 8) ∧
      Same m (modAdd r (.mem a) (.mem b) d m) r 8) ∧
    (val (words (modSub r (.mem a) (.mem b) d m) r 8) =
        (val (words m a 8) + val (words m d 8) - val (words m b 8)) % val (words m d 8) ∧
      Same m (modSub r (.mem a) (.mem b) d m) r 8) := by
  have la := words_len m a 8
  have lb := words_len m b 8
  have ld := words_len m d 8
  obtain ⟨p1, p2⟩ := modAdd_eq r (.mem a) (.mem b) d m ha hb hd
  obtain ⟨q1, q2⟩ := modSub_eq r (.mem a) (.mem b) d m ha hb hd
  rw [Opd.words_mem, Opd.words_mem] at p1 q1
  refine ⟨⟨?_, p2⟩, ⟨?_, q2⟩⟩
  · rw [p1, u256ModAdd_spec _ _ _ (by omega) (by omega) (by omega) (by omega)]
    split
    · rw [Nat.mod_eq_sub_mod (by omega), Nat.mod_eq_of_lt (by omega)]
    · rw [Nat.mod_eq_of_lt (by omega)]
  · rw [q1, u256ModSub_spec _ _ _ (by omega) (by omega) (by omega) (by omega)]
    split
    · rw [Nat.mod_eq_sub_mod (by omega), Nat.mod_eq_of_lt (by omega)]
      omega
    · rw [Nat.mod_eq_of_lt (by omega)]

/-- In place on the first operand, and on both. -/
example : Fits 0 0 8 ∧ Fits 0 8 8 ∧ Apart 0 16 8 ∧
    words (modAdd 0 (.mem 0) (.mem 0) 16 (fun x => if x = 0 then 5 else if x = 16 then 7 else 0)) 0 8 =
      3 :: List.replicate 7 0 := by
  refine ⟨Or.inl (by decide), Or.inl (by decide), Or.inl (by decide), by decide +kernel⟩

/-- **C100 is violated** by every call that stores the sum or the difference over the divisor: the sum is always zero, and
the difference comes out doubled. -/
theorem C100_mod_add_over_divisor (r a b : Nat) (ha : Fits r a 8) (hb : Fits r b 8) (m : Mem 32) :
    val (words (modAdd r (.mem a) (.mem b) r m) r 8) = 0 ∧
    ((val (words (modSub r (.mem a) (.mem b) r m) r 8) : Int) ≡
      2 * (val (words m a 8) - val (words m b 8)) [ZMOD 2 ^ 256]) := by
  have hcmp : ∀ x : List W32, u256Cmp x x ≥ 0 := by
    intro x
    rw [show u256Cmp x x = _ from cmp_spec x x rfl]
    simp
  constructor
  · obtain ⟨_, h2⟩ := chain_self subBorrow (0 : CInt) subBorrow_self 8 r r (NumMem.add r (.mem a) (.mem b) m).1
    have h1 := (chain_self subBorrow (0 : CInt) subBorrow_self 8 r r (NumMem.add r (.mem a) (.mem b) m).1).1
    unfold modAdd
    simp only
    rw [if_pos (Or.inr (hcmp _))]
    unfold NumMem.sub
    rw [h1, val_replicate_zero]
  · obtain ⟨s1, s2, _⟩ := sub_eq r (.mem a) (.mem b) m ha hb
    have hs := (C31_sub (words m a 8) (words m b 8) (words_len _ _ _) (words_len _ _ _)).2.1
    rw [Opd.words_mem, Opd.words_mem] at s1 s2
    rw [← s1, ← s2] at hs
    obtain ⟨a1, a2, _⟩ := add_eq r (.mem r) (.mem r) (NumMem.sub r (.mem a) (.mem b) m).1
      (Or.inl (Nat.le_refl r)) (Or.inl (Nat.le_refl r))
    rw [Opd.words_mem] at a1 a2
    have hA := (C31_add_dbl_tpl (words (NumMem.sub r (.mem a) (.mem b) m).1 r 8) _ (words_len _ _ _)
      (words_len (NumMem.sub r (.mem a) (.mem b) m).1 r 8)).1
    unfold modSub
    simp only
    rw [if_pos (Or.inr (hcmp _)), a2]
    rw [← hs]
    have hA' := congrArg (Nat.cast : Nat → Int) hA
    push_cast at hA'
    refine (Int.modEq_iff_dvd.mpr ⟨?_, ?_⟩)
    · exact (u256AddCarry (words (NumMem.sub r (.mem a) (.mem b) m).1 r 8)
        (words (NumMem.sub r (.mem a) (.mem b) m).1 r 8)).2.toNat +
        2 * (NumMem.sub r (.mem a) (.mem b) m).2.toInt
    · linarith

/-- So `5 + 4` modulo `7` is zero when it is stored over the seven. -/
theorem C100_mod_add_over_divisor_violated :
    ¬ ∀ (r a b : Nat) (m : Mem 32), Fits r a 8 → Fits r b 8 → val (words m a 8) < val (words m r 8) →
      val (words m b 8) < val (words m r 8) →
      val (words (modAdd r (.mem a) (.mem b) r m) r 8) =
        (val (words m a 8) + val (words m b 8)) % val (words m r 8) := by
  intro h
  have h1 := h 16 0 8 (fun x => if x = 0 then 5 else if x = 8 then 4 else if x = 16 then 7 else 0)
    (Or.inr (by decide)) (Or.inr (by decide)) (by decide +kernel) (by decide +kernel)
  rw [(C100_mod_add_over_divisor 16 0 8 (Or.inr (by decide)) (Or.inr (by decide)) _).1] at h1
  exact absurd h1 (by decide +kernel)

/-- **C100** `uint256_mod` with the remainder apart from the divisor: the value modulo the divisor, nothing else changed. -/
theorem C100_mod_partial (r d : Nat) (hd : Apart r d 8) (data : List Byte) (m : Mem 32) (h0 : val (words m d 8) ≠ 0) :
    ∃ m', NumMem.mod loopFuel r data d m = some m' ∧ val (words m' r 8) = beVal data % val (words m d 8) ∧
      Same m m' r 8 := by
  obtain ⟨x, e1, _, e2⟩ := C32_uint256_mod data (words m d 8) (words_len m d 8) h0
  rcases mod_eq r d hd data m with ⟨_, h⟩ | ⟨m', h1, h2, h3⟩
  · rw [e1] at h; simp at h
  · rw [e1] at h3
    simp only [Option.some.injEq] at h3
    exact ⟨m', h1, by rw [← h3, e2], h2⟩

example : Apart 0 8 8 ∧ val (words (fun x => if x = 8 then (7 : W32) else 0) 8 8) = 7 := by
  refine ⟨Or.inl (by decide), by decide +kernel⟩

/-- **C100 is violated** by every call of `uint256_mod` on data that stores the remainder over the divisor: it never
returns, since the divisor is zeroed before it is read.  No number of rounds is enough. -/
theorem C100_mod_over_divisor_violated (fuel r : Nat) (data : List Byte) (hne : data ≠ []) (m : Mem 32) :
    NumMem.mod fuel r data r m = none := mod_self fuel r data hne m

end Verif.Props
