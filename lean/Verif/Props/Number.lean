import Verif.Proofs.MontCtx
import Verif.Model.LimbsX64
/-!
# Properties C30-C39: multi-limb, 256-bit and Montgomery arithmetic

`Spec.val` is the integer denoted by a little-endian limb array, `Spec.beVal` the integer denoted by a
big-endian byte string, `Spec.montVal p a` the residue class that the Montgomery-form array `a` stands for.
-/
namespace Verif.Props
open Verif Verif.Spec

/-! ## C30: any number of limbs -/

/-- **C30** `mpz_add_carry`: for every limb count, the result limbs and returned carry hold the exact sum. -/
theorem C30_mpz_add (n : Nat) (hn : 0 < n) (a b : List W32) (ha : a.length = n) (hb : b.length = n)
    (c : CInt) (hc : c = 0 ∨ c = 1) :
    (mpzAddCarry a b c n).1.length = n ∧
    val (mpzAddCarry a b c n).1 + 2 ^ (32 * n) * (mpzAddCarry a b c n).2.toNat = val a + val b + c.toNat ∧
    ((mpzAddCarry a b c n).2 = 0 ∨ (mpzAddCarry a b c n).2 = 1) := by
  have hc' : c.toNat ≤ 1 := by rcases hc with rfl | rfl <;> decide
  unfold mpzAddCarry
  rw [if_neg (by omega), List.take_of_length_le (by omega), List.take_of_length_le (by omega)]
  obtain ⟨h1, h2⟩ := addCarryLoop_spec a b c (by omega) hc'
  have h3 := addCarryLoop_len a b c (by omega)
  refine ⟨by omega, by rw [← ha]; exact h1, ?_⟩
  rcases Nat.le_one_iff_eq_zero_or_eq_one.mp h2 with h | h
  · exact Or.inl (BitVec.eq_of_toNat_eq h)
  · exact Or.inr (BitVec.eq_of_toNat_eq h)

example : mpzAddCarry [0xFFFFFFFF, 0xFFFFFFFF, 7] [1, 0, 0xFFFFFFFF] 1 3 = ([1, 0, 7], 1) := by decide

/-- **C30** `mpz_sub_borrow`: for every limb count, difference and borrow (0 or -1) are exact. -/
theorem C30_mpz_sub (n : Nat) (hn : 0 < n) (a b : List W32) (ha : a.length = n) (hb : b.length = n)
    (c : CInt) (hc : c = 0 ∨ c = -1) :
    (mpzSubBorrow a b c n).1.length = n ∧
    (val (mpzSubBorrow a b c n).1 : Int) + 2 ^ (32 * n) * (mpzSubBorrow a b c n).2.toInt
      = val a - val b + c.toInt ∧
    ((mpzSubBorrow a b c n).2 = 0 ∨ (mpzSubBorrow a b c n).2 = -1) := by
  have hb0 : ∀ x : CInt, IsBorrow x → x.toInt = -(borrowBit x : Int) := by
    rintro x (rfl | rfl)
    · rfl
    · rw [borrowBit_neg1]; rfl
  unfold mpzSubBorrow
  rw [if_neg (by omega), List.take_of_length_le (by omega), List.take_of_length_le (by omega)]
  obtain ⟨h1, h2⟩ := subBorrowLoop_spec a b c (by omega) hc
  have h3 := subBorrowLoop_len a b c (by omega)
  refine ⟨by omega, ?_, h2⟩
  rw [hb0 _ h2, hb0 c hc]
  rw [ha] at h1
  have h1' := congrArg (Nat.cast : Nat → Int) h1
  push_cast at h1'
  linarith

example : mpzSubBorrow [0, 0, 7] [1, 0, 9] (-1) 3 = ([0xFFFFFFFE, 0xFFFFFFFF, 0xFFFFFFFD], -1) := by
  decide +kernel

/-- **C30** `mpz_mul`: for every limb count the `2n` result limbs hold the exact product. -/
theorem C30_mpz_mul (n : Nat) (hn : 0 < n) (a b : List W32) (ha : a.length = n) (hb : b.length = n) :
    (mpzMul a b n).length = 2 * n ∧ val (mpzMul a b n) = val a * val b := by
  have h1 : mpzMul a b n = u256Mul a b := by
    unfold mpzMul u256Mul
    rw [if_neg (by omega), List.take_of_length_le (by omega), List.take_of_length_le (by omega)]
  obtain ⟨m1, m2⟩ := u256Mul_spec a b (by rintro rfl; simp at ha; omega) (by rintro rfl; simp at hb; omega)
  rw [h1]
  exact ⟨by omega, m1⟩

example : mpzMul [0xFFFFFFFF, 2, 3] [0xFFFFFFFF, 0, 1] 3 = [1, 4294967292, 4294967294, 5, 3, 0] := by decide +kernel

/-- **C30** `mpz_cmp` (32-bit limbs): the order of the denoted numbers, for every limb count. -/
theorem C30_mpz_cmp (n : Nat) (a b : List W32) (ha : a.length = n) (hb : b.length = n) :
    mpzCmp a b n = if val a > val b then 1 else if val a < val b then -1 else 0 := by
  unfold mpzCmp
  split
  next h =>
    subst h
    rw [List.length_eq_zero_iff] at ha hb
    subst ha hb
    simp
  next h =>
    rw [List.take_of_length_le (by omega), List.take_of_length_le (by omega)]
    exact cmp_spec a b (by omega)

example : mpzCmp [0, 0, 2] [5, 9, 1] 3 = 1 := by decide

/-- **C30 is violated** by the 64-bit-limb `mpz_cmp` (src/number/mpz_x64.cpp 89-101): it compares the limbs
from the least significant up, so it reports `2^64 < 1`. -/
theorem C30_mpz_cmp_x64_violated :
    ¬ ∀ (n : Nat) (a b : List W64), a.length = n → b.length = n →
      X64.mpzCmp a b n = if val a > val b then 1 else if val a < val b then -1 else 0 := by
  intro h
  exact absurd (h 2 [0, 1] [1, 0] rfl rfl) (by decide +kernel)

/-! ## C31: exact 256-bit arithmetic -/

/-- **C31** addition, doubling and tripling with carry. -/
theorem C31_add_dbl_tpl (a b : List W32) (ha : a.length = 8) (hb : b.length = 8) :
    val (u256AddCarry a b).1 + 2 ^ 256 * (u256AddCarry a b).2.toNat = val a + val b ∧
    val (u256DblCarry a).1 + 2 ^ 256 * (u256DblCarry a).2.toNat = 2 * val a ∧
    val (u256TplCarry a).1 + 2 ^ 256 * (u256TplCarry a).2.toNat = 3 * val a ∧
    (u256AddCarry a b).1.length = 8 ∧ (u256DblCarry a).1.length = 8 ∧ (u256TplCarry a).1.length = 8 := by
  obtain ⟨h1, _⟩ := addCarryLoop_spec a b 0 (by omega) (by decide)
  obtain ⟨h2, _⟩ := addCarryLoop_spec a a 0 rfl (by decide)
  obtain ⟨h3, _, h4⟩ := tplCarryLoop_spec a 0 (by decide)
  rw [ha, w32_zero_toNat] at h1 h2 h3
  have l1 := addCarryLoop_len a b 0 (by omega)
  have l2 := addCarryLoop_len a a 0 rfl
  refine ⟨h1, ?_, h3, by unfold u256AddCarry; omega, ?_, by unfold u256TplCarry; omega⟩
  · unfold u256DblCarry; rw [dblCarryLoop_eq, Nat.two_mul]; exact h2
  · unfold u256DblCarry; rw [dblCarryLoop_eq]; omega

example : u256TplCarry (List.replicate 8 0xFFFFFFFF) =
    (0xFFFFFFFD :: List.replicate 7 0xFFFFFFFF, 2) := by decide +kernel

/-- **C31** subtraction: exact difference modulo 2^256, and the borrow is -1 exactly when the subtrahend is
larger. -/
theorem C31_sub (a b : List W32) (ha : a.length = 8) (hb : b.length = 8) :
    (u256SubBorrow a b).1.length = 8 ∧
    (val (u256SubBorrow a b).1 : Int) + 2 ^ 256 * (u256SubBorrow a b).2.toInt = val a - val b ∧
    ((u256SubBorrow a b).2 = -1 ↔ val a < val b) ∧ ((u256SubBorrow a b).2 = 0 ↔ val b ≤ val a) := by
  obtain ⟨h1, h2, h3⟩ := u256Sub_spec a b ha hb
  have hbl := len8_lt hb
  refine ⟨h1, ?_⟩
  have hm : (-1 : CInt).toInt = -1 := rfl
  have hz : (0 : CInt).toInt = 0 := rfl
  have hne : ((0 : CInt) = -1) = False := by decide
  have hne' : ((-1 : CInt) = 0) = False := by decide
  rcases Nat.lt_or_ge (val a) (val b) with h | h
  · obtain ⟨e1, e2⟩ := h3 h
    rw [e1, e2, hm, hne', Nat.cast_sub (by omega), Nat.cast_add, Nat.cast_pow]
    refine ⟨by push_cast; ring, by simp [h], by simp; omega⟩
  · obtain ⟨e1, e2⟩ := h2 h
    rw [e1, e2, hz, hne, Nat.cast_sub h]
    refine ⟨by simp, by simp; omega, by simp [h]⟩

example : u256SubBorrow (1 :: List.replicate 7 0) (2 :: List.replicate 7 0) =
    (List.replicate 8 0xFFFFFFFF, -1) := by decide +kernel

/-- **C31** multiplication and squaring are exact. -/
theorem C31_mul_sqr (a b : List W32) (ha : a.length = 8) (hb : b.length = 8) :
    val (u256Mul a b) = val a * val b ∧ (u256Mul a b).length = 16 ∧
    val (u256Sqr a) = val a ^ 2 ∧ (u256Sqr a).length = 16 := by
  obtain ⟨m1, m2⟩ := u256Mul_spec a b (by rintro rfl; simp at ha) (by rintro rfl; simp at hb)
  obtain ⟨m3, m4⟩ := u256Mul_spec a a (by rintro rfl; simp at ha) (by rintro rfl; simp at ha)
  unfold u256Sqr
  exact ⟨m1, by omega, by rw [m3, sq], by omega⟩

example : val (u256Mul (List.replicate 8 0xFFFFFFFF) (List.replicate 8 0xFFFFFFFF)) = (2 ^ 256 - 1) ^ 2 := by
  decide +kernel

/-- **C31** the single-word variants: addition, multiplication, comparison. -/
theorem C31_word_ops (a : List W32) (b : W32) (ha : a.length = 8) :
    val (u256AddWord a b).1 + 2 ^ 256 * (u256AddWord a b).2.toNat = val a + b.toNat ∧
    val (u256MulWord a b).1 + 2 ^ 256 * (u256MulWord a b).2.toNat = val a * b.toNat ∧
    (val (u256SubWord a b).1 : Int) + 2 ^ 256 * (u256SubWord a b).2.toInt = val a - b.toNat ∧
    u256CmpWord a b = (if val a > b.toNat then 1 else if val a < b.toNat then -1 else 0) ∧
    (u256EqualOne a = true ↔ val a = 1) ∧ (u256EqualZero a = true ↔ val a = 0) ∧
    val (u256SetWord b) = b.toNat := by
  have hne : a ≠ [] := by rintro rfl; simp at ha
  have hl : (b :: List.replicate 7 (0 : W32)).length = 8 := by simp
  obtain ⟨h1, _⟩ := addCarryLoop_spec a (b :: List.replicate 7 0) 0 (by omega) (by decide)
  have h2 := mulRow_spec a b 0
  have h3 := (C31_sub a (b :: List.replicate 7 0) ha hl).2.1
  rw [ha, w32_zero_toNat, val_word] at h1
  rw [ha, w32_zero_toNat] at h2
  rw [val_word] at h3
  exact ⟨h1, h2, h3, u256CmpWord_spec a b hne, u256EqualOne_spec a hne, u256EqualZero_iff a, val_word b 7⟩

example : u256MulWord (List.replicate 8 0xFFFFFFFF) 0xFFFFFFFF =
    (1 :: List.replicate 7 0xFFFFFFFF, 0xFFFFFFFE) := by decide +kernel

/-- **C31** division by a non-zero word: quotient and remainder. -/
theorem C31_div_word (a : List W32) (d : W32) (hd : d ≠ 0) :
    ∃ q r, u256DivWord a d = some (q, r) ∧ q.length = a.length ∧
      val q = val a / d.toNat ∧ r.toNat = val a % d.toNat := u256DivWord_spec a d hd

example : u256DivWord [1, 0, 0, 0, 0, 0, 0, 0xFFFFFFFF] 0x10 =
    some ([0, 0, 0, 0, 0, 0, 0xF0000000, 0x0FFFFFFF], 1) := by decide +kernel

/-- **C31** comparison and equality. -/
theorem C31_cmp (a b : List W32) (ha : a.length = 8) (hb : b.length = 8) :
    u256Cmp a b = (if val a > val b then 1 else if val a < val b then -1 else 0) ∧
    (u256Equal a b = true ↔ val a = val b) :=
  ⟨cmp_spec a b (by omega), u256Equal_iff a b (by omega)⟩

example : u256Cmp [0, 0, 0, 0, 0, 0, 0, 1] [9, 9, 9, 9, 9, 9, 9, 0] = 1 := by decide

/-- **C31** bit test: bit `i` of the number, for every index the array has. -/
theorem C31_bittest (a : List W32) (ha : a.length = 8) (i : Nat) (hi : i < 256) :
    u256BitTest a i = some ((val a).testBit i) := u256BitTest_spec a i (by omega)

example : u256BitTest [0, 0, 0, 0, 0, 0, 0, 0x80000000] 255 = some true := by decide +kernel

/-! ## C32: reduction of byte strings of any length -/

/-- **C32** `uint256_mod` ends and returns the big-endian value modulo the divisor, for every byte string of
every length and every non-zero divisor. -/
theorem C32_uint256_mod (data : List Byte) (d : List W32) (hl : d.length = 8) (hd : val d ≠ 0) :
    ∃ r, u256Mod data d = some r ∧ r.length = 8 ∧ val r = beVal data % val d :=
  u256Mod_spec d hl (by omega) data

example : ([3, 0, 0, 0, 0, 0, 0, 0] : List W32).length = 8 ∧ val ([3, 0, 0, 0, 0, 0, 0, 0] : List W32) ≠ 0 := by
  decide

/-- With a zero divisor the loop never ends: `uint256_mod` of a 32-byte string has no result. -/
theorem C32_zero_divisor_diverges : ∀ fuel, subWhileGe u256Zero fuel (u256FromBytes (List.replicate 32 0)) = none := by
  intro fuel
  have h0 : u256FromBytes (List.replicate 32 0) = u256Zero := by decide
  rw [h0]
  induction fuel with
  | zero => rfl
  | succ n ih =>
    unfold subWhileGe
    rw [if_pos (by decide), show (u256SubBorrow u256Zero u256Zero).1 = u256Zero by decide]
    exact ih

/-! ## C33: byte conversions -/

/-- **C33** `uint256_from_bytes` / `uint256_to_bytes` are mutually inverse and denote the big-endian value. -/
theorem C33_bytes (bs : List Byte) (hbs : bs.length = 32) (a : List W32) (ha : a.length = 8) :
    (u256FromBytes bs).length = 8 ∧ val (u256FromBytes bs) = beVal bs ∧ u256ToBytes (u256FromBytes bs) = bs ∧
    u256FromBytes (u256ToBytes a) = a ∧ u256ToBytes a = toBE 32 (val a) := by
  obtain ⟨h1, h2⟩ := u256FromBytes_spec bs hbs
  exact ⟨h1, h2, u256To_from bs hbs, u256From_to a, u256ToBytes_eq ha⟩

/-- **C33** the same for `mpz_from_bytes` / `mpz_to_bytes` and any limb count. -/
theorem C33_mpz_bytes (n : Nat) (bs : List Byte) (hbs : bs.length = 4 * n) (a : List W32) (ha : a.length = n) :
    (mpzFromBytes bs n).length = n ∧ val (mpzFromBytes bs n) = beVal bs ∧ mpzToBytes (mpzFromBytes bs n) n = bs ∧
    mpzFromBytes (mpzToBytes a n) n = a ∧ beVal (mpzToBytes a n) = val a := by
  obtain ⟨h1, h2⟩ := loadWordsBE_spec n bs hbs
  have hlen := u256ToBytes_len a
  have e1 : mpzToBytes a n = u256ToBytes a := by
    unfold mpzToBytes u256ToBytes; rw [List.take_of_length_le (by omega)]
  refine ⟨?_, ?_, ?_, ?_, ?_⟩
  · unfold mpzFromBytes; rw [List.take_of_length_le (by omega)]; simp [h1]
  · unfold mpzFromBytes; rw [List.take_of_length_le (by omega)]; exact h2
  · unfold mpzToBytes mpzFromBytes
    rw [List.take_of_length_le (l := bs) (by omega), List.take_of_length_le (by simp [h1]), List.reverse_reverse]
    exact loadStore_words n bs hbs
  · rw [e1]; unfold mpzFromBytes; rw [List.take_of_length_le (by omega)]
    exact u256From_to a
  · rw [e1]; exact u256ToBytes_spec a

example : mpzToBytes [0x01020304, 0xA0B0C0D0] 2 = [0xA0, 0xB0, 0xC0, 0xD0, 1, 2, 3, 4] := by decide

/-! ## C34: Montgomery multiplication -/

/-- **C34** For every odd modulus, operands whose product is below `p * 2^256` give the unique reduced `r` with
`r * 2^256 = a * b (mod p)`. -/
theorem C34_mont_mul {ctx : Mont256CTX} {p : Nat} (h : IsMontCtx ctx p) (a b : List W32)
    (ha : a.length = 8) (hb : b.length = 8) (hab : val a * val b < 2 ^ 256 * p) :
    Reduced p (mont256Mul ctx a b) ∧ val (mont256Mul ctx a b) * 2 ^ 256 ≡ val a * val b [MOD p] := by
  have := mont256Mul_spec h.ok a b ha hb (by rw [h.P.2]; exact hab)
  rw [canon_iff h, h.P.2] at this
  exact this

/-- **C34** in terms of residue classes: multiplication and squaring of reduced operands. -/
theorem C34_mont_mul_sqr {ctx : Mont256CTX} {p : Nat} (h : IsMontCtx ctx p) (a b : List W32)
    (ha : Reduced p a) (hb : Reduced p b) :
    Reduced p (mont256Mul ctx a b) ∧ montVal p (mont256Mul ctx a b) = montVal p a * montVal p b ∧
    Reduced p (mont256Sqr ctx a) ∧ montVal p (mont256Sqr ctx a) = montVal p a ^ 2 := by
  rw [← canon_iff h] at *
  have hp := h.P.2
  subst hp
  obtain ⟨s1, s2⟩ := montVal_sqr h.ok ha
  exact ⟨(mont256Mul_canon h.ok ha.1 hb).1, montVal_mul h.ok ha.1 hb, (canon_iff h _).mp s1, s2⟩

/-- Reduced arrays are determined by the residue class they stand for. -/
theorem C34_unique {ctx : Mont256CTX} {p : Nat} (h : IsMontCtx ctx p) (a b : List W32)
    (ha : Reduced p a) (hb : Reduced p b) : montVal p a = montVal p b ↔ a = b := by
  rw [← canon_iff h] at *
  have hp := h.P.2
  subst hp
  exact montVal_inj h.ok ha hb

/-- The four contexts of the library meet the hypothesis of C34-C39. -/
example : IsMontCtx Sm2.fpCtx sm2p ∧ IsMontCtx Sm2.fnCtx sm2n ∧ IsMontCtx Sm9.fpCtx sm9p ∧
    IsMontCtx Sm9.fnCtx sm9n := ⟨Sm2.fpCtx_wf, Sm2.fnCtx_wf, Sm9.fpCtx_wf, Sm9.fnCtx_wf⟩

example : Reduced sm2p (u256FromBytes Sm2.sm2CurveGx) ∧ Reduced sm2p Sm2.fpCtx.R := by
  unfold Reduced; decide +kernel

/-! ## C35: modular addition, subtraction, doubling, tripling, halving -/

/-- **C35** For reduced operands the results are reduced and are the modular sum, difference, double and half;
both for the plain numbers and for the residue classes they stand for. -/
theorem C35_mont_linear {ctx : Mont256CTX} {p : Nat} (h : IsMontCtx ctx p) (a b : List W32)
    (ha : Reduced p a) (hb : Reduced p b) :
    (Reduced p (mont256Add ctx a b) ∧ val (mont256Add ctx a b) = (val a + val b) % p ∧
      montVal p (mont256Add ctx a b) = montVal p a + montVal p b) ∧
    (Reduced p (mont256Sub ctx a b) ∧ val (mont256Sub ctx a b) = (val a + (p - val b)) % p ∧
      montVal p (mont256Sub ctx a b) = montVal p a - montVal p b) ∧
    (Reduced p (mont256Dbl ctx a) ∧ val (mont256Dbl ctx a) = (2 * val a) % p ∧
      montVal p (mont256Dbl ctx a) = 2 * montVal p a) ∧
    (Reduced p (mont256Div2 ctx a) ∧ (2 * val (mont256Div2 ctx a)) % p = val a ∧
      2 * montVal p (mont256Div2 ctx a) = montVal p a) := by
  rw [← canon_iff h] at *
  have hp := h.P.2
  subst hp
  obtain ⟨a1, a2⟩ := mont256Add_spec h.ok ha hb
  obtain ⟨b1, b2⟩ := mont256Sub_spec h.ok ha hb
  obtain ⟨c1, c2⟩ := mont256Dbl_spec h.ok ha
  obtain ⟨d1, d2⟩ := mont256Div2_spec h.ok ha
  exact ⟨⟨a1, a2, montVal_add h.ok ha hb⟩, ⟨b1, b2, montVal_sub h.ok ha hb⟩,
    ⟨c1, c2, montVal_dbl h.ok ha⟩, ⟨d1, d2, montVal_div2 h.ok ha⟩⟩

/-- **C35** tripling, for every modulus with its top bit set (all four library contexts): the subtraction loop
ends and the result is the reduced triple. -/
theorem C35_mont_tpl {ctx : Mont256CTX} {p : Nat} (h : IsMontCtx ctx p) (hbig : 2 ^ 255 < p) (a : List W32)
    (ha : Reduced p a) :
    ∃ r, mont256Tpl ctx a = some r ∧ Reduced p r ∧ val r = (3 * val a) % p ∧ montVal p r = 3 * montVal p a := by
  rw [← canon_iff h] at ha
  have hp := h.P.2
  subst hp
  obtain ⟨r, r1, r2, r3⟩ := mont256Tpl_spec h.ok hbig ha
  refine ⟨r, r1, r2, r3, ?_⟩
  unfold montVal
  rw [r3, ZMod.natCast_mod, Nat.cast_mul, mul_assoc]; rfl

example : 2 ^ 255 < sm2p ∧ 2 ^ 255 < sm2n ∧ 2 ^ 255 < sm9p ∧ 2 ^ 255 < sm9n := by decide +kernel

/-! ## C36: negation -/

/-- **C36 (partial)** For every reduced non-zero operand, negation is the reduced additive inverse.
Missing: the operand zero, for which the code is wrong (`C36_neg_zero_violated`). -/
theorem C36_mont_neg_partial {ctx : Mont256CTX} {p : Nat} (h : IsMontCtx ctx p) (a : List W32)
    (ha : Reduced p a) (hne : val a ≠ 0) :
    Reduced p (mont256Neg ctx a) ∧ montVal p (mont256Neg ctx a) = - montVal p a ∧
    val (mont256Neg ctx a) = p - val a := by
  rw [← canon_iff h] at *
  have hp := h.P.2
  subst hp
  obtain ⟨n1, n2⟩ := mont256Neg_val h.ok ha
  refine ⟨⟨n1, by rw [n2]; have := ha.2; omega⟩, montVal_neg h.ok ha, n2⟩

example : Reduced sm2p Sm2.fpCtx.R ∧ val Sm2.fpCtx.R ≠ 0 := by unfold Reduced; decide +kernel

/-- **C36 is violated** at zero, for every modulus: the negation of zero is the unreduced array `p` (the early
return is missing, mont256_common.cpp 139-148). -/
theorem C36_neg_zero_violated {ctx : Mont256CTX} {p : Nat} (h : IsMontCtx ctx p) :
    Reduced p u256Zero ∧ mont256Neg ctx u256Zero = ctx.P ∧ ¬ Reduced p (mont256Neg ctx u256Zero) := by
  have hc := (canon_iff h _).mp (canon_zero h.ok)
  have hp := h.P.2
  subst hp
  obtain ⟨n1, n2⟩ := mont256Neg_val h.ok (canon_zero h.ok)
  have hz : val u256Zero = 0 := val_replicate_zero 8
  rw [hz, Nat.sub_zero] at n2
  refine ⟨hc, val_inj _ _ (by rw [n1, h.P.1]) n2, ?_⟩
  rintro ⟨_, hlt⟩
  omega

/-- **C36, consequence** the unreduced zero is observable: `neg(0) - 0` is not zero (SM2 field). -/
theorem C36_neg_zero_observable :
    montVal sm2p (mont256Sub Sm2.fpCtx (mont256Neg Sm2.fpCtx u256Zero) u256Zero) ≠ 0 := by
  have e : mont256Sub Sm2.fpCtx (mont256Neg Sm2.fpCtx u256Zero) u256Zero
      = u256FromBytes (toBE 32 (2 * sm2p - 2 ^ 256)) := by decide +kernel
  have hc : Canon Sm2.fpCtx (u256FromBytes (toBE 32 (2 * sm2p - 2 ^ 256))) := by
    unfold Canon; decide +kernel
  have hp := Sm2.fpCtx_wf.P.2
  rw [e]
  intro h0
  rw [← hp] at h0
  have := (montVal_eq_zero Sm2.fpCtx_wf.ok hc).mp h0
  revert this
  decide +kernel

/-! ## C37: exponentiation and inversion -/

/-- **C37 (partial)** For every reduced base and every non-zero exponent, `mont256_pow` never reads outside its
table and returns the reduced array standing for `x^e`. Missing: exponent zero, where the code is wrong
(`C37_pow_exponent_zero_violated`). -/
theorem C37_mont_pow_partial {ctx : Mont256CTX} {p : Nat} (h : IsMontCtx ctx p) (a e : List W32)
    (ha : Reduced p a) (he : e.length = 8) (hne : val e ≠ 0) :
    ∃ r, mont256Pow ctx a e = some r ∧ Reduced p r ∧ montVal p r = montVal p a ^ val e := by
  rw [← canon_iff h] at ha
  have hp := h.P.2
  subst hp
  obtain ⟨r, r1, r2, r3⟩ := mont256Pow_spec h.ok ha he hne
  exact ⟨r, r1, r2, r3⟩

example : Reduced sm2p Sm2.fpCtx.R ∧ Sm2.fpCtx.PSub2.length = 8 ∧ val Sm2.fpCtx.PSub2 ≠ 0 := by
  unfold Reduced; decide +kernel

/-- **C37 is violated** at exponent zero: in the SM2 field, `pow(1, 0)` does not stand for `1` (it is the plain
number 1, not the Montgomery form of 1). -/
theorem C37_pow_exponent_zero_violated :
    ∃ r, mont256Pow Sm2.fpCtx Sm2.fpCtx.R u256Zero = some r ∧
      montVal sm2p r ≠ montVal sm2p Sm2.fpCtx.R ^ val u256Zero := by
  refine ⟨u256One, by decide +kernel, ?_⟩
  have hz : val u256Zero = 0 := val_replicate_zero 8
  rw [hz, pow_zero]
  have hp := Sm2.fpCtx_wf.P.2
  rw [← hp, ← montVal_one Sm2.fpCtx_wf.ok]
  intro h
  have hc : Canon Sm2.fpCtx u256One := by unfold Canon; decide +kernel
  have := (montVal_inj Sm2.fpCtx_wf.ok hc (canon_R Sm2.fpCtx_wf.ok)).mp h
  revert this
  decide +kernel

/-- **C37** For a prime modulus, `mont256_inv` returns the reduced array standing for the inverse of every
non-zero operand (and zero for zero). -/
theorem C37_mont_inv {ctx : Mont256CTX} {p : Nat} (h : IsMontCtx ctx p) (hp : p.Prime) (a : List W32)
    (ha : Reduced p a) :
    ∃ r, mont256Inv ctx a = some r ∧ Reduced p r ∧ (val a ≠ 0 → montVal p r * montVal p a = 1) ∧
      (val a = 0 → val r = 0) := by
  rw [← canon_iff h] at ha
  have hpe := h.P.2
  subst hpe
  have : Fact (val ctx.P).Prime := ⟨hp⟩
  obtain ⟨r, r1, r2, r3⟩ := mont256Inv_spec h.ok hp ha
  refine ⟨r, r1, r2, ?_, ?_⟩
  · intro hne
    rw [r3]
    exact inv_mul_cancel₀ (fun h0 => hne ((montVal_eq_zero h.ok ha).mp h0))
  · intro hz
    rw [(montVal_eq_zero h.ok ha).mpr hz, inv_zero] at r3
    exact (montVal_eq_zero h.ok r2).mp r3

/-! ## C38: the Montgomery constant -/

/-- **C38** `mont_compute_N_` ends for every odd word and returns `N'` with `N' * P0 = -1 (mod 2^32)`. -/
theorem C38_mont_compute_N (P0 : W32) (hodd : P0.toNat % 2 = 1) :
    ∃ N, montComputeN P0 = some N ∧ (N.toNat * P0.toNat + 1) % 2 ^ 32 = 0 := by
  obtain ⟨N, n1, n2⟩ := montComputeN_spec P0 hodd
  refine ⟨N, n1, ?_⟩
  have := nok_of_mul P0 [] N n2
  unfold NOk at this
  simpa [val] using this

example : montComputeN 0x39d54123 = some 0x72350975 := by decide +kernel

/-! ## C39: conversion to and from Montgomery form -/

/-- **C39** `from_bytes` stands for the 256-bit value modulo `p`, and `to_bytes` after it returns the reduced
value in big-endian. -/
theorem C39_from_to_bytes {ctx : Mont256CTX} {p : Nat} (h : IsMontCtx ctx p) (bs : List Byte)
    (hbs : bs.length = 32) :
    Reduced p (mont256FromBytes ctx bs) ∧ montVal p (mont256FromBytes ctx bs) = (beVal bs : ZMod p) ∧
    mont256ToBytes ctx (mont256FromBytes ctx bs) = toBE 32 (beVal bs % p) := by
  have hpe := h.P.2
  subst hpe
  obtain ⟨l, v⟩ := u256FromBytes_spec bs hbs
  have hc := canon_toMont h.ok l
  have hv := montVal_toMont h.ok l
  rw [v] at hv
  refine ⟨hc, hv, ?_⟩
  obtain ⟨f1, f2⟩ := fromMont_spec h.ok hc.1
  unfold mont256ToBytes mont256FromBytes
  rw [u256ToBytes_eq f1.1]
  congr 1
  rw [hv, ZMod.natCast_eq_natCast_iff', Nat.mod_eq_of_lt f1.2] at f2
  exact f2

/-- **C39** `to_bytes` of any reduced array is the big-endian form of the number it stands for. -/
theorem C39_to_bytes {ctx : Mont256CTX} {p : Nat} (h : IsMontCtx ctx p) (a : List W32) (ha : Reduced p a) :
    ∃ x, x < p ∧ (x : ZMod p) = montVal p a ∧ mont256ToBytes ctx a = toBE 32 x ∧
      mont256FromBytes ctx (mont256ToBytes ctx a) = a := by
  have hpe := h.P.2
  subst hpe
  obtain ⟨f1, f2⟩ := fromMont_spec h.ok ha.1
  refine ⟨_, f1.2, f2, u256ToBytes_eq f1.1, ?_⟩
  unfold mont256FromBytes mont256ToBytes
  rw [u256From_to]
  have hc := canon_toMont h.ok f1.1
  refine (montVal_inj h.ok hc ha).mp ?_
  rw [montVal_toMont h.ok f1.1, f2]

/-- **C39** `from_bytes_ex` ends and reduces a byte string of any length. -/
theorem C39_from_bytes_ex {ctx : Mont256CTX} {p : Nat} (h : IsMontCtx ctx p) (bs : List Byte) :
    ∃ r, mont256FromBytesEx ctx bs = some r ∧ Reduced p r ∧ montVal p r = (beVal bs : ZMod p) := by
  have hpe := h.P.2
  subst hpe
  obtain ⟨r, r1, r2, r3⟩ := u256Mod_spec ctx.P h.P.1 (by have := h.gt_two; omega) bs
  refine ⟨u256ToMont ctx r, by unfold mont256FromBytesEx; rw [r1]; rfl, canon_toMont h.ok r2, ?_⟩
  rw [montVal_toMont h.ok r2, r3, ZMod.natCast_mod]

example : mont256ToBytes Sm2.fpCtx (mont256FromBytes Sm2.fpCtx (List.replicate 32 0xFF)) =
    toBE 32 ((2 ^ 256 - 1) % sm2p) := by decide +kernel

end Verif.Props
