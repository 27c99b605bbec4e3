import Verif.Proofs.FieldProg
import Verif.Props.Number
import Verif.Proofs.Primes
import Verif.Spec.FieldProg
/-!
# Properties C30-C39 for the 64-bit-limb build, and C70: both builds compute the same bytes

The statements are those of `Props/Number.lean`, about the functions of src/number/*_x64.cpp.
-/
namespace Verif.X64.Props
open Verif.Spec hiding Reduced IsMontCtx
open Verif.Spec.X64

/-! ## C30 -/

/-- **C30 (64-bit limbs)** `mpz_add_carry`: for every limb count, the result limbs and returned carry hold the
exact sum. -/
theorem C30_x64_mpz_add (n : Nat) (hn : 0 < n) (a b : List W64) (ha : a.length = n) (hb : b.length = n)
    (c : CInt) (hc : c = 0 ∨ c = 1) :
    (mpzAddCarry a b c n).1.length = n ∧
    val (mpzAddCarry a b c n).1 + 2 ^ (64 * n) * (mpzAddCarry a b c n).2.toNat = val a + val b + c.toNat ∧
    ((mpzAddCarry a b c n).2 = 0 ∨ (mpzAddCarry a b c n).2 = 1) := by
  have hc' : (c.setWidth 8 : Byte).toNat = c.toNat ∧ c.toNat ≤ 1 := by rcases hc with rfl | rfl <;> decide
  unfold mpzAddCarry
  rw [if_neg (by omega), List.take_of_length_le (by omega), List.take_of_length_le (by omega)]
  obtain ⟨h1, h2⟩ := addLoop_spec a b (c.setWidth 8) (by omega) (by omega)
  have h3 := addLoop_len a b (c.setWidth 8) (by omega)
  obtain ⟨_, _, k⟩ := cfInt _ h2
  simp only
  rw [k]
  refine ⟨by omega, by rw [← ha, ← hc'.1]; exact h1, ?_⟩
  rcases Nat.le_one_iff_eq_zero_or_eq_one.mp h2 with h | h
  · exact Or.inl (BitVec.eq_of_toNat_eq (by rw [k, h]; rfl))
  · exact Or.inr (BitVec.eq_of_toNat_eq (by rw [k, h]; rfl))

example : mpzAddCarry [0xFFFFFFFFFFFFFFFF, 0xFFFFFFFFFFFFFFFF, 7] [1, 0, 0xFFFFFFFFFFFFFFFF] 1 3 = ([1, 0, 7], 1) := by
  decide +kernel

/-- **C30 (64-bit limbs)** `mpz_sub_borrow`: for every limb count, difference and borrow (0 or -1) are exact. -/
theorem C30_x64_mpz_sub (n : Nat) (hn : 0 < n) (a b : List W64) (ha : a.length = n) (hb : b.length = n)
    (c : CInt) (hc : c = 0 ∨ c = -1) :
    (mpzSubBorrow a b c n).1.length = n ∧
    (val (mpzSubBorrow a b c n).1 : Int) + 2 ^ (64 * n) * (mpzSubBorrow a b c n).2.toInt
      = val a - val b + c.toInt ∧
    ((mpzSubBorrow a b c n).2 = 0 ∨ (mpzSubBorrow a b c n).2 = -1) := by
  have hc' : (((-c).setWidth 8 : Byte).toNat : Int) = -c.toInt ∧ ((-c).setWidth 8 : Byte).toNat ≤ 1 := by
    rcases hc with rfl | rfl <;> decide
  unfold mpzSubBorrow
  rw [if_neg (by omega), List.take_of_length_le (by omega), List.take_of_length_le (by omega)]
  obtain ⟨h1, h2⟩ := subLoop_spec a b ((-c).setWidth 8) (by omega) hc'.2
  have h3 := subLoop_len a b ((-c).setWidth 8) (by omega)
  obtain ⟨k1, k2, _⟩ := cfInt _ h2
  simp only
  have h1' := congrArg (Nat.cast : Nat → Int) h1
  push_cast at h1'
  rw [hc'.1, ha] at h1'
  have hm : (-1 : CInt).toInt = -1 := rfl
  have hz : (0 : CInt).toInt = 0 := rfl
  rcases Nat.le_one_iff_eq_zero_or_eq_one.mp h2 with h | h
  · rw [k1 h, hz]
    rw [h] at h1'
    refine ⟨by omega, by push_cast at h1' ⊢; linarith, Or.inl rfl⟩
  · rw [k2 h, hm]
    rw [h] at h1'
    refine ⟨by omega, by push_cast at h1' ⊢; linarith, Or.inr rfl⟩

example : mpzSubBorrow [0, 0, 7] [1, 0, 9] (-1) 3 =
    ([0xFFFFFFFFFFFFFFFE, 0xFFFFFFFFFFFFFFFF, 0xFFFFFFFFFFFFFFFD], -1) := by decide +kernel

/-- **C30 (64-bit limbs)** `mpz_mul`: for every limb count the `2n` result limbs hold the exact product. -/
theorem C30_x64_mpz_mul (n : Nat) (hn : 0 < n) (a b : List W64) (ha : a.length = n) (hb : b.length = n) :
    (mpzMul a b n).length = 2 * n ∧ val (mpzMul a b n) = val a * val b := by
  match b, hb with
  | b0 :: bs, hb =>
    obtain ⟨m1, m2⟩ := mpzMul_cons a (by rintro rfl; simp at ha; omega) b0 bs n ha.symm hb.symm
    exact ⟨by omega, m1⟩
  | [], hb => simp at hb; omega

example : mpzMul [0xFFFFFFFFFFFFFFFF, 2, 3] [0xFFFFFFFFFFFFFFFF, 0, 1] 3
    = [1, 18446744073709551612, 18446744073709551614, 5, 3, 0] := by decide +kernel

/-! ## C31 -/

/-- **C31 (64-bit limbs)** addition, doubling and tripling with carry. -/
theorem C31_x64_add_dbl_tpl (a b : List W64) (ha : a.length = 4) (hb : b.length = 4) :
    val (u256AddCarry a b).1 + 2 ^ 256 * (u256AddCarry a b).2.toNat = val a + val b ∧
    val (u256DblCarry a).1 + 2 ^ 256 * (u256DblCarry a).2.toNat = 2 * val a ∧
    val (u256TplCarry a).1 + 2 ^ 256 * (u256TplCarry a).2.toNat = 3 * val a ∧
    (u256AddCarry a b).1.length = 4 ∧ (u256DblCarry a).1.length = 4 ∧ (u256TplCarry a).1.length = 4 := by
  have key : ∀ b : List W64, b.length = 4 →
      val (addLoop a b 0).1 + 2 ^ 256 * ((addLoop a b 0).2.setWidth 32 : CInt).toNat = val a + val b ∧
      (addLoop a b 0).1.length = 4 ∧ ((addLoop a b 0).2.setWidth 32 : CInt).toNat ≤ 1 := by
    intro b hb
    obtain ⟨h1, h1'⟩ := addLoop_spec a b 0 (by omega) (by decide)
    obtain ⟨_, _, k⟩ := cfInt _ h1'
    have l1 := addLoop_len a b 0 (by omega)
    rw [ha, byte_zero_toNat] at h1
    rw [k]
    exact ⟨h1, by omega, h1'⟩
  obtain ⟨a1, a2, _⟩ := key b hb
  obtain ⟨d1, d2, d3⟩ := key a ha
  obtain ⟨t1, t2, t3⟩ := key (addLoop a a 0).1 d2
  unfold u256AddCarry u256DblCarry u256TplCarry
  simp only
  refine ⟨a1, by rw [d1]; ring, ?_, a2, d2, t2⟩
  rw [BitVec.toNat_add, Nat.mod_eq_of_lt (by omega)]
  omega

example : u256TplCarry (List.replicate 4 0xFFFFFFFFFFFFFFFF) =
    (0xFFFFFFFFFFFFFFFD :: List.replicate 3 0xFFFFFFFFFFFFFFFF, 2) := by decide +kernel

/-- **C31 (64-bit limbs)** subtraction: exact difference modulo 2^256, and the borrow is -1 exactly when the subtrahend is
larger. -/
theorem C31_x64_sub (a b : List W64) (ha : a.length = 4) (hb : b.length = 4) :
    (u256SubBorrow a b).1.length = 4 ∧
    (val (u256SubBorrow a b).1 : Int) + 2 ^ 256 * (u256SubBorrow a b).2.toInt = val a - val b ∧
    ((u256SubBorrow a b).2 = -1 ↔ val a < val b) ∧ ((u256SubBorrow a b).2 = 0 ↔ val b ≤ val a) := by
  obtain ⟨h1, h2, h3⟩ := u256Sub_spec a b ha hb
  have hbl := len4_lt hb
  refine ⟨h1, ?_⟩
  have hm : (-1 : CInt).toInt = -1 := rfl
  have hz : (0 : CInt).toInt = 0 := rfl
  have hne : ((0 : CInt) = -1) = False := by decide
  have hne' : ((-1 : CInt) = 0) = False := by decide
  rcases Nat.lt_or_ge (val a) (val b) with h | h
  · obtain ⟨e1, e2⟩ := h3 h
    rw [e1, e2, hm, hne', Nat.cast_sub (by omega), Nat.cast_add, Nat.cast_pow]
    refine ⟨by push_cast; ring, by simp [h], by simp; omega⟩
  · obtain ⟨e1, e2⟩ := h2 h
    rw [e1, e2, hz, hne, Nat.cast_sub h]
    refine ⟨by simp, by simp; omega, by simp [h]⟩

example : u256SubBorrow (1 :: List.replicate 3 0) (2 :: List.replicate 3 0) =
    (List.replicate 4 0xFFFFFFFFFFFFFFFF, -1) := by decide +kernel

/-- **C31 (64-bit limbs)** multiplication and squaring are exact. -/
theorem C31_x64_mul_sqr (a b : List W64) (ha : a.length = 4) (hb : b.length = 4) :
    val (u256Mul a b) = val a * val b ∧ (u256Mul a b).length = 8 ∧
    val (u256Sqr a) = val a ^ 2 ∧ (u256Sqr a).length = 8 := by
  obtain ⟨m1, m2⟩ := u256Mul_spec a b (by rintro rfl; simp at ha) (by rintro rfl; simp at hb)
  obtain ⟨m3, m4⟩ := u256Mul_spec a a (by rintro rfl; simp at ha) (by rintro rfl; simp at ha)
  unfold u256Sqr
  exact ⟨m1, by omega, by rw [m3, sq], by omega⟩

example : val (u256Mul (List.replicate 4 0xFFFFFFFFFFFFFFFF) (List.replicate 4 0xFFFFFFFFFFFFFFFF))
    = (2 ^ 256 - 1) ^ 2 := by decide +kernel

/-- **C31 (64-bit limbs)** the single-word variants: addition, multiplication, comparison. -/
theorem C31_x64_word_ops (a : List W64) (b : W64) (ha : a.length = 4) :
    val (u256AddWord a b).1 + 2 ^ 256 * (u256AddWord a b).2.toNat = val a + b.toNat ∧
    val (u256MulWord a b).1 + 2 ^ 256 * (u256MulWord a b).2.toNat = val a * b.toNat ∧
    (val (u256SubWord a b).1 : Int) + 2 ^ 256 * (u256SubWord a b).2.toInt = val a - b.toNat ∧
    u256CmpWord a b = (if val a > b.toNat then 1 else if val a < b.toNat then -1 else 0) ∧
    (u256EqualOne a = true ↔ val a = 1) ∧ (u256EqualZero a = true ↔ val a = 0) ∧
    val (u256SetWord b) = b.toNat := by
  have hne : a ≠ [] := by rintro rfl; simp at ha
  have hl : (b :: List.replicate 3 (0 : W64)).length = 4 := by simp
  have h1 := (C31_x64_add_dbl_tpl a (b :: List.replicate 3 0) ha hl).1
  have h2 := (mulWord_spec a hne b).1
  have h3 := (C31_x64_sub a (b :: List.replicate 3 0) ha hl).2.1
  rw [val_word] at h1
  rw [ha] at h2
  rw [val_word] at h3
  exact ⟨h1, h2, h3, u256CmpWord_spec a b hne, u256EqualOne_spec a hne, u256EqualZero_iff a, val_word b 3⟩

example : u256MulWord (List.replicate 4 0xFFFFFFFFFFFFFFFF) 0xFFFFFFFFFFFFFFFF =
    (1 :: List.replicate 3 0xFFFFFFFFFFFFFFFF, 0xFFFFFFFFFFFFFFFE) := by decide +kernel

/-- **C31 (64-bit limbs)** division by a non-zero word: quotient and remainder. -/
theorem C31_x64_div_word (a : List W64) (d : W64) (hd : d ≠ 0) :
    ∃ q r, u256DivWord a d = some (q, r) ∧ q.length = a.length ∧
      val q = val a / d.toNat ∧ r.toNat = val a % d.toNat := u256DivWord_spec a d hd

example : u256DivWord [1, 0, 0, 0xFFFFFFFFFFFFFFFF] 0x10 =
    some ([0, 0, 0xF000000000000000, 0x0FFFFFFFFFFFFFFF], 1) := by decide +kernel

/-- **C31 (64-bit limbs)** comparison and equality. -/
theorem C31_x64_cmp (a b : List W64) (ha : a.length = 4) (hb : b.length = 4) :
    u256Cmp a b = (if val a > val b then 1 else if val a < val b then -1 else 0) ∧
    (u256Equal a b = true ↔ val a = val b) :=
  ⟨cmp_spec a b (by omega), u256Equal_iff a b (by omega)⟩

example : u256Cmp [0, 0, 0, 1] [9, 9, 9, 0] = 1 := by decide

/-- **C31 (64-bit limbs)** bit test: bit `i` of the number, for every index the array has. -/
theorem C31_x64_bittest (a : List W64) (ha : a.length = 4) (i : Nat) (hi : i < 256) :
    u256BitTest a i = some ((val a).testBit i) := u256BitTest_spec a i (by omega)

example : u256BitTest [0, 0, 0, 0x8000000000000000] 255 = some true := by decide +kernel

/-! ## C32 -/

/-- **C32 (64-bit limbs)** `uint256_mod` ends and returns the big-endian value modulo the divisor, for every byte string of
every length and every non-zero divisor. -/
theorem C32_x64_uint256_mod (data : List Byte) (d : List W64) (hl : d.length = 4) (hd : val d ≠ 0) :
    ∃ r, u256Mod data d = some r ∧ r.length = 4 ∧ val r = beVal data % val d :=
  u256Mod_spec d hl (by omega) data

example : ([3, 0, 0, 0] : List W64).length = 4 ∧ val ([3, 0, 0, 0] : List W64) ≠ 0 := by
  decide

/-- With a zero divisor the loop never ends: `uint256_mod` of a 32-byte string has no result. -/
theorem C32_x64_zero_divisor_diverges : ∀ fuel, subWhileGe u256Zero fuel (u256FromBytes (List.replicate 32 0)) = none := by
  intro fuel
  have h0 : u256FromBytes (List.replicate 32 0) = u256Zero := by decide
  rw [h0]
  induction fuel with
  | zero => rfl
  | succ n ih =>
    unfold subWhileGe
    rw [if_pos (by decide), show (u256SubBorrow u256Zero u256Zero).1 = u256Zero by decide]
    exact ih

/-! ## C33 -/

/-- **C33 (64-bit limbs)** `uint256_from_bytes` / `uint256_to_bytes` are mutually inverse and denote the big-endian value. -/
theorem C33_x64_bytes (bs : List Byte) (hbs : bs.length = 32) (a : List W64) (ha : a.length = 4) :
    (u256FromBytes bs).length = 4 ∧ val (u256FromBytes bs) = beVal bs ∧ u256ToBytes (u256FromBytes bs) = bs ∧
    u256FromBytes (u256ToBytes a) = a ∧ u256ToBytes a = toBE 32 (val a) := by
  obtain ⟨h1, h2⟩ := u256FromBytes_spec bs hbs
  exact ⟨h1, h2, u256To_from bs hbs, u256From_to a, u256ToBytes_eq ha⟩

/-- **C33 (64-bit limbs)** the same for `mpz_from_bytes` / `mpz_to_bytes` and any limb count. -/
theorem C33_x64_mpz_bytes (n : Nat) (bs : List Byte) (hbs : bs.length = 8 * n) (a : List W64) (ha : a.length = n) :
    (mpzFromBytes bs n).length = n ∧ val (mpzFromBytes bs n) = beVal bs ∧ mpzToBytes (mpzFromBytes bs n) n = bs ∧
    mpzFromBytes (mpzToBytes a n) n = a ∧ beVal (mpzToBytes a n) = val a := by
  obtain ⟨h1, h2⟩ := loadWordsBE_spec n bs hbs
  have hlen := u256ToBytes_len a
  have e1 : mpzToBytes a n = u256ToBytes a := by
    unfold mpzToBytes u256ToBytes; rw [List.take_of_length_le (by omega)]
  refine ⟨?_, ?_, ?_, ?_, ?_⟩
  · unfold mpzFromBytes; rw [List.take_of_length_le (by omega)]; simp [h1]
  · unfold mpzFromBytes; rw [List.take_of_length_le (by omega)]; exact h2
  · unfold mpzToBytes mpzFromBytes
    rw [List.take_of_length_le (l := bs) (by omega), List.take_of_length_le (by simp [h1]), List.reverse_reverse]
    exact loadStore_words n bs hbs
  · rw [e1]; unfold mpzFromBytes; rw [List.take_of_length_le (by omega)]
    exact u256From_to a
  · rw [e1]; exact u256ToBytes_spec a

example : mpzToBytes [0x01020304, 0xA0B0C0D0] 2 = [0, 0, 0, 0, 0xA0, 0xB0, 0xC0, 0xD0, 0, 0, 0, 0, 1, 2, 3, 4] := by
  decide

/-! ## C34 -/

/-- **C34 (64-bit limbs)** For every odd modulus, operands whose product is below `p * 2^256` give the unique reduced `r` with
`r * 2^256 = a * b (mod p)`. -/
theorem C34_x64_mont_mul {ctx : Mont256CTX} {p : Nat} (h : IsMontCtx ctx p) (a b : List W64)
    (ha : a.length = 4) (hb : b.length = 4) (hab : val a * val b < 2 ^ 256 * p) :
    Reduced p (mont256Mul ctx a b) ∧ val (mont256Mul ctx a b) * 2 ^ 256 ≡ val a * val b [MOD p] := by
  have := mont256Mul_spec h.ok a b ha hb (by rw [h.P.2]; exact hab)
  rw [canon_iff h, h.P.2] at this
  exact this

/-- **C34 (64-bit limbs)** in terms of residue classes: multiplication and squaring of reduced operands. -/
theorem C34_x64_mont_mul_sqr {ctx : Mont256CTX} {p : Nat} (h : IsMontCtx ctx p) (a b : List W64)
    (ha : Reduced p a) (hb : Reduced p b) :
    Reduced p (mont256Mul ctx a b) ∧ montVal p (mont256Mul ctx a b) = montVal p a * montVal p b ∧
    Reduced p (mont256Sqr ctx a) ∧ montVal p (mont256Sqr ctx a) = montVal p a ^ 2 := by
  rw [← canon_iff h] at *
  have hp := h.P.2
  subst hp
  obtain ⟨s1, s2⟩ := montVal_sqr h.ok ha
  exact ⟨(mont256Mul_canon h.ok ha.1 hb).1, montVal_mul h.ok ha.1 hb, (canon_iff h _).mp s1, s2⟩

/-- Reduced arrays are determined by the residue class they stand for. -/
theorem C34_x64_unique {ctx : Mont256CTX} {p : Nat} (h : IsMontCtx ctx p) (a b : List W64)
    (ha : Reduced p a) (hb : Reduced p b) : montVal p a = montVal p b ↔ a = b := by
  rw [← canon_iff h] at *
  have hp := h.P.2
  subst hp
  exact montVal_inj h.ok ha hb

/-- The four contexts of the library meet the hypothesis of C34-C39. -/
example : IsMontCtx sm2FpCtx sm2p ∧ IsMontCtx sm2FnCtx sm2n ∧ IsMontCtx sm9FpCtx sm9p ∧
    IsMontCtx sm9FnCtx sm9n := ⟨sm2FpCtx_wf, sm2FnCtx_wf, sm9FpCtx_wf, sm9FnCtx_wf⟩

example : Reduced sm2p (u256FromBytes Sm2.sm2CurveGx) ∧ Reduced sm2p sm2FpCtx.R := by
  unfold Reduced; decide +kernel

/-! ## C35 -/

/-- **C35 (64-bit limbs)** For reduced operands the results are reduced and are the modular sum, difference, double and half;
both for the plain numbers and for the residue classes they stand for. -/
theorem C35_x64_mont_linear {ctx : Mont256CTX} {p : Nat} (h : IsMontCtx ctx p) (a b : List W64)
    (ha : Reduced p a) (hb : Reduced p b) :
    (Reduced p (mont256Add ctx a b) ∧ val (mont256Add ctx a b) = (val a + val b) % p ∧
      montVal p (mont256Add ctx a b) = montVal p a + montVal p b) ∧
    (Reduced p (mont256Sub ctx a b) ∧ val (mont256Sub ctx a b) = (val a + (p - val b)) % p ∧
      montVal p (mont256Sub ctx a b) = montVal p a - montVal p b) ∧
    (Reduced p (mont256Dbl ctx a) ∧ val (mont256Dbl ctx a) = (2 * val a) % p ∧
      montVal p (mont256Dbl ctx a) = 2 * montVal p a) ∧
    (Reduced p (mont256Div2 ctx a) ∧ (2 * val (mont256Div2 ctx a)) % p = val a ∧
      2 * montVal p (mont256Div2 ctx a) = montVal p a) := by
  rw [← canon_iff h] at *
  have hp := h.P.2
  subst hp
  obtain ⟨a1, a2⟩ := mont256Add_spec h.ok ha hb
  obtain ⟨b1, b2⟩ := mont256Sub_spec h.ok ha hb
  obtain ⟨c1, c2⟩ := mont256Dbl_spec h.ok ha
  obtain ⟨d1, d2⟩ := mont256Div2_spec h.ok ha
  exact ⟨⟨a1, a2, montVal_add h.ok ha hb⟩, ⟨b1, b2, montVal_sub h.ok ha hb⟩,
    ⟨c1, c2, montVal_dbl h.ok ha⟩, ⟨d1, d2, montVal_div2 h.ok ha⟩⟩

/-- **C35 (64-bit limbs)** tripling, for every modulus (the portable build needs its top bit set). -/
theorem C35_x64_mont_tpl {ctx : Mont256CTX} {p : Nat} (h : IsMontCtx ctx p) (a : List W64) (ha : Reduced p a) :
    Reduced p (mont256Tpl ctx a) ∧ val (mont256Tpl ctx a) = (3 * val a) % p ∧
    montVal p (mont256Tpl ctx a) = 3 * montVal p a := by
  rw [← canon_iff h] at ha
  have hp := h.P.2
  subst hp
  obtain ⟨r2, r3⟩ := mont256Tpl_spec h.ok ha
  refine ⟨r2, r3, ?_⟩
  unfold montVal
  rw [r3, ZMod.natCast_mod, Nat.cast_mul, mul_assoc]; rfl

/-! ## C36 -/

/-- **C36 (64-bit limbs)** holds in full: the negation of every reduced operand, zero included, is the reduced
additive inverse. -/
theorem C36_x64_mont_neg {ctx : Mont256CTX} {p : Nat} (h : IsMontCtx ctx p) (a : List W64) (ha : Reduced p a) :
    Reduced p (mont256Neg ctx a) ∧ montVal p (mont256Neg ctx a) = - montVal p a ∧
    val (mont256Neg ctx a) = (p - val a) % p := by
  rw [← canon_iff h] at *
  have hp := h.P.2
  subst hp
  obtain ⟨n1, n2⟩ := mont256Neg_val h.ok ha
  exact ⟨n1, montVal_neg h.ok ha, n2⟩

example : Reduced sm2p u256Zero ∧ mont256Neg sm2FpCtx u256Zero = u256Zero := by unfold Reduced; decide +kernel

/-! ## C37 -/

/-- **C37 (64-bit limbs) (partial)** For every reduced base and every non-zero exponent, `mont256_pow` never reads outside its
table and returns the reduced array standing for `x^e`. Missing: exponent zero, where the code is wrong
(`C37_x64_pow_exponent_zero_violated`). -/
theorem C37_x64_mont_pow_partial {ctx : Mont256CTX} {p : Nat} (h : IsMontCtx ctx p) (a e : List W64)
    (ha : Reduced p a) (he : e.length = 4) (hne : val e ≠ 0) :
    ∃ r, mont256Pow ctx a e = some r ∧ Reduced p r ∧ montVal p r = montVal p a ^ val e := by
  rw [← canon_iff h] at ha
  have hp := h.P.2
  subst hp
  obtain ⟨r, r1, r2, r3⟩ := mont256Pow_spec h.ok ha he hne
  exact ⟨r, r1, r2, r3⟩

example : Reduced sm2p sm2FpCtx.R ∧ sm2FpCtx.PSub2.length = 4 ∧ val sm2FpCtx.PSub2 ≠ 0 := by
  unfold Reduced; decide +kernel

/-- **C37 (64-bit limbs) is violated** at exponent zero: in the SM2 field, `pow(1, 0)` does not stand for `1` (it is the plain
number 1, not the Montgomery form of 1). -/
theorem C37_x64_pow_exponent_zero_violated :
    ∃ r, mont256Pow sm2FpCtx sm2FpCtx.R u256Zero = some r ∧
      montVal sm2p r ≠ montVal sm2p sm2FpCtx.R ^ val u256Zero := by
  refine ⟨u256One, by decide +kernel, ?_⟩
  have hz : val u256Zero = 0 := val_replicate_zero 4
  rw [hz, pow_zero]
  have hp := sm2FpCtx_wf.P.2
  rw [← hp, ← montVal_one sm2FpCtx_wf.ok]
  intro h
  have hc : Canon sm2FpCtx u256One := by unfold Canon; decide +kernel
  have := (montVal_inj sm2FpCtx_wf.ok hc (canon_R sm2FpCtx_wf.ok)).mp h
  revert this
  decide +kernel

/-- **C37 (64-bit limbs)** For a prime modulus, `mont256_inv` returns the reduced array standing for the inverse of every
non-zero operand (and zero for zero). -/
theorem C37_x64_mont_inv {ctx : Mont256CTX} {p : Nat} (h : IsMontCtx ctx p) (hp : p.Prime) (a : List W64)
    (ha : Reduced p a) :
    ∃ r, mont256Inv ctx a = some r ∧ Reduced p r ∧ (val a ≠ 0 → montVal p r * montVal p a = 1) ∧
      (val a = 0 → val r = 0) := by
  rw [← canon_iff h] at ha
  have hpe := h.P.2
  subst hpe
  have : Fact (val ctx.P).Prime := ⟨hp⟩
  obtain ⟨r, r1, r2, r3⟩ := mont256Inv_spec h.ok hp ha
  refine ⟨r, r1, r2, ?_, ?_⟩
  · intro hne
    rw [r3]
    exact inv_mul_cancel₀ (fun h0 => hne ((montVal_eq_zero h.ok ha).mp h0))
  · intro hz
    rw [(montVal_eq_zero h.ok ha).mpr hz, inv_zero] at r3
    exact (montVal_eq_zero h.ok r2).mp r3

/-! ## C38 -/

/-- **C38 (64-bit limbs)** `mont_compute_N_` ends for every odd word and returns `N'` with `N' * P0 = -1 (mod 2^64)`. -/
theorem C38_x64_mont_compute_N (P0 : W64) (hodd : P0.toNat % 2 = 1) :
    ∃ N, montComputeN P0 = some N ∧ (N.toNat * P0.toNat + 1) % 2 ^ 64 = 0 := by
  obtain ⟨N, n1, n2⟩ := montComputeN_spec P0 hodd
  refine ⟨N, n1, ?_⟩
  have := nok_of_mul P0 [] N n2
  unfold NOk at this
  simpa [val] using this

example : montComputeN (sm9FpCtx.P.headD 0) = some sm9FpCtx.N_ := by decide +kernel

/-! ## C39 -/

/-- **C39 (64-bit limbs)** `from_bytes` stands for the 256-bit value modulo `p`, and `to_bytes` after it returns the reduced
value in big-endian. -/
theorem C39_x64_from_to_bytes {ctx : Mont256CTX} {p : Nat} (h : IsMontCtx ctx p) (bs : List Byte)
    (hbs : bs.length = 32) :
    Reduced p (mont256FromBytes ctx bs) ∧ montVal p (mont256FromBytes ctx bs) = (beVal bs : ZMod p) ∧
    mont256ToBytes ctx (mont256FromBytes ctx bs) = toBE 32 (beVal bs % p) := by
  have hpe := h.P.2
  subst hpe
  obtain ⟨l, v⟩ := u256FromBytes_spec bs hbs
  have hc := canon_toMont h.ok l
  have hv := montVal_toMont h.ok l
  rw [v] at hv
  refine ⟨hc, hv, ?_⟩
  obtain ⟨f1, f2⟩ := fromMont_spec h.ok hc.1
  unfold mont256ToBytes mont256FromBytes
  rw [u256ToBytes_eq f1.1]
  congr 1
  rw [hv, ZMod.natCast_eq_natCast_iff', Nat.mod_eq_of_lt f1.2] at f2
  exact f2

/-- **C39 (64-bit limbs)** `to_bytes` of any reduced array is the big-endian form of the number it stands for. -/
theorem C39_x64_to_bytes {ctx : Mont256CTX} {p : Nat} (h : IsMontCtx ctx p) (a : List W64) (ha : Reduced p a) :
    ∃ x, x < p ∧ (x : ZMod p) = montVal p a ∧ mont256ToBytes ctx a = toBE 32 x ∧
      mont256FromBytes ctx (mont256ToBytes ctx a) = a := by
  have hpe := h.P.2
  subst hpe
  obtain ⟨f1, f2⟩ := fromMont_spec h.ok ha.1
  refine ⟨_, f1.2, f2, u256ToBytes_eq f1.1, ?_⟩
  unfold mont256FromBytes mont256ToBytes
  rw [u256From_to]
  have hc := canon_toMont h.ok f1.1
  refine (montVal_inj h.ok hc ha).mp ?_
  rw [montVal_toMont h.ok f1.1, f2]

/-- **C39 (64-bit limbs)** `from_bytes_ex` ends and reduces a byte string of any length. -/
theorem C39_x64_from_bytes_ex {ctx : Mont256CTX} {p : Nat} (h : IsMontCtx ctx p) (bs : List Byte) :
    ∃ r, mont256FromBytesEx ctx bs = some r ∧ Reduced p r ∧ montVal p r = (beVal bs : ZMod p) := by
  have hpe := h.P.2
  subst hpe
  obtain ⟨r, r1, r2, r3⟩ := u256Mod_spec ctx.P h.P.1 (by have := h.gt_two; omega) bs
  refine ⟨u256ToMont ctx r, by unfold mont256FromBytesEx; rw [r1]; rfl, canon_toMont h.ok r2, ?_⟩
  rw [montVal_toMont h.ok r2, r3, ZMod.natCast_mod]

example : mont256ToBytes sm2FpCtx (mont256FromBytes sm2FpCtx (List.replicate 32 0xFF)) =
    toBE 32 ((2 ^ 256 - 1) % sm2p) := by decide +kernel

/-! ## C70: the two builds agree -/

/-- **C70** For every prime modulus above `2^255` (the four moduli of the library are such), every program of
field operations and all 32-byte inputs for which no zero is negated, the portable build and the 64-bit build end and
produce the same bytes, those of the program's value. Missing: programs that negate zero, for which the builds
disagree (`C70_x64_neg_violated`). -/
theorem C70_x64_same_bytes_partial {ctx : Verif.Mont256CTX} {ctx' : Mont256CTX} {p : Nat} [hp : Fact p.Prime]
    (hbig : 2 ^ 255 < p) (h : Spec.IsMontCtx ctx p) (h' : IsMontCtx ctx' p) (env : Nat → List Byte)
    (henv : ∀ i, (env i).length = 32) (e : FieldProg) (hneg : e.NegNonzero p env) :
    ∃ r r' x, e.runCommon ctx env = some r ∧ e.runX64 ctx' env = some r' ∧ x < p ∧
      (x : ZMod p) = e.denote p env ∧
      Verif.mont256ToBytes ctx r = toBE 32 x ∧ mont256ToBytes ctx' r' = toBE 32 x := by
  obtain ⟨r, r1, r2, r3⟩ := runCommon_spec hbig h env henv e hneg
  obtain ⟨r', r1', r2', r3'⟩ := runX64_spec h' env henv e
  obtain ⟨x, x1, x2, x3, _⟩ := Verif.Props.C39_to_bytes h r r2
  obtain ⟨y, y1, y2, y3, _⟩ := C39_x64_to_bytes h' r' r2'
  have hxy : x = y := by
    have : (x : ZMod p) = (y : ZMod p) := by rw [x2, y2, r3, r3']
    rwa [ZMod.natCast_eq_natCast_iff', Nat.mod_eq_of_lt x1, Nat.mod_eq_of_lt y1] at this
  subst hxy
  exact ⟨r, r', x, r1, r1', x1, by rw [x2, r3], x3, y3⟩

/-- **C70** the 64-bit build computes every program, negations included. -/
theorem C70_x64_all_programs {ctx : Mont256CTX} {p : Nat} [hp : Fact p.Prime] (h : IsMontCtx ctx p)
    (env : Nat → List Byte) (henv : ∀ i, (env i).length = 32) (e : FieldProg) :
    ∃ r x, e.runX64 ctx env = some r ∧ x < p ∧ (x : ZMod p) = e.denote p env ∧
      mont256ToBytes ctx r = toBE 32 x := by
  obtain ⟨r, r1, r2, r3⟩ := runX64_spec h env henv e
  obtain ⟨y, y1, y2, y3, _⟩ := C39_x64_to_bytes h r r2
  exact ⟨r, y, r1, y1, by rw [y2, r3], y3⟩

/-- The hypotheses of C70 hold for the library's contexts. -/
example : Nat.Prime sm2p ∧ 2 ^ 255 < sm2p ∧ Spec.IsMontCtx Sm2.fpCtx sm2p ∧ IsMontCtx sm2FpCtx sm2p ∧
    haveI : Fact sm2p.Prime := ⟨sm2p_prime⟩
    (FieldProg.inv (.add (.input 0) (.tpl (.neg .one)))).NegNonzero sm2p (fun _ => List.replicate 32 7) :=
  ⟨sm2p_prime, by decide +kernel, Sm2.fpCtx_wf, sm2FpCtx_wf, by
    have : Fact sm2p.Prime := ⟨sm2p_prime⟩
    simp [FieldProg.NegNonzero, FieldProg.denote]⟩

/-- **C70 is violated** once a zero is negated: for the SM2 field, input zero and the program `neg x - x`, the
portable build and the 64-bit build give different bytes. -/
theorem C70_x64_neg_violated :
    ¬ ∀ (env : Nat → List Byte) (e : FieldProg), (∀ i, (env i).length = 32) →
      (e.runCommon Sm2.fpCtx env).map (Verif.mont256ToBytes Sm2.fpCtx)
        = (e.runX64 sm2FpCtx env).map (mont256ToBytes sm2FpCtx) := by
  intro h
  exact absurd (h (fun _ => List.replicate 32 0) (.sub (.neg (.input 0)) (.input 0)) (by intro; rfl))
    (by decide +kernel)

end Verif.X64.Props
