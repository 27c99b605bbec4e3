import Verif.Model.Word
/-!
# Limb arithmetic with 64-bit limbs (the BMI2/MOVBE configuration, src/number/*_x64.cpp)

Selected for the whole library by `CPU_FLAG_MOVBE` and `CPU_FLAG_BMI2` (include/gmlib/number/mont256.h 4-5).
Limb arrays are little-endian lists of words; destination arrays are returned.  As in `Model/Limbs.lean`,
every function reads index `i` of its operands before it writes index `i` of the result.
-/
namespace Verif.X64

/-! ## The intrinsics -/

/-- `_addcarry_u64(c, a, b, &out)` (Intel intrinsics guide; used throughout src/number/*_x64.cpp): the 64-bit
sum of `a`, `b` and one if `c` is not zero, and the carry out. -/
def addcarryU64 (c : Byte) (a b : W64) : W64 × Byte :=
  let s : BitVec 65 := a.setWidth 65 + b.setWidth 65 + (if c = 0 then 0 else 1)
  (s.setWidth 64, (s >>> 64).setWidth 8)

/-- `_subborrow_u64(c, a, b, &out)`: the 64-bit difference `a - b - (c != 0)` and the borrow out (0 or 1). -/
def subborrowU64 (c : Byte) (a b : W64) : W64 × Byte :=
  let s : BitVec 65 := a.setWidth 65 - b.setWidth 65 - (if c = 0 then 0 else 1)
  (s.setWidth 64, (s >>> 64).setWidth 8)

/-- `_mulx_u64(a, b, &hi)`: low and high half of the 128-bit product. -/
def mulxU64 (a b : W64) : W64 × W64 :=
  let p : BitVec 128 := a.setWidth 128 * b.setWidth 128
  (p.setWidth 64, (p >>> 64).setWidth 64)

/-- `_udiv128(h, l, d, &r)` (src/number/uint256_x64.cpp 18-26): quotient and remainder of the 128-bit number,
both truncated to 64 bits. `d = 0` is undefined behaviour, see `u256DivWord`. -/
def udiv128 (h l d : W64) : W64 × W64 :=
  let hl : BitVec 128 := (h.setWidth 128 <<< 64) ||| l.setWidth 128
  ((hl / d.setWidth 128).setWidth 64, (hl % d.setWidth 128).setWidth 64)

/-- `_loadbe_i64` (src/number/mpz_x64.cpp 17, uint256_x64.cpp 15): byte swap of the little-endian word at the
pointer, i.e. the first byte is the most significant. Alignment of the access is not modelled. -/
def memLoad64BE (b0 b1 b2 b3 b4 b5 b6 b7 : Byte) : W64 :=
  b0 ++ b1 ++ b2 ++ b3 ++ b4 ++ b5 ++ b6 ++ b7

/-- `_storebe_i64` (src/number/mpz_x64.cpp 18, uint256_x64.cpp 16): the eight bytes written. -/
def memStore64BE (a : W64) : List Byte :=
  [a.extractLsb' 56 8, a.extractLsb' 48 8, a.extractLsb' 40 8, a.extractLsb' 32 8,
   a.extractLsb' 24 8, a.extractLsb' 16 8, a.extractLsb' 8 8, a.extractLsb' 0 8]

/-! ## mpz: any number of limbs (src/number/mpz_x64.cpp) -/

/-- The carry chain `CF = _addcarry_u64(CF, a[i], b[i], &r[i])`: loop of `mpz_add_carry` (mpz_x64.cpp 32-35) and
the unrolled chains of uint256_x64.cpp and mont256_x64.cpp. -/
def addLoop : List W64 → List W64 → Byte → List W64 × Byte
  | a :: as, b :: bs, c =>
    let (r, c) := addcarryU64 c a b
    let (rs, c) := addLoop as bs c
    (r :: rs, c)
  | _, _, c => ([], c)

/-- `mpz_add_carry` (mpz_x64.cpp 24-37). The initial carry is truncated to a byte. -/
def mpzAddCarry (a b : List W64) (carry : CInt) (limbSize : Nat) : List W64 × CInt :=
  if limbSize = 0 then ([], 0)
  else
    let (r, cf) := addLoop (a.take limbSize) (b.take limbSize) (carry.setWidth 8)
    (r, cf.setWidth 32)

/-- The borrow chain `CF = _subborrow_u64(CF, a[i], b[i], &r[i])` (mpz_x64.cpp 47-50 and the unrolled chains). -/
def subLoop : List W64 → List W64 → Byte → List W64 × Byte
  | a :: as, b :: bs, c =>
    let (r, c) := subborrowU64 c a b
    let (rs, c) := subLoop as bs c
    (r :: rs, c)
  | _, _, c => ([], c)

/-- `mpz_sub_borrow` (mpz_x64.cpp 39-52): `CF = -borrow`, result `-CF`. -/
def mpzSubBorrow (a b : List W64) (borrow : CInt) (limbSize : Nat) : List W64 × CInt :=
  if limbSize = 0 then ([], 0)
  else
    let (r, cf) := subLoop (a.take limbSize) (b.take limbSize) ((-borrow).setWidth 8)
    (r, -(cf.setWidth 32))

/-- One step of the first row of `mpz_mul` (mpz_x64.cpp 66-69): result limb and next `pre_hi`. -/
def mulCarry (a b preHi : W64) : W64 × W64 :=
  let (lo, hi) := mulxU64 a b
  let (r, cf) := addcarryU64 0 lo preHi
  (r, (addcarryU64 cf hi 0).1)

/-- Inner loop of the first row of `mpz_mul` (mpz_x64.cpp 64-70). -/
def mulRow : List W64 → W64 → W64 → List W64 × W64
  | a :: as, b, c =>
    let (r, c) := mulCarry a b c
    let (rs, c) := mulRow as b c
    (r :: rs, c)
  | [], _, c => ([], c)

/-- One step of the later rows of `mpz_mul` (mpz_x64.cpp 78-83). -/
def addMulCarry (r a b preHi : W64) : W64 × W64 :=
  let (lo, hi) := mulxU64 a b
  let (r, cf) := addcarryU64 0 r lo
  let hi := (addcarryU64 cf hi 0).1
  let (r, cf) := addcarryU64 0 r preHi
  (r, (addcarryU64 cf hi 0).1)

/-- Inner loop of the later rows of `mpz_mul` (mpz_x64.cpp 76-84); the first list is the window `product[i2 ..]`. -/
def addMulRow : List W64 → List W64 → W64 → W64 → List W64 × W64
  | r :: rs, a :: as, b, c =>
    let (r', c) := addMulCarry r a b c
    let (rs', c) := addMulRow rs as b c
    (r' :: rs', c)
  | _, _, _, c => ([], c)

/-- Outer loop of `mpz_mul` (mpz_x64.cpp 73-86) from row `i2` on, window `product[i2 .. i2+limb_size)`. -/
def mpzMulLoop (a : List W64) : List W64 → List W64 → List W64
  | [], win => win
  | b :: bs, win =>
    match addMulRow win a b 0 with
    | (r0 :: rs, c) => r0 :: mpzMulLoop a bs (rs ++ [c])
    | ([], c) => [c]

/-- `mpz_mul` (mpz_x64.cpp 54-87). -/
def mpzMul (a b : List W64) (limbSize : Nat) : List W64 :=
  if limbSize = 0 then []
  else
    match b.take limbSize with
    | [] => []
    | b0 :: bs =>
      match mulRow (a.take limbSize) b0 0 with
      | (r0 :: rs, c) => r0 :: mpzMulLoop (a.take limbSize) bs (rs ++ [c])
      | ([], c) => [c]

/-- Loop of the 64-bit `mpz_cmp` (mpz_x64.cpp 94-99).  The variable `pos` is computed but the
comparison uses `a[i]`, `b[i]`: the limbs are visited from the *least* significant up. -/
def cmpFromBottom : List W64 → List W64 → Int
  | a :: as, b :: bs => if a > b then 1 else if a < b then -1 else cmpFromBottom as bs
  | _, _ => 0

/-- `x64::mpz_cmp` (mpz_x64.cpp 89-101). -/
def mpzCmp (a b : List W64) (limbSize : Nat) : Int :=
  if limbSize = 0 then 0 else cmpFromBottom (a.take limbSize) (b.take limbSize)

/-- Loop of `mpz_from_bytes` (mpz_x64.cpp 115-118): big-endian words from the front, most significant first. -/
def loadWordsBE : List Byte → List W64
  | b0 :: b1 :: b2 :: b3 :: b4 :: b5 :: b6 :: b7 :: rest =>
    memLoad64BE b0 b1 b2 b3 b4 b5 b6 b7 :: loadWordsBE rest
  | _ => []

/-- `mpz_from_bytes` (mpz_x64.cpp 110-119) reading `8*limb_size` bytes. -/
def mpzFromBytes (src : List Byte) (limbSize : Nat) : List W64 :=
  (loadWordsBE (src.take (8 * limbSize))).reverse

/-- `mpz_to_bytes` (mpz_x64.cpp 121-130). -/
def mpzToBytes (a : List W64) (limbSize : Nat) : List Byte :=
  ((a.take limbSize).reverse).flatMap memStore64BE

/-! ## uint256 (src/number/uint256_x64.cpp): four limbs -/

/-- `uint256_add_carry` (uint256_x64.cpp 36-46). -/
def u256AddCarry (a b : List W64) : List W64 × CInt :=
  let (r, cf) := addLoop a b 0
  (r, cf.setWidth 32)

/-- `uint256_sub_borrow` (uint256_x64.cpp 48-58). -/
def u256SubBorrow (a b : List W64) : List W64 × CInt :=
  let (r, cf) := subLoop a b 0
  (r, -(cf.setWidth 32))

/-- `uint256_dbl_carry` (uint256_x64.cpp 60-69). -/
def u256DblCarry (a : List W64) : List W64 × CInt :=
  let (r, cf) := addLoop a a 0
  (r, cf.setWidth 32)

/-- `uint256_tpl_carry` (uint256_x64.cpp 71-88): the double, then the sum; the two carries are added. -/
def u256TplCarry (a : List W64) : List W64 × CInt :=
  let (t, c1) := addLoop a a 0
  let (r, c2) := addLoop a t 0
  (r, c1.setWidth 32 + c2.setWidth 32)

/-- The four `_mulx_u64` of a row (uint256_x64.cpp 103-106 etc.): low words and high words. -/
def mulxRow : List W64 → W64 → List W64 × List W64
  | a :: as, b =>
    let (lo, hi) := mulxU64 a b
    let (los, his) := mulxRow as b
    (lo :: los, hi :: his)
  | [], _ => ([], [])

/-- Product of an array and a word: step 1 of `uint256_mul` (uint256_x64.cpp 103-111),
`uint256_mul_carry_uint64` (uint256_x64.cpp 202-212) and `m_times_p` (mont256_x64.cpp 36-44).  The high words
are added one position up; the last high word takes the final carry, the carry out of that is dropped. -/
def mulWord (a : List W64) (b : W64) : List W64 × W64 :=
  match mulxRow a b with
  | (l0 :: ls, his) =>
    let (rs, cf) := addLoop ls his.dropLast 0
    (l0 :: rs, (addcarryU64 cf 0 (his.getLastD 0)).1)
  | ([], _) => ([], 0)

/-- One later step of `uint256_mul` (uint256_x64.cpp 114-129, 132-146, 149-161) on the window
`product[i .. i+4)`: the low words are added, the carry becomes the new top word, then the high words are added
one position up, the last carry being dropped. Returns the finished word and the next window. -/
def mulStep (a : List W64) (b : W64) (win : List W64) : W64 × List W64 :=
  let (los, his) := mulxRow a b
  let (w, cf) := addLoop win los 0
  let top := (addcarryU64 cf 0 0).1
  (w.headD 0, (addLoop (w.tail ++ [top]) his 0).1)

/-- Steps 2 to 4 of `uint256_mul` (uint256_x64.cpp 113-161). -/
def mulSteps (a : List W64) : List W64 → List W64 → List W64
  | [], win => win
  | b :: bs, win =>
    let (r0, win) := mulStep a b win
    r0 :: mulSteps a bs win

/-- `uint256_mul` (uint256_x64.cpp 90-162). -/
def u256Mul (a b : List W64) : List W64 :=
  match b with
  | [] => []
  | b0 :: bs =>
    let (rs, top) := mulWord a b0
    rs.headD 0 :: mulSteps a bs (rs.tail ++ [top])

/-- `uint256_sqr` (uint256_x64.cpp 164-168). -/
def u256Sqr (a : List W64) : List W64 := u256Mul a a

/-- `uint256_add_carry_uint64` (uint256_x64.cpp 170-180). -/
def u256AddWord (a : List W64) (b : W64) : List W64 × CInt := u256AddCarry a (b :: List.replicate 3 0)

/-- `uint256_sub_borrow_uint64` (uint256_x64.cpp 182-192). -/
def u256SubWord (a : List W64) (b : W64) : List W64 × CInt := u256SubBorrow a (b :: List.replicate 3 0)

/-- `uint256_mul_carry_uint64` (uint256_x64.cpp 194-213). -/
def u256MulWord (a : List W64) (b : W64) : List W64 × W64 := mulWord a b

/-- The four `_udiv128` of `uint256_div_uint64` (uint256_x64.cpp 219-222), from the most significant word down. -/
def divWordLoop (divisor : W64) : List W64 → W64 → List W64 × W64
  | [], rem => ([], rem)
  | d :: ds, rem =>
    let (q, rem) := udiv128 rem d divisor
    let (qs, r) := divWordLoop divisor ds rem
    (q :: qs, r)

/-- `uint256_div_uint64` (uint256_x64.cpp 215-224).  `none` = undefined behaviour (division by zero). -/
def u256DivWord (a : List W64) (divisor : W64) : Option (List W64 × W64) :=
  if divisor = 0 then none
  else
    let (qs, r) := divWordLoop divisor a.reverse 0
    some (qs.reverse, r)

/-- Loop of `uint256_cmp` (uint256_x64.cpp 329-333), limbs from the most significant down. -/
def cmpFromTop : List W64 → List W64 → Int
  | a :: as, b :: bs => if a > b then 1 else if a < b then -1 else cmpFromTop as bs
  | _, _ => 0

/-- `uint256_cmp` (uint256_x64.cpp 327-335). -/
def u256Cmp (a b : List W64) : Int := cmpFromTop a.reverse b.reverse

/-- `uint256_cmp_uint64` (uint256_x64.cpp 337-346). -/
def u256CmpWord (a : List W64) (b : W64) : Int :=
  match a with
  | [] => 0
  | a0 :: hi => if hi.any (fun x => decide (x > 0)) then 1 else if a0 > b then 1 else if a0 < b then -1 else 0

/-- `uint256_equal` (uint256_x64.cpp 348-351). -/
def u256Equal (a b : List W64) : Bool :=
  (List.zipWith (· ^^^ ·) a b).foldl (· ||| ·) 0 == 0

/-- `uint256_equal_zero` (uint256_x64.cpp 353-356). -/
def u256EqualZero (a : List W64) : Bool := a.foldl (· ||| ·) 0 == 0

/-- `uint256_equal_one` (uint256_x64.cpp 358-361). -/
def u256EqualOne (a : List W64) : Bool :=
  match a with
  | [] => false
  | a0 :: hi => hi.foldl (· ||| ·) 0 == 0 && a0 == 1

/-- `uint256_set_zero` (uint256_x64.cpp 372-375). -/
def u256Zero : List W64 := List.replicate 4 0

/-- `uint256_set_uint64` (uint256_x64.cpp 383-387). -/
def u256SetWord (w : W64) : List W64 := w :: List.replicate 3 0

/-- `uint256_set_one` (uint256_x64.cpp 377-381). -/
def u256One : List W64 := 1 :: List.replicate 3 0

/-- `uint256_mod_add` (uint256_x64.cpp 226-243). -/
def u256ModAdd (a b divisor : List W64) : List W64 :=
  let (sum, c) := addLoop a b 0
  if c ≠ 0 ∨ u256Cmp sum divisor ≥ 0 then (subLoop sum divisor 0).1 else sum

/-- `uint256_mod_sub` (uint256_x64.cpp 245-262). -/
def u256ModSub (a b divisor : List W64) : List W64 :=
  let (diff, c) := subLoop a b 0
  if c ≠ 0 ∨ u256Cmp diff divisor ≥ 0 then (addLoop diff divisor 0).1 else diff

/-- `n` rounds of the loop of `uint256_self_mod_sll_n` (uint256_x64.cpp 272-275). -/
def modDoubleN (divisor : List W64) : Nat → List W64 → List W64
  | 0, num => num
  | n + 1, num => modDoubleN divisor n (u256ModAdd num num divisor)

/-- `uint256_self_mod_sll_n` (uint256_x64.cpp 264-276). -/
def u256SelfModSll (num : List W64) (n : Nat) (divisor : List W64) : List W64 :=
  if u256EqualZero num then num else modDoubleN divisor n num

/-- `while (uint256_cmp(t, divisor) >= 0) uint256_sub_borrow(t, t, divisor);` (uint256_x64.cpp 289-292, 300-303,
315-318).  `none` = the loop has not ended after `fuel` rounds. -/
def subWhileGe (divisor : List W64) : Nat → List W64 → Option (List W64)
  | 0, _ => none
  | fuel + 1, t =>
    if u256Cmp t divisor ≥ 0 then subWhileGe divisor fuel (u256SubBorrow t divisor).1 else some t

/-- As for the portable code: there are only `2^256` values of `t`, so a run longer than that never ends. -/
def loopFuel : Nat := 2 ^ 256 + 1

/-- `uint256_from_bytes` (uint256_x64.cpp 393-400). -/
def u256FromBytes (bytes : List Byte) : List W64 := (loadWordsBE bytes).reverse

/-- `uint256_to_bytes` (uint256_x64.cpp 402-409). -/
def u256ToBytes (a : List W64) : List Byte := a.reverse.flatMap memStore64BE

/-- Second and third part of `uint256_mod` (uint256_x64.cpp 296-320). -/
def u256ModLoop (divisor : List W64) (data : List Byte) (rem : List W64) : Option (List W64) :=
  if _h : data.length ≥ 32 then
    let rem := u256SelfModSll rem 256 divisor
    match subWhileGe divisor loopFuel (u256FromBytes (data.take 32)) with
    | none => none
    | some t => u256ModLoop divisor (data.drop 32) (u256ModAdd rem t divisor)
  else if data.length ≠ 0 then
    let rem := u256SelfModSll rem (8 * data.length) divisor
    match subWhileGe divisor loopFuel (u256FromBytes (List.replicate (32 - data.length) 0 ++ data)) with
    | none => none
    | some t => some (u256ModAdd rem t divisor)
  else some rem
termination_by data.length
decreasing_by simp [List.length_drop]; omega

/-- `uint256_mod` (uint256_x64.cpp 278-321).  `none` = does not terminate. -/
def u256Mod (data : List Byte) (divisor : List W64) : Option (List W64) :=
  if data.length ≥ 32 then
    match subWhileGe divisor loopFuel (u256FromBytes (data.take 32)) with
    | none => none
    | some t => u256ModLoop divisor (data.drop 32) (u256ModAdd u256Zero t divisor)
  else u256ModLoop divisor data u256Zero

/-- `uint256_bittest` (uint256_x64.cpp 415-419), `0 ≤ i`. `none` = out of bounds read. -/
def u256BitTest (a : List W64) (i : Nat) : Option Bool :=
  (a[i / 64]?).map fun (w : W64) => ((w >>> (i % 64)) &&& 1#64) == 1#64

end Verif.X64
