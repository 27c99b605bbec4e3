import Verif.Model.Word
/-!
# Limb arithmetic with 32-bit limbs (the default, portable configuration)

Limb arrays are little-endian lists of words.  The code's destination arrays are returned.
In-place use (`sum == augend`, as in `uint256_mod_add(num, num, num, ..)`) is covered: every function
below reads index `i` of its operands before it writes index `i` of the result and never reads an
operand index again afterwards, so returning a fresh list is the same as writing in place.
-/
namespace Verif

/-- `_add_carry` (src/number/uint256_common.cpp 7-15; copies mpz_common.cpp 9-17, mont256_common.cpp 8-16).
`carry` is an `int`, converted to `uint64_t` by sign extension. -/
def addCarry (a b : W32) (carry : CInt) : W32 × CInt :=
  let tmp : W64 := a.setWidth 64 + b.setWidth 64 + carry.signExtend 64
  ((tmp &&& 0xFFFFFFFF#64).setWidth 32, (tmp >>> 32).setWidth 32)

/-- `_dbl_carry` (src/number/uint256_common.cpp 19-26). -/
def dblCarry (a : W32) (carry : CInt) : W32 × CInt :=
  let tmp : W64 := a.setWidth 64 + a.setWidth 64 + carry.signExtend 64
  ((tmp &&& 0xFFFFFFFF#64).setWidth 32, (tmp >>> 32).setWidth 32)

/-- `_tpl_carry` (src/number/uint256_common.cpp 30-38). -/
def tplCarry (a : W32) (carry : CInt) : W32 × CInt :=
  let tmp : W64 := a.setWidth 64 + a.setWidth 64 + a.setWidth 64 + carry.signExtend 64
  ((tmp &&& 0xFFFFFFFF#64).setWidth 32, (tmp >>> 32).setWidth 32)

/-- `_sub_borrow` (src/number/uint256_common.cpp 42-50). `borrow` is 0 or -1. -/
def subBorrow (a b : W32) (borrow : CInt) : W32 × CInt :=
  let tmp : W64 := a.setWidth 64 - b.setWidth 64 + borrow.signExtend 64
  ((tmp &&& 0xFFFFFFFF#64).setWidth 32, (tmp >>> 32).setWidth 32)

/-- `_mul_carry` (src/number/uint256_common.cpp 54-62). -/
def mulCarry (a b : W32) (carry : W32) : W32 × W32 :=
  let tmp : W64 := a.setWidth 64 * b.setWidth 64 + carry.setWidth 64
  ((tmp &&& 0xFFFFFFFF#64).setWidth 32, (tmp >>> 32).setWidth 32)

/-- `_add_mul_carry` (src/number/uint256_common.cpp 66-74, mont256_common.cpp 20-28): `r += n*m + carry`. -/
def addMulCarry (r n m : W32) (carry : W32) : W32 × W32 :=
  let tmp : W64 := n.setWidth 64 * m.setWidth 64 + r.setWidth 64 + carry.setWidth 64
  ((tmp &&& 0xFFFFFFFF#64).setWidth 32, (tmp >>> 32).setWidth 32)

/-! ## mpz: any number of limbs (src/number/mpz_common.cpp) -/

/-- The loop of `mpz_add_carry` (mpz_common.cpp 102-105) over limbs `i .. limb_size`; also the unrolled
body of `uint256_add_carry` (uint256_common.cpp 100-109). -/
def addCarryLoop : List W32 → List W32 → CInt → List W32 × CInt
  | a :: as, b :: bs, c =>
    let (r, c) := addCarry a b c
    let (rs, c) := addCarryLoop as bs c
    (r :: rs, c)
  | _, _, c => ([], c)

/-- `mpz_add_carry` (mpz_common.cpp 94-107). -/
def mpzAddCarry (a b : List W32) (carry : CInt) (limbSize : Nat) : List W32 × CInt :=
  if limbSize = 0 then ([], 0) else addCarryLoop (a.take limbSize) (b.take limbSize) carry

/-- The loop of `mpz_sub_borrow` (mpz_common.cpp 117-120), also the unrolled body of
`uint256_sub_borrow` (uint256_common.cpp 116-125). -/
def subBorrowLoop : List W32 → List W32 → CInt → List W32 × CInt
  | a :: as, b :: bs, c =>
    let (r, c) := subBorrow a b c
    let (rs, c) := subBorrowLoop as bs c
    (r :: rs, c)
  | _, _, c => ([], c)

/-- `mpz_sub_borrow` (mpz_common.cpp 109-122). -/
def mpzSubBorrow (a b : List W32) (borrow : CInt) (limbSize : Nat) : List W32 × CInt :=
  if limbSize = 0 then ([], 0) else subBorrowLoop (a.take limbSize) (b.take limbSize) borrow

/-- Inner loop of the first row of `mpz_mul` (mpz_common.cpp 132-136): `r[ia] , carry := a[ia]*b + carry`. -/
def mulRow : List W32 → W32 → W32 → List W32 × W32
  | a :: as, b, c =>
    let (r, c) := mulCarry a b c
    let (rs, c) := mulRow as b c
    (r :: rs, c)
  | [], _, c => ([], c)

/-- Inner loop of the later rows of `mpz_mul` (mpz_common.cpp 141-145): `r[ib+ia], carry := r[ib+ia] + a[ia]*b + carry`.
The first list is the window `r[ib ..]`. -/
def addMulRow : List W32 → List W32 → W32 → W32 → List W32 × W32
  | r :: rs, a :: as, b, c =>
    let (r', c) := addMulCarry r a b c
    let (rs', c) := addMulRow rs as b c
    (r' :: rs', c)
  | _, _, _, c => ([], c)

/-- Outer loop of `mpz_mul` (mpz_common.cpp 139-147) from row `ib` on.  `win` is the window
`r[ib .. ib+limb_size)`; `r[ib]` is final after row `ib`, and `r[ib+limb_size]` is set to the carry. -/
def mulLoop (a : List W32) : List W32 → List W32 → List W32
  | [], win => win
  | b :: bs, win =>
    match addMulRow win a b 0 with
    | (r0 :: rs, c) => r0 :: mulLoop a bs (rs ++ [c])
    | ([], c) => [c]

/-- `mpz_mul` (mpz_common.cpp 124-148).  The `2*limb_size` limbs of the result. -/
def mpzMul (a b : List W32) (limbSize : Nat) : List W32 :=
  if limbSize = 0 then []
  else
    match b.take limbSize with
    | [] => []
    | b0 :: bs =>
      match mulRow (a.take limbSize) b0 0 with
      | (r0 :: rs, c) => r0 :: mulLoop (a.take limbSize) bs (rs ++ [c])
      | ([], c) => [c]

/-- The loop of `mpz_cmp` (mpz_common.cpp 155-161) and `uint256_cmp` (uint256_common.cpp 404-409),
given the limbs from the most significant down. Result -1, 0 or 1. -/
def cmpFromTop : List W32 → List W32 → Int
  | a :: as, b :: bs => if a > b then 1 else if a < b then -1 else cmpFromTop as bs
  | _, _ => 0

/-- `mpz_cmp` (mpz_common.cpp 150-162). -/
def mpzCmp (a b : List W32) (limbSize : Nat) : Int :=
  if limbSize = 0 then 0
  else cmpFromTop (a.take limbSize).reverse (b.take limbSize).reverse

/-- Loop of `mpz_from_bytes` (mpz_common.cpp 176-179): big-endian words from the front of `src`, the last
word read being the least significant limb. Returns the limbs most significant first. -/
def loadWordsBE : List Byte → List W32
  | b0 :: b1 :: b2 :: b3 :: rest => memLoad32BE b0 b1 b2 b3 :: loadWordsBE rest
  | _ => []

/-- `mpz_from_bytes` (mpz_common.cpp 171-180) reading `4*limb_size` bytes. -/
def mpzFromBytes (src : List Byte) (limbSize : Nat) : List W32 :=
  (loadWordsBE (src.take (4 * limbSize))).reverse

/-- `mpz_to_bytes` (mpz_common.cpp 182-191). -/
def mpzToBytes (a : List W32) (limbSize : Nat) : List Byte :=
  ((a.take limbSize).reverse).flatMap memStore32BE

/-! ## uint256 (src/number/uint256_common.cpp): eight limbs -/

/-- `uint256_add_carry` (uint256_common.cpp 96-110): unrolled eight times. -/
def u256AddCarry (a b : List W32) : List W32 × CInt := addCarryLoop a b 0

/-- `uint256_sub_borrow` (uint256_common.cpp 112-126). -/
def u256SubBorrow (a b : List W32) : List W32 × CInt := subBorrowLoop a b 0

/-- Unrolled body of `uint256_dbl_carry` (uint256_common.cpp 131-140). -/
def dblCarryLoop : List W32 → CInt → List W32 × CInt
  | a :: as, c =>
    let (r, c) := dblCarry a c
    let (rs, c) := dblCarryLoop as c
    (r :: rs, c)
  | [], c => ([], c)

/-- `uint256_dbl_carry` (uint256_common.cpp 128-141). -/
def u256DblCarry (a : List W32) : List W32 × CInt := dblCarryLoop a 0

/-- Unrolled body of `uint256_tpl_carry` (uint256_common.cpp 146-155). -/
def tplCarryLoop : List W32 → CInt → List W32 × CInt
  | a :: as, c =>
    let (r, c) := tplCarry a c
    let (rs, c) := tplCarryLoop as c
    (r :: rs, c)
  | [], c => ([], c)

/-- `uint256_tpl_carry` (uint256_common.cpp 143-156). -/
def u256TplCarry (a : List W32) : List W32 × CInt := tplCarryLoop a 0

/-- `uint256_mul` (uint256_common.cpp 158-244): eight unrolled rows, same row structure as `mpz_mul`. -/
def u256Mul (a b : List W32) : List W32 :=
  match b with
  | [] => []
  | b0 :: bs =>
    match mulRow a b0 0 with
    | (r0 :: rs, c) => r0 :: mulLoop a bs (rs ++ [c])
    | ([], c) => [c]

/-- `uint256_sqr` (uint256_common.cpp 246-250). -/
def u256Sqr (a : List W32) : List W32 := u256Mul a a

/-- `uint256_add_carry_uint32` (uint256_common.cpp 252-266): the word goes to limb 0, zero elsewhere. -/
def u256AddWord (a : List W32) (b : W32) : List W32 × CInt :=
  addCarryLoop a (b :: List.replicate 7 0) 0

/-- `uint256_sub_borrow_uint32` (uint256_common.cpp 268-282). -/
def u256SubWord (a : List W32) (b : W32) : List W32 × CInt :=
  subBorrowLoop a (b :: List.replicate 7 0) 0

/-- `uint256_mul_carry_uint32` (uint256_common.cpp 284-298). -/
def u256MulWord (a : List W32) (b : W32) : List W32 × W32 := mulRow a b 0

/-- Loop of `uint256_div_uint32` (uint256_common.cpp 304-311), limbs given from the most significant down;
returns the quotient limbs in the same order and the remainder.  `divisor = 0` is undefined behaviour
in C++ (see `u256DivWord`). -/
def divWordLoop (divisor : W32) : List W32 → W64 → List W32 × W64
  | [], rem => ([], rem)
  | d :: ds, rem =>
    let rem := (rem <<< 32) ||| d.setWidth 64
    let q := (rem / divisor.setWidth 64).setWidth 32
    let (qs, r) := divWordLoop divisor ds (rem % divisor.setWidth 64)
    (q :: qs, r)

/-- `uint256_div_uint32` (uint256_common.cpp 300-313).  `none` = undefined behaviour (division by zero). -/
def u256DivWord (a : List W32) (divisor : W32) : Option (List W32 × W32) :=
  if divisor = 0 then none
  else
    let (qs, r) := divWordLoop divisor a.reverse 0
    some (qs.reverse, r.setWidth 32)

/-- `uint256_cmp` (uint256_common.cpp 402-410). -/
def u256Cmp (a b : List W32) : Int := cmpFromTop a.reverse b.reverse

/-- `uint256_cmp_uint32` (uint256_common.cpp 412-421), limbs 7..1 then limb 0. -/
def u256CmpWord (a : List W32) (b : W32) : Int :=
  match a with
  | [] => 0
  | a0 :: hi => if hi.any (fun x => decide (x > 0)) then 1 else if a0 > b then 1 else if a0 < b then -1 else 0

/-- `uint256_equal` (uint256_common.cpp 423-427): or of the xors is zero. -/
def u256Equal (a b : List W32) : Bool :=
  (List.zipWith (· ^^^ ·) a b).foldl (· ||| ·) 0 == 0

/-- `uint256_equal_zero` (uint256_common.cpp 429-432). -/
def u256EqualZero (a : List W32) : Bool := a.foldl (· ||| ·) 0 == 0

/-- `uint256_equal_one` (uint256_common.cpp 434-438). -/
def u256EqualOne (a : List W32) : Bool :=
  match a with
  | [] => false
  | a0 :: hi => hi.foldl (· ||| ·) 0 == 0 && a0 == 1

/-- `uint256_set_zero` (uint256_common.cpp 450-453). -/
def u256Zero : List W32 := List.replicate 8 0

/-- `uint256_set_uint32` (uint256_common.cpp 461-465). -/
def u256SetWord (w : W32) : List W32 := w :: List.replicate 7 0

/-- `uint256_set_one` (uint256_common.cpp 455-459). -/
def u256One : List W32 := 1 :: List.replicate 7 0

/-- `uint256_mod_add` (uint256_common.cpp 315-325). -/
def u256ModAdd (a b divisor : List W32) : List W32 :=
  let (sum, carry) := u256AddCarry a b
  if carry ≠ 0 ∨ u256Cmp sum divisor ≥ 0 then (u256SubBorrow sum divisor).1 else sum

/-- `uint256_mod_sub` (uint256_common.cpp 327-337). -/
def u256ModSub (a b divisor : List W32) : List W32 :=
  let (diff, borrow) := u256SubBorrow a b
  if borrow ≠ 0 ∨ u256Cmp diff divisor ≥ 0 then (u256AddCarry diff divisor).1 else diff

/-- `n` rounds of the loop of `uint256_self_mod_sll_n` (uint256_common.cpp 347-350). -/
def modDoubleN (divisor : List W32) : Nat → List W32 → List W32
  | 0, num => num
  | n + 1, num => modDoubleN divisor n (u256ModAdd num num divisor)

/-- `uint256_self_mod_sll_n` (uint256_common.cpp 339-351). -/
def u256SelfModSll (num : List W32) (n : Nat) (divisor : List W32) : List W32 :=
  if u256EqualZero num then num else modDoubleN divisor n num

/-- `while (uint256_cmp(t, divisor) >= 0) uint256_sub_borrow(t, t, divisor);` (uint256_common.cpp 364-367,
375-378, 390-393).  `none` = the loop has not ended after `fuel` rounds. -/
def subWhileGe (divisor : List W32) : Nat → List W32 → Option (List W32)
  | 0, _ => none
  | fuel + 1, t =>
    if u256Cmp t divisor ≥ 0 then subWhileGe divisor fuel (u256SubBorrow t divisor).1 else some t

/-- The number of loop rounds after which a run of `subWhileGe` is considered non-terminating: there are
only `2^256` values of `t`, so a run longer than that visits a value twice and never ends. -/
def loopFuel : Nat := 2 ^ 256 + 1

/-- `uint256_from_bytes` (uint256_common.cpp 471-482). -/
def u256FromBytes (bytes : List Byte) : List W32 := (loadWordsBE bytes).reverse

/-- `uint256_to_bytes` (uint256_common.cpp 484-495). -/
def u256ToBytes (a : List W32) : List Byte := a.reverse.flatMap memStore32BE

/-- Second and third part of `uint256_mod` (uint256_common.cpp 371-395): whole 32-byte chunks while they
last, then the ragged rest, which is copied to the end of a zeroed 32-byte buffer. -/
def u256ModLoop (divisor : List W32) (data : List Byte) (rem : List W32) : Option (List W32) :=
  if _h : data.length ≥ 32 then
    let rem := u256SelfModSll rem 256 divisor
    match subWhileGe divisor loopFuel (u256FromBytes (data.take 32)) with
    | none => none
    | some t => u256ModLoop divisor (data.drop 32) (u256ModAdd rem t divisor)
  else if data.length ≠ 0 then
    let rem := u256SelfModSll rem (8 * data.length) divisor
    match subWhileGe divisor loopFuel (u256FromBytes (List.replicate (32 - data.length) 0 ++ data)) with
    | none => none
    | some t => some (u256ModAdd rem t divisor)
  else some rem
termination_by data.length
decreasing_by simp [List.length_drop]; omega

/-- `uint256_mod` (uint256_common.cpp 353-396).  `none` = does not terminate. -/
def u256Mod (data : List Byte) (divisor : List W32) : Option (List W32) :=
  if data.length ≥ 32 then
    match subWhileGe divisor loopFuel (u256FromBytes (data.take 32)) with
    | none => none
    | some t => u256ModLoop divisor (data.drop 32) (u256ModAdd u256Zero t divisor)
  else u256ModLoop divisor data u256Zero

/-- `uint256_bittest` (uint256_common.cpp 501-504), `0 ≤ i < 256`. `none` = out of bounds read. -/
def u256BitTest (a : List W32) (i : Nat) : Option Bool :=
  (a[i / 32]?).map fun (w : W32) => ((w >>> (i % 32)) &&& 1#32) == 1#32

end Verif
