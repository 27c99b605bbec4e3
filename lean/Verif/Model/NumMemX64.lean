import Verif.Model.NumMem
import Verif.Model.LimbsX64
/-!
# The integer functions as programs on memory, 64-bit build (mpz_x64.cpp, uint256_x64.cpp)

As in `Model/NumMem.lean`, with 64-bit words.
-/
namespace Verif.X64.NumMem
open Verif Verif.X64 Verif.NumMem

/-- `c = _addcarry_u64(c, a[i], b[i], &r[i])`. -/
def addStep (a b : W64) (c : Byte) : W64 × Byte := addcarryU64 c a b

/-- `c = _subborrow_u64(c, a[i], b[i], &r[i])`. -/
def subStep (a b : W64) (c : Byte) : W64 × Byte := subborrowU64 c a b

/-! ## mpz_x64.cpp -/

/-- `mpz_add_carry` (mpz_x64.cpp 24-37). -/
def mpzAdd (n r a b : Nat) (carry : CInt) (m : Verif.NumMem.Mem 64) : Verif.NumMem.Mem 64 × CInt :=
  if n = 0 then (m, 0)
  else
    let s := chain addStep n r (.mem a) (.mem b) (carry.setWidth 8) m
    (s.1, s.2.setWidth 32)

/-- `mpz_sub_borrow` (mpz_x64.cpp 39-52). -/
def mpzSub (n r a b : Nat) (borrow : CInt) (m : Verif.NumMem.Mem 64) : Verif.NumMem.Mem 64 × CInt :=
  if n = 0 then (m, 0)
  else
    let s := chain subStep n r (.mem a) (.mem b) ((-borrow).setWidth 8) m
    (s.1, -(s.2.setWidth 32))

/-- `mpz_mul` (mpz_x64.cpp 54-87).  In one step the code stores `product[i]` twice and reads no operand in between, so
the step is one store. -/
def mpzMul (n r a b : Nat) (m : Verif.NumMem.Mem 64) : Verif.NumMem.Mem 64 :=
  if n = 0 then m
  else
    let s := row (fun _ x y c => X64.mulCarry x y c) n r a b 0 m
    rows X64.addMulCarry n a (n - 1) (r + 1) (b + 1) (put s.1 (r + n) s.2)

/-! ## uint256_x64.cpp -/

/-- `uint256_add_carry` (uint256_x64.cpp 36-46). -/
def add (r : Nat) (a b : Opd 64) (m : Verif.NumMem.Mem 64) : Verif.NumMem.Mem 64 × CInt :=
  let s := chain addStep 4 r a b 0 m
  (s.1, s.2.setWidth 32)

/-- `uint256_sub_borrow` (uint256_x64.cpp 48-58). -/
def sub (r : Nat) (a b : Opd 64) (m : Verif.NumMem.Mem 64) : Verif.NumMem.Mem 64 × CInt :=
  let s := chain subStep 4 r a b 0 m
  (s.1, -(s.2.setWidth 32))

/-- `uint256_dbl_carry` (uint256_x64.cpp 60-69). -/
def dbl (r a : Nat) (m : Verif.NumMem.Mem 64) : Verif.NumMem.Mem 64 × CInt := add r (.mem a) (.mem a) m

/-- `uint256_tpl_carry` (uint256_x64.cpp 71-88): the double goes to the local `t`, a value. -/
def tpl (r a : Nat) (m : Verif.NumMem.Mem 64) : Verif.NumMem.Mem 64 × CInt :=
  let t := addLoop (words m a 4) (words m a 4) 0
  let s := chain addStep 4 r (.mem a) (.lit t.1) 0 m
  (s.1, t.2.setWidth 32 + s.2.setWidth 32)

/-- `n` stores `product[i] = _mulx_u64(multiplier[i], *b, &hi[i])` (uint256_x64.cpp 103-106): the local `hi` is returned; the
word `*b` is read again each time. -/
def mulxStores : Nat → Nat → Nat → Nat → Verif.NumMem.Mem 64 → Verif.NumMem.Mem 64 × List W64
  | 0, _, _, _, m => (m, [])
  | n + 1, r, a, b, m =>
    let s := mulxU64 (m a) (m b)
    let t := mulxStores n (r + 1) (a + 1) b (put m r s.1)
    (t.1, s.2 :: t.2)

/-- Step 1 of `uint256_mul` (uint256_x64.cpp 103-111). -/
def mulFirst (r a b : Nat) (m : Verif.NumMem.Mem 64) : Verif.NumMem.Mem 64 :=
  let s := mulxStores 4 r a b m
  let t := chain addStep 3 (r + 1) (.mem (r + 1)) (.lit s.2) 0 s.1
  put t.1 (r + 4) (addcarryU64 t.2 0 (s.2.getLastD 0)).1

/-- Steps 2 to 4 of `uint256_mul` (uint256_x64.cpp 113-161): the words of the operands are read to the locals `lo`, `hi`
before the first store of a step. -/
def mulRows (a : Nat) : Nat → Nat → Nat → Verif.NumMem.Mem 64 → Verif.NumMem.Mem 64
  | 0, _, _, m => m
  | k + 1, r, b, m =>
    let lh := mulxRow (words m a 4) (m b)
    let s := chain addStep 4 r (.mem r) (.lit lh.1) 0 m
    let m := put s.1 (r + 4) (addcarryU64 s.2 0 0).1
    mulRows a k (r + 1) (b + 1) (chain addStep 4 (r + 1) (.mem (r + 1)) (.lit lh.2) 0 m).1

/-- `uint256_mul` (uint256_x64.cpp 90-162). -/
def mul (r a b : Nat) (m : Verif.NumMem.Mem 64) : Verif.NumMem.Mem 64 := mulRows a 3 (r + 1) (b + 1) (mulFirst r a b m)

/-- `uint256_sqr` (uint256_x64.cpp 164-168). -/
def sqr (r a : Nat) (m : Verif.NumMem.Mem 64) : Verif.NumMem.Mem 64 := mul r a a m

/-- `uint256_add_carry_uint64` (uint256_x64.cpp 170-180). -/
def addWord (r a : Nat) (b : W64) (m : Verif.NumMem.Mem 64) : Verif.NumMem.Mem 64 × CInt := add r (.mem a) (.lit [b]) m

/-- `uint256_sub_borrow_uint64` (uint256_x64.cpp 182-192). -/
def subWord (r a : Nat) (b : W64) (m : Verif.NumMem.Mem 64) : Verif.NumMem.Mem 64 × CInt := sub r (.mem a) (.lit [b]) m

/-- `n` stores `product[i] = _mulx_u64(multiplier[i], multiplicand, &hi[i])` (uint256_x64.cpp 202-205). -/
def mulxWordStores (d : W64) : Nat → Nat → Nat → Verif.NumMem.Mem 64 → Verif.NumMem.Mem 64 × List W64
  | 0, _, _, m => (m, [])
  | n + 1, r, a, m =>
    let s := mulxU64 (m a) d
    let t := mulxWordStores d n (r + 1) (a + 1) (put m r s.1)
    (t.1, s.2 :: t.2)

/-- `uint256_mul_carry_uint64` (uint256_x64.cpp 194-213). -/
def mulWord (r a : Nat) (d : W64) (m : Verif.NumMem.Mem 64) : Verif.NumMem.Mem 64 × W64 :=
  let s := mulxWordStores d 4 r a m
  let t := chain addStep 3 (r + 1) (.mem (r + 1)) (.lit s.2) 0 s.1
  (t.1, (addcarryU64 t.2 0 (s.2.getLastD 0)).1)

/-- `quotient[i] = _udiv128(rem, dividend[i], divisor, &rem)`. -/
def divStep (divisor d rem : W64) : W64 × W64 := udiv128 rem d divisor

/-- `uint256_div_uint64` (uint256_x64.cpp 215-224).  `none` = division by zero. -/
def divWord (q a : Nat) (divisor : W64) (m : Verif.NumMem.Mem 64) : Option (Verif.NumMem.Mem 64 × W64) :=
  if divisor = 0 then none else some (down (divStep divisor) 4 q a 0 m)

/-- `uint256_mod_add` (uint256_x64.cpp 226-243). -/
def modAdd (r : Nat) (a b : Opd 64) (d : Nat) (m : Verif.NumMem.Mem 64) : Verif.NumMem.Mem 64 :=
  let s := chain addStep 4 r a b 0 m
  if s.2 ≠ 0 ∨ X64.u256Cmp (words s.1 r 4) (words s.1 d 4) ≥ 0 then
    (chain subStep 4 r (.mem r) (.mem d) 0 s.1).1
  else s.1

/-- `uint256_mod_sub` (uint256_x64.cpp 245-262). -/
def modSub (r : Nat) (a b : Opd 64) (d : Nat) (m : Verif.NumMem.Mem 64) : Verif.NumMem.Mem 64 :=
  let s := chain subStep 4 r a b 0 m
  if s.2 ≠ 0 ∨ X64.u256Cmp (words s.1 r 4) (words s.1 d 4) ≥ 0 then
    (chain addStep 4 r (.mem r) (.mem d) 0 s.1).1
  else s.1

/-- The loop of `uint256_self_mod_sll_n` (uint256_x64.cpp 272-275). -/
def modDoubleN (r d : Nat) : Nat → Verif.NumMem.Mem 64 → Verif.NumMem.Mem 64
  | 0, m => m
  | n + 1, m => modDoubleN r d n (modAdd r (.mem r) (.mem r) d m)

/-- `uint256_self_mod_sll_n` (uint256_x64.cpp 264-276). -/
def selfModSll (r n d : Nat) (m : Verif.NumMem.Mem 64) : Verif.NumMem.Mem 64 :=
  if X64.u256EqualZero (words m r 4) then m else modDoubleN r d n m

/-- `uint256_set_zero` (uint256_x64.cpp 372-375), four stores. -/
def setZero (r : Nat) (m : Verif.NumMem.Mem 64) : Verif.NumMem.Mem 64 :=
  (chain (fun _ _ c => ((0 : W64), c)) 4 r (.lit []) (.lit []) () m).1

/-- Second and third part of `uint256_mod` (uint256_x64.cpp 296-320).  `none` = a loop has not ended after `fuel` rounds.
The data are bytes that no store of the function reaches. -/
def modLoop (fuel r d : Nat) (data : List Byte) (m : Verif.NumMem.Mem 64) : Option (Verif.NumMem.Mem 64) :=
  if _h : data.length ≥ 32 then
    let m := selfModSll r 256 d m
    match X64.subWhileGe (words m d 4) fuel (X64.u256FromBytes (data.take 32)) with
    | none => none
    | some t => modLoop fuel r d (data.drop 32) (modAdd r (.mem r) (.lit t) d m)
  else if data.length ≠ 0 then
    let m := selfModSll r (8 * data.length) d m
    match X64.subWhileGe (words m d 4) fuel (X64.u256FromBytes (List.replicate (32 - data.length) 0 ++ data)) with
    | none => none
    | some t => some (modAdd r (.mem r) (.lit t) d m)
  else some m
termination_by data.length
decreasing_by simp [List.length_drop]; omega

/-- `uint256_mod` (uint256_x64.cpp 278-321): the remainder is zeroed before the divisor is read. -/
def mod (fuel r : Nat) (data : List Byte) (d : Nat) (m : Verif.NumMem.Mem 64) : Option (Verif.NumMem.Mem 64) :=
  let m := setZero r m
  if data.length ≥ 32 then
    match X64.subWhileGe (words m d 4) fuel (X64.u256FromBytes (data.take 32)) with
    | none => none
    | some t => modLoop fuel r d (data.drop 32) (modAdd r (.mem r) (.lit t) d m)
  else modLoop fuel r d data m

end Verif.X64.NumMem
