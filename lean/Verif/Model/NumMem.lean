import Verif.Model.Limbs
/-!
# The integer functions as programs on memory (mpz_common.cpp, uint256_common.cpp)

`Model/Limbs.lean` takes lists and returns lists.  Here the same functions get what the C++ functions get: addresses of
the result and of the operands in one flat memory of words.  The arrays may coincide or overlap in any way; every word is
read from the memory at the moment the code reads it.  Addresses count words: arrays of one element type overlap in whole
words.  Operands passed by value and local arrays are `Opd.lit`.
-/
namespace Verif.NumMem
open Verif

/-- Memory of words. -/
abbrev Mem (w : Nat) := Nat → BitVec w

/-- A store to one word. -/
def put {w : Nat} (m : Mem w) (x : Nat) (v : BitVec w) : Mem w := fun y => if y = x then v else m y

/-- The `n` words from address `a` up. -/
def words {w : Nat} (m : Mem w) : Nat → Nat → List (BitVec w)
  | _, 0 => []
  | a, n + 1 => m a :: words m (a + 1) n

/-- An operand: an array in memory, or words that no store reaches (zero beyond their end). -/
inductive Opd (w : Nat) where
  | mem (a : Nat)
  | lit (l : List (BitVec w))

/-- The word an operand points to. -/
def Opd.hd {w : Nat} (m : Mem w) : Opd w → BitVec w
  | .mem a => m a
  | .lit l => l.headD 0

/-- The operand one word up. -/
def Opd.tl {w : Nat} : Opd w → Opd w
  | .mem a => .mem (a + 1)
  | .lit l => .lit l.tail

/-- The carry chain `c = step(&r[i], a[i], b[i], c)` for `i` from 0 up: loops of `mpz_add_carry`, `mpz_sub_borrow`
(mpz_common.cpp 102-105, 117-120), bodies of the `uint256_*` functions (uint256_common.cpp 100-155, 256-297). -/
def chain {w : Nat} {γ : Type} (step : BitVec w → BitVec w → γ → BitVec w × γ) :
    Nat → Nat → Opd w → Opd w → γ → Mem w → Mem w × γ
  | 0, _, _, _, c, m => (m, c)
  | n + 1, r, a, b, c, m =>
    let s := step (a.hd m) (b.hd m) c
    chain step n (r + 1) a.tl b.tl s.2 (put m r s.1)

/-- One row `c = step(&r[i], a[i], *b, c)` of a multiplication (mpz_common.cpp 132-136, 141-145); the word `*b` is read
again in every step. -/
def row {w : Nat} (step : BitVec w → BitVec w → BitVec w → BitVec w → BitVec w × BitVec w) :
    Nat → Nat → Nat → Nat → BitVec w → Mem w → Mem w × BitVec w
  | 0, _, _, _, c, m => (m, c)
  | n + 1, r, a, b, c, m =>
    let s := step (m r) (m a) (m b) c
    row step n (r + 1) (a + 1) b s.2 (put m r s.1)

/-- `k` rows, each followed by the store of its carry (mpz_common.cpp 139-147). -/
def rows {w : Nat} (step : BitVec w → BitVec w → BitVec w → BitVec w → BitVec w × BitVec w) (n a : Nat) :
    Nat → Nat → Nat → Mem w → Mem w
  | 0, _, _, m => m
  | k + 1, r, b, m =>
    let s := row step n r a b 0 m
    rows step n a k (r + 1) (b + 1) (put s.1 (r + n) s.2)

/-- The loop from the most significant word down of `uint256_div_uint32` (uint256_common.cpp 304-311). -/
def down {w : Nat} {γ : Type} (step : BitVec w → γ → BitVec w × γ) :
    Nat → Nat → Nat → γ → Mem w → Mem w × γ
  | 0, _, _, c, m => (m, c)
  | n + 1, q, a, c, m =>
    let s := step (m (a + n)) c
    down step n q a s.2 (put m (q + n) s.1)

/-! ## mpz_common.cpp -/

/-- `mpz_add_carry` (mpz_common.cpp 94-107). -/
def mpzAdd (n r a b : Nat) (carry : CInt) (m : Mem 32) : Mem 32 × CInt :=
  if n = 0 then (m, 0) else chain addCarry n r (.mem a) (.mem b) carry m

/-- `mpz_sub_borrow` (mpz_common.cpp 109-122). -/
def mpzSub (n r a b : Nat) (borrow : CInt) (m : Mem 32) : Mem 32 × CInt :=
  if n = 0 then (m, 0) else chain subBorrow n r (.mem a) (.mem b) borrow m

/-- `mpz_mul` (mpz_common.cpp 124-148). -/
def mpzMul (n r a b : Nat) (m : Mem 32) : Mem 32 :=
  if n = 0 then m
  else
    let s := row (fun _ x y c => mulCarry x y c) n r a b 0 m
    rows addMulCarry n a (n - 1) (r + 1) (b + 1) (put s.1 (r + n) s.2)

/-! ## uint256_common.cpp -/

/-- `uint256_add_carry` (uint256_common.cpp 96-110). -/
def add (r : Nat) (a b : Opd 32) (m : Mem 32) : Mem 32 × CInt := chain addCarry 8 r a b 0 m

/-- `uint256_sub_borrow` (uint256_common.cpp 112-126). -/
def sub (r : Nat) (a b : Opd 32) (m : Mem 32) : Mem 32 × CInt := chain subBorrow 8 r a b 0 m

/-- `uint256_dbl_carry` (uint256_common.cpp 128-141). -/
def dbl (r a : Nat) (m : Mem 32) : Mem 32 × CInt := chain (fun x _ c => dblCarry x c) 8 r (.mem a) (.lit []) 0 m

/-- `uint256_tpl_carry` (uint256_common.cpp 143-156). -/
def tpl (r a : Nat) (m : Mem 32) : Mem 32 × CInt := chain (fun x _ c => tplCarry x c) 8 r (.mem a) (.lit []) 0 m

/-- `uint256_mul` (uint256_common.cpp 158-244): the rows of `mpz_mul`, unrolled. -/
def mul (r a b : Nat) (m : Mem 32) : Mem 32 := mpzMul 8 r a b m

/-- `uint256_sqr` (uint256_common.cpp 246-250). -/
def sqr (r a : Nat) (m : Mem 32) : Mem 32 := mul r a a m

/-- `uint256_add_carry_uint32` (uint256_common.cpp 252-266). -/
def addWord (r a : Nat) (b : W32) (m : Mem 32) : Mem 32 × CInt := add r (.mem a) (.lit [b]) m

/-- `uint256_sub_borrow_uint32` (uint256_common.cpp 268-282). -/
def subWord (r a : Nat) (b : W32) (m : Mem 32) : Mem 32 × CInt := sub r (.mem a) (.lit [b]) m

/-- `uint256_mul_carry_uint32` (uint256_common.cpp 284-298). -/
def mulWord (r a : Nat) (b : W32) (m : Mem 32) : Mem 32 × W32 :=
  chain (fun x _ c => mulCarry x b c) 8 r (.mem a) (.lit []) 0 m

/-- One round of the loop of `uint256_div_uint32` (uint256_common.cpp 306-310). -/
def divStep (divisor d : W32) (rem : W64) : W32 × W64 :=
  let rem := (rem <<< 32) ||| d.setWidth 64
  ((rem / divisor.setWidth 64).setWidth 32, rem % divisor.setWidth 64)

/-- `uint256_div_uint32` (uint256_common.cpp 300-313).  `none` = division by zero. -/
def divWord (q a : Nat) (divisor : W32) (m : Mem 32) : Option (Mem 32 × W32) :=
  if divisor = 0 then none
  else
    let s := down (divStep divisor) 8 q a 0 m
    some (s.1, s.2.setWidth 32)

/-- `uint256_mod_add` (uint256_common.cpp 315-325): the divisor is read after the sum has been stored. -/
def modAdd (r : Nat) (a b : Opd 32) (d : Nat) (m : Mem 32) : Mem 32 :=
  let s := add r a b m
  if s.2 ≠ 0 ∨ u256Cmp (words s.1 r 8) (words s.1 d 8) ≥ 0 then (sub r (.mem r) (.mem d) s.1).1 else s.1

/-- `uint256_mod_sub` (uint256_common.cpp 327-337). -/
def modSub (r : Nat) (a b : Opd 32) (d : Nat) (m : Mem 32) : Mem 32 :=
  let s := sub r a b m
  if s.2 ≠ 0 ∨ u256Cmp (words s.1 r 8) (words s.1 d 8) ≥ 0 then (add r (.mem r) (.mem d) s.1).1 else s.1

/-- The loop of `uint256_self_mod_sll_n` (uint256_common.cpp 347-350). -/
def modDoubleN (r d : Nat) : Nat → Mem 32 → Mem 32
  | 0, m => m
  | n + 1, m => modDoubleN r d n (modAdd r (.mem r) (.mem r) d m)

/-- `uint256_self_mod_sll_n` (uint256_common.cpp 339-351). -/
def selfModSll (r n d : Nat) (m : Mem 32) : Mem 32 :=
  if u256EqualZero (words m r 8) then m else modDoubleN r d n m

/-- `uint256_set_zero` (uint256_common.cpp 450-453), eight stores (the code stores from the top down, here from the bottom
up: the words stored do not depend on the memory). -/
def setZero (r : Nat) (m : Mem 32) : Mem 32 :=
  (chain (fun _ _ c => ((0 : W32), c)) 8 r (.lit []) (.lit []) () m).1

/-- Second and third part of `uint256_mod` (uint256_common.cpp 371-395).  The local `t` is a value; the loop
`while (uint256_cmp(t, divisor) >= 0)` stores nothing but `t`.  `none` = a loop has not ended after `fuel` rounds. The
data are bytes that no store of the function reaches. -/
def modLoop (fuel r d : Nat) (data : List Byte) (m : Mem 32) : Option (Mem 32) :=
  if _h : data.length ≥ 32 then
    let m := selfModSll r 256 d m
    match subWhileGe (words m d 8) fuel (u256FromBytes (data.take 32)) with
    | none => none
    | some t => modLoop fuel r d (data.drop 32) (modAdd r (.mem r) (.lit t) d m)
  else if data.length ≠ 0 then
    let m := selfModSll r (8 * data.length) d m
    match subWhileGe (words m d 8) fuel (u256FromBytes (List.replicate (32 - data.length) 0 ++ data)) with
    | none => none
    | some t => some (modAdd r (.mem r) (.lit t) d m)
  else some m
termination_by data.length
decreasing_by simp [List.length_drop]; omega

/-- `uint256_mod` (uint256_common.cpp 353-396): the remainder is zeroed before the divisor is read. -/
def mod (fuel r : Nat) (data : List Byte) (d : Nat) (m : Mem 32) : Option (Mem 32) :=
  let m := setZero r m
  if data.length ≥ 32 then
    match subWhileGe (words m d 8) fuel (u256FromBytes (data.take 32)) with
    | none => none
    | some t => modLoop fuel r d (data.drop 32) (modAdd r (.mem r) (.lit t) d m)
  else modLoop fuel r d data m

end Verif.NumMem
