import Verif.Model.Limbs
/-!
# 256-bit Montgomery arithmetic, default configuration (src/number/mont256_common.cpp)
-/
namespace Verif

/-- `Mont256CTX` (include/gmlib/number/internal/mont256_common.h 15-22). -/
structure Mont256CTX where
  P : List W32
  PSub2 : List W32
  R : List W32
  RPow2 : List W32
  N_ : W32

/-- Loop of `mont_compute_N_` (mont256_common.h 38-51).  The C++ `while (b != 0)` has no bound; `fuel` is
started at `b + 1` and `b` strictly decreases, so it never runs out (`montComputeN_spec`).
`none` would be a non-terminating run. -/
def montNLoop : Nat → W32 → W32 → W32 → W32 → W32 → W32 → Option (W32 × W32)
  | 0, _, _, _, _, _, _ => none
  | fuel + 1, a, b, x1, x2, y1, y2 =>
    if b ≠ 0 then
      let q := a / b
      let r := a % b
      montNLoop fuel b r x2 (x1 - q * x2) y2 (y1 - q * y2)
    else some (x1, y1)

/-- `mont_compute_N_` (mont256_common.h 31-56). -/
def montComputeN (P0 : W32) : Option W32 :=
  let b := ~~~P0 + 1
  (montNLoop (b.toNat + 1) P0 b 1 0 0 1).map fun (x1, y1) => ~~~(x1 - y1) + 1

/-- The inner carry loop of `mont256_redc` (mont256_common.cpp 52-55) over `t[i+9] ..`, stopping when the
carry is zero. -/
def propCarry : List W32 → CInt → List W32 × CInt
  | [], c => ([], c)
  | x :: xs, c =>
    if c = 0 then (x :: xs, c)
    else
      let (r, c) := addCarry x 0 c
      let (rs, c) := propCarry xs c
      (r :: rs, c)

/-- One round `i` of `mont256_redc` (mont256_common.cpp 37-57) on the suffix `t[i..16)`; returns the
suffix `t[i+1..16)` and the carry `c` added to `t16`.  The limb `t[i]` is not used again by the code. -/
def redcRound (P : List W32) (N_ : W32) (s : List W32) : List W32 × CInt :=
  match s with
  | [] => ([], 0)
  | t0 :: _ =>
    let m := t0 * N_
    let (row, carry) := addMulRow (s.take 8) P m 0
    match s.drop 8 with
    | [] => (row.tail, 0)
    | t8 :: hi =>
      let (t8', c) := addCarry t8 carry 0
      let (hi', c) := propCarry hi c
      (row.tail ++ t8' :: hi', c)

/-- The outer loop of `mont256_redc` (mont256_common.cpp 37-57), `n` rounds. -/
def redcLoop (P : List W32) (N_ : W32) : Nat → List W32 → W32 → List W32 × W32
  | 0, s, t16 => (s, t16)
  | n + 1, s, t16 =>
    let (s, c) := redcRound P N_ s
    redcLoop P N_ n s (t16 + c)

/-- `mont256_redc` (mont256_common.cpp 30-63). -/
def mont256Redc (ctx : Mont256CTX) (t : List W32) : List W32 :=
  let (r, t16) := redcLoop ctx.P ctx.N_ 8 t 0
  if t16 ≠ 0 ∨ u256Cmp r ctx.P ≥ 0 then (u256SubBorrow r ctx.P).1 else r

/-- `mont256_add` (mont256_common.cpp 87-98). -/
def mont256Add (ctx : Mont256CTX) (a b : List W32) : List W32 := u256ModAdd a b ctx.P

/-- `mont256_sub` (mont256_common.cpp 100-111). -/
def mont256Sub (ctx : Mont256CTX) (a b : List W32) : List W32 := u256ModSub a b ctx.P

/-- `mont256_dbl` (mont256_common.cpp 113-122). -/
def mont256Dbl (ctx : Mont256CTX) (a : List W32) : List W32 :=
  let (r, carry) := u256DblCarry a
  if carry ≠ 0 ∨ u256Cmp r ctx.P ≥ 0 then (u256SubBorrow r ctx.P).1 else r

/-- `while (carry) carry += uint256_sub_borrow(product, product, P)` (mont256_common.cpp 129-132).
`none` = still running after `fuel` rounds. -/
def tplSubLoop (P : List W32) : Nat → List W32 → CInt → Option (List W32)
  | 0, _, _ => none
  | fuel + 1, t, carry =>
    if carry ≠ 0 then
      let (t, b) := u256SubBorrow t P
      tplSubLoop P fuel t (carry + b)
    else some t

/-- `mont256_tpl` (mont256_common.cpp 124-137). For `P = 0` the loop would not end: `none`. -/
def mont256Tpl (ctx : Mont256CTX) (a : List W32) : Option (List W32) :=
  let (r, carry) := u256TplCarry a
  match tplSubLoop ctx.P (2 ^ 258) r carry with
  | none => none
  | some r => some (if u256Cmp r ctx.P ≥ 0 then (u256SubBorrow r ctx.P).1 else r)

/-- `mont256_neg` (mont256_common.cpp 139-148).  There is no `return` after the zero case, so the final
subtraction is executed in every case: the value stored by `uint256_set_zero` is overwritten.  (If `ret` and
`num` are the same array, `num` is zero in that case and stays zero, so the result is the same.) -/
def mont256Neg (ctx : Mont256CTX) (num : List W32) : List W32 :=
  let num := if u256EqualZero num then u256Zero else num
  (u256SubBorrow ctx.P num).1

/-- `mont256_mul` (mont256_common.cpp 150-158). -/
def mont256Mul (ctx : Mont256CTX) (a b : List W32) : List W32 := mont256Redc ctx (u256Mul a b)

/-- `mont256_sqr` (mont256_common.cpp 160-167). -/
def mont256Sqr (ctx : Mont256CTX) (a : List W32) : List W32 := mont256Redc ctx (u256Sqr a)

/-- `uint256_to_mont` (mont256_common.cpp 65-70). -/
def u256ToMont (ctx : Mont256CTX) (a : List W32) : List W32 := mont256Mul ctx a ctx.RPow2

/-- `uint256_from_mont` (mont256_common.cpp 72-81). -/
def u256FromMont (ctx : Mont256CTX) (a : List W32) : List W32 :=
  mont256Redc ctx (a ++ List.replicate 8 0)

/-- The shift loop of `mont256_div2` (mont256_common.cpp 180-184): every limb is shifted right by one, bit 31
taken from the next limb, or from the carry `c` for the top limb. -/
def shr1Loop : List W32 → W32 → List W32
  | [], _ => []
  | [x], c => [(c <<< 31) ||| (x >>> 1)]
  | x :: y :: rest, c => ((y <<< 31) ||| (x >>> 1)) :: shr1Loop (y :: rest) c

/-- `mont256_div2` (mont256_common.cpp 169-185). -/
def mont256Div2 (ctx : Mont256CTX) (a : List W32) : List W32 :=
  match a with
  | [] => []
  | a0 :: _ =>
    if a0 &&& 1 ≠ 0 then
      let (s, c) := u256AddCarry a ctx.P
      shr1Loop s c
    else shr1Loop a 0

/-- `lut_table` of `mont256_pow` (mont256_common.cpp 207-212): entry `j` is the power `j+2`. -/
def powTable (ctx : Mont256CTX) (base : List W32) : Nat → List W32 → List (List W32)
  | 0, _ => []
  | n + 1, prev => prev :: powTable ctx base n (mont256Mul ctx prev base)

/-- `(index == 1) ? base : lut_table[index - 2]` (mont256_common.cpp 219, 229, 235, 248, 258).
`none` = out-of-bounds read. -/
def powSel (lut : List (List W32)) (base : List W32) (index : Nat) : Option (List W32) :=
  if index = 1 then some base else if index < 2 then none else lut[index - 2]?

/-- `if (index != 0) mont256_mul(t, t, ...)`. -/
def powMulSel (ctx : Mont256CTX) (lut : List (List W32)) (base : List W32) (t : List W32) (index : Nat) :
    Option (List W32) :=
  if index ≠ 0 then (powSel lut base index).map (mont256Mul ctx t) else some t

/-- Four squarings (mont256_common.cpp 221-224 etc.). -/
def sqr4 (ctx : Mont256CTX) (t : List W32) : List W32 :=
  mont256Sqr ctx (mont256Sqr ctx (mont256Sqr ctx (mont256Sqr ctx t)))

/-- The main loop of `mont256_pow` (mont256_common.cpp 238-260). -/
def powLoop (ctx : Mont256CTX) (lut : List (List W32)) (base : List W32) :
    List Byte → List W32 → Option (List W32)
  | [], t => some t
  | e :: es, t => do
    let t ← powMulSel ctx lut base (sqr4 ctx t) (((e >>> 4) &&& 0xF#8).toNat)
    let t ← powMulSel ctx lut base (sqr4 ctx t) ((e &&& 0xF#8).toNat)
    powLoop ctx lut base es t

/-- `mont256_pow` (mont256_common.cpp 187-262). `none` = out-of-bounds read. -/
def mont256Pow (ctx : Mont256CTX) (base exponent : List W32) : Option (List W32) :=
  if u256EqualZero base then some u256Zero
  else if u256EqualZero exponent then some u256One
  else
    let lut := powTable ctx base 14 (mont256Sqr ctx base)
    match (u256ToBytes exponent).dropWhile (· == 0) with
    | [] => none
    | e :: es => do
      let t ← if e > 0xF#8 then do
          let t ← powSel lut base (((e >>> 4) &&& 0xF#8).toNat)
          powMulSel ctx lut base (sqr4 ctx t) ((e &&& 0xF#8).toNat)
        else powSel lut base ((e &&& 0xF#8).toNat)
      powLoop ctx lut base es t

/-- `mont256_inv` (mont256_common.cpp 264-269). -/
def mont256Inv (ctx : Mont256CTX) (a : List W32) : Option (List W32) := mont256Pow ctx a ctx.PSub2

/-- `mont256_equal` (mont256_common.cpp 275-280). -/
def mont256Equal (_ctx : Mont256CTX) (a b : List W32) : Bool := u256Equal a b
/-- `mont256_equal_zero` (mont256_common.cpp 282-286). -/
def mont256EqualZero (_ctx : Mont256CTX) (a : List W32) : Bool := u256EqualZero a
/-- `mont256_equal_one` (mont256_common.cpp 288-291). -/
def mont256EqualOne (ctx : Mont256CTX) (a : List W32) : Bool := u256Equal a ctx.R
/-- `mont256_set_one` (mont256_common.cpp 309-312). -/
def mont256SetOne (ctx : Mont256CTX) : List W32 := ctx.R
/-- `mont256_set_uint32` (mont256_common.cpp 314-320). -/
def mont256SetWord (ctx : Mont256CTX) (w : W32) : List W32 := u256ToMont ctx (u256SetWord w)

/-- `mont256_from_bytes` (mont256_common.cpp 326-332). -/
def mont256FromBytes (ctx : Mont256CTX) (bytes : List Byte) : List W32 :=
  u256ToMont ctx (u256FromBytes bytes)

/-- `mont256_to_bytes` (mont256_common.cpp 334-341). -/
def mont256ToBytes (ctx : Mont256CTX) (a : List W32) : List Byte := u256ToBytes (u256FromMont ctx a)

/-- `mont256_from_bytes_ex` (mont256_common.cpp 343-351). -/
def mont256FromBytesEx (ctx : Mont256CTX) (bytes : List Byte) : Option (List W32) :=
  (u256Mod bytes ctx.P).map (u256ToMont ctx)

end Verif
