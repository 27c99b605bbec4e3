import Verif.Model.LimbsX64
import Verif.Model.Params
/-!
# 256-bit Montgomery arithmetic with 64-bit limbs (src/number/mont256_x64.cpp)
-/
namespace Verif.X64

/-- `Mont256CTX` (include/gmlib/number/internal/mont256_x64.h 17-24). -/
structure Mont256CTX where
  P : List W64
  PSub2 : List W64
  R : List W64
  RPow2 : List W64
  N_ : W64

/-- Loop of `mont_compute_N_` (mont256_x64.h 39-52).  The C++ `while (b != 0)` has no bound; `fuel` is
started at `b + 1` and `b` strictly decreases, so it never runs out (`montComputeN_spec`).
`none` would be a non-terminating run. -/
def montNLoop : Nat → W64 → W64 → W64 → W64 → W64 → W64 → Option (W64 × W64)
  | 0, _, _, _, _, _, _ => none
  | fuel + 1, a, b, x1, x2, y1, y2 =>
    if b ≠ 0 then
      let q := a / b
      let r := a % b
      montNLoop fuel b r x2 (x1 - q * x2) y2 (y1 - q * y2)
    else some (x1, y1)

/-- `mont_compute_N_` (mont256_x64.h 32-59). -/
def montComputeN (P0 : W64) : Option W64 :=
  let b := ~~~P0 + 1
  (montNLoop (b.toNat + 1) P0 b 1 0 0 1).map fun (x1, y1) => ~~~(x1 - y1) + 1

/-- One step of `mont256_redc` (mont256_x64.cpp 36-56, 58-77, 79-97, 99-116) on the suffix `T[i..8)` and `T8`:
`m = T[i] * N_`, the five words of `m * P` are added to the suffix (zeros above them), the carry goes to `T8`.
`T[i]` is not read again, so the suffix `T[i+1..8)` is returned. -/
def redcStep (P : List W64) (N_ : W64) (s : List W64) (T8 : W64) : List W64 × W64 :=
  match s with
  | [] => ([], T8)
  | t0 :: _ =>
    let (mp, top) := mulWord P (t0 * N_)
    let (s', cf) := addLoop s (mp ++ [top] ++ List.replicate (s.length - (mp.length + 1)) 0) 0
    (s'.tail, (addcarryU64 cf T8 0).1)

/-- The four steps of `mont256_redc` (mont256_x64.cpp 35-116). -/
def redcLoop (P : List W64) (N_ : W64) : Nat → List W64 → W64 → List W64 × W64
  | 0, s, T8 => (s, T8)
  | n + 1, s, T8 =>
    let (s, T8) := redcStep P N_ s T8
    redcLoop P N_ n s T8

/-- `mont256_redc` (mont256_x64.cpp 20-124). -/
def mont256Redc (ctx : Mont256CTX) (t : List W64) : List W64 :=
  let (r, T8) := redcLoop ctx.P ctx.N_ 4 t 0
  if T8 ≠ 0 ∨ u256Cmp r ctx.P ≥ 0 then (subLoop r ctx.P 0).1 else r

/-- `mont256_add` (mont256_x64.cpp 147-164): the text of `uint256_mod_add` with divisor `P`. -/
def mont256Add (ctx : Mont256CTX) (a b : List W64) : List W64 := u256ModAdd a b ctx.P

/-- `mont256_sub` (mont256_x64.cpp 166-183): the text of `uint256_mod_sub` with divisor `P`. -/
def mont256Sub (ctx : Mont256CTX) (a b : List W64) : List W64 := u256ModSub a b ctx.P

/-- `mont256_dbl` (mont256_x64.cpp 185-201). -/
def mont256Dbl (ctx : Mont256CTX) (a : List W64) : List W64 :=
  let (r, c) := addLoop a a 0
  if c ≠ 0 ∨ u256Cmp r ctx.P ≥ 0 then (subLoop r ctx.P 0).1 else r

/-- `mont256_tpl` (mont256_x64.cpp 203-210). -/
def mont256Tpl (ctx : Mont256CTX) (a : List W64) : List W64 := mont256Add ctx (mont256Dbl ctx a) a

/-- `mont256_neg` (mont256_x64.cpp 212-222); unlike the portable version it returns early for zero. -/
def mont256Neg (ctx : Mont256CTX) (num : List W64) : List W64 :=
  if u256EqualZero num then u256Zero else (u256SubBorrow ctx.P num).1

/-- `mont256_mul` (mont256_x64.cpp 224-232). -/
def mont256Mul (ctx : Mont256CTX) (a b : List W64) : List W64 := mont256Redc ctx (u256Mul a b)

/-- `mont256_sqr` (mont256_x64.cpp 234-241). -/
def mont256Sqr (ctx : Mont256CTX) (a : List W64) : List W64 := mont256Redc ctx (u256Sqr a)

/-- `uint256_to_mont` (mont256_x64.cpp 126-131). -/
def u256ToMont (ctx : Mont256CTX) (a : List W64) : List W64 := mont256Mul ctx a ctx.RPow2

/-- `uint256_from_mont` (mont256_x64.cpp 133-141). -/
def u256FromMont (ctx : Mont256CTX) (a : List W64) : List W64 :=
  mont256Redc ctx (a ++ List.replicate 4 0)

/-- The shift loop of `mont256_div2` (mont256_x64.cpp 331-335): every limb is shifted right by one, bit 63
taken from the next limb, or from the carry `c` for the top limb. -/
def shr1Loop : List W64 → W64 → List W64
  | [], _ => []
  | [x], c => [(c <<< 63) ||| (x >>> 1)]
  | x :: y :: rest, c => ((y <<< 63) ||| (x >>> 1)) :: shr1Loop (y :: rest) c

/-- `mont256_div2` (mont256_x64.cpp 320-336). -/
def mont256Div2 (ctx : Mont256CTX) (a : List W64) : List W64 :=
  match a with
  | [] => []
  | a0 :: _ =>
    if a0 &&& 1 ≠ 0 then
      let (s, c) := u256AddCarry a ctx.P
      shr1Loop s (c.signExtend 64)
    else shr1Loop a 0

/-- `lut_table` of `mont256_pow` (mont256_x64.cpp 264-268): entry `j` is the power `j+2`. -/
def powTable (ctx : Mont256CTX) (base : List W64) : Nat → List W64 → List (List W64)
  | 0, _ => []
  | n + 1, prev => prev :: powTable ctx base n (mont256Mul ctx prev base)

/-- `(index == 1) ? base : lut_table[index - 2]` (mont256_x64.cpp 275, 284-285, 291, 304-305, 314-315).
`none` = out-of-bounds read. -/
def powSel (lut : List (List W64)) (base : List W64) (index : Nat) : Option (List W64) :=
  if index = 1 then some base else if index < 2 then none else lut[index - 2]?

/-- `if (index != 0) mont256_mul(t, t, ...)`. -/
def powMulSel (ctx : Mont256CTX) (lut : List (List W64)) (base : List W64) (t : List W64) (index : Nat) :
    Option (List W64) :=
  if index ≠ 0 then (powSel lut base index).map (mont256Mul ctx t) else some t

/-- Four squarings (mont256_x64.cpp 278-281 etc.). -/
def sqr4 (ctx : Mont256CTX) (t : List W64) : List W64 :=
  mont256Sqr ctx (mont256Sqr ctx (mont256Sqr ctx (mont256Sqr ctx t)))

/-- The main loop of `mont256_pow` (mont256_x64.cpp 295-316). -/
def powLoop (ctx : Mont256CTX) (lut : List (List W64)) (base : List W64) :
    List Byte → List W64 → Option (List W64)
  | [], t => some t
  | e :: es, t => do
    let t ← powMulSel ctx lut base (sqr4 ctx t) (((e >>> 4) &&& 0xF#8).toNat)
    let t ← powMulSel ctx lut base (sqr4 ctx t) ((e &&& 0xF#8).toNat)
    powLoop ctx lut base es t

/-- `mont256_pow` (mont256_x64.cpp 243-318). `none` = out-of-bounds read. -/
def mont256Pow (ctx : Mont256CTX) (base exponent : List W64) : Option (List W64) :=
  if u256EqualZero base then some u256Zero
  else if u256EqualZero exponent then some u256One
  else
    let lut := powTable ctx base 14 (mont256Sqr ctx base)
    match (u256ToBytes exponent).dropWhile (· == 0) with
    | [] => none
    | e :: es => do
      let t ← if e > 0xF#8 then do
          let t ← powSel lut base (((e >>> 4) &&& 0xF#8).toNat)
          powMulSel ctx lut base (sqr4 ctx t) ((e &&& 0xF#8).toNat)
        else powSel lut base ((e &&& 0xF#8).toNat)
      powLoop ctx lut base es t

/-- `mont256_inv` (mont256_x64.cpp 338-343). -/
def mont256Inv (ctx : Mont256CTX) (a : List W64) : Option (List W64) := mont256Pow ctx a ctx.PSub2

/-- `mont256_equal` (mont256_x64.cpp 349-354). -/
def mont256Equal (_ctx : Mont256CTX) (a b : List W64) : Bool := u256Equal a b
/-- `mont256_equal_zero` (mont256_x64.cpp 356-360). -/
def mont256EqualZero (_ctx : Mont256CTX) (a : List W64) : Bool := u256EqualZero a
/-- `mont256_equal_one` (mont256_x64.cpp 362-365). -/
def mont256EqualOne (ctx : Mont256CTX) (a : List W64) : Bool := u256Equal a ctx.R
/-- `mont256_set_one` (mont256_x64.cpp 383-386). -/
def mont256SetOne (ctx : Mont256CTX) : List W64 := ctx.R
/-- `mont256_set_uint64` (mont256_x64.cpp 388-394). -/
def mont256SetWord (ctx : Mont256CTX) (w : W64) : List W64 := u256ToMont ctx (u256SetWord w)

/-- `mont256_from_bytes` (mont256_x64.cpp 400-406). -/
def mont256FromBytes (ctx : Mont256CTX) (bytes : List Byte) : List W64 :=
  u256ToMont ctx (u256FromBytes bytes)

/-- `mont256_to_bytes` (mont256_x64.cpp 408-415). -/
def mont256ToBytes (ctx : Mont256CTX) (a : List W64) : List Byte := u256ToBytes (u256FromMont ctx a)

/-- `mont256_from_bytes_ex` (mont256_x64.cpp 417-425). -/
def mont256FromBytesEx (ctx : Mont256CTX) (bytes : List Byte) : Option (List W64) :=
  (u256Mod bytes ctx.P).map (u256ToMont ctx)

/-! ## The library's contexts in this configuration

`mpz_set_epi8` (include/gmlib/number/internal/mpz_x64.h 18-43) turns the byte tables into four limbs. -/

/-- `FP_MONT_CTX` of SM2 (src/sm2/sm2p256v1.cpp 100-102) with 64-bit limbs. -/
def sm2FpCtx : Mont256CTX where
  P := u256FromBytes Sm2.pData
  PSub2 := u256FromBytes Sm2.pSub2Data
  R := u256FromBytes Sm2.fpRData
  RPow2 := u256FromBytes Sm2.fpRPow2Data
  N_ := (((u256FromBytes Sm2.pData).head?).bind montComputeN).getD 0

/-- `FN_MONT_CTX` of SM2 (src/sm2/sm2p256v1.cpp 103-105) with 64-bit limbs. -/
def sm2FnCtx : Mont256CTX where
  P := u256FromBytes Sm2.nData
  PSub2 := u256FromBytes Sm2.nSub2Data
  R := u256FromBytes Sm2.fnRData
  RPow2 := u256FromBytes Sm2.fnRPow2Data
  N_ := (((u256FromBytes Sm2.nData).head?).bind montComputeN).getD 0

/-- `FP_MONT_CTX` of SM9 (src/sm9/sm9_field.cpp 123-125) with 64-bit limbs. -/
def sm9FpCtx : Mont256CTX where
  P := u256FromBytes Sm9.pData
  PSub2 := u256FromBytes Sm9.pSub2Data
  R := u256FromBytes Sm9.fpRData
  RPow2 := u256FromBytes Sm9.fpRPow2Data
  N_ := (((u256FromBytes Sm9.pData).head?).bind montComputeN).getD 0

/-- `FN_MONT_CTX` of SM9 (src/sm9/sm9_field.cpp 127-129) with 64-bit limbs. -/
def sm9FnCtx : Mont256CTX where
  P := u256FromBytes Sm9.nData
  PSub2 := u256FromBytes Sm9.nSub2Data
  R := u256FromBytes Sm9.fnRData
  RPow2 := u256FromBytes Sm9.fnRPow2Data
  N_ := (((u256FromBytes Sm9.nData).head?).bind montComputeN).getD 0

end Verif.X64
