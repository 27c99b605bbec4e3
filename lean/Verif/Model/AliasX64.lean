import Verif.Model.Alias
import Verif.Model.Sm9X64
/-!
# The field functions as programs on memory in the configuration with 64-bit limbs (mont256_x64.cpp, uint256_x64.cpp)

The functions of sm9_field.cpp and sm2p256v1.cpp that only call functions of the level below are those of
`Verif.Model.Alias`, compiled against other limbs; only the lowest level is restated, on a memory of 64-bit words.
-/
namespace Verif.X64.Alias
open Verif Verif.Alias Verif.Alias.Sym

/-- Memory of 64-bit words. -/
abbrev Mem64 := Verif.Alias.Mem W64

/-- An operand: four words in memory, or a constant array of the context (`ctx->P`, `ctx->R`), which the caller does not
own. -/
inductive Src where
  | mem (a : Nat)
  | const (l : List W64)

/-- Word `i` of an operand. -/
def Src.get (m : Mem64) : Src → Nat → W64
  | .mem a, i => m (a + i)
  | .const l, i => l.getD i 0

/-- Store a word. -/
def upd (m : Mem64) (x : Nat) (v : W64) : Mem64 := fun y => if y = x then v else m y

/-- `n` words from address `a` on, and four of them: an element of the field as the value-level functions take it. -/
def rdN : Nat → Mem64 → Nat → List W64
  | 0, _, _ => []
  | n + 1, m, a => m a :: rdN n m (a + 1)
def rdW (m : Mem64) (a : Nat) : List W64 := rdN 4 m a

/-- The chains `c = _addcarry_u64(c, a[i], b[i], &r[i])`, `c = _subborrow_u64(…)` of mont256_x64.cpp and uint256_x64.cpp
from `i` on: read limb `i` of both operands, store limb `i` of the result, hand the carry on. -/
def ripple (step : W64 → W64 → Byte → W64 × Byte) (r : Nat) (a b : Src) : Nat → Nat → Byte → Mem64 → Mem64 × Byte
  | 0, _, c, m => (m, c)
  | n + 1, i, c, m =>
    let (v, c) := step (a.get m i) (b.get m i) c
    ripple step r a b n (i + 1) c (upd m (r + i) v)

/-- Four `_addcarry_u64` (mont256_x64.cpp 153-156, 176-179, 190-193; uint256_x64.cpp 36-46). -/
def memAddChain (r : Nat) (a b : Src) (m : Mem64) : Mem64 × Byte := ripple (fun x y c => addcarryU64 c x y) r a b 4 0 0 m
/-- Four `_subborrow_u64` (mont256_x64.cpp 119-122, 159-162, 172-175, 196-199; uint256_x64.cpp 48-58). -/
def memSubChain (r : Nat) (a b : Src) (m : Mem64) : Mem64 × Byte :=
  ripple (fun x y c => subborrowU64 c x y) r a b 4 0 0 m
/-- `uint256_cpy` (uint256_x64.cpp 367-370) and, with a constant, `uint256_set_zero` (372-375) and the copy
`r[0] = T[4], …` of `mont256_redc` (mont256_x64.cpp 116). -/
def memCpy (r : Nat) (a : Src) (m : Mem64) : Mem64 := (ripple (fun x _ c => (x, c)) r a a 4 0 0 m).1

/-- `if (c || uint256_cmp(r, ctx->P) >= 0)` with the subtraction in place (mont256_x64.cpp 117-123, 157-163, 194-200). -/
def memFixSub (ctx : Mont256CTX) (r : Nat) (c : Bool) (m : Mem64) : Mem64 :=
  if c = true ∨ u256Cmp (rdW m r) ctx.P ≥ 0 then (memSubChain r (.mem r) (.const ctx.P) m).1 else m

/-- `mont256_add` (mont256_x64.cpp 147-164). -/
def memAdd (ctx : Mont256CTX) : MemOp W64 := fun _ r a b m =>
  let (m, c) := memAddChain r (.mem a) (.mem b) m
  some (memFixSub ctx r (c != 0) m)

/-- `mont256_sub` (mont256_x64.cpp 166-183). -/
def memSub (ctx : Mont256CTX) : MemOp W64 := fun _ r a b m =>
  let (m, c) := memSubChain r (.mem a) (.mem b) m
  some (if c ≠ 0 ∨ u256Cmp (rdW m r) ctx.P ≥ 0 then (memAddChain r (.mem r) (.const ctx.P) m).1 else m)

/-- `mont256_dbl` (mont256_x64.cpp 185-201). -/
def memDbl (ctx : Mont256CTX) : MemOp W64 := fun _ r a _ m =>
  let (m, c) := memAddChain r (.mem a) (.mem a) m
  some (memFixSub ctx r (c != 0) m)

/-- `mont256_tpl` (mont256_x64.cpp 203-210): the double goes to the local array `t`, at the stack pointer. -/
def memTpl (ctx : Mont256CTX) : MemOp W64 := fun L r a _ m =>
  match memDbl ctx (L + 4) L a a m with
  | none => none
  | some m => memAdd ctx (L + 4) r L a m

/-- `mont256_neg` (mont256_x64.cpp 212-222), with its early return. -/
def memNeg (ctx : Mont256CTX) : MemOp W64 := fun _ r a _ m =>
  some (if u256EqualZero (rdW m a) then memCpy r (.const u256Zero) m else (memSubChain r (.const ctx.P) (.mem a) m).1)

/-- `mont256_redc` from the copy on (mont256_x64.cpp 116-123).  The array `T` is a local variable of the callers, which
nothing else points to, so it is kept as a value; so is what the four steps make of it. -/
def memRedc (ctx : Mont256CTX) (r : Nat) (t : List W64) (m : Mem64) : Mem64 :=
  let (t, T8) := redcLoop ctx.P ctx.N_ 4 t 0
  memFixSub ctx r (T8 != 0) (memCpy r (.const t) m)

/-- `mont256_mul`, `mont256_sqr` (mont256_x64.cpp 224-241). -/
def memMul (ctx : Mont256CTX) : MemOp W64 := fun _ r a b m => some (memRedc ctx r (u256Mul (rdW m a) (rdW m b)) m)
def memSqr (ctx : Mont256CTX) : MemOp W64 := fun _ r a _ m => some (memRedc ctx r (u256Sqr (rdW m a)) m)

/-- `mont256_inv`, that is `mont256_pow` with the exponent `P_SUB2` (mont256_x64.cpp 243-318, 338-343): `power` is not
written before the last statement (or the early return), everything before works on the local `mont_t`, `lut_table`,
`e_u8`. -/
def memInv (ctx : Mont256CTX) : MemOp W64 := fun _ r a _ m =>
  match mont256Inv ctx (rdW m a) with
  | none => none
  | some v => some (memCpy r (.const v) m)

/-- The shift loop of `mont256_div2` (mont256_x64.cpp 331-335) from `i` on, `n + 1` limbs to go; `c` is the carry as a
word. -/
def memShr (r : Nat) (s : Src) (c : W64) : Nat → Nat → Mem64 → Mem64
  | 0, i, m => upd m (r + i) ((c <<< 63) ||| (s.get m i >>> 1))
  | n + 1, i, m => memShr r s c n (i + 1) (upd m (r + i) ((s.get m (i + 1) <<< 63) ||| (s.get m i >>> 1)))

/-- `mont256_div2` (mont256_x64.cpp 320-336): the sum with `P` goes to `quotient`, which is then shifted in place. -/
def memDiv2 (ctx : Mont256CTX) : MemOp W64 := fun _ r a _ m =>
  if m a &&& 1 ≠ 0 then
    let (m, c) := memAddChain r (.mem a) (.const ctx.P) m
    let c : CInt := c.setWidth 32
    some (memShr r (.mem r) (c.signExtend 64) 3 0 m)
  else some (memShr r (.mem a) 0 3 0 m)

/-- `sm2_fp_*`, `sm9_fp_*` (sm2p256v1.cpp 153-238, sm9_field.cpp 288-399) on a memory of 64-bit words. -/
def fpImpl (ctx : Mont256CTX) : Impl W64 where
  size := 4
  op
    | add => memAdd ctx
    | sub => memSub ctx
    | mul => memMul ctx
    | sqr => memSqr ctx
    | dbl => memDbl ctx
    | tpl => memTpl ctx
    | neg => memNeg ctx
    | inv => memInv ctx
    | cpy => fun _ r a _ m => some (memCpy r (.mem a) m)
    | one => fun _ r _ _ m => some (memCpy r (.const ctx.R) m)
    | zero => fun _ r _ _ m => some (memCpy r (.const u256Zero) m)
    | twist => fun _ _ _ _ _ => none
  eq x y m := u256Equal (rdW m x) (rdW m y)
  isZero x m := u256EqualZero (rdW m x)

/-! ## The library's instances -/

/-- `sm2_fp_*` and `sm9_fp_*` with their contexts; `sm9_fp2_*`, `sm9_fp4_*`, `sm9_fp12_*` on top of `sm9_fp_*`. -/
def sm2Fp : Impl W64 := fpImpl sm2FpCtx
def sm9Fp : Impl W64 := fpImpl sm9FpCtx
def sm9Fp2 : Impl W64 := fp2 sm9Fp
def sm9Fp4 : Impl W64 := fp4 sm9Fp2
def sm9Fp12 : Impl W64 := fp12 sm9Fp4

/-- An `sm9_fp2_t`, `sm9_fp4_t`, `sm9_fp12_t` at an address: 8, 16, 48 words (sm9_field.h 25-27). -/
def rdFp2 : Mem64 → Nat → Fp2 (List W64) := rd2 4 rdW
def rdFp4 : Mem64 → Nat → Fp4 (List W64) := rd4 8 rdFp2
def rdFp12 : Mem64 → Nat → Fp12 (List W64) := rd12 16 rdFp4

/-- An `sm2_ec_a`, `sm9_ec_a` (8 words), `sm2_ec_j`, `sm9_ec_j` (12), `sm9_ec2_a` (16), `sm9_ec2_j` (24) at an address. -/
def rdEcA : Mem64 → Nat → EcA (List W64) := rdA 4 rdW
def rdEcJ : Mem64 → Nat → EcJ (List W64) := rdJ 4 rdW
def rdEc2A : Mem64 → Nat → EcA (Fp2 (List W64)) := rdA 8 rdFp2
def rdEc2J : Mem64 → Nat → EcJ (Fp2 (List W64)) := rdJ 8 rdFp2

end Verif.X64.Alias
