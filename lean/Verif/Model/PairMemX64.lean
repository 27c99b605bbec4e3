import Verif.Model.PairMem
import Verif.Model.AliasX64
/-!
# Exponentiation, point multiplication and the pairing as programs on memory with 64-bit limbs

The functions of `Verif.Model.PairMem` compiled against the limbs of `Verif.Model.AliasX64`.
-/
namespace Verif.X64.PairMem
open Verif Verif.Alias Verif.Alias.Sym Verif.PairMem Verif.X64.Alias

/-- `mont256_from_bytes(r, bs)` (mont256_x64.cpp 400-406): the limbs are stored, then converted in place, by a
multiplication with the constant `ctx->R_POW2` (126-131). -/
def memFromBytes (ctx : Mont256CTX) (bs : List Byte) : MemOp W64 := fun _ r _ _ m =>
  let m := memCpy r (.const (u256FromBytes bs)) m
  some (memRedc ctx r (u256Mul (rdW m r) ctx.RPow2) m)

/-- `mont256_pow(ctx, r, a, x)` (mont256_x64.cpp 243-318); `x` reads the exponent. -/
def memPow (ctx : Mont256CTX) (x : Mem64 → List W64) : MemOp W64 :=
  powOn (fpImpl ctx) (fun _ r _ _ m => some (memCpy r (.const u256One) m)) (fun m => u256EqualZero (x m))
    (fun m => u256ToBytes (x m))
/-- `mont256_pow(ctx, r, a, b)`: the exponent lies in memory at `b`. -/
def memPowAt (ctx : Mont256CTX) : MemOp W64 := fun L r a b m => memPow ctx (fun m => rdW m b) L r a b m
/-- `mont256_inv(ctx, r, a)` (mont256_x64.cpp 338-343). -/
def memInvP (ctx : Mont256CTX) : MemOp W64 := memPow ctx fun _ => ctx.PSub2

/-- The functions `sm9_fp_*` and constants with 64-bit limbs. -/
def build64 : Build W64 := ⟨sm9Fp, memFromBytes sm9FpCtx⟩

/-- `sm9_fp_sqrt`, `sm2_fp_sqrt` with 64-bit limbs. -/
def sm9Sqrt : Nat → Nat → Nat → Mem64 → Option (Bool × Mem64) :=
  sqrt9 sm9Fp (fun e => memPow sm9FpCtx fun _ => u256FromBytes e) (fun x m => u256Equal (rdW m x) sm9FpCtx.R)
    (memFromBytes sm9FpCtx)
def sm2Sqrt : Nat → Nat → Nat → Mem64 → Option (Bool × Mem64) :=
  sqrt2 sm2Fp fun e => memPow sm2FpCtx fun _ => u256FromBytes e

section
variable {β : Type} (I : Impl β) (dblP : List Ins) (nd : Nat)

/-- `sm2_ec_j_mul_a`, `sm9_ec_j_mul_a`, `sm9_ec2_j_mul_a` (sm2p256v1.cpp 690-769; sm9_field.cpp 1289-1341, 1696-1748) with
64-bit limbs. -/
def mulA (n : List W64) (k : List Byte) : MemOp β := fun L r p b m =>
  let e := u256FromBytes k
  let e := if u256Cmp e n ≥ 0 then (u256SubBorrow e n).1 else e
  if u256EqualZero e then call I 0 ecJInfP L r r r m
  else
    let (e3, c) := u256TplCarry e
    let bits := fun i => match u256BitTest e i, u256BitTest e3 i with
      | some x, some y => some (x, y)
      | _, _ => none
    mulABody I dblP nd bits c (Sm2.topBit e3 255) L r p b m
end
end Verif.X64.PairMem
