import Verif.Model.Hash
/-!
# SM3: src/sm3/sm3_yang15.cpp (default backend), src/sm3/sm3_common.cpp, include/gmlib/sm3/sm3.h

Arrays are lists; `rd a i` reads element `i` (every index used is a loop index inside the array).
-/
namespace Verif.Sm3

def rd {w : Nat} (a : List (BitVec w)) (i : Nat) : BitVec w := a.getD i 0

/-- `rotl` (sm3_yang15.cpp 30-33).  All call sites in this file pass a constant in 1..31. -/
def rotl (x : W32) (n : Nat) : W32 := (x <<< n) ||| (x >>> (32 - n))
/-- sm3_yang15.cpp 35-38 -/
def P0 (x : W32) : W32 := x ^^^ rotl x 9 ^^^ rotl x 17
/-- sm3_yang15.cpp 40-43 -/
def P1 (x : W32) : W32 := x ^^^ rotl x 15 ^^^ rotl x 23
/-- sm3_yang15.cpp 45-48 -/
def FF00 (x y z : W32) : W32 := x ^^^ y ^^^ z
def FF16 (x y z : W32) : W32 := (x &&& y) ||| (x &&& z) ||| (y &&& z)
def GG00 (x y z : W32) : W32 := x ^^^ y ^^^ z
def GG16 (x y z : W32) : W32 := ((y ^^^ z) &&& x) ^^^ z

/-- sm3_yang15.cpp 70-84 -/
def T : List W32 := [
    0x79cc4519, 0xf3988a32, 0xe7311465, 0xce6228cb, 0x9cc45197,
    0x3988a32f, 0x7311465e, 0xe6228cbc, 0xcc451979, 0x988a32f3,
    0x311465e7, 0x6228cbce, 0xc451979c, 0x88a32f39, 0x11465e73,
    0x228cbce6, 0x9d8a7a87, 0x3b14f50f, 0x7629ea1e, 0xec53d43c,
    0xd8a7a879, 0xb14f50f3, 0x629ea1e7, 0xc53d43ce, 0x8a7a879d,
    0x14f50f3b, 0x29ea1e76, 0x53d43cec, 0xa7a879d8, 0x4f50f3b1,
    0x9ea1e762, 0x3d43cec5, 0x7a879d8a, 0xf50f3b14, 0xea1e7629,
    0xd43cec53, 0xa879d8a7, 0x50f3b14f, 0xa1e7629e, 0x43cec53d,
    0x879d8a7a, 0x0f3b14f5, 0x1e7629ea, 0x3cec53d4, 0x79d8a7a8,
    0xf3b14f50, 0xe7629ea1, 0xcec53d43, 0x9d8a7a87, 0x3b14f50f,
    0x7629ea1e, 0xec53d43c, 0xd8a7a879, 0xb14f50f3, 0x629ea1e7,
    0xc53d43ce, 0x8a7a879d, 0x14f50f3b, 0x29ea1e76, 0x53d43cec,
    0xa7a879d8, 0x4f50f3b1, 0x9ea1e762, 0x3d43cec5]

/-- The eight local registers / the `state[8]` array. -/
structure Reg where
  (A B C D E F G H : W32)
deriving DecidableEq

/-- `for (i < 16) W[i] = MEM_LOAD32BE(data + 4*i)` (sm3_yang15.cpp 123-126): the words `i, …, i+n-1`. -/
def loadWords (data : List Byte) : Nat → Nat → List W32
  | 0, _ => []
  | n + 1, i =>
    memLoad32BE (rd data (4 * i)) (rd data (4 * i + 1)) (rd data (4 * i + 2)) (rd data (4 * i + 3)) ::
      loadWords data n (i + 1)

/-- Message expansion loop (sm3_yang15.cpp 127-131), `n` iterations from `j`; `W` is the array prefix
`W[0..j)` written so far. -/
def expand : Nat → Nat → List W32 → List W32
  | 0, _, W => W
  | n + 1, j, W =>
    expand n (j + 1) (W ++ [P1 (rd W (j - 16) ^^^ rd W (j - 9) ^^^ rotl (rd W (j - 3)) 15) ^^^
      rotl (rd W (j - 13)) 7 ^^^ rd W (j - 6)])

/-- Macro `R(A,…,H,xx)` (sm3_yang15.cpp 50-62): new values of the variables passed as A..H.
`ff`, `gg` are `FF##xx`, `GG##xx`. -/
def R (ff gg : W32 → W32 → W32 → W32) (W : List W32) (j : Nat) (A B C D E F G H : W32) : Reg :=
  let SS1 := rotl (rotl A 12 + E + rd T j) 7
  let SS2 := SS1 ^^^ rotl A 12
  let TT1 := ff A B C + D + SS2 + (rd W j ^^^ rd W (j + 4))
  let TT2 := gg E F G + H + SS1 + rd W j
  ⟨A, rotl B 9, C, TT1, E, rotl F 19, G, P0 TT2⟩

/-- Macro `R4` (sm3_yang15.cpp 64-68): four `R` with the variables renamed instead of moved. -/
def R4 (ff gg : W32 → W32 → W32 → W32) (W : List W32) (j : Nat) (r : Reg) : Reg :=
  let ⟨A, B, C, D, E, F, G, H⟩ := R ff gg W j r.A r.B r.C r.D r.E r.F r.G r.H
  let ⟨D, A, B, C, H, E, F, G⟩ := R ff gg W (j + 1) D A B C H E F G
  let ⟨C, D, A, B, G, H, E, F⟩ := R ff gg W (j + 2) C D A B G H E F
  let ⟨B, C, D, A, F, G, H, E⟩ := R ff gg W (j + 3) B C D A F G H E
  ⟨A, B, C, D, E, F, G, H⟩

/-- `for (t < n) R4(…)` starting with round counter `j`. -/
def R4loop (ff gg : W32 → W32 → W32 → W32) (W : List W32) : Nat → Nat → Reg → Reg
  | 0, _, r => r
  | n + 1, j, r => R4loop ff gg W n (j + 4) (R4 ff gg W j r)

def Reg.xor (a b : Reg) : Reg :=
  ⟨a.A ^^^ b.A, a.B ^^^ b.B, a.C ^^^ b.C, a.D ^^^ b.D, a.E ^^^ b.E, a.F ^^^ b.F, a.G ^^^ b.G, a.H ^^^ b.H⟩

/-- yang15 `sm3_compress_block` (sm3_yang15.cpp 108-150); reads the first 64 bytes of `data`. -/
def compress (state : Reg) (data : List Byte) : Reg :=
  let W := expand 52 16 (loadWords data 16 0)
  let r := R4loop FF00 GG00 W 4 0 state
  let r := R4loop FF16 GG16 W 12 16 r
  state.xor r

/-- `Sm3CTX` (src/sm3/sm3_yang15.h). -/
structure Ctx where
  state : Reg
  dataBits : W64
deriving DecidableEq

/-- `sm3_init` / `sm3_reset` (sm3_yang15.cpp 86-106). -/
def init : Ctx :=
  ⟨⟨0x7380166F, 0x4914B2B9, 0x172442D7, 0xDA8A0600, 0xA96F30BC, 0x163138AA, 0xE38DEE4D, 0xB0FB0E4E⟩, 0⟩

/-- `while (block_num) { compress; data += 64, block_num -= 1; }` (sm3_yang15.cpp 166-170). -/
def compressBlocks (cf : Reg → List Byte → Reg) : Nat → Reg → List Byte → Reg
  | 0, s, _ => s
  | n + 1, s, data => compressBlocks cf n (cf s data) (data.drop 64)

/-- `sm3_update_blocks` (sm3_yang15.cpp 152-172); `none` is the return value −1. -/
def updateBlocks (cf : Reg → List Byte → Reg) (ctx : Ctx) (data : List Byte) (blockNum : Nat) : Option Ctx :=
  if blockNum > (2 ^ 64 - 1) / 512 then none
  else
    let nxt : W64 := BitVec.ofNat 64 (blockNum * 512) + ctx.dataBits
    if nxt.ult ctx.dataBits then none
    else some ⟨compressBlocks cf blockNum ctx.state data, nxt⟩

/-- `MEM_STORE64BE` (sm3_yang15.cpp 20-28). -/
def memStore64BE (a : W64) : List Byte :=
  [((a >>> 56) &&& 0xFF#64).setWidth 8, ((a >>> 48) &&& 0xFF#64).setWidth 8,
   ((a >>> 40) &&& 0xFF#64).setWidth 8, ((a >>> 32) &&& 0xFF#64).setWidth 8,
   ((a >>> 24) &&& 0xFF#64).setWidth 8, ((a >>> 16) &&& 0xFF#64).setWidth 8,
   ((a >>> 8) &&& 0xFF#64).setWidth 8, ((a >>> 0) &&& 0xFF#64).setWidth 8]

def Reg.toList (r : Reg) : List W32 := [r.A, r.B, r.C, r.D, r.E, r.F, r.G, r.H]

/-- `sm3_final_block` (sm3_yang15.cpp 174-208).  `throw` stands for the return value −1 (which
`SM3::final_block` turns into an exception); overflowing the local `buf[128]` would be undefined. -/
def finalBlock (cf : Reg → List Byte → Reg) (ctx : Ctx) (inp : List Byte) : Outcome (Ctx × List Byte) :=
  let nxt : W64 := BitVec.ofNat 64 (inp.length * 8) + ctx.dataBits
  if nxt.ult ctx.dataBits then .throw
  else
    let padNum := (64 + 56 - 1 - inp.length) % 64
    let buf := inp ++ [0x80] ++ List.replicate padNum 0 ++ memStore64BE nxt
    if buf.length > 128 then .ub
    else
      let s := compressBlocks cf ((buf.length + 63) / 64) ctx.state buf
      .ok (⟨s, nxt⟩, s.toList.flatMap memStore32BE)

/-- The overrides in class `SM3` (sm3.h 73-95): −1 becomes an exception. -/
def impl (cf : Reg → List Byte → Reg) : HashImpl Ctx where
  updateBlocks ctx data n := match updateBlocks cf ctx data n with
    | some c => .ok c
    | none => .throw
  finalBlock := finalBlock cf

/-- Class `sm3::SM3` (sm3.h 26-96) with the default backend: BLOCK_SIZE 64, DIGEST_SIZE 32. -/
def cls : HashClass Ctx := ⟨64, 32, impl compress, init⟩

namespace Common
/-! ### src/sm3/sm3_common.cpp -/

/-- `rotl` (sm3_common.cpp 29-32) where the amount is not a literal: for `n = 0` the expression
`x >> (32 - n)` shifts a 32-bit value by 32, which is undefined; `sh32` says what the platform does. -/
def rotlV (sh32 : W32 → Outcome W32) (x : W32) (n : Nat) : Outcome W32 := do
  let hi ← if n = 0 then sh32 x else .ok (x >>> (32 - n))
  .ok ((x <<< n) ||| hi)

/-- Macro `R` (sm3_common.cpp 51-66). -/
def R (sh32 : W32 → Outcome W32) (t : W32) (ff gg : W32 → W32 → W32 → W32) (W W_ : List W32) (j : Nat) (r : Reg) :
    Outcome Reg := do
  let tj ← rotlV sh32 t (j % 32)
  let SS1 := rotl (rotl r.A 12 + r.E + tj) 7
  let SS2 := SS1 ^^^ rotl r.A 12
  let TT1 := ff r.A r.B r.C + r.D + SS2 + rd W_ j
  let TT2 := gg r.E r.F r.G + r.H + SS1 + rd W j
  .ok ⟨TT1, r.A, rotl r.B 9, r.C, P0 TT2, r.E, rotl r.F 19, r.G⟩

/-- `n` iterations of `for (j …) R(…)` starting at `j` (sm3_common.cpp 119-126). -/
def Rloop (sh32 : W32 → Outcome W32) (t : W32) (ff gg : W32 → W32 → W32 → W32) (W W_ : List W32) :
    Nat → Nat → Reg → Outcome Reg
  | 0, _, r => .ok r
  | n + 1, j, r => do
    let r ← R sh32 t ff gg W W_ j r
    Rloop sh32 t ff gg W W_ n (j + 1) r

/-- `for (j < 64) W_[j] = W[j] ^ W[j + 4]` (sm3_common.cpp 114-117). -/
def wprime (W : List W32) : List W32 := (List.range 64).map fun j => rd W j ^^^ rd W (j + 4)

/-- common `sm3_compress_block` (sm3_common.cpp 90-135). -/
def compress (sh32 : W32 → Outcome W32) (state : Reg) (data : List Byte) : Outcome Reg := do
  let W := expand 52 16 (loadWords data 16 0)
  let W_ := wprime W
  let r ← Rloop sh32 0x79cc4519 FF00 GG00 W W_ 16 0 state
  let r ← Rloop sh32 0x7a879d8a FF16 GG16 W W_ 48 16 r
  .ok (state.xor r)

/-- The block loop of `sm3_update_blocks` (sm3_common.cpp 151-155). -/
def compressBlocks (sh32 : W32 → Outcome W32) : Nat → Reg → List Byte → Outcome Reg
  | 0, s, _ => .ok s
  | n + 1, s, data => do
    let s ← compress sh32 s data
    compressBlocks sh32 n s (data.drop 64)

end Common
end Verif.Sm3
