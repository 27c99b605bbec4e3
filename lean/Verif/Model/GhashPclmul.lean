import Verif.Model.Ghash
/-!
# GHASH with the carry-less multiplication instruction (src/ghash/ghash_pclmul.cpp)

An `__m128i` is a 128-bit vector; byte `i` in memory is bits `8i .. 8i+7`.  The instructions have the meaning given in
Intel's manual.
-/
namespace Verif.GhashPclmul

abbrev M128 := BitVec 128

/-- Lane `i` of width `w`. -/
def lane (w : Nat) (x : M128) (i : Nat) : BitVec w := x.extractLsb' (w * i) w

/-- The register whose lanes of width `w` are `f 0`, …, `f (n-1)`. -/
def pack (w n : Nat) (f : Nat → BitVec w) : M128 :=
  (List.range n).foldl (fun acc i => acc ||| ((f i).setWidth 128 <<< (w * i))) 0

/-- `_mm_loadu_si128`.  Bytes past the end of the list are 0 here; the callers make sure that there are 16. -/
def loadu (p : List Byte) : M128 := pack 8 16 fun i => p.getD i 0

/-- `_mm_storeu_si128`. -/
def storeu (x : M128) : List Byte := (List.range 16).map (lane 8 x)

/-- `_mm_set_epi32(e3, e2, e1, e0)`. -/
def setEpi32 (e3 e2 e1 e0 : W32) : M128 := pack 32 4 fun i => [e0, e1, e2, e3].getD i 0

/-- `_mm_srli_epi16(x, s)` (`PSRLW`). -/
def srliEpi16 (x : M128) (s : Nat) : M128 := pack 16 8 fun i => lane 16 x i >>> s

/-- `_mm_srli_epi32(x, s)` (`PSRLD`). -/
def srliEpi32 (x : M128) (s : Nat) : M128 := pack 32 4 fun i => lane 32 x i >>> s

/-- `_mm_slli_epi32(x, s)` (`PSLLD`). -/
def slliEpi32 (x : M128) (s : Nat) : M128 := pack 32 4 fun i => lane 32 x i <<< s

/-- `_mm_shuffle_epi8(a, b)` (`PSHUFB`). -/
def shuffleEpi8 (a b : M128) : M128 := pack 8 16 fun i =>
  if (lane 8 b i).getLsbD 7 then 0 else lane 8 a ((lane 8 b i).toNat % 16)

/-- `_mm_shuffle_epi32(a, imm)` (`PSHUFD`). -/
def shuffleEpi32 (a : M128) (imm : Nat) : M128 := pack 32 4 fun i => lane 32 a (imm / 4 ^ i % 4)

/-- Carry-less product of two 64-bit words. -/
def clmul (a b : W64) : M128 :=
  (List.range 64).foldl (fun acc i => if b.getLsbD i then acc ^^^ (a.setWidth 128 <<< i) else acc) 0

/-- `_mm_clmulepi64_si128(a, b, imm)` (`PCLMULQDQ`): bit 0 of `imm` selects the half of `a`, bit 4 that of `b`. -/
def clmulepi64 (a b : M128) (imm : Nat) : M128 := clmul (lane 64 a (imm % 2)) (lane 64 b (imm / 16 % 2))

/-- `reflect_xmm` (ghash_pclmul.cpp 13-29). -/
def reflectXmm (X : M128) : M128 :=
  let AND_MASK := setEpi32 0x0f0f0f0f 0x0f0f0f0f 0x0f0f0f0f 0x0f0f0f0f
  let LOWER_MASK := setEpi32 0x0f070b03 0x0d050901 0x0e060a02 0x0c040800
  let HIGHER_MASK := setEpi32 0xf070b030 0xd0509010 0xe060a020 0xc0408000
  let tmp2 := srliEpi16 X 4
  let tmp1 := X &&& AND_MASK
  let tmp2 := tmp2 &&& AND_MASK
  let tmp1 := shuffleEpi8 HIGHER_MASK tmp1
  let tmp2 := shuffleEpi8 LOWER_MASK tmp2
  tmp1 ^^^ tmp2

/-- The reduction in `gfmul` (ghash_pclmul.cpp 55-71), from the two halves of the product. -/
def reduce (tmp3 tmp6 : M128) : M128 :=
  let XMMMASK := setEpi32 0x0 0x0 0x0 0xffffffff
  let tmp7 := srliEpi32 tmp6 31
  let tmp8 := srliEpi32 tmp6 30
  let tmp9 := srliEpi32 tmp6 25
  let tmp7 := tmp7 ^^^ tmp8
  let tmp7 := tmp7 ^^^ tmp9
  let tmp8 := shuffleEpi32 tmp7 147
  let tmp7 := XMMMASK &&& tmp8
  let tmp8 := ~~~XMMMASK &&& tmp8
  let tmp3 := tmp3 ^^^ tmp8
  let tmp6 := tmp6 ^^^ tmp7
  let tmp10 := slliEpi32 tmp6 1
  let tmp3 := tmp3 ^^^ tmp10
  let tmp11 := slliEpi32 tmp6 2
  let tmp3 := tmp3 ^^^ tmp11
  let tmp12 := slliEpi32 tmp6 7
  let tmp3 := tmp3 ^^^ tmp12
  tmp3 ^^^ tmp6

/-- `gfmul` (ghash_pclmul.cpp 37-72). -/
def gfmul (a b : M128) : M128 :=
  let tmp3 := clmulepi64 a b 0x00
  let tmp6 := clmulepi64 a b 0x11
  let tmp4 := shuffleEpi32 a 78
  let tmp5 := shuffleEpi32 b 78
  let tmp4 := tmp4 ^^^ a
  let tmp5 := tmp5 ^^^ b
  let tmp4 := clmulepi64 tmp4 tmp5 0x00
  let tmp4 := tmp4 ^^^ tmp3
  let tmp4 := tmp4 ^^^ tmp6
  let tmp5 := tmp4 <<< (8 * 8)
  let tmp4 := tmp4 >>> (8 * 8)
  let tmp3 := tmp3 ^^^ tmp5
  let tmp6 := tmp6 ^^^ tmp4
  reduce tmp3 tmp6

/-- `GHashCTX` (include/gmlib/ghash/internal/ghash_pclmul.h 13-17); both arrays as the registers stored in them. -/
structure Ctx where
  H : M128
  state : M128
deriving DecidableEq, Repr

/-- `ghash_init` (ghash_pclmul.cpp 74-79). -/
def ghashInit (H : List Byte) : Ctx := ⟨reflectXmm (loadu H), 0⟩

/-- `ghash_reset` (ghash_pclmul.cpp 81-84). -/
def ghashReset (c : Ctx) : Ctx := ⟨c.H, 0⟩

/-- `ghash_update_blocks` (ghash_pclmul.cpp 86-102). -/
def updateBlocks (c : Ctx) : List Byte → Nat → Ctx
  | _, 0 => c
  | inp, n + 1 => updateBlocks ⟨c.H, gfmul (c.state ^^^ reflectXmm (loadu inp)) c.H⟩ (inp.drop 16) n

/-- `ghash_final_block` (ghash_pclmul.cpp 104-117) as called by `GHash::final_block` (ghash.h 60-69). -/
def finalBlock (c : Ctx) (inp : List Byte) : Outcome (Ctx × List Byte) :=
  if inp.length ≠ 0 then .throw
  else .ok (c, storeu (reflectXmm c.state))

/-- The virtual functions of class `GHash` (ghash.h 53-69) over this backend. -/
def impl : HashImpl Ctx where
  updateBlocks c inp n := .ok (updateBlocks c inp n)
  finalBlock := finalBlock

/-- `GHash::set_key` (ghash.h 43-46). -/
def setKey (h : HashObj Ctx) (H : List Byte) : HashObj Ctx := ⟨h.buf, ghashInit H⟩

/-- `GHash::reset` (ghash.h 38-41). -/
def reset (h : HashObj Ctx) : HashObj Ctx := ⟨h.buf, ghashReset h.st⟩

end Verif.GhashPclmul
