import Verif.Model.Modes
/-!
# `memory_utils` (include/gmlib/memory_utils/memxor.h, endian.h; src/memory_utils/memxor.cpp)

Memory is the flat byte array of Model/Modes.lean, so operands may overlap.  Every primitive `memxorK` loads both
operands completely before it stores (memxor.h 25-303: the AVX2 and SSE2 versions load all vectors first, the scalar
versions are one load, one xor, one store; alignment and strict aliasing are not modelled).
-/
namespace Verif.MemUtil

/-- `memxor512` … `memxor1` (memxor.h 25-303): one chunk of `k` bytes. -/
def chunk (k : Nat) (m : Mem) (out a b : Nat) : Mem := wrm m out (xorBytes (rdm m a k) (rdm m b k))

/-- `while (size >= w) { memxorW(out, in1, in2); out += w, … size -= w; }` (memxor.cpp 13-101): the number of rounds is
`size / w`. -/
def chunks (w : Nat) : Nat → Mem → Nat → Nat → Nat → Mem
  | 0, m, _, _, _ => m
  | n + 1, m, out, a, b => chunks w n (chunk w m out a b) (out + w) (a + w) (b + w)

/-- `memxor_n` (memxor.cpp 5-102) for the chunk widths `ws` compiled in, largest first. -/
def memxorN : List Nat → Mem → Nat → Nat → Nat → Nat → Mem
  | [], m, _, _, _, _ => m
  | w :: ws, m, out, a, b, size =>
    let k := size / w
    memxorN ws (chunks w k m out a b) (out + k * w) (a + k * w) (b + k * w) (size % w)

/-- The widths without `CPU_FLAG_*` (memxor.cpp 79-101). -/
def portable : List Nat := [8, 4, 2, 1]
/-- With `CPU_FLAG_SSE2` (memxor.cpp 36-101). -/
def sse2 : List Nat := [128, 64, 32, 16, 8, 4, 2, 1]
/-- With `CPU_FLAG_AVX2` and `CPU_FLAG_SSE2` (memxor.cpp 13-101). -/
def avx2 : List Nat := [512, 256, 128, 64, 32, 16, 8, 4, 2, 1]

/-- The tail of `memxor<SIZE>` below the loops (memxor.h 419-436): at most one chunk of each width, then
`memxor<SIZE - w>`. -/
def memxorTail : List Nat → Mem → Nat → Nat → Nat → Nat → Mem
  | [], m, _, _, _, _ => m
  | w :: ws, m, out, a, b, size =>
    if w ≤ size then memxorTail ws (chunk w m out a b) (out + w) (a + w) (b + w) (size - w)
    else memxorTail ws m out a b size

/-- `memxor<SIZE>` (memxor.h 307-437): for each wide width `w ≤ SIZE` (largest first) `SIZE / w` chunks and then
`memxor<SIZE % w>`; below 8 bytes one chunk of 4, 2, 1. -/
def memxorT : List Nat → Mem → Nat → Nat → Nat → Nat → Mem
  | [], m, out, a, b, size => memxorTail [4, 2, 1] m out a b size
  | w :: ws, m, out, a, b, size =>
    if w ≤ size then
      memxorT ws (chunks w (size / w) m out a b) (out + size / w * w) (a + size / w * w) (b + size / w * w) (size % w)
    else memxorT ws m out a b size

/-- The wide widths of the three configurations of `memxor<SIZE>` (memxor.h 313-418). -/
def portableT : List Nat := [8]
def sse2T : List Nat := [128, 64, 32, 16, 8]
def avx2T : List Nat := [512, 256, 128, 64, 32, 16, 8]

/-! ## endian.h, the portable branches.  A pointer argument is the list of bytes it points at. -/

/-- `load16_le` (endian.h 32-40). -/
def load16le (p0 p1 : Byte) : BitVec 16 := (p1.setWidth 16 <<< 8) ||| p0.setWidth 16
/-- `load32_le` (endian.h 42-52). -/
def load32le (p0 p1 p2 p3 : Byte) : W32 :=
  (p3.setWidth 32 <<< 24) ||| (p2.setWidth 32 <<< 16) ||| (p1.setWidth 32 <<< 8) ||| p0.setWidth 32
/-- `load64_le` (endian.h 54-68). -/
def load64le (p0 p1 p2 p3 p4 p5 p6 p7 : Byte) : W64 :=
  (p7.setWidth 64 <<< 56) ||| (p6.setWidth 64 <<< 48) ||| (p5.setWidth 64 <<< 40) ||| (p4.setWidth 64 <<< 32) |||
  (p3.setWidth 64 <<< 24) ||| (p2.setWidth 64 <<< 16) ||| (p1.setWidth 64 <<< 8) ||| p0.setWidth 64
/-- `load16_be` (endian.h 75-83). -/
def load16be (p0 p1 : Byte) : BitVec 16 := (p0.setWidth 16 <<< 8) ||| p1.setWidth 16
/-- `load32_be` (endian.h 85-95). -/
def load32be (p0 p1 p2 p3 : Byte) : W32 :=
  (p0.setWidth 32 <<< 24) ||| (p1.setWidth 32 <<< 16) ||| (p2.setWidth 32 <<< 8) ||| p3.setWidth 32
/-- `load64_be` (endian.h 97-111). -/
def load64be (p0 p1 p2 p3 p4 p5 p6 p7 : Byte) : W64 :=
  (p0.setWidth 64 <<< 56) ||| (p1.setWidth 64 <<< 48) ||| (p2.setWidth 64 <<< 40) ||| (p3.setWidth 64 <<< 32) |||
  (p4.setWidth 64 <<< 24) ||| (p5.setWidth 64 <<< 16) ||| (p6.setWidth 64 <<< 8) ||| p7.setWidth 64

/-- `(n >> s) & 0xFF` stored in a byte. -/
def byteAt {w} (n : BitVec w) (s : Nat) : Byte := ((n >>> s) &&& BitVec.ofNat w 0xFF).setWidth 8

/-- `store16_le` (endian.h 118-127). -/
def store16le (n : BitVec 16) : List Byte := [byteAt n 0, byteAt n 8]
/-- `store32_le` (endian.h 129-140). -/
def store32le (n : W32) : List Byte := [byteAt n 0, byteAt n 8, byteAt n 16, byteAt n 24]
/-- `store64_le` (endian.h 142-157). -/
def store64le (n : W64) : List Byte :=
  [byteAt n 0, byteAt n 8, byteAt n 16, byteAt n 24, byteAt n 32, byteAt n 40, byteAt n 48, byteAt n 56]
/-- `store16_be` (endian.h 164-173). -/
def store16be (n : BitVec 16) : List Byte := [byteAt n 8, byteAt n 0]
/-- `store32_be` (endian.h 175-186). -/
def store32be (n : W32) : List Byte := [byteAt n 24, byteAt n 16, byteAt n 8, byteAt n 0]
/-- `store64_be` (endian.h 188-203). -/
def store64be (n : W64) : List Byte :=
  [byteAt n 56, byteAt n 48, byteAt n 40, byteAt n 32, byteAt n 24, byteAt n 16, byteAt n 8, byteAt n 0]

end Verif.MemUtil
