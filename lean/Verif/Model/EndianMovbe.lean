import Verif.Model.MemUtil
/-!
# endian.h with `CPU_FLAG_MOVBE` (include/gmlib/memory_utils/endian.h)

These branches read and write a whole word through a cast pointer on a little-endian host (the flag exists only for
x86) and reverse the bytes with `__builtin_bswap*` where big-endian order is wanted.  The byte order of the host and
the meaning of `bswap` are written out below; alignment and aliasing of the cast pointers are not modelled.
-/
namespace Verif.EndianMovbe

/-- The 16-bit word at a little-endian host's address holding these bytes (endian.h 35, 14). -/
def host16 (p0 p1 : Byte) : BitVec 16 := p1 ++ p0
/-- The 32-bit word (endian.h 45, 16). -/
def host32 (p0 p1 p2 p3 : Byte) : W32 := p3 ++ p2 ++ p1 ++ p0
/-- The 64-bit word (endian.h 57, 18). -/
def host64 (p0 p1 p2 p3 p4 p5 p6 p7 : Byte) : W64 := p7 ++ p6 ++ p5 ++ p4 ++ p3 ++ p2 ++ p1 ++ p0

/-- Byte `i` of a word, counted from the least significant one. -/
def byte {w} (x : BitVec w) (i : Nat) : Byte := x.extractLsb' (8 * i) 8

/-- The bytes in memory of a 16-bit word stored by a little-endian host. -/
def mem16 (x : BitVec 16) : List Byte := [byte x 0, byte x 1]
/-- The bytes in memory of a 32-bit word. -/
def mem32 (x : W32) : List Byte := [byte x 0, byte x 1, byte x 2, byte x 3]
/-- The bytes in memory of a 64-bit word. -/
def mem64 (x : W64) : List Byte := [byte x 0, byte x 1, byte x 2, byte x 3, byte x 4, byte x 5, byte x 6, byte x 7]

/-- `__builtin_bswap16`. -/
def bswap16 (x : BitVec 16) : BitVec 16 := byte x 0 ++ byte x 1
/-- `__builtin_bswap32`. -/
def bswap32 (x : W32) : W32 := byte x 0 ++ byte x 1 ++ byte x 2 ++ byte x 3
/-- `__builtin_bswap64`. -/
def bswap64 (x : W64) : W64 :=
  byte x 0 ++ byte x 1 ++ byte x 2 ++ byte x 3 ++ byte x 4 ++ byte x 5 ++ byte x 6 ++ byte x 7

/-- `load16_le` (endian.h 35). -/
def load16le (p0 p1 : Byte) : BitVec 16 := host16 p0 p1
/-- `load32_le` (endian.h 45). -/
def load32le (p0 p1 p2 p3 : Byte) : W32 := host32 p0 p1 p2 p3
/-- `load64_le` (endian.h 57). -/
def load64le (p0 p1 p2 p3 p4 p5 p6 p7 : Byte) : W64 := host64 p0 p1 p2 p3 p4 p5 p6 p7
/-- `load16_be` (endian.h 14, 78). -/
def load16be (p0 p1 : Byte) : BitVec 16 := bswap16 (host16 p0 p1)
/-- `load32_be` (endian.h 16, 88). -/
def load32be (p0 p1 p2 p3 : Byte) : W32 := bswap32 (host32 p0 p1 p2 p3)
/-- `load64_be` (endian.h 18, 100). -/
def load64be (p0 p1 p2 p3 p4 p5 p6 p7 : Byte) : W64 := bswap64 (host64 p0 p1 p2 p3 p4 p5 p6 p7)
/-- `store16_le` (endian.h 121). -/
def store16le (n : BitVec 16) : List Byte := mem16 n
/-- `store32_le` (endian.h 132). -/
def store32le (n : W32) : List Byte := mem32 n
/-- `store64_le` (endian.h 145). -/
def store64le (n : W64) : List Byte := mem64 n
/-- `store16_be` (endian.h 15, 167). -/
def store16be (n : BitVec 16) : List Byte := mem16 (bswap16 n)
/-- `store32_be` (endian.h 17, 178). -/
def store32be (n : W32) : List Byte := mem32 (bswap32 n)
/-- `store64_be` (endian.h 19, 191). -/
def store64be (n : W64) : List Byte := mem64 (bswap64 n)

end Verif.EndianMovbe
