/-!
# Machine words

`std::uint8_t`, `std::uint32_t`, `std::uint64_t` are bit vectors (wrap-around arithmetic is part of
the model).  `int` carries/borrows are 32-bit two's complement values.
-/
namespace Verif

abbrev Byte := BitVec 8
abbrev W32 := BitVec 32
abbrev W64 := BitVec 64
/-- C++ `int` (32 bits, two's complement, as on every platform the project's CMake file targets). -/
abbrev CInt := BitVec 32

/-- `MEM_LOAD32BE` (src/number/uint256_common.cpp 76-82, identical copies in mpz_common.cpp 78-84):
the four bytes at the pointer, shifted and or-ed. -/
def memLoad32BE (b0 b1 b2 b3 : Byte) : W32 :=
  (b0.setWidth 32 <<< 24) ||| (b1.setWidth 32 <<< 16) ||| (b2.setWidth 32 <<< 8) ||| (b3.setWidth 32 <<< 0)

/-- `MEM_STORE32BE` (src/number/uint256_common.cpp 84-90): the four bytes written. -/
def memStore32BE (a : W32) : List Byte :=
  [((a >>> 24) &&& 0xFF#32).setWidth 8, ((a >>> 16) &&& 0xFF#32).setWidth 8,
   ((a >>> 8) &&& 0xFF#32).setWidth 8, ((a >>> 0) &&& 0xFF#32).setWidth 8]

end Verif
