import Verif.Model.LimbsX64
import Verif.Model.EndianMovbe
/-!
# Conversions between integers and octets on one memory (mpz_*.cpp, uint256_*.cpp)

`Model/Limbs.lean` and `Model/LimbsX64.lean` take octets and return limbs, or the other way round.  Here the same functions
get what the C++ functions get: addresses of octets, in one memory that holds the limbs and the octets.  The arrays may
overlap in any way.  A limb lies in memory with its low octet first (x86, little-endian ARM); alignment is not modelled.
-/
namespace Verif.ConvMem
open Verif EndianMovbe

/-- Memory of octets. -/
abbrev Mem := Nat → Byte

/-- A store of some octets. -/
def st (m : Mem) (d : Nat) (l : List Byte) : Mem := fun y => if d ≤ y ∧ y < d + l.length then l.getD (y - d) 0 else m y

/-- `*(uint32_t*)d = MEM_LOAD32BE(a)` (uint256_common.cpp 76-82, mpz_common.cpp 78-84). -/
def load32 (m : Mem) (d a : Nat) : Mem := st m d (mem32 (memLoad32BE (m a) (m (a + 1)) (m (a + 2)) (m (a + 3))))

/-- `MEM_STORE32BE(d, *(uint32_t*)a)` (uint256_common.cpp 84-90, mpz_common.cpp 86-92): the limb is an argument passed by
value. -/
def store32 (m : Mem) (d a : Nat) : Mem := st m d (memStore32BE (host32 (m a) (m (a + 1)) (m (a + 2)) (m (a + 3))))

/-- `*(uint64_t*)d = _loadbe_i64(a)` (mpz_x64.cpp 17, uint256_x64.cpp 15). -/
def load64 (m : Mem) (d a : Nat) : Mem :=
  st m d (mem64 (X64.memLoad64BE (m a) (m (a + 1)) (m (a + 2)) (m (a + 3)) (m (a + 4)) (m (a + 5)) (m (a + 6)) (m (a + 7))))

/-- `_storebe_i64(d, *(uint64_t*)a)` (mpz_x64.cpp 18, uint256_x64.cpp 16). -/
def store64 (m : Mem) (d a : Nat) : Mem :=
  st m d (X64.memStore64BE (host64 (m a) (m (a + 1)) (m (a + 2)) (m (a + 3)) (m (a + 4)) (m (a + 5)) (m (a + 6)) (m (a + 7))))

/-- The first `i` rounds of `r[limb_size - 1 - i] = load(src + s * i)` (mpz_common.cpp 176-179, mpz_x64.cpp 115-118). -/
def fromLoop (W : Mem → Nat → Nat → Mem) (s n r p : Nat) : Nat → Mem → Mem
  | 0, m => m
  | i + 1, m => W (fromLoop W s n r p i m) (r + s * (n - 1 - i)) (p + s * i)

/-- The first `i` rounds of `store(r + s * i, src[limb_size - 1 - i])` (mpz_common.cpp 187-190, mpz_x64.cpp 126-129). -/
def toLoop (W : Mem → Nat → Nat → Mem) (s n r p : Nat) : Nat → Mem → Mem
  | 0, m => m
  | i + 1, m => W (toLoop W s n r p i m) (r + s * i) (p + s * (n - 1 - i))

/-- `mpz_from_bytes` (mpz_common.cpp 171-180). -/
def mpzFromBytes (n r p : Nat) (m : Mem) : Mem := if n = 0 then m else fromLoop load32 4 n r p n m
/-- `mpz_to_bytes` (mpz_common.cpp 182-191). -/
def mpzToBytes (n r p : Nat) (m : Mem) : Mem := if n = 0 then m else toLoop store32 4 n r p n m
/-- `mpz_from_bytes` (mpz_x64.cpp 110-119). -/
def mpzFromBytes64 (n r p : Nat) (m : Mem) : Mem := if n = 0 then m else fromLoop load64 8 n r p n m
/-- `mpz_to_bytes` (mpz_x64.cpp 121-130). -/
def mpzToBytes64 (n r p : Nat) (m : Mem) : Mem := if n = 0 then m else toLoop store64 8 n r p n m

/-- `uint256_from_bytes` (uint256_common.cpp 471-482). -/
def u256FromBytes (r p : Nat) (m : Mem) : Mem :=
  let m := load32 m (r + 28) (p + 0)
  let m := load32 m (r + 24) (p + 4)
  let m := load32 m (r + 20) (p + 8)
  let m := load32 m (r + 16) (p + 12)
  let m := load32 m (r + 12) (p + 16)
  let m := load32 m (r + 8) (p + 20)
  let m := load32 m (r + 4) (p + 24)
  load32 m (r + 0) (p + 28)

/-- `uint256_to_bytes` (uint256_common.cpp 484-495). -/
def u256ToBytes (r p : Nat) (m : Mem) : Mem :=
  let m := store32 m (r + 0) (p + 28)
  let m := store32 m (r + 4) (p + 24)
  let m := store32 m (r + 8) (p + 20)
  let m := store32 m (r + 12) (p + 16)
  let m := store32 m (r + 16) (p + 12)
  let m := store32 m (r + 20) (p + 8)
  let m := store32 m (r + 24) (p + 4)
  store32 m (r + 28) (p + 0)

/-- `uint256_from_bytes` (uint256_x64.cpp 393-400). -/
def u256FromBytes64 (r p : Nat) (m : Mem) : Mem :=
  let m := load64 m (r + 0) (p + 24)
  let m := load64 m (r + 8) (p + 16)
  let m := load64 m (r + 16) (p + 8)
  load64 m (r + 24) (p + 0)

/-- `uint256_to_bytes` (uint256_x64.cpp 402-409). -/
def u256ToBytes64 (r p : Nat) (m : Mem) : Mem :=
  let m := store64 m (r + 24) (p + 0)
  let m := store64 m (r + 16) (p + 8)
  let m := store64 m (r + 8) (p + 16)
  store64 m (r + 0) (p + 24)

end Verif.ConvMem
