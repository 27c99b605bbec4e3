import Verif.Model.Sm4
/-!
# SM4 with AVX2 (src/sm4/sm4_lang18.cpp with CPU_FLAG_AVX2)

A `__m256i` is eight 32-bit words, word 0 in the low bits.  Each intrinsic is defined by its description in Intel's
Intrinsics Guide; reading past the end of a list of bytes gives 0 (the callers pass whole batches).
-/
namespace Verif.Sm4.Avx2

/-- `__m256i`. -/
structure M256 where
  w0 : W32
  w1 : W32
  w2 : W32
  w3 : W32
  w4 : W32
  w5 : W32
  w6 : W32
  w7 : W32
deriving DecidableEq, Repr

/-- Word `i` of a register. -/
def M256.get (a : M256) : Nat → W32
  | 0 => a.w0 | 1 => a.w1 | 2 => a.w2 | 3 => a.w3 | 4 => a.w4 | 5 => a.w5 | 6 => a.w6 | 7 => a.w7 | _ => 0

/-- The register with the given words. -/
def ofFn (f : Nat → W32) : M256 := ⟨f 0, f 1, f 2, f 3, f 4, f 5, f 6, f 7⟩

/-- Byte `i` of a register (32 bytes, byte 0 in the low bits). -/
def M256.byte (a : M256) (i : Nat) : Byte := (a.get (i / 4)).extractLsb' (8 * (i % 4)) 8

/-- The register with the given bytes. -/
def ofBytes (f : Nat → Byte) : M256 :=
  ofFn fun j => f (4 * j + 3) ++ f (4 * j + 2) ++ f (4 * j + 1) ++ f (4 * j)

/-- `_mm256_set1_epi32`. -/
def set1 (x : W32) : M256 := ofFn fun _ => x

/-- `_mm256_setr_epi8`. -/
def setr8 (l : List Byte) : M256 := ofBytes fun i => l.getD i 0

/-- `_mm256_loadu_si256((const __m256i *)in + k)`. -/
def loadu (inp : List Byte) (k : Nat) : M256 := ofBytes fun i => inp.getD (32 * k + i) 0

/-- `_mm256_storeu_si256`: the 32 bytes written. -/
def storeu (a : M256) : List Byte := (List.range 32).map a.byte

/-- `_mm256_xor_si256`. -/
def xor (a b : M256) : M256 := ofFn fun i => a.get i ^^^ b.get i

/-- `_mm256_and_si256`. -/
def and (a b : M256) : M256 := ofFn fun i => a.get i &&& b.get i

/-- `_mm256_srli_epi32`. -/
def srli (a : M256) (n : Nat) : M256 := ofFn fun i => a.get i >>> n

/-- `_mm256_unpacklo_epi32`: within each 128-bit half. -/
def unpacklo32 (a b : M256) : M256 := ⟨a.w0, b.w0, a.w1, b.w1, a.w4, b.w4, a.w5, b.w5⟩

/-- `_mm256_unpackhi_epi32`. -/
def unpackhi32 (a b : M256) : M256 := ⟨a.w2, b.w2, a.w3, b.w3, a.w6, b.w6, a.w7, b.w7⟩

/-- `_mm256_unpacklo_epi64`. -/
def unpacklo64 (a b : M256) : M256 := ⟨a.w0, a.w1, b.w0, b.w1, a.w4, a.w5, b.w4, b.w5⟩

/-- `_mm256_unpackhi_epi64`. -/
def unpackhi64 (a b : M256) : M256 := ⟨a.w2, a.w3, b.w2, b.w3, a.w6, a.w7, b.w6, b.w7⟩

/-- `_mm256_shuffle_epi8`: bit 7 of an index clears the byte, the low four bits select within the 128-bit half. -/
def shuffle8 (a idx : M256) : M256 :=
  ofBytes fun i => if (idx.byte i).getLsbD 7 then 0 else a.byte (16 * (i / 16) + (idx.byte i).toNat % 16)

/-- `_mm256_i32gather_epi32((const int *)T, idx, 4)`: eight reads `T[idx]` with signed 32-bit indices.  An index outside
the table (a negative one is at least 2^31 as a natural number) is out of bounds. -/
def gather (T : Array W32) (idx : M256) : Outcome M256 :=
  if idx.w0.toNat < T.size ∧ idx.w1.toNat < T.size ∧ idx.w2.toNat < T.size ∧ idx.w3.toNat < T.size ∧
      idx.w4.toNat < T.size ∧ idx.w5.toNat < T.size ∧ idx.w6.toNat < T.size ∧ idx.w7.toNat < T.size then
    .ok (ofFn fun i => T.getD (idx.get i).toNat 0)
  else .ub

/-- `MM256_PACK0_EPI32` … `MM256_PACK3_EPI32` (sm4_lang18.cpp 504-515). -/
def pack0 (a b c d : M256) : M256 := unpacklo64 (unpacklo32 a b) (unpacklo32 c d)
@[inherit_doc pack0] def pack1 (a b c d : M256) : M256 := unpackhi64 (unpacklo32 a b) (unpacklo32 c d)
@[inherit_doc pack0] def pack2 (a b c d : M256) : M256 := unpacklo64 (unpackhi32 a b) (unpackhi32 c d)
@[inherit_doc pack0] def pack3 (a b c d : M256) : M256 := unpackhi64 (unpackhi32 a b) (unpackhi32 c d)

/-- `vindex` (sm4_lang18.cpp 538-540, 619-621). -/
def vindex : M256 :=
  setr8 [3, 2, 1, 0, 7, 6, 5, 4, 11, 10, 9, 8, 15, 14, 13, 12, 3, 2, 1, 0, 7, 6, 5, 4, 11, 10, 9, 8, 15, 14, 13, 12]

/-- `mask` (sm4_lang18.cpp 527, 601). -/
def mask : M256 := set1 0xFF#32

/-- The registers `X[0..3]` (and, for sixteen blocks, `X[4..7]`). -/
structure Regs where
  x0 : M256
  x1 : M256
  x2 : M256
  x3 : M256

/-- Loading, transposing and byte-swapping eight blocks that start at byte `128 * h` (sm4_lang18.cpp 528-544 with
`h = 0`; 602-629 with `h = 0, 1`). -/
def load8 (inp : List Byte) (h : Nat) : Regs :=
  let t0 := loadu inp (4 * h + 0)
  let t1 := loadu inp (4 * h + 1)
  let t2 := loadu inp (4 * h + 2)
  let t3 := loadu inp (4 * h + 3)
  ⟨shuffle8 (pack0 t0 t1 t2 t3) vindex, shuffle8 (pack1 t0 t1 t2 t3) vindex, shuffle8 (pack2 t0 t1 t2 t3) vindex,
    shuffle8 (pack3 t0 t1 t2 t3) vindex⟩

/-- Byte-swapping, transposing and storing eight blocks (sm4_lang18.cpp 575-587; 683-707 for each half). -/
def store8 (r : Regs) : List Byte :=
  let x0 := shuffle8 r.x0 vindex
  let x1 := shuffle8 r.x1 vindex
  let x2 := shuffle8 r.x2 vindex
  let x3 := shuffle8 r.x3 vindex
  storeu (pack0 x3 x2 x1 x0) ++ storeu (pack1 x3 x2 x1 x0) ++ storeu (pack2 x3 x2 x1 x0) ++ storeu (pack3 x3 x2 x1 x0)

/-- Loop body for eight blocks (sm4_lang18.cpp 547-573). -/
def roundX8 (rk : W32) (r : Regs) : Outcome Regs := do
  let t0 := set1 rk
  let t0 := xor t0 r.x1
  let t0 := xor t0 r.x2
  let t0 := xor t0 r.x3
  let t1 := srli t0 8
  let t2 := srli t0 16
  let t3 := srli t0 24
  let t0 := and t0 mask
  let t1 := and t1 mask
  let t2 := and t2 mask
  let t0 ← gather Sm4.t3 t0
  let t1 ← gather Sm4.t2 t1
  let t2 ← gather Sm4.t1 t2
  let t3 ← gather Sm4.t0 t3
  let t0 := xor t0 t1
  let t0 := xor r.x0 t0
  let t2 := xor t2 t3
  let t0 := xor t0 t2
  .ok ⟨r.x1, r.x2, r.x3, t0⟩

/-- `for (int i = 0; i < 32; i += 1)` over eight blocks: `n` iterations from `i`. -/
def loopX8 (rk : List W32) : Nat → Nat → Regs → Outcome Regs
  | _, 0, r => .ok r
  | i, n + 1, r => do
    let r ← roundX8 (rk.getD i 0) r
    loopX8 rk (i + 1) n r

/-- `avx2_sm4_compute_blocks_x8` (sm4_lang18.cpp 522-588). -/
def computeX8 (rk : List W32) (inp : List Byte) : Outcome (List Byte) := do
  let r ← loopX8 rk 0 32 (load8 inp 0)
  .ok (store8 r)

/-- Loop body for sixteen blocks (sm4_lang18.cpp 632-681): `r` is `X[0..3]`, `s` is `X[4..7]`. -/
def roundX16 (rk : W32) (r s : Regs) : Outcome (Regs × Regs) := do
  let t4 := set1 rk
  let t0 := xor t4 r.x1
  let t0 := xor t0 r.x2
  let t0 := xor t0 r.x3
  let t4 := xor t4 s.x1
  let t4 := xor t4 s.x2
  let t4 := xor t4 s.x3
  let t1 := srli t0 8
  let t2 := srli t0 16
  let t3 := srli t0 24
  let t0 := and t0 mask
  let t1 := and t1 mask
  let t2 := and t2 mask
  let t5 := srli t4 8
  let t6 := srli t4 16
  let t7 := srli t4 24
  let t4 := and t4 mask
  let t5 := and t5 mask
  let t6 := and t6 mask
  let t0 ← gather Sm4.t3 t0
  let t1 ← gather Sm4.t2 t1
  let t2 ← gather Sm4.t1 t2
  let t3 ← gather Sm4.t0 t3
  let t4 ← gather Sm4.t3 t4
  let t5 ← gather Sm4.t2 t5
  let t6 ← gather Sm4.t1 t6
  let t7 ← gather Sm4.t0 t7
  let t0 := xor t0 t1
  let t0 := xor r.x0 t0
  let t2 := xor t2 t3
  let t0 := xor t0 t2
  let t4 := xor t4 t5
  let t4 := xor s.x0 t4
  let t6 := xor t6 t7
  let t4 := xor t4 t6
  .ok (⟨r.x1, r.x2, r.x3, t0⟩, ⟨s.x1, s.x2, s.x3, t4⟩)

/-- The round loop over sixteen blocks. -/
def loopX16 (rk : List W32) : Nat → Nat → Regs → Regs → Outcome (Regs × Regs)
  | _, 0, r, s => .ok (r, s)
  | i, n + 1, r, s => do
    let p ← roundX16 (rk.getD i 0) r s
    loopX16 rk (i + 1) n p.1 p.2

/-- `avx2_sm4_compute_blocks_x16` (sm4_lang18.cpp 596-708). -/
def computeX16 (rk : List W32) (inp : List Byte) : Outcome (List Byte) := do
  let p ← loopX16 rk 0 32 (load8 inp 0) (load8 inp 1)
  .ok (store8 p.1 ++ store8 p.2)

/-- `while (block_num >= 8)` and what follows it (sm4_lang18.cpp 730-745). -/
def blocksX8 (rk : List W32) (inp : List Byte) (n : Nat) : Outcome (List Byte) :=
  if 8 ≤ n then do
    let o ← computeX8 rk (inp.take 128)
    let t ← blocksX8 rk (inp.drop 128) (n - 8)
    .ok (o ++ t)
  else .ok (computeBlocks rk inp n)
termination_by n

/-- `sm4_compute_blocks` with AVX2 (sm4_lang18.cpp 719-746). -/
def blocks (rk : List W32) (inp : List Byte) (n : Nat) : Outcome (List Byte) :=
  if 16 ≤ n then do
    let o ← computeX16 rk (inp.take 256)
    let t ← blocks rk (inp.drop 256) (n - 16)
    .ok (o ++ t)
  else blocksX8 rk inp n
termination_by n

/-- The keyed SM4 object as seen by the mode classes in this build: `PARALLEL_NUM` is 16 (sm4_lang18.h 14), everything
else is as without AVX2. -/
def cipher (key : List Byte) : BCipher := { Sm4.cipher key with PAR := 16 }

end Verif.Sm4.Avx2
