import Verif.Model.Hash
import Verif.Model.Sm3
import Verif.Model.GhashTables
/-!
# GHASH (src/ghash/ghash_lut256.cpp, src/ghash/ghash_common.cpp, include/gmlib/ghash/ghash.h)
-/
namespace Verif.Ghash

/-- `MEM_LOAD64BE` (ghash_lut256.cpp 5-13, ghash_common.cpp 5-13). -/
def memLoad64BE (bs : List Byte) : W64 :=
  let b (i : Nat) : W64 := (bs.getD i 0).setWidth 64
  (b 0 <<< 56) ||| (b 1 <<< 48) ||| (b 2 <<< 40) ||| (b 3 <<< 32) |||
    (b 4 <<< 24) ||| (b 5 <<< 16) ||| (b 6 <<< 8) ||| (b 7 <<< 0)

/-- A field element in two 64-bit words (`state[0]`, `state[1]`). -/
abbrev Pair := W64 × W64

/-- `T[256][2]`. -/
abbrev Table := List Pair

/-- `REV_U8[i]`. -/
def rev (i : Nat) : Nat := revU8.getD i 0

/-- One iteration of the table construction (ghash_lut256.cpp 86-109). -/
def lutStep (T : Table) (i : Nat) : Table :=
  if i % 2 = 1 then
    let a := T.getD (rev (i - 1)) (0, 0)
    let b := T.getD (rev 1) (0, 0)
    T.set (rev i) (a.1 ^^^ b.1, a.2 ^^^ b.2)
  else
    let m := T.getD (rev (i / 2)) (0, 0)
    let lo := (m.1 <<< 63) ||| (m.2 >>> 1)
    let hi := m.1 >>> 1
    if m.2 &&& 1 ≠ 0 then T.set (rev i) (hi ^^^ (0b11100001#64 <<< 56), lo)
    else T.set (rev i) (hi, lo)

/-- `gf128_init_lut_table` (ghash_lut256.cpp 77-110).  The table is first filled with zero pairs here; every entry
is overwritten by the loop. -/
def lutTable (H : List Byte) : Table :=
  let T := (List.replicate 256 ((0, 0) : Pair)).set 0 (0, 0)
  let T := T.set (rev 1) (memLoad64BE H, memLoad64BE (H.drop 8))
  (List.range' 2 254).foldl lutStep T

/-- `GHashCTX` of lut256 (ghash_lut256.h 11-15). -/
structure Ctx where
  T : Table
  state : Pair

/-- `ghash_init` (ghash_lut256.cpp 112-117). -/
def ghashInit (H : List Byte) : Ctx := ⟨lutTable H, (0, 0)⟩

/-- `ghash_reset` (ghash_lut256.cpp 119-123). -/
def ghashReset (c : Ctx) : Ctx := ⟨c.T, (0, 0)⟩

/-- The byte `(X[1 - (s / 8)] >> (8 * (s % 8))) & 0xFF`. -/
def xByte (X : Pair) (s : Nat) : W64 :=
  ((if 1 - s / 8 = 0 then X.1 else X.2) >>> (8 * (s % 8))) &&& 0xFF

/-- `GMUL128_ROUND(s)` (ghash_lut256.cpp 133-142). -/
def gmulRound (T : Table) (X R : Pair) (s : Nat) : Pair :=
  let rem : Byte := (R.2 &&& 0xFF).setWidth 8
  let R1 := (R.1 <<< 56) ||| (R.2 >>> 8)
  let R0 := (R.1 >>> 8) ^^^ ((reduceTable.getD rem.toNat 0).setWidth 64 <<< 48)
  let t := T.getD (xByte X s).toNat (0, 0)
  (R0 ^^^ t.1, R1 ^^^ t.2)

/-- One block of `ghash_update_blocks` (ghash_lut256.cpp 144-166). -/
def gmulBlock (T : Table) (state : Pair) (inp : List Byte) : Pair :=
  let X : Pair := (state.1 ^^^ memLoad64BE inp, state.2 ^^^ memLoad64BE (inp.drop 8))
  let R := T.getD (X.2 &&& 0xFF).toNat (0, 0)
  [1, 2, 3, 4, 5, 6, 7, 8, 9, 10, 11, 12, 13, 14, 15].foldl (gmulRound T X) R

/-- `ghash_update_blocks` (ghash_lut256.cpp 125-170). -/
def updateBlocks (c : Ctx) : List Byte → Nat → Ctx
  | _, 0 => c
  | inp, n + 1 => updateBlocks ⟨c.T, gmulBlock c.T c.state inp⟩ (inp.drop 16) n

/-- `ghash_final_block` (ghash_lut256.cpp 172-184) as called by `GHash::final_block` (ghash.h 60-69). -/
def finalBlock (c : Ctx) (inp : List Byte) : Outcome (Ctx × List Byte) :=
  if inp.length ≠ 0 then .throw
  else .ok (c, Sm3.memStore64BE c.state.1 ++ Sm3.memStore64BE c.state.2)

/-- The virtual functions of class `GHash` (ghash.h 53-69). -/
def impl : HashImpl Ctx where
  updateBlocks c inp n := .ok (updateBlocks c inp n)
  finalBlock := finalBlock

/-- `GHash::set_key` (ghash.h 43-46): the buffer of the base class is left alone. -/
def setKey (h : HashObj Ctx) (H : List Byte) : HashObj Ctx := ⟨h.buf, ghashInit H⟩

/-- `GHash::reset` (ghash.h 38-41): the buffer of the base class is left alone. -/
def reset (h : HashObj Ctx) : HashObj Ctx := ⟨h.buf, ghashReset h.st⟩

namespace Common

/-- One iteration of the bit loop (ghash_common.cpp 50-61, 62-73): `X` is the word being consumed. -/
def bitStep (r : W64 × Pair × Pair) : W64 × Pair × Pair :=
  let (X, V, Z) := r
  let Z := if X &&& 0x8000000000000000#64 ≠ 0 then (Z.1 ^^^ V.1, Z.2 ^^^ V.2) else Z
  let X := X <<< 1
  let mask : W64 := 0 - (V.2 &&& 1)
  let Vl := (V.1 <<< 63) ||| (V.2 >>> 1)
  let Vh := (0xE100000000000000#64 &&& mask) ^^^ (V.1 >>> 1)
  (X, (Vh, Vl), Z)

/-- One block of the reference `ghash_update_blocks` (ghash_common.cpp 46-75). -/
def gmulBlock (H state : Pair) (inp : List Byte) : Pair :=
  let Xh := state.1 ^^^ memLoad64BE inp
  let Xl := state.2 ^^^ memLoad64BE (inp.drop 8)
  let (_, V, Z) := Nat.repeat bitStep 64 (Xh, H, (0, 0))
  let (_, _, Z) := Nat.repeat bitStep 64 (Xl, V, Z)
  Z

/-- `ghash_update_blocks` of the reference backend (ghash_common.cpp 39-79). -/
def updateBlocks (H : Pair) (state : Pair) : List Byte → Nat → Pair
  | _, 0 => state
  | inp, n + 1 => updateBlocks H (gmulBlock H state inp) (inp.drop 16) n

/-- `ghash_init` of the reference backend (ghash_common.cpp 25-31): the key words. -/
def initH (H : List Byte) : Pair := (memLoad64BE H, memLoad64BE (H.drop 8))

end Common
end Verif.Ghash
