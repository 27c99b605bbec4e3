import Verif.Model.Word
import Verif.Model.Modes
import Verif.Spec.Aes
/-!
# AES with the AES-NI instructions (src/aes/aes_aesni.cpp)

An `__m128i` is its four 32-bit lanes, lane 0 first, and a lane is its four bytes in memory order.  The
instructions have the meaning given in Intel's manual, which defines the `AES*` ones by the transformations of
FIPS 197 (`Spec.AES`).  A 16-byte load from fewer than 16 readable bytes is `Outcome.ub`: a key is given as the list
of all bytes that may be read from the address passed.
-/
namespace Verif.AesNi
open Spec

structure M128 where
  d0 : List Byte
  d1 : List Byte
  d2 : List Byte
  d3 : List Byte
deriving DecidableEq, Repr

/-- The 16 bytes in memory order. -/
def M128.bytes (x : M128) : List Byte := x.d0 ++ x.d1 ++ x.d2 ++ x.d3

/-- The register holding these 16 bytes. -/
def ofBytes (b : List Byte) : M128 := ⟨b.take 4, (b.drop 4).take 4, (b.drop 8).take 4, (b.drop 12).take 4⟩

/-- The zero lane. -/
def zl : List Byte := [0, 0, 0, 0]

/-- `_mm_loadu_si128(p)`. -/
def loadu (p : List Byte) : Outcome M128 := if 16 ≤ p.length then .ok (ofBytes p) else .ub

/-- `_mm_xor_si128` (`PXOR`). -/
def xor (a b : M128) : M128 := ⟨AES.xorW a.d0 b.d0, AES.xorW a.d1 b.d1, AES.xorW a.d2 b.d2, AES.xorW a.d3 b.d3⟩

/-- Lane number `i mod 4`. -/
def lane (a : M128) (i : Nat) : List Byte :=
  if i % 4 = 0 then a.d0 else if i % 4 = 1 then a.d1 else if i % 4 = 2 then a.d2 else a.d3

/-- `_mm_shuffle_epi32(a, imm)` (`PSHUFD`): lane `i` of the result is lane `imm[2i+1:2i]`. -/
def shuffle32 (a : M128) (imm : Nat) : M128 :=
  ⟨lane a imm, lane a (imm / 4), lane a (imm / 16), lane a (imm / 64)⟩

/-- `_mm_slli_si128(a, 4)` (`PSLLDQ` by four bytes). -/
def slli4 (a : M128) : M128 := ⟨zl, a.d0, a.d1, a.d2⟩

/-- The macro `_mm_shuffle_epi64(a, b, imm)` (aes_aesni.cpp 7-9; `SHUFPD`): the low half is half `imm[0]` of `a`, the
high half is half `imm[1]` of `b`. -/
def shuffle64 (a b : M128) (imm : Nat) : M128 :=
  if imm % 2 = 0 then
    if imm / 2 % 2 = 0 then ⟨a.d0, a.d1, b.d0, b.d1⟩ else ⟨a.d0, a.d1, b.d2, b.d3⟩
  else
    if imm / 2 % 2 = 0 then ⟨a.d2, a.d3, b.d0, b.d1⟩ else ⟨a.d2, a.d3, b.d2, b.d3⟩

/-- `_mm_aeskeygenassist_si128(a, rc)`: lanes `SubWord(X1)`, `RotWord(SubWord(X1)) ⊕ rc`, `SubWord(X3)`,
`RotWord(SubWord(X3)) ⊕ rc`. -/
def keygenassist (a : M128) (rc : Byte) : M128 :=
  ⟨AES.subWord a.d1, AES.xorW (AES.rotWord (AES.subWord a.d1)) [rc, 0, 0, 0],
    AES.subWord a.d3, AES.xorW (AES.rotWord (AES.subWord a.d3)) [rc, 0, 0, 0]⟩

/-- `_mm_aesenc_si128` (`AESENC`: ShiftRows, SubBytes, MixColumns, then exclusive or with the round key). -/
def aesenc (s k : M128) : M128 := xor (ofBytes (AES.mixColumns (AES.subBytes (AES.shiftRows s.bytes)))) k

/-- `_mm_aesenclast_si128` (`AESENCLAST`). -/
def aesenclast (s k : M128) : M128 := xor (ofBytes (AES.subBytes (AES.shiftRows s.bytes))) k

/-- `_mm_aesdec_si128` (`AESDEC`: InvShiftRows, InvSubBytes, InvMixColumns, then exclusive or with the round key). -/
def aesdec (s k : M128) : M128 :=
  xor (ofBytes (AES.invMixColumns (AES.invSubBytes (AES.invShiftRows s.bytes)))) k

/-- `_mm_aesdeclast_si128` (`AESDECLAST`). -/
def aesdeclast (s k : M128) : M128 := xor (ofBytes (AES.invSubBytes (AES.invShiftRows s.bytes))) k

/-- `_mm_aesimc_si128` (`AESIMC`: InvMixColumns). -/
def aesimc (a : M128) : M128 := ofBytes (AES.invMixColumns a.bytes)

/-- The three shifted exclusive ors at the start of `AES_128_ASSIST` (aes_aesni.cpp 26-31), of `KEY_192_ASSIST`
(88-93), `KEY_256_ASSIST_1` (157-162) and `KEY_256_ASSIST_2` (176-181). -/
def spread (temp1 : M128) : M128 :=
  let temp3 := slli4 temp1
  let temp1 := xor temp1 temp3
  let temp3 := slli4 temp3
  let temp1 := xor temp1 temp3
  let temp3 := slli4 temp3
  xor temp1 temp3

/-- `AES_128_ASSIST` (aes_aesni.cpp 22-34). -/
def assist128 (temp1 temp2 : M128) : M128 := xor (spread temp1) (shuffle32 temp2 0xff)

/-- `AES_128_Key_Expansion` after the load (aes_aesni.cpp 46-76): the unrolled steps, one per round constant; the
result is the list of the round keys in order. -/
def steps128 : M128 → List Byte → List M128
  | temp1, [] => [temp1]
  | temp1, rc :: rcs => temp1 :: steps128 (assist128 temp1 (keygenassist temp1 rc)) rcs

/-- `AES_128_Key_Expansion` (aes_aesni.cpp 40-76). -/
def expand128 (userkey : List Byte) : Outcome (List M128) := do
  let temp1 ← loadu userkey
  pure (steps128 temp1 [0x1, 0x2, 0x4, 0x8, 0x10, 0x20, 0x40, 0x80, 0x1b, 0x36])

/-- `KEY_192_ASSIST` (aes_aesni.cpp 82-99): the new `*temp1` and `*temp3`. -/
def assist192 (temp1 temp2 temp3 : M128) : M128 × M128 :=
  let temp2 := shuffle32 temp2 0x55
  let temp1 := xor (spread temp1) temp2
  let temp2 := shuffle32 temp1 0xff
  let temp4 := slli4 temp3
  let temp3 := xor temp3 temp4
  let temp3 := xor temp3 temp2
  (temp1, temp3)

/-- `AES_192_Key_Expansion` after the loads (aes_aesni.cpp 112-146): the unrolled steps, two round constants at a
time.  `Key_Schedule[3j+1]` is first stored as `temp3` and then replaced by its low half and the low half of the new
`temp1`; only the final value appears here.  After the last pair only `temp1` is stored. -/
def steps192 : M128 → M128 → List (Byte × Byte) → List M128
  | temp1, _, [] => [temp1]
  | temp1, temp3, (ra, rb) :: rcs =>
    let (t1, t3) := assist192 temp1 (keygenassist temp3 ra) temp3
    let (u1, u3) := assist192 t1 (keygenassist t3 rb) t3
    temp1 :: shuffle64 temp3 t1 0 :: shuffle64 t1 t3 1 :: steps192 u1 u3 rcs

/-- `AES_192_Key_Expansion` (aes_aesni.cpp 105-147).  The second load reads bytes 16 to 31 of a 24-byte key. -/
def expand192 (userkey : List Byte) : Outcome (List M128) := do
  let temp1 ← loadu userkey
  let temp3 ← loadu (userkey.drop 16)
  pure (steps192 temp1 temp3 [(0x1, 0x2), (0x4, 0x8), (0x10, 0x20), (0x40, 0x80)])

/-- `KEY_256_ASSIST_1` (aes_aesni.cpp 153-164). -/
def assist256a (temp1 temp2 : M128) : M128 := xor (spread temp1) (shuffle32 temp2 0xff)

/-- `KEY_256_ASSIST_2` (aes_aesni.cpp 170-183). -/
def assist256b (temp1 temp3 : M128) : M128 := xor (spread temp3) (shuffle32 (keygenassist temp1 0x0) 0xaa)

/-- `AES_256_Key_Expansion` after the loads (aes_aesni.cpp 196-228): the unrolled steps, one per round constant.
After the last constant only `temp1` is computed and stored. -/
def steps256 : M128 → M128 → List Byte → List M128
  | temp1, _, [] => [temp1]
  | temp1, temp3, rc :: rcs =>
    let t1 := assist256a temp1 (keygenassist temp3 rc)
    temp1 :: temp3 :: steps256 t1 (assist256b t1 temp3) rcs

/-- `AES_256_Key_Expansion` (aes_aesni.cpp 189-228). -/
def expand256 (userkey : List Byte) : Outcome (List M128) := do
  let temp1 ← loadu userkey
  let temp3 ← loadu (userkey.drop 16)
  pure (steps256 temp1 temp3 [0x01, 0x02, 0x04, 0x08, 0x10, 0x20, 0x40])

/-- The key expansion called for a key of `bits` bits. -/
def expand (bits : Nat) (userkey : List Byte) : Outcome (List M128) :=
  if bits = 128 then expand128 userkey else if bits = 192 then expand192 userkey else expand256 userkey

/-- Number of rounds. -/
def nr (bits : Nat) : Nat := if bits = 128 then 10 else if bits = 192 then 12 else 14

def zero : M128 := ⟨zl, zl, zl, zl⟩

/-- `aes128_enc_key_init`, `aes192_enc_key_init`, `aes256_enc_key_init` (aes_aesni.cpp 243-259, 375-393, 519-539): the
contents of `ctx->round_key`. -/
def encKeyInit (bits : Nat) (userkey : List Byte) : Outcome (List M128) := do
  let rk ← expand bits userkey
  pure ((List.range (nr bits + 1)).map fun i => rk.getD i zero)

/-- `aes128_dec_key_init`, `aes192_dec_key_init`, `aes256_dec_key_init` (aes_aesni.cpp 261-277, 395-413, 541-561). -/
def decKeyInit (bits : Nat) (userkey : List Byte) : Outcome (List M128) := do
  let rk ← expand bits userkey
  pure ([rk.getD (nr bits) zero] ++
    ((List.range' 1 (nr bits - 1)).map fun i => aesimc (rk.getD (nr bits - i) zero)) ++ [rk.getD 0 zero])

/-- Loop body of `aes128_enc_blocks`, `aes192_enc_blocks`, `aes256_enc_blocks` (aes_aesni.cpp 298-316, 436-456,
586-608), the rounds written as a loop.  The input block is loaded before the output is stored. -/
def encBlock (bits : Nat) (rk : List M128) (inp : List Byte) : List Byte :=
  let state := xor (ofBytes inp) (rk.getD 0 zero)
  let state := (List.range' 1 (nr bits - 1)).foldl (fun s i => aesenc s (rk.getD i zero)) state
  (aesenclast state (rk.getD (nr bits) zero)).bytes

/-- Loop body of `aes128_dec_blocks`, `aes192_dec_blocks`, `aes256_dec_blocks` (aes_aesni.cpp 337-355, 479-499,
633-655). -/
def decBlock (bits : Nat) (rk : List M128) (inp : List Byte) : List Byte :=
  let state := xor (ofBytes inp) (rk.getD 0 zero)
  let state := (List.range' 1 (nr bits - 1)).foldl (fun s i => aesdec s (rk.getD i zero)) state
  (aesdeclast state (rk.getD (nr bits) zero)).bytes

/-- `aes128_enc_blocks` and the others (aes_aesni.cpp 279-316, 415-456, 563-608).  `encBlock` is the case of one
block (357-362, 501-506, 657-662). -/
def encBlocks (bits : Nat) (rk : List M128) : List Byte → Nat → List Byte
  | _, 0 => []
  | inp, n + 1 => encBlock bits rk (inp.take 16) ++ encBlocks bits rk (inp.drop 16) n

/-- `aes128_dec_blocks` and the others (aes_aesni.cpp 318-355, 458-499, 610-655). -/
def decBlocks (bits : Nat) (rk : List M128) : List Byte → Nat → List Byte
  | _, 0 => []
  | inp, n + 1 => decBlock bits rk (inp.take 16) ++ decBlocks bits rk (inp.drop 16) n

/-- The classes `AES128`, `AES192`, `AES256` (include/gmlib/aes/aes.h 15-188) over this backend, keyed with the round
keys of the encryption and the decryption context; `PARALLEL_NUM` is 1 (aes_aesni.h). -/
def cipher (bits : Nat) (ek dk : List M128) : BCipher where
  BS := 16
  PAR := 1
  E := encBlock bits ek
  D := decBlock bits dk

end Verif.AesNi
