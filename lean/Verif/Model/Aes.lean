import Verif.Model.Word
import Verif.Model.Modes
import Verif.Model.AesTables
/-!
# AES with look-up tables (src/aes/aes_lut.cpp, include/gmlib/aes/aes.h)

Blocks and keys are lists of bytes; a read past the end of a (too short) list gives 0.  The key sizes differ only
in the argument `bits` (128, 192, 256).
-/
namespace Verif.Aes

/-- `MEM_LOAD32BE(p + i)` (aes_lut.cpp 7-11). -/
def ld (b : List Byte) (i : Nat) : W32 :=
  memLoad32BE (b.getD i 0) (b.getD (i + 1) 0) (b.getD (i + 2) 0) (b.getD (i + 3) 0)

/-- `TAB[i & 0xFF]`. -/
def at8 {w} (T : Array (BitVec w)) (i : W32) : BitVec w := T.getD (i &&& 0xFF#32).toNat 0

/-- `SBOX[i & 0xFF]` converted to `uint32_t`. -/
def sb (T : Array Byte) (i : W32) : W32 := (at8 T i).setWidth 32

/-- `nr` (aes_lut.cpp 454). -/
def nrOf (bits : Nat) : Nat := 10 + (bits - 128) / 32

/-- `nk` (aes_lut.cpp 455). -/
def nkOf (bits : Nat) : Nat := bits / 32

/-- Body of the key expansion loop (aes_lut.cpp 464-486): `w[i]` from `w[0..i)`. -/
def keyWord (nk : Nat) (w : List W32) (i : Nat) : W32 :=
  let tmp := w.getD (i - 1) 0
  let tmp :=
    if i % nk = 0 then
      sb sbox (tmp >>> 24) ||| sb sbox (tmp >>> 0) <<< 8 ||| sb sbox (tmp >>> 8) <<< 16 |||
        (sb sbox (tmp >>> 16) ^^^ rcon.getD (i / nk - 1) 0) <<< 24
    else if nk > 6 ∧ i % nk = 4 then
      sb sbox (tmp >>> 0) ||| sb sbox (tmp >>> 8) <<< 8 ||| sb sbox (tmp >>> 16) <<< 16 |||
        sb sbox (tmp >>> 24) <<< 24
    else tmp
  w.getD (i - nk) 0 ^^^ tmp

/-- `aes_enc_key_init` (aes_lut.cpp 447-487).  Simplification: the words are written once each in increasing order,
so the array is modelled as the list of the words written so far. -/
def encKeyInit (key : List Byte) (bits : Nat) : List W32 :=
  let nr := nrOf bits
  let nk := nkOf bits
  let w := (List.range nk).map fun i => ld key (4 * i)
  (List.range' nk (4 * (nr + 1) - nk)).foldl (fun w i => w ++ [keyWord nk w i]) w

/-- Body of `aes_inv_mixcol` (aes_lut.cpp 489-501). -/
def invMixcol (si : W32) : W32 :=
  at8 td0 (sb sbox (si >>> 24)) ^^^ at8 td1 (sb sbox (si >>> 16)) ^^^ at8 td2 (sb sbox (si >>> 8)) ^^^
    at8 td3 (sb sbox (si >>> 0))

/-- `p[0..4)` for `p = w + i`. -/
def quad (w : List W32) (i : Nat) : List W32 := [w.getD i 0, w.getD (i + 1) 0, w.getD (i + 2) 0, w.getD (i + 3) 0]

/-- `aes_dec_key_init` (aes_lut.cpp 509-529); again every word of the result is written once, in increasing order. -/
def decKeyInit (key : List Byte) (bits : Nat) : List W32 :=
  let tmp := encKeyInit key bits
  let nr := nrOf bits
  quad tmp (4 * nr) ++ ((List.range' 1 (nr - 1)).map fun i => (quad tmp (4 * (nr - i))).map invMixcol).flatten ++
    quad tmp 0

abbrev State := W32 × W32 × W32 × W32

/-- `aes_enc_round` (aes_lut.cpp 578-608). -/
def encRound (rk : List W32) (s : State) (i : Nat) : State :=
  let (s0, s1, s2, s3) := s
  let t (a b c d : W32) := at8 te0 (a >>> 24) ^^^ at8 te1 (b >>> 16) ^^^ at8 te2 (c >>> 8) ^^^ at8 te3 (d >>> 0)
  (t s0 s1 s2 s3 ^^^ rk.getD (4 * i) 0, t s1 s2 s3 s0 ^^^ rk.getD (4 * i + 1) 0,
    t s2 s3 s0 s1 ^^^ rk.getD (4 * i + 2) 0, t s3 s0 s1 s2 ^^^ rk.getD (4 * i + 3) 0)

/-- `aes_enc_last` (aes_lut.cpp 615-645). -/
def encLast (rk : List W32) (s : State) (i : Nat) : State :=
  let (s0, s1, s2, s3) := s
  let t (a b c d : W32) := sb sbox (a >>> 24) <<< 24 ||| sb sbox (b >>> 16) <<< 16 ||| sb sbox (c >>> 8) <<< 8 |||
    sb sbox (d >>> 0) <<< 0
  (t s0 s1 s2 s3 ^^^ rk.getD (4 * i) 0, t s1 s2 s3 s0 ^^^ rk.getD (4 * i + 1) 0,
    t s2 s3 s0 s1 ^^^ rk.getD (4 * i + 2) 0, t s3 s0 s1 s2 ^^^ rk.getD (4 * i + 3) 0)

/-- `aes_dec_round` (aes_lut.cpp 652-682). -/
def decRound (rk : List W32) (s : State) (i : Nat) : State :=
  let (s0, s1, s2, s3) := s
  let t (a b c d : W32) := at8 td0 (a >>> 24) ^^^ at8 td1 (b >>> 16) ^^^ at8 td2 (c >>> 8) ^^^ at8 td3 (d >>> 0)
  (t s0 s3 s2 s1 ^^^ rk.getD (4 * i) 0, t s1 s0 s3 s2 ^^^ rk.getD (4 * i + 1) 0,
    t s2 s1 s0 s3 ^^^ rk.getD (4 * i + 2) 0, t s3 s2 s1 s0 ^^^ rk.getD (4 * i + 3) 0)

/-- `aes_dec_last` (aes_lut.cpp 689-719). -/
def decLast (rk : List W32) (s : State) (i : Nat) : State :=
  let (s0, s1, s2, s3) := s
  let t (a b c d : W32) := sb invSbox (a >>> 24) <<< 24 ||| sb invSbox (b >>> 16) <<< 16 |||
    sb invSbox (c >>> 8) <<< 8 ||| sb invSbox (d >>> 0) <<< 0
  (t s0 s3 s2 s1 ^^^ rk.getD (4 * i) 0, t s1 s0 s3 s2 ^^^ rk.getD (4 * i + 1) 0,
    t s2 s1 s0 s3 ^^^ rk.getD (4 * i + 2) 0, t s3 s2 s1 s0 ^^^ rk.getD (4 * i + 3) 0)

/-- The initial key addition (aes_lut.cpp 736-739, 768-771). -/
def load (rk : List W32) (inp : List Byte) : State :=
  (rk.getD 0 0 ^^^ ld inp 0, rk.getD 1 0 ^^^ ld inp 4, rk.getD 2 0 ^^^ ld inp 8, rk.getD 3 0 ^^^ ld inp 12)

/-- The final stores (aes_lut.cpp 747-750, 779-782). -/
def store (s : State) : List Byte :=
  memStore32BE s.1 ++ memStore32BE s.2.1 ++ memStore32BE s.2.2.1 ++ memStore32BE s.2.2.2

/-- `aes_enc_block` (aes_lut.cpp 728-751). -/
def encBlock (rk : List W32) (inp : List Byte) (bits : Nat) : List Byte :=
  let nr := nrOf bits
  store (encLast rk ((List.range' 1 (nr - 1)).foldl (encRound rk) (load rk inp)) nr)

/-- `aes_dec_block` (aes_lut.cpp 760-783). -/
def decBlock (rk : List W32) (inp : List Byte) (bits : Nat) : List Byte :=
  let nr := nrOf bits
  store (decLast rk ((List.range' 1 (nr - 1)).foldl (decRound rk) (load rk inp)) nr)

/-- `aes_enc_blocks` (aes_lut.cpp 785-796). -/
def encBlocks (rk : List W32) (bits : Nat) : List Byte → Nat → List Byte
  | _, 0 => []
  | inp, n + 1 => encBlock rk (inp.take 16) bits ++ encBlocks rk bits (inp.drop 16) n

/-- `aes_dec_blocks` (aes_lut.cpp 798-809). -/
def decBlocks (rk : List W32) (bits : Nat) : List Byte → Nat → List Byte
  | _, 0 => []
  | inp, n + 1 => decBlock rk (inp.take 16) bits ++ decBlocks rk bits (inp.drop 16) n

/-- The keyed `AES128`, `AES192`, `AES256` objects as seen by the mode classes (aes.h; `PARALLEL_NUM = 1`,
aes_lut.h 15-25): an encryptor calls `encrypt_block` with the encryption schedule, a decryptor `decrypt_block` with
the decryption schedule. -/
def cipher (bits : Nat) (key : List Byte) : BCipher where
  BS := 16
  PAR := 1
  E := fun x => encBlock (encKeyInit key bits) x bits
  D := fun x => decBlock (decKeyInit key bits) x bits

end Verif.Aes
