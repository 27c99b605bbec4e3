import Verif.Model.Word
import Verif.Model.Modes
import Verif.Model.Sm4Tables
/-!
# SM4 (src/sm4/sm4_lang18.cpp without CPU_FLAG_AVX2, src/sm4/sm4_common.cpp, include/gmlib/sm4/sm4.h)

The blocks and keys are lists of bytes; a read past the end of a (too short) list gives 0.  The callers always
pass whole blocks.
-/
namespace Verif.Sm4

/-- `MEM_LOAD32BE(p + i)` (sm4_lang18.cpp 12-18). -/
def ld (b : List Byte) (i : Nat) : W32 :=
  memLoad32BE (b.getD i 0) (b.getD (i + 1) 0) (b.getD (i + 2) 0) (b.getD (i + 3) 0)

/-- `rotl` (sm4_lang18.cpp 28-31, sm4_common.cpp 23-26); every call site passes a constant in 1..31. -/
def rotl (n : W32) (s : Nat) : W32 := (n <<< s) ||| (n >>> (32 - s))

/-- `TAB[i & 0xFF]`. -/
def at8 {w} (T : Array (BitVec w)) (i : W32) : BitVec w := T.getD (i &&& 0xFF#32).toNat 0

/-- The S-box step on a word (sm4_lang18.cpp 279-282).  `uint8_t` is promoted to `int` before the shift; the value
converted back to `uint32_t` is the one below. -/
def subWord (S : Array Byte) (tmp : W32) : W32 :=
  ((at8 S (tmp >>> 24)).setWidth 32 <<< 24) ||| ((at8 S (tmp >>> 16)).setWidth 32 <<< 16) |||
    ((at8 S (tmp >>> 8)).setWidth 32 <<< 8) ||| ((at8 S (tmp >>> 0)).setWidth 32 <<< 0)

/-- Local variables `k[4]`, `round_key`, `pos` of the key schedule. -/
structure KeyState where
  k0 : W32
  k1 : W32
  k2 : W32
  k3 : W32
  rk : List W32
  pos : Int

/-- Loop body of `sm4_key_init` (sm4_lang18.cpp 274-293). -/
def keyRound (S : Array Byte) (CK : Array W32) (step : Int) (s : KeyState) (i : Nat) : KeyState :=
  let tmp := s.k1 ^^^ s.k2 ^^^ s.k3 ^^^ CK.getD i 0
  let tmp := subWord S tmp
  let r := s.k0 ^^^ tmp ^^^ rotl tmp 13 ^^^ rotl tmp 23
  ⟨s.k1, s.k2, s.k3, r, s.rk.set s.pos.toNat r, s.pos + step⟩

/-- `sm4_key_init` (sm4_lang18.cpp 262-294; sm4_common.cpp 79-111 is the same text with its own tables).
`rk0` is the previous content of `round_key`. -/
def keyInit (S : Array Byte) (FK CK : Array W32) (rk0 : List W32) (key : List Byte) (enc : Bool) : List W32 :=
  let s : KeyState := ⟨ld key 0 ^^^ FK.getD 0 0, ld key 4 ^^^ FK.getD 1 0, ld key 8 ^^^ FK.getD 2 0,
    ld key 12 ^^^ FK.getD 3 0, rk0, if enc then 0 else 31⟩
  ((List.range 32).foldl (keyRound S CK (if enc then 1 else -1)) s).rk

/-- `SM4_ROUND(X0, X1, X2, X3, RK)` of lang18 (sm4_lang18.cpp 303-312): the new `X0`. -/
def round (X0 X1 X2 X3 RK : W32) : W32 :=
  let tmp := X1 ^^^ X2 ^^^ X3 ^^^ RK
  let X0 := X0 ^^^ at8 t0 (tmp >>> 24)
  let X0 := X0 ^^^ at8 t1 (tmp >>> 16)
  let X0 := X0 ^^^ at8 t2 (tmp >>> 8)
  X0 ^^^ at8 t3 (tmp >>> 0)

/-- `SM4_ROUND` of the reference backend (sm4_common.cpp 120-131). -/
def Common.round (X0 X1 X2 X3 RK : W32) : W32 :=
  let tmp := X1 ^^^ X2 ^^^ X3 ^^^ RK
  let tmp := subWord Common.sbox tmp
  X0 ^^^ tmp ^^^ rotl tmp 2 ^^^ rotl tmp 10 ^^^ rotl tmp 18 ^^^ rotl tmp 24

/-- Four rounds, `i`, `i+1`, `i+2`, `i+3` (sm4_lang18.cpp 331-337; sm4_common.cpp 150-156). -/
def rounds4 (rnd : W32 → W32 → W32 → W32 → W32 → W32) (rk : List W32) (x : W32 × W32 × W32 × W32) (i : Nat) :
    W32 × W32 × W32 × W32 :=
  let (x0, x1, x2, x3) := x
  let x0 := rnd x0 x1 x2 x3 (rk.getD i 0)
  let x1 := rnd x1 x2 x3 x0 (rk.getD (i + 1) 0)
  let x2 := rnd x2 x3 x0 x1 (rk.getD (i + 2) 0)
  let x3 := rnd x3 x0 x1 x2 (rk.getD (i + 3) 0)
  (x0, x1, x2, x3)

/-- `sm4_compute_block` (sm4_lang18.cpp 320-343; sm4_common.cpp 139-163). -/
def computeBlock (rnd : W32 → W32 → W32 → W32 → W32 → W32) (rk : List W32) (inp : List Byte) : List Byte :=
  let x := [0, 4, 8, 12, 16, 20, 24, 28].foldl (rounds4 rnd rk) (ld inp 0, ld inp 4, ld inp 8, ld inp 12)
  memStore32BE x.2.2.2 ++ memStore32BE x.2.2.1 ++ memStore32BE x.2.1 ++ memStore32BE x.1

/-- `tmp[l] = x[b+4l] ^ x[c+4l] ^ x[d+4l] ^ rk` (e.g. sm4_lang18.cpp 377-380). -/
def x4Tmp (x : List W32) (b c d : Nat) (rk : W32) (l : Nat) : W32 :=
  x.getD (b + 4 * l) 0 ^^^ x.getD (c + 4 * l) 0 ^^^ x.getD (d + 4 * l) 0 ^^^ rk

/-- `x[a+4l] ^= T0[..]; … ^= T3[..]` (e.g. sm4_lang18.cpp 382-385). -/
def x4Upd (x : List W32) (j : Nat) (tmp : W32) : List W32 :=
  let x := x.set j (x.getD j 0 ^^^ at8 t0 (tmp >>> 24))
  let x := x.set j (x.getD j 0 ^^^ at8 t1 (tmp >>> 16))
  let x := x.set j (x.getD j 0 ^^^ at8 t2 (tmp >>> 8))
  x.set j (x.getD j 0 ^^^ at8 t3 (tmp >>> 0))

/-- One of the four groups "0" … "3" of the batch loop (sm4_lang18.cpp 376-400, 402-426, 428-452, 454-478). -/
def x4Group (x : List W32) (a b c d : Nat) (rk : W32) : List W32 :=
  let u0 := x4Tmp x b c d rk 0
  let u1 := x4Tmp x b c d rk 1
  let u2 := x4Tmp x b c d rk 2
  let u3 := x4Tmp x b c d rk 3
  x4Upd (x4Upd (x4Upd (x4Upd x a u0) (a + 4) u1) (a + 8) u2) (a + 12) u3

/-- Body of the batch loop (sm4_lang18.cpp 374-479). -/
def x4Rounds (rk : List W32) (x : List W32) (i : Nat) : List W32 :=
  let x := x4Group x 0 1 2 3 (rk.getD i 0)
  let x := x4Group x 1 2 3 0 (rk.getD (i + 1) 0)
  let x := x4Group x 2 3 0 1 (rk.getD (i + 2) 0)
  x4Group x 3 0 1 2 (rk.getD (i + 3) 0)

/-- `sm4_compute_blocks_x4` (sm4_lang18.cpp 351-500). -/
def computeBlocksX4 (rk : List W32) (inp : List Byte) : List Byte :=
  let x := [ld inp 0, ld inp 4, ld inp 8, ld inp 12, ld inp 16, ld inp 20, ld inp 24, ld inp 28,
    ld inp 32, ld inp 36, ld inp 40, ld inp 44, ld inp 48, ld inp 52, ld inp 56, ld inp 60]
  let x := [0, 4, 8, 12, 16, 20, 24, 28].foldl (x4Rounds rk) x
  let st (i : Nat) := memStore32BE (x.getD i 0)
  st 3 ++ st 2 ++ st 1 ++ st 0 ++ st 7 ++ st 6 ++ st 5 ++ st 4 ++
    st 11 ++ st 10 ++ st 9 ++ st 8 ++ st 15 ++ st 14 ++ st 13 ++ st 12

/-- `while (block_num) { sm4_compute_block }` (sm4_lang18.cpp 741-745; sm4_common.cpp 196-203). -/
def singleBlocks (rnd : W32 → W32 → W32 → W32 → W32 → W32) (rk : List W32) : List Byte → Nat → List Byte
  | _, 0 => []
  | inp, n + 1 => computeBlock rnd rk (inp.take 16) ++ singleBlocks rnd rk (inp.drop 16) n

/-- `sm4_compute_blocks` without AVX2 (sm4_lang18.cpp 719-746): the bytes produced from the `16 * block_num` input
bytes (each step reads its input completely before writing). -/
def computeBlocks (rk : List W32) (inp : List Byte) (n : Nat) : List Byte :=
  if 4 ≤ n then computeBlocksX4 rk (inp.take 64) ++ computeBlocks rk (inp.drop 64) (n - 4)
  else singleBlocks round rk inp n
termination_by n

/-- `SM4::set_key` (sm4.h 59-69) of the default backend: the round keys. -/
def setKey (old : List W32) (key : List Byte) (enc : Bool) : List W32 := keyInit sbox fk ck old key enc

/-- The reference backend's `set_key` (sm4_common.cpp 173-181). -/
def Common.setKey (old : List W32) (key : List Byte) (enc : Bool) : List W32 :=
  keyInit Common.sbox Common.fk Common.ck old key enc

/-- `encrypt_block`, `decrypt_block` (sm4.h 76-90): the same function, applied to the round keys in the context. -/
def block (rk : List W32) (inp : List Byte) : List Byte := computeBlock round rk inp

def Common.block (rk : List W32) (inp : List Byte) : List Byte := computeBlock Common.round rk inp

/-- The keyed SM4 object as seen by the mode classes: an encryptor holds the encryption schedule in its `SM4`
object, a decryptor the decryption schedule (`PARALLEL_NUM = 4`, sm4_lang18.h 16). -/
def cipher (key : List Byte) : BCipher where
  BS := 16
  PAR := 4
  E := block (setKey (List.replicate 32 0) key true)
  D := block (setKey (List.replicate 32 0) key false)

end Verif.Sm4
