import Verif.Spec.Modes
/-!
# Specification: GCM (SP 800-38D), with 128-bit tags

`E` is the forward cipher function for a fixed key.
-/
namespace Verif.Spec.Gcm
open Verif.Spec.Modes

/-- A 16-byte block as a 128-bit string (first byte leftmost) and back. -/
def ofBlock (b : Bytes) : BitVec 128 := BitVec.ofNat 128 (beVal b)
def toBlock (v : BitVec 128) : Bytes := toBE 16 v.toNat

/-- `R = 11100001 ‖ 0^120`. -/
def R : BitVec 128 := 0xE1#128 <<< 120

/-- 6.3 Algorithm 1, steps 3 and 4: `X • Y`. -/
def mul (X Y : BitVec 128) : BitVec 128 :=
  ((List.range 128).foldl (fun (ZV : BitVec 128 × BitVec 128) i =>
    (if X.getMsbD i then ZV.1 ^^^ ZV.2 else ZV.1,
     if ZV.2.getLsbD 0 then (ZV.2 >>> 1) ^^^ R else ZV.2 >>> 1)) (0, Y)).1

/-- 6.4 Algorithm 2: `GHASH_H(X_1 ‖ … ‖ X_m)`; the data are a whole number of blocks. -/
def ghash (H : Bytes) (data : Bytes) : Bytes :=
  toBlock ((blocks 16 data).foldl (fun Y X => mul (Y ^^^ ofBlock X) (ofBlock H)) 0)

/-- 6.2: increment the last 32 bits. -/
def inc32 (b : Bytes) : Bytes := b.take 12 ++ toBE 4 ((beVal (b.drop 12) + 1) % 2 ^ 32)

/-- 6.5 Algorithm 3 on the blocks of the data. -/
def gctrBlocks (E : Bytes → Bytes) : Bytes → List Bytes → List Bytes
  | _, [] => []
  | cb, x :: xs => xorB x (E cb) :: gctrBlocks E (inc32 cb) xs

def gctr (E : Bytes → Bytes) (icb data : Bytes) : Bytes := (gctrBlocks E icb (blocks 16 data)).flatten

/-- Zero bytes up to a multiple of 16. -/
def pad16 (x : Bytes) : Bytes := x ++ List.replicate ((16 - x.length % 16) % 16) 0

/-- `[n]_64`. -/
def len64 (n : Nat) : Bytes := toBE 8 n

def hashKey (E : Bytes → Bytes) : Bytes := E (List.replicate 16 0)

/-- 7.1 step 2: the pre-counter block. -/
def J0 (E : Bytes → Bytes) (iv : Bytes) : Bytes :=
  if iv.length = 12 then iv ++ [0, 0, 0, 1]
  else ghash (hashKey E) (pad16 iv ++ len64 0 ++ len64 (8 * iv.length))

def ciphertext (E : Bytes → Bytes) (iv pt : Bytes) : Bytes := gctr E (inc32 (J0 E iv)) pt

/-- 7.1 steps 4 to 6: the tag of ciphertext `ct`. -/
def tag (E : Bytes → Bytes) (iv aad ct : Bytes) : Bytes :=
  xorB (ghash (hashKey E) (pad16 aad ++ pad16 ct ++ len64 (8 * aad.length) ++ len64 (8 * ct.length)))
    (E (J0 E iv))

/-- 7.2: authenticated decryption. -/
def decrypt (E : Bytes → Bytes) (iv aad ct t : Bytes) : Option Bytes :=
  if tag E iv aad ct = t then some (ciphertext E iv ct) else none

end Verif.Spec.Gcm
