import Verif.Spec.Num
/-!
# Specification: SM4 (GB/T 32907-2016)

The S-box is given by its algebraic description: inversion in GF(2)[x]/(x^8+x^7+x^6+x^5+x^4+x^2+1) between two
applications of the affine map with the circulant matrix of 0xA7 and the constant 0xD3.
-/
namespace Verif.Spec.SM4

abbrev Word := BitVec 32

/-- Multiplication by `x` modulo 0x1F5. -/
def xtime (a : BitVec 8) : BitVec 8 := if a.getLsbD 7 then (a <<< 1) ^^^ 0xF5#8 else a <<< 1

def gmul (a b : BitVec 8) : BitVec 8 :=
  (List.range 8).foldl (fun r i => if b.getLsbD i then r ^^^ (Nat.repeat xtime i a) else r) 0

/-- `a^254`, the inverse of a non-zero element (and 0 for 0): `a^2 · a^4 · … · a^128`. -/
def inv (a : BitVec 8) : BitVec 8 :=
  let sq (a : BitVec 8) := gmul a a
  let a2 := sq a
  let a4 := sq a2
  let a8 := sq a4
  let a16 := sq a8
  let a32 := sq a16
  let a64 := sq a32
  gmul (sq a64) (gmul a64 (gmul a32 (gmul a16 (gmul a8 (gmul a4 a2)))))

def parity (b : BitVec 8) : Bool := (List.range 8).foldl (fun p i => xor p (b.getLsbD i)) false

/-- Bit `i` of the image is the inner product of the argument with `0xA7 <<< i`. -/
def affine (b : BitVec 8) : BitVec 8 :=
  (List.range 8).foldl (fun r i => if parity ((0xA7#8).rotateLeft i &&& b) then r ||| (1#8 <<< i) else r) 0 ^^^ 0xD3#8

def sbox (b : BitVec 8) : BitVec 8 := affine (inv (affine b))

/-- 6.2 (1): the S-box on each byte of a word. -/
def tau (a : Word) : Word :=
  sbox (a.extractLsb' 24 8) ++ sbox (a.extractLsb' 16 8) ++ sbox (a.extractLsb' 8 8) ++ sbox (a.extractLsb' 0 8)

def rotl (x : Word) (n : Nat) : Word := x.rotateLeft n

/-- 6.2 (2). -/
def L (b : Word) : Word := b ^^^ rotl b 2 ^^^ rotl b 10 ^^^ rotl b 18 ^^^ rotl b 24

def T (a : Word) : Word := L (tau a)

/-- 7.3: the key schedule variant. -/
def L' (b : Word) : Word := b ^^^ rotl b 13 ^^^ rotl b 23

def T' (a : Word) : Word := L' (tau a)

abbrev State := Word × Word × Word × Word

/-- 6.1: one round, as a shift register: `X_{i+4} = X_i ⊕ T(X_{i+1} ⊕ X_{i+2} ⊕ X_{i+3} ⊕ rk_i)`. -/
def round (X : State) (rk : Word) : State :=
  (X.2.1, X.2.2.1, X.2.2.2, X.1 ^^^ T (X.2.1 ^^^ X.2.2.1 ^^^ X.2.2.2 ^^^ rk))

/-- The reverse transform. -/
def R (X : State) : State := (X.2.2.2, X.2.2.1, X.2.1, X.1)

/-- 7.1: 32 rounds, then the reverse transform. -/
def cryptWords (rks : List Word) (X : State) : State := R (rks.foldl round X)

/-- 7.3: the system parameter. -/
def FK : State := (0xA3B1BAC6, 0x56AA3350, 0x677D9197, 0xB27022DC)

/-- 7.3: the fixed parameter, byte `j` of `CK_i` is `(4i+j)·7 mod 256`. -/
def CK (i : Nat) : Word := BitVec.ofNat 32 (beVal ((List.range 4).map fun j => BitVec.ofNat 8 ((4 * i + j) * 7)))

/-- One step of the key schedule. -/
def keyStep (K : State) (ck : Word) : State :=
  (K.2.1, K.2.2.1, K.2.2.2, K.1 ^^^ T' (K.2.1 ^^^ K.2.2.1 ^^^ K.2.2.2 ^^^ ck))

/-- `rk_i = K_{i+4}`. -/
def expand (K : State) : List Word → List Word
  | [] => []
  | ck :: cks => (keyStep K ck).2.2.2 :: expand (keyStep K ck) cks

/-- Blocks and keys: 16 bytes as four big-endian words. -/
def ofBlock (b : List (BitVec 8)) : State :=
  let w (i : Nat) : Word := BitVec.ofNat 32 (beVal ((b.drop (4 * i)).take 4))
  (w 0, w 1, w 2, w 3)

def toBlock (X : State) : List (BitVec 8) :=
  toBE 4 X.1.toNat ++ toBE 4 X.2.1.toNat ++ toBE 4 X.2.2.1.toNat ++ toBE 4 X.2.2.2.toNat

def roundKeys (key : List (BitVec 8)) : List Word :=
  let MK := ofBlock key
  expand (MK.1 ^^^ FK.1, MK.2.1 ^^^ FK.2.1, MK.2.2.1 ^^^ FK.2.2.1, MK.2.2.2 ^^^ FK.2.2.2)
    ((List.range 32).map CK)

def encrypt (key block : List (BitVec 8)) : List (BitVec 8) := toBlock (cryptWords (roundKeys key) (ofBlock block))

/-- 7.2: decryption uses the round keys in reverse order. -/
def decrypt (key block : List (BitVec 8)) : List (BitVec 8) :=
  toBlock (cryptWords (roundKeys key).reverse (ofBlock block))

end Verif.Spec.SM4
