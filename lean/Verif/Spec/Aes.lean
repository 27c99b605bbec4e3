/-!
# Specification: AES (FIPS 197)

Bytes are elements of GF(2)[x]/(x^8+x^4+x^3+x+1).  A state is the list of its 16 bytes in input order, so that
`s[r,c]` of the standard is entry `r + 4c` (3.4).
-/
namespace Verif.Spec.AES

abbrev Byte := BitVec 8

/-- 4.2.1: multiplication by `x`. -/
def xtime (a : Byte) : Byte := if a.getLsbD 7 then (a <<< 1) ^^^ 0x1b#8 else a <<< 1

/-- 4.2: multiplication, by repeated `xtime`. -/
def gmul (k a : Byte) : Byte :=
  (List.range 8).foldl (fun r i => if k.getLsbD i then r ^^^ Nat.repeat xtime i a else r) 0

/-- `a^254`: the multiplicative inverse, and 0 for 0. -/
def inv (a : Byte) : Byte :=
  let sq (a : Byte) := gmul a a
  let a2 := sq a
  let a4 := sq a2
  let a8 := sq a4
  let a16 := sq a8
  let a32 := sq a16
  let a64 := sq a32
  gmul (sq a64) (gmul a64 (gmul a32 (gmul a16 (gmul a8 (gmul a4 a2)))))

/-- 5.1.1: `b'_i = b_i ⊕ b_{i+4} ⊕ b_{i+5} ⊕ b_{i+6} ⊕ b_{i+7} ⊕ c_i` (indices mod 8), `c = {63}`. -/
def affine (b : Byte) : Byte :=
  b ^^^ b.rotateLeft 4 ^^^ b.rotateLeft 3 ^^^ b.rotateLeft 2 ^^^ b.rotateLeft 1 ^^^ 0x63#8

def sbox (b : Byte) : Byte := affine (inv b)

abbrev State := List Byte

/-- The state with entry `f r c` in row `r`, column `c`. -/
def mk (f : Nat → Nat → Byte) : State := (List.range 16).map fun k => f (k % 4) (k / 4)

def at_ (s : State) (r c : Nat) : Byte := s.getD (r + 4 * c) 0

/-- 5.1.1 -/
def subBytes (s : State) : State := mk fun r c => sbox (at_ s r c)

/-- 5.1.2 -/
def shiftRows (s : State) : State := mk fun r c => at_ s r ((c + r) % 4)

/-- 5.1.3: column times `{03}x^3 + {01}x^2 + {01}x + {02}`. -/
def mixColumns (s : State) : State := mk fun r c =>
  gmul 2 (at_ s r c) ^^^ gmul 3 (at_ s ((r + 1) % 4) c) ^^^ at_ s ((r + 2) % 4) c ^^^ at_ s ((r + 3) % 4) c

/-- 5.1.4 -/
def addRoundKey (s k : State) : State := mk fun r c => at_ s r c ^^^ at_ k r c

/-- 5.3.2: the inverse affine map, `b'_i = b_{i+2} ⊕ b_{i+5} ⊕ b_{i+7} ⊕ d_i` with `d = {05}`, and then the inverse. -/
def invSbox (b : Byte) : Byte :=
  inv (b.rotateLeft 6 ^^^ b.rotateLeft 3 ^^^ b.rotateLeft 1 ^^^ 0x05#8)

def invSubBytes (s : State) : State := mk fun r c => invSbox (at_ s r c)

/-- 5.3.1 -/
def invShiftRows (s : State) : State := mk fun r c => at_ s r ((c + 4 - r) % 4)

/-- 5.3.3: column times `{0b}x^3 + {0d}x^2 + {09}x + {0e}`. -/
def invMixColumns (s : State) : State := mk fun r c =>
  gmul 0x0e (at_ s r c) ^^^ gmul 0x0b (at_ s ((r + 1) % 4) c) ^^^ gmul 0x0d (at_ s ((r + 2) % 4) c) ^^^
    gmul 0x09 (at_ s ((r + 3) % 4) c)

/-- Words of the key schedule: four bytes. -/
abbrev Word := List Byte

def xorW (a b : Word) : Word := List.zipWith (· ^^^ ·) a b

def subWord (w : Word) : Word := w.map sbox

def rotWord (w : Word) : Word := w.rotateLeft 1

/-- `Rcon[j] = [x^(j-1), 0, 0, 0]`. -/
def rcon (j : Nat) : Word := [Nat.repeat xtime (j - 1) 1, 0, 0, 0]

/-- 5.2, Figure 11: word number `i = w.length` from the words before it. -/
def nextWord (Nk : Nat) (w : List Word) : Word :=
  let i := w.length
  let temp := w.getD (i - 1) []
  let temp := if i % Nk = 0 then xorW (subWord (rotWord temp)) (rcon (i / Nk))
    else if 6 < Nk ∧ i % Nk = 4 then subWord temp else temp
  xorW (w.getD (i - Nk) []) temp

/-- 5.2: key expansion. -/
def expand (Nk Nr : Nat) (key : List Byte) : List Word :=
  Nat.repeat (fun w => w ++ [nextWord Nk w]) (4 * (Nr + 1) - Nk)
    ((List.range Nk).map fun i => (key.drop (4 * i)).take 4)

/-- The round key of round `r`: words `4r .. 4r+3`. -/
def roundKey (w : List Word) (r : Nat) : State := ((w.drop (4 * r)).take 4).flatten

/-- 5.1, Figure 5. -/
def cipher (Nr : Nat) (w : List Word) (inp : State) : State :=
  let s := addRoundKey inp (roundKey w 0)
  let s := (List.range' 1 (Nr - 1)).foldl
    (fun s i => addRoundKey (mixColumns (shiftRows (subBytes s))) (roundKey w i)) s
  addRoundKey (shiftRows (subBytes s)) (roundKey w Nr)

/-- 5.3, Figure 12. -/
def invCipher (Nr : Nat) (w : List Word) (inp : State) : State :=
  let s := addRoundKey inp (roundKey w Nr)
  let s := (List.range' 1 (Nr - 1)).reverse.foldl
    (fun s i => invMixColumns (addRoundKey (invSubBytes (invShiftRows s)) (roundKey w i))) s
  addRoundKey (invSubBytes (invShiftRows s)) (roundKey w 0)

/-- The three key sizes: `Nk` = 4, 6, 8 words and `Nr = Nk + 6` rounds. -/
def encrypt (Nk : Nat) (key block : List Byte) : List Byte := cipher (Nk + 6) (expand Nk (Nk + 6) key) block

def decrypt (Nk : Nat) (key block : List Byte) : List Byte := invCipher (Nk + 6) (expand Nk (Nk + 6) key) block

end Verif.Spec.AES
