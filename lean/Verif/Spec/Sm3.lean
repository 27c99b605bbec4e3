import Verif.Spec.Num
/-!
# Specification: GB/T 32905-2016, the SM3 cryptographic hash algorithm

Written from the standard (section numbers in comments), not from the code.
-/
namespace Verif.Spec.SM3

abbrev Word := BitVec 32

/-- `X ⋘ k`. -/
def rotl (x : Word) (n : Nat) : Word := x.rotateLeft n

/-- 4.2 constants. -/
def T (j : Nat) : Word := if j < 16 then 0x79cc4519 else 0x7a879d8a

/-- 4.3 boolean functions. -/
def FF (j : Nat) (X Y Z : Word) : Word :=
  if j < 16 then X ^^^ Y ^^^ Z else (X &&& Y) ||| (X &&& Z) ||| (Y &&& Z)

def GG (j : Nat) (X Y Z : Word) : Word :=
  if j < 16 then X ^^^ Y ^^^ Z else (X &&& Y) ||| (~~~X &&& Z)

/-- 4.4 permutations. -/
def P0 (X : Word) : Word := X ^^^ rotl X 9 ^^^ rotl X 17
def P1 (X : Word) : Word := X ^^^ rotl X 15 ^^^ rotl X 23

/-- The eight registers. -/
structure State where
  (A B C D E F G H : Word)
deriving DecidableEq

/-- 4.1 initial value. -/
def IV : State :=
  ⟨0x7380166f, 0x4914b2b9, 0x172442d7, 0xda8a0600, 0xa96f30bc, 0x163138aa, 0xe38dee4d, 0xb0fb0e4e⟩

/-- 5.2 padding: a one bit, `k` zero bits with `len + 1 + k ≡ 448 (mod 512)`, the 64-bit length.
For byte strings this is `0x80`, then `z` zero bytes, `len + 1 + z ≡ 56 (mod 64)`. -/
def padZeros (len : Nat) : Nat := (64 + 56 - (len + 1) % 64) % 64

theorem padZeros_minimal (len : Nat) : (len + 1 + padZeros len) % 64 = 56 ∧ padZeros len < 64 := by
  unfold padZeros; omega

def pad (m : List (BitVec 8)) : List (BitVec 8) :=
  m ++ [0x80] ++ List.replicate (padZeros m.length) 0 ++ toBE 8 (8 * m.length)

/-- The big-endian 32-bit word at byte position `i` of `p`. -/
def wordAt (p : List (BitVec 8)) (i : Nat) : Word := BitVec.ofNat 32 (beVal ((p.drop i).take 4))

/-- 5.3.2 message expansion of a block given as its sixteen words `B 0 … B 15`. -/
def W (B : Nat → Word) (j : Nat) : Word :=
  if j < 16 then B j
  else P1 (W B (j - 16) ^^^ W B (j - 9) ^^^ rotl (W B (j - 3)) 15) ^^^ rotl (W B (j - 13)) 7 ^^^ W B (j - 6)

def W' (B : Nat → Word) (j : Nat) : Word := W B j ^^^ W B (j + 4)

/-- 5.3.3 one round of the compression function. -/
def round (B : Nat → Word) (j : Nat) (s : State) : State :=
  let SS1 := rotl (rotl s.A 12 + s.E + rotl (T j) (j % 32)) 7
  let SS2 := SS1 ^^^ rotl s.A 12
  let TT1 := FF j s.A s.B s.C + s.D + SS2 + W' B j
  let TT2 := GG j s.E s.F s.G + s.H + SS1 + W B j
  ⟨TT1, s.A, rotl s.B 9, s.C, P0 TT2, s.E, rotl s.F 19, s.G⟩

/-- Rounds `0 … n-1`. -/
def rounds (B : Nat → Word) : Nat → State → State
  | 0, s => s
  | n + 1, s => round B n (rounds B n s)

def State.xor (a b : State) : State :=
  ⟨a.A ^^^ b.A, a.B ^^^ b.B, a.C ^^^ b.C, a.D ^^^ b.D, a.E ^^^ b.E, a.F ^^^ b.F, a.G ^^^ b.G, a.H ^^^ b.H⟩

/-- 5.3.3 compression function `CF(V, B)`. -/
def CF (V : State) (B : Nat → Word) : State := (rounds B 64 V).xor V

/-- 5.3.1 iteration: chaining value after the first `n` 64-byte blocks of `p`. -/
def V (p : List (BitVec 8)) : Nat → State
  | 0 => IV
  | n + 1 => CF (V p n) (fun j => wordAt p (64 * n + 4 * j))

/-- 5.4 output. -/
def State.bytes (s : State) : List (BitVec 8) :=
  [s.A, s.B, s.C, s.D, s.E, s.F, s.G, s.H].flatMap fun w => toBE 4 w.toNat

/-- The SM3 digest of a byte string. -/
def hash (m : List (BitVec 8)) : List (BitVec 8) := (V (pad m) ((pad m).length / 64)).bytes

end Verif.Spec.SM3

namespace Verif.Spec
/-- RFC 2104: the key block `K'`. -/
def hmacKey (H : List (BitVec 8) → List (BitVec 8)) (B : Nat) (K : List (BitVec 8)) : List (BitVec 8) :=
  let k := if B < K.length then H K else K
  k ++ List.replicate (B - k.length) 0

/-- RFC 2104: `H((K' ⊕ opad) ‖ H((K' ⊕ ipad) ‖ M))` for a hash with block size `B`. -/
def hmac (H : List (BitVec 8) → List (BitVec 8)) (B : Nat) (K M : List (BitVec 8)) : List (BitVec 8) :=
  let k := hmacKey H B K
  H (k.map (· ^^^ 0x5c) ++ H (k.map (· ^^^ 0x36) ++ M))
end Verif.Spec
