import Verif.Spec.Der
import Verif.Spec.Modes
/-!
# Specification: what a structured dump of a BER byte string, and a hex dump of memory, look like
-/
namespace Verif.Spec.Dump
open Verif.Spec.Der Verif.Spec.Modes

/-- The elements a line of text is made of; `ind n` is `n` indentation steps, `pad n` is `n` blank columns. -/
inductive Tok where
  | ind (n : Nat)
  | hex (b : BitVec 8)
  | pad (n : Nat)
  | info (tag len cls pc : Nat)
  | nl
  deriving DecidableEq, Repr

/-- The lines of a dump: one line for the header (identifier and length octets) of each element, with the number of
contents octets, and lines of contents octets. -/
inductive Line where
  | node (depth : Nat) (header : List (BitVec 8)) (len : Nat)
  | data (depth : Nat) (bytes : List (BitVec 8))
  deriving DecidableEq, Repr

/-- The text of a line.  A header is padded to nine columns and followed by what the identifier octet says: tag number
(bits 1-5), number of contents octets, class (bits 7-8), primitive/constructed (bit 6). -/
def Line.text : Line → List Tok
  | .node d h n => .ind d :: h.map .hex ++ [.pad (9 - h.length)] ++
      [.info ((h.headD 0).toNat % 32) n ((h.headD 0).toNat / 64) ((h.headD 0).toNat / 32 % 2), .nl]
  | .data d bs => .ind d :: bs.map .hex ++ [.nl]

/-- The octets do not start with a low-tag-number identifier octet and definite length octets of at most eight
subsequent octets. -/
def NoHeader (bs : List (BitVec 8)) : Prop :=
  ¬ ∃ b l n rest, bs = b :: l ++ rest ∧ b.toNat % 32 ≠ 31 ∧ LenOctets 8 l n

/-- `Shape d bs lines fin`: the octets `bs`, read as a sequence of elements at nesting depth `d`, give these lines;
`fin` says whether the sequence could be read to its end.  Every element that is read has its contents inside the
enclosing octets; the contents of a constructed element are read the same way one level deeper. -/
inductive Shape : Nat → List (BitVec 8) → List Line → Bool → Prop
  | nil (d) : Shape d [] [] true
  | bad (d bs) (h0 : bs ≠ []) (h : NoHeader bs) : Shape d bs [] false
  | prim (d b l v rest ls fin) (hb : b.toNat % 32 ≠ 31) (hp : b.toNat / 32 % 2 = 0) (hl : LenOctets 8 l v.length)
      (hr : Shape d rest ls fin) :
      Shape d (b :: l ++ v ++ rest)
        (.node d (b :: l) v.length :: (blocks 8 v).map (.data (d + 1)) ++ ls) fin
  | cons (d b l v rest ls₁ fin₁ ls fin) (hb : b.toNat % 32 ≠ 31) (hp : b.toNat / 32 % 2 = 1)
      (hl : LenOctets 8 l v.length) (hv : Shape (d + 1) v ls₁ fin₁) (hr : Shape d rest ls fin) :
      Shape d (b :: l ++ v ++ rest) (.node d (b :: l) v.length :: ls₁ ++ ls) fin

/-- A well-formed sequence of elements: the same, with every sequence, at every depth, read to its end. -/
inductive Valid : Nat → List (BitVec 8) → List Line → Prop
  | nil (d) : Valid d [] []
  | prim (d b l v rest ls) (hb : b.toNat % 32 ≠ 31) (hp : b.toNat / 32 % 2 = 0) (hl : LenOctets 8 l v.length)
      (hr : Valid d rest ls) :
      Valid d (b :: l ++ v ++ rest) (.node d (b :: l) v.length :: (blocks 8 v).map (.data (d + 1)) ++ ls)
  | cons (d b l v rest ls₁ ls) (hb : b.toNat % 32 ≠ 31) (hp : b.toNat / 32 % 2 = 1)
      (hl : LenOctets 8 l v.length) (hv : Valid (d + 1) v ls₁) (hr : Valid d rest ls) :
      Valid d (b :: l ++ v ++ rest) (.node d (b :: l) v.length :: ls₁ ++ ls)

/-- All octets printed by a text, in order. -/
def octets (ts : List Tok) : List (BitVec 8) := ts.filterMap fun | .hex b => some b | _ => none

/-! ## Hex dump of memory -/

/-- The printable ASCII characters stand for themselves, everything else is a dot. -/
def asciiChar (b : BitVec 8) : Char := if 32 ≤ b.toNat ∧ b.toNat ≤ 126 then Char.ofNat b.toNat else '.'

/-- The item column of a line: every byte in its format, each followed by the separator. -/
def itemColumn (fmt : BitVec 8 → List Char) (sep : List Char) (bs : List (BitVec 8)) : List Char :=
  (bs.map fun b => fmt b ++ sep).flatten

/-- The ASCII column, three blanks to the right of the item column. -/
def asciiColumn (bs : List (BitVec 8)) : List Char := [' ', ' ', ' '] ++ bs.map asciiChar

/-- Lower-case two-digit hexadecimal, the default format of an item. -/
def hex2 (b : BitVec 8) : List Char := [Nat.digitChar (b.toNat / 16), Nat.digitChar (b.toNat % 16)]

end Verif.Spec.Dump
