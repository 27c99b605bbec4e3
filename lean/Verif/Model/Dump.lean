import Verif.Model.Asn1
import Verif.Spec.Dump
/-!
# `asn1_dump` (src/asn1/asn1_dump.cpp) and `memdump` (src/memory_utils/memdump.cpp)

What is printed is modelled, not the `printf` machinery: a dump returns the sequence of things it prints.  The tokens
of `asn1_dump` are those of `Spec.Dump.Tok`: `ind n` is the loop printing `n` times three blanks, `hex b` is `"%02x "`,
`pad n` is `n` times three blanks, `info` stands for the four `printf` calls naming tag, length, class and
primitive/constructed (the names themselves, asn1.cpp `asn1_tag_*_name`, are not modelled: each is a function of the
field it names), `nl` is the line break.
-/
namespace Verif.Dump
open Verif.Asn1 Verif.Spec.Dump

/-- Outcome of a dump: what was printed and the return code; a read outside the buffer; or still running when the
fuel is used up. -/
inductive Res (α : Type) where
  | ret (out : α) (code : Int)
  | oob
  | running
  deriving DecidableEq, Repr

/-- asn1_dump.cpp 24-37: indentation, header octets up to `tlv.value`, padding to nine columns, description, line
break.  `num`, `cls` and `pc` are printed by name, so the token carries the fields as numbers. -/
def headToks (buf : Mem) (p depth : Nat) (t : Tlv) : List Tok :=
  Tok.ind depth :: (rdm buf p (t.value - p)).map Tok.hex ++ [Tok.pad (9 - (t.value - p))] ++
    [Tok.info t.num.toNat t.length (t.cls.toNat / 64) (t.pc.toNat / 32), Tok.nl]

/-- The loop over the contents octets of a primitive element (asn1_dump.cpp 44-52), from index `i`. -/
def bodyToks (depth : Nat) : Nat → List Byte → List Tok
  | _, [] => []
  | i, b :: bs =>
    (if i % 8 = 0 then [Tok.ind (depth + 1)] else []) ++ [Tok.hex b] ++ (if i % 8 = 7 then [Tok.nl] else []) ++
      bodyToks depth (i + 1) bs

/-- asn1_dump.cpp 44-53: the contents octets of a primitive element.  They are read from memory whatever the length
octets claim; a claim that goes beyond the buffer is an out-of-bounds read. -/
def prim (buf : Mem) (v n depth : Nat) : Res (List Tok) :=
  if v + n ≤ buf.length then
    .ret (bodyToks depth 0 (rdm buf v n) ++ (if n % 8 ≠ 0 then [Tok.nl] else [])) 0
  else .oob

/-- `r_asn1_dump` (asn1_dump.cpp 8-58).  The return value of the nested call is ignored (line 40), as in the code.
One unit of fuel per loop iteration and per call on any path. -/
def dump (buf : Mem) : Nat → Nat → Nat → Nat → Res (List Tok)
  | 0, _, _, _ => .running
  | f + 1, p, inl, depth =>
    if inl = 0 then .ret [] 0
    else
      match decTlv buf p inl with
      | .err c => .ret [] c
      | .oob => .oob
      | .ok (t, n) =>
        match (if t.pc = 0x20 then dump buf f t.value t.length (depth + 1) else prim buf t.value t.length depth) with
        | .oob => .oob
        | .running => .running
        | .ret o _ =>
          match dump buf f (p + n) (szSub inl n) depth with
          | .ret o' c => .ret (headToks buf p depth t ++ o ++ o') c
          | r => r

/-- `asn1_dump` (asn1_dump.cpp 60-63) on a buffer that holds exactly `bs`, with a bound on the number of steps. -/
def asn1Dump (fuel : Nat) (bs : List Byte) : Res (List Tok) := dump bs fuel 0 bs.length 0

/-! ## memdump -/

/-- The C library's `isprint` in the "C" locale. -/
def isprint (b : Byte) : Bool := 32 ≤ b.toNat && b.toNat < 127

/-- The loop printing items and separators (memdump.cpp 38-42, 68-72). -/
def items (fmt : Byte → List Char) (sep : List Char) : List Byte → List Char
  | [] => []
  | b :: bs => fmt b ++ (sep ++ items fmt sep bs)

/-- The ASCII part of a line (memdump.cpp 43-57, 77-91). -/
def ascii (bs : List Byte) : List Char :=
  [' ', ' ', ' '] ++ bs.map fun b => if isprint b then Char.ofNat b.toNat else '.'

/-- The loops of `memdump` (memdump.cpp 35-92); `lc` is `line_char_num`.  `fmt b` is what `printf(item_fmt, b)` prints
for a format that consumes one integer; the count `printf` returns is the number of characters printed. -/
def lines (fmt : Byte → List Char) (sep : List Char) (dec : Bool) (maxline : Nat) (data : List Byte) (lc : Nat) :
    List Char :=
  if h : 0 < maxline ∧ maxline ≤ data.length then
    let row := data.take maxline
    let rest := data.drop maxline
    items fmt sep row ++ (if dec then ascii row else []) ++ (if rest.length ≠ 0 then ['\n'] else []) ++
      lines fmt sep dec maxline rest (items fmt sep row).length
  else if data.length ≠ 0 then
    items fmt sep data ++ List.replicate (lc - (items fmt sep data).length) ' ' ++ (if dec then ascii data else [])
  else []
termination_by data.length
decreasing_by simp only [List.length_drop]; omega

/-- `memdump` (memdump.cpp 10-94): the text printed, or `none` when it ends the process (lines 23-28).  A null string
argument is `none`, replaced by its default (lines 19-22). -/
def memdump (data : List Byte) (maxline : Nat) (fmt : Option (Byte → List Char)) (dec : Bool)
    (sep pre fin : Option (List Char)) : Option (List Char) :=
  if maxline = 0 then none
  else some (pre.getD [] ++ lines (fmt.getD hex2) (sep.getD [' ']) dec maxline data 0 ++ fin.getD [])

end Verif.Dump
