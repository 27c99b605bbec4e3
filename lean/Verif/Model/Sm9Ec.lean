import Verif.Model.Sm9Field
/-!
# The SM9 curve groups (src/sm9/sm9_field.cpp 978-1815), default (32-bit limb) configuration

`sm9_ec_*` (over `sm9_fp_*`) and `sm9_ec2_*` (over `sm9_fp2_*`) are the same text over two fields, so the formulas are
written once over a record `FpOps` of field operations; both line ranges are cited.  The functions
`ecANeg`, `ecJIsInf`, `ecJInf`, `ecJNeg`, `ecJAddA`, `ecJFromA`, `ecJToA`, `ecJNormal`, `ecJEqual` of `Model/Sm2Ec`
are statement for statement the SM9 ones (998-1002, 1097-1115, 1190-1241, 1351-1408; 1433-1437, 1504-1522,
1597-1648, 1758-1815) and are reused; doubling, addition, the curve check and scalar multiplication are given here.

In-place calls (`sm9_ec_j_dbl(T, T)`, `sm9_ec2_j_add(T, T, Q)`) behave like calls with a fresh result: no coordinate
of an input is read after the same coordinate of the result has been written.
-/
namespace Verif

section
variable {α : Type} (F : FpOps α)

/-- `sm9_ec_a_check`, `sm9_ec2_a_check` (sm9_field.cpp 986-996, 1420-1431) with the coefficient `b` already
converted. -/
def ecACheck0 (b : α) (P : EcA α) : Bool :=
  let left := F.sqr P.y
  let right := b
  let t := F.sqr P.x
  let t := F.mul t P.x
  let right := F.add right t
  F.eq left right

/-- `sm9_ec_j_dbl`, `sm9_ec2_j_dbl` (sm9_field.cpp 1243-1287, 1650-1694). -/
def ecJDbl0 (P : EcJ α) : Option (EcJ α) :=
  let a := F.sqr P.x
  let b := F.sqr P.y
  let c := F.sqr b
  let d := F.add P.x b
  let d := F.sqr d
  let d := F.sub d a
  let d := F.sub d c
  let d := F.dbl d
  match F.tpl a with
  | none => none
  | some e =>
    let f := F.sqr e
    let x3 := F.sub f d
    let x3 := F.sub x3 d
    let z3 := F.mul P.y P.z
    let z3 := F.dbl z3
    let y3 := F.sub d x3
    let y3 := F.mul y3 e
    let c := F.dbl c
    let c := F.dbl c
    let c := F.dbl c
    let y3 := F.sub y3 c
    some ⟨x3, y3, z3⟩

/-- `sm9_ec_j_add`, `sm9_ec2_j_add` (sm9_field.cpp 1117-1188, 1524-1595). -/
def ecJAdd0 (P Q : EcJ α) : Option (EcJ α) :=
  let z1z1 := F.sqr P.z
  let z2z2 := F.sqr Q.z
  let u1 := F.mul P.x z2z2
  let u2 := F.mul Q.x z1z1
  let s1 := F.mul P.y Q.z
  let s1 := F.mul s1 z2z2
  let s2 := F.mul Q.y P.z
  let s2 := F.mul s2 z1z1
  if F.eq u1 u2 then
    if F.eq s1 s2 then ecJDbl0 F P else some (ecJInf F)
  else
    let h := F.sub u2 u1
    let i := F.dbl h
    let i := F.sqr i
    let j := F.mul h i
    let r := F.sub s2 s1
    let r := F.dbl r
    let v := F.mul u1 i
    let x3 := F.sqr r
    let x3 := F.sub x3 j
    let x3 := F.sub x3 v
    let x3 := F.sub x3 v
    let y3 := F.sub v x3
    let y3 := F.mul y3 r
    let v := F.mul s1 j
    let v := F.dbl v
    let y3 := F.sub y3 v
    let z3 := F.add P.z Q.z
    let z3 := F.sqr z3
    let z3 := F.sub z3 z1z1
    let z3 := F.sub z3 z2z2
    let z3 := F.mul z3 h
    some ⟨x3, y3, z3⟩

/-- The body of the loop of `sm9_ec_j_mul_a`, `sm9_ec2_j_mul_a` (sm9_field.cpp 1328-1339, 1735-1746) for bit `i`. -/
def mulAStep0 (e e3 : List W32) (P Pneg : EcA α) (i : Nat) (T : EcJ α) : Option (EcJ α) :=
  match ecJDbl0 F T with
  | none => none
  | some T =>
    match u256BitTest e i, u256BitTest e3 i with
    | some ei, some e3i =>
      if e3i = true ∧ ei = false then some (ecJAddA F T P)
      else if e3i = false ∧ ei = true then some (ecJAddA F T Pneg)
      else some T
    | _, _ => none

/-- `for (; i >= 1; i--)` (sm9_field.cpp 1326-1339, 1733-1746). -/
def mulALoop0 (e e3 : List W32) (P Pneg : EcA α) : Nat → EcJ α → Option (EcJ α)
  | 0, T => some T
  | i + 1, T =>
    match mulAStep0 F e e3 P Pneg (i + 1) T with
    | none => none
    | some T => mulALoop0 e e3 P Pneg i T

/-- `sm9_ec_j_mul_a`, `sm9_ec2_j_mul_a` (sm9_field.cpp 1289-1341, 1696-1748) with the group order `n` in limbs and the
scalar in bytes.  `i--` after the search would be an index of -1 if the top bit were bit 0; the loop would then not
run, as for 0. -/
def ecJMulA0 (n : List W32) (k : List Byte) (P : EcA α) : Option (EcJ α) :=
  let e := u256FromBytes k
  let e := if u256Cmp e n ≥ 0 then (u256SubBorrow e n).1 else e
  if u256EqualZero e then some (ecJInf F)
  else
    let (e3, c) := u256TplCarry e
    let T := ecJFromA F P
    let Pneg := ecANeg F P
    if c = 1 then mulALoop0 F e e3 P Pneg 255 T
    else if c = 2 then
      match ecJDbl0 F T with
      | none => none
      | some T => mulALoop0 F e e3 P Pneg 255 T
    else
      match topBit e3 255 with
      | none => none
      | some i => mulALoop0 F e e3 P Pneg (i - 1) T

end

namespace Sm9
open Sm2 (lsbOf ParseRes)

/-- `sm9_ec_a` over limbs. -/
abbrev A := EcA (List W32)
/-- `sm9_ec_j` over limbs. -/
abbrev J := EcJ (List W32)
/-- `sm9_fp2_t` over limbs. -/
abbrev F2 := Fp2 (List W32)
/-- `sm9_ec2_a` over limbs. -/
abbrev A2 := EcA F2
/-- `sm9_ec2_j` over limbs. -/
abbrev J2 := EcJ F2
/-- `sm9_fp2_*`. -/
abbrev fp2 : FpOps F2 := fp2Ops fp

/-! ## `sm9_ec_*` -/

/-- `sm9_ec_a_check` (sm9_field.cpp 986-996). -/
def ecCheck (P : A) : Bool := ecACheck0 fp (fpFromBytes sm9CurveB) P

/-- `sm9_ec_a_to_bytes04` (sm9_field.cpp 1004-1008). -/
def toBytes04 (P : A) : List Byte := fpToBytes P.x ++ fpToBytes P.y
/-- `sm9_ec_a_from_bytes04` (sm9_field.cpp 1010-1014) on 64 readable octets. -/
def fromBytes04 (bs : List Byte) : A := ⟨fpFromBytes (bs.take 32), fpFromBytes ((bs.drop 32).take 32)⟩

/-- `sm9_ec_a_to_bytes_uncompressed` (sm9_field.cpp 1016-1021). -/
def toUncompressed (P : A) : List Byte := 0x04 :: toBytes04 P
/-- `sm9_ec_a_to_bytes_compressed` (sm9_field.cpp 1023-1029): `out[32]` is the last octet of `y` when it is
tested. -/
def toCompressed (P : A) : List Byte :=
  (if lsbOf (fpToBytes P.y) = 0 then 0x02 else 0x03) :: fpToBytes P.x
/-- `sm9_ec_a_to_bytes_mix` (sm9_field.cpp 1031-1035). -/
def toMix (P : A) : List Byte :=
  (if lsbOf (toBytes04 P) = 0 then 0x06 else 0x07) :: toBytes04 P

/-- `sm9_ec_recover_y` (sm9_field.cpp 1037-1057); inner `none` = -1. -/
def recoverY (x : List W32) (yHat : Byte) : Option (Option (List W32)) :=
  let y2 := fpFromBytes sm9CurveB
  let t := fp.sqr x
  let t := fp.mul t x
  let y2 := fp.add y2 t
  match fpSqrt y2 with
  | none => none
  | some none => some none
  | some (some y) =>
    let lsbY := lsbOf (fpToBytes y)
    if lsbY ≠ yHat then some (some (fp.neg y)) else some (some y)

/-- `sm9_ec_a_from_bytes` (sm9_field.cpp 1059-1088): `inp` is the whole readable buffer, `inl` the length argument,
which the function only compares with 0.  A read beyond the buffer is `ub`.  `ok (R, read_n)` is return value 0. -/
def ecAFromBytes (inp : List Byte) (inl : Nat) : ParseRes (A × Nat) :=
  if inl = 0 then .fail
  else
    match inp with
    | [] => .ub
    | b :: rest =>
      if b = 0x04 ∨ b = 0x06 ∨ b = 0x07 then
        if rest.length < 64 then .ub
        else
          let R := fromBytes04 rest
          if ecCheck R then .ok (R, 65) else .fail
      else if b = 0x02 ∨ b = 0x03 then
        if rest.length < 32 then .ub
        else
          let x := fpFromBytes (rest.take 32)
          let yHat := if b = 0x02 then 0 else 1
          match recoverY x yHat with
          | none => .ub
          | some none => .fail
          | some (some y) => if ecCheck ⟨x, y⟩ then .ok (⟨x, y⟩, 33) else .fail
      else .fail

/-- `N` (sm9_field.cpp 116), the group order in limbs. -/
def nLimbs : List W32 := setEpi8 nData

/-- `sm9_ec_j_dbl`. -/
abbrev jDbl (P : J) : Option J := ecJDbl0 fp P
/-- `sm9_ec_j_add`. -/
abbrev jAdd (P Q : J) : Option J := ecJAdd0 fp P Q
/-- `sm9_ec_j_add_a`. -/
abbrev jAddA (P : J) (Q : A) : J := ecJAddA fp P Q
/-- `sm9_ec_j_mul_a` (sm9_field.cpp 1289-1341). -/
def jMulA (k : List Byte) (P : A) : Option J := ecJMulA0 fp nLimbs k P
/-- The base point (sm9_field.cpp 1345-1347, 2337-2339). -/
def p1 : A := ⟨fpFromBytes sm9CurveGx, fpFromBytes sm9CurveGy⟩
/-- `sm9_ec_j_mul_g` (sm9_field.cpp 1343-1349). -/
def jMulG (k : List Byte) : Option J := jMulA k p1
/-- `sm9_ec_j_to_a`. -/
abbrev jToA (P : J) : Option A := ecJToA fp P

/-! ## `sm9_ec2_*` -/

/-- `sm9_ec2_a_check` (sm9_field.cpp 1420-1431). -/
def ec2Check (P : A2) : Bool := ecACheck0 fp2 ⟨fp.zero, fpFromBytes sm9CurveB⟩ P

/-- `sm9_ec2_a_to_bytes04` (sm9_field.cpp 1439-1443) into a 128-octet buffer holding `buf`: the second coordinate is
written at offset 32, over the second half of the first. -/
def ec2ToBytes04 (buf : List Byte) (P : A2) : List Byte :=
  let buf := fp2ToBytes P.x ++ buf.drop 64
  buf.take 32 ++ fp2ToBytes P.y ++ buf.drop 96

/-- `sm9_ec2_a_from_bytes04` (sm9_field.cpp 1445-1449) on 128 readable octets: both reads as written. -/
def ec2FromBytes04 (bs : List Byte) : A2 := ⟨fp2FromBytes (bs.take 64), fp2FromBytes ((bs.drop 32).take 64)⟩

/-- `sm9_ec2_a_to_bytes_uncompressed` (sm9_field.cpp 1451-1456) into a 129-octet buffer holding `buf`. -/
def ec2ToUncompressed (buf : List Byte) (P : A2) : List Byte := 0x04 :: ec2ToBytes04 (buf.drop 1) P

/-- `sm9_ec2_a_to_bytes_compressed` (sm9_field.cpp 1458-1464): `out[32]` is octet 31 of the encoding of `y`. -/
def ec2ToCompressed (P : A2) : List Byte :=
  (if ((fp2ToBytes P.y).getD 31 0) &&& 1 = 0 then 0x02 else 0x03) :: fp2ToBytes P.x

/-- `sm9_ec2_a_to_bytes_mix` (sm9_field.cpp 1466-1470): `out[64]` is octet 63 of the written coordinates. -/
def ec2ToMix (buf : List Byte) (P : A2) : List Byte :=
  let out := ec2ToBytes04 (buf.drop 1) P
  (if (out.getD 63 0) &&& 1 = 0 then 0x06 else 0x07) :: out

/-- `sm9_ec2_a_from_bytes` (sm9_field.cpp 1472-1495): no curve check, compressed points rejected; `inl` is only
compared with 0.  It reads 97 octets (offset 1 to 1+32+63). -/
def ec2AFromBytes (inp : List Byte) (inl : Nat) : ParseRes (A2 × Nat) :=
  if inl = 0 then .fail
  else
    match inp with
    | [] => .ub
    | b :: rest =>
      if b = 0x04 ∨ b = 0x06 ∨ b = 0x07 then
        if rest.length < 96 then .ub else .ok (ec2FromBytes04 rest, 129)
      else .fail

/-- `sm9_ec2_j_dbl`. -/
abbrev j2Dbl (P : J2) : Option J2 := ecJDbl0 fp2 P
/-- `sm9_ec2_j_add`. -/
abbrev j2Add (P Q : J2) : Option J2 := ecJAdd0 fp2 P Q
/-- `sm9_ec2_j_add_a`. -/
abbrev j2AddA (P : J2) (Q : A2) : J2 := ecJAddA fp2 P Q
/-- `sm9_ec2_j_mul_a` (sm9_field.cpp 1696-1748). -/
def j2MulA (k : List Byte) (P : A2) : Option J2 := ecJMulA0 fp2 nLimbs k P
/-- The base point of the twist (sm9_field.cpp 1752-1754, 2345-2347). -/
def p2 : A2 := ⟨fp2FromBytes sm9Curve2Gx, fp2FromBytes sm9Curve2Gy⟩
/-- `sm9_ec2_j_mul_g` (sm9_field.cpp 1750-1756). -/
def j2MulG (k : List Byte) : Option J2 := j2MulA k p2
/-- `sm9_ec2_j_to_a`. -/
abbrev j2ToA (P : J2) : Option A2 := ecJToA fp2 P

end Sm9
end Verif
