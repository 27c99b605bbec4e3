import Verif.Model.MontX64
import Verif.Model.Sm2X64
import Verif.Model.Sm9
/-!
# SM9 in the configuration with 64-bit limbs

src/sm9/sm9_field.cpp, include/gmlib/sm9/sm9.h and include/gmlib/sm9/internal/sm9_alg.h compiled against
src/number/uint256_x64.cpp and src/number/mont256_x64.cpp (include/gmlib/number/uint256.h 4-44, mont256.h 4-16).
The same source text as in Model/Sm9Field.lean, Model/Sm9Ec.lean, Model/Sm9Pairing.lean and Model/Sm9.lean: the tower
functions and the point formulas, which only call the functions of the field below, are shared; everything that touches
limbs or names the field is restated over the functions of Model/LimbsX64.lean and Model/MontX64.lean.  The same
simplifications apply.
-/
namespace Verif.X64.Sm9

open Verif.Sm9 (uMul2Add1 uAdd1 twoPow2u1Data sm9CurveB sm9CurveN sm9CurveGx sm9CurveGy sm9Curve2Gx sm9Curve2Gy nData
  sm9Alpha1Data sm9Alpha2Data sm9Alpha3Data sm9Alpha4Data sm9Alpha5Data sm9BetaData cL1835 cL1850 a2 a3 nafA haLoop)
open Verif.Sm2 (lsbOf ParseRes)

/-- `sm9_fp_*` (sm9_field.cpp 288-399): the Montgomery functions with the context `FP_MONT_CTX`. -/
def fp : FpOps (List W64) where
  add := mont256Add sm9FpCtx
  sub := mont256Sub sm9FpCtx
  mul := mont256Mul sm9FpCtx
  sqr := mont256Sqr sm9FpCtx
  dbl := mont256Dbl sm9FpCtx
  tpl := fun a => some (mont256Tpl sm9FpCtx a)
  neg := mont256Neg sm9FpCtx
  inv := mont256Inv sm9FpCtx
  eq := mont256Equal sm9FpCtx
  isZero := mont256EqualZero sm9FpCtx
  one := mont256SetOne sm9FpCtx
  zero := u256Zero

/-- `sm9_fp_from_bytes` (sm9_field.cpp 402-405). -/
def fpFromBytes (bs : List Byte) : List W64 := mont256FromBytes sm9FpCtx bs
/-- `sm9_fp_to_bytes` (sm9_field.cpp 407-410). -/
def fpToBytes (a : List W64) : List Byte := mont256ToBytes sm9FpCtx a

/-- `sm9_fp_sqrt` (sm9_field.cpp 318-360).  Outer `none`: undefined run; inner `none`: return value -1 (the
result array is not written). -/
def fpSqrt (a : List W64) : Option (Option (List W64)) :=
  let neg1 := mont256Neg sm9FpCtx (mont256SetOne sm9FpCtx)
  match mont256Pow sm9FpCtx a (u256FromBytes uMul2Add1) with
  | none => none
  | some z =>
    if !mont256EqualOne sm9FpCtx z && !mont256Equal sm9FpCtx z neg1 then some none
    else
      match mont256Pow sm9FpCtx a (u256FromBytes uAdd1) with
      | none => none
      | some r =>
        if mont256Equal sm9FpCtx z neg1 then
          let z := mont256FromBytes sm9FpCtx twoPow2u1Data
          some (some (mont256Mul sm9FpCtx r z))
        else some (some r)

/-- `sm9_fp2_to_bytes` (sm9_field.cpp 462-466). -/
def fp2ToBytes (a : Fp2 (List W64)) : List Byte := fpToBytes a.c1 ++ fpToBytes a.c0
/-- `sm9_fp2_from_bytes` (sm9_field.cpp 468-472) on 64 readable octets. -/
def fp2FromBytes (bs : List Byte) : Fp2 (List W64) := ⟨fpFromBytes ((bs.drop 32).take 32), fpFromBytes (bs.take 32)⟩
/-- `sm9_fp4_to_bytes` (sm9_field.cpp 606-610). -/
def fp4ToBytes (a : Fp4 (List W64)) : List Byte := fp2ToBytes a.c1 ++ fp2ToBytes a.c0
/-- `sm9_fp4_from_bytes` (sm9_field.cpp 612-616) on 128 readable octets. -/
def fp4FromBytes (bs : List Byte) : Fp4 (List W64) := ⟨fp2FromBytes ((bs.drop 64).take 64), fp2FromBytes (bs.take 64)⟩
/-- `sm9_fp12_to_bytes` (sm9_field.cpp 746-751). -/
def fp12ToBytes (a : Fp12 (List W64)) : List Byte := fp4ToBytes a.c2 ++ fp4ToBytes a.c1 ++ fp4ToBytes a.c0
/-- `sm9_fp12_from_bytes` (sm9_field.cpp 753-758) on 384 readable octets. -/
def fp12FromBytes (bs : List Byte) : Fp12 (List W64) :=
  ⟨fp4FromBytes ((bs.drop 256).take 128), fp4FromBytes ((bs.drop 128).take 128), fp4FromBytes (bs.take 128)⟩


section
variable {α : Type} (F : FpOps α)

/-- The body of the loop of `sm9_ec_j_mul_a`, `sm9_ec2_j_mul_a` (sm9_field.cpp 1328-1339, 1735-1746) for bit `i`. -/
def mulAStep0 (e e3 : List W64) (P Pneg : EcA α) (i : Nat) (T : EcJ α) : Option (EcJ α) :=
  match ecJDbl0 F T with
  | none => none
  | some T =>
    match u256BitTest e i, u256BitTest e3 i with
    | some ei, some e3i =>
      if e3i = true ∧ ei = false then some (ecJAddA F T P)
      else if e3i = false ∧ ei = true then some (ecJAddA F T Pneg)
      else some T
    | _, _ => none

/-- `for (; i >= 1; i--)` (sm9_field.cpp 1326-1339, 1733-1746). -/
def mulALoop0 (e e3 : List W64) (P Pneg : EcA α) : Nat → EcJ α → Option (EcJ α)
  | 0, T => some T
  | i + 1, T =>
    match mulAStep0 F e e3 P Pneg (i + 1) T with
    | none => none
    | some T => mulALoop0 e e3 P Pneg i T

/-- `sm9_ec_j_mul_a`, `sm9_ec2_j_mul_a` (sm9_field.cpp 1289-1341, 1696-1748) with the group order `n` in limbs and the
scalar in bytes.  `i--` after the search would be an index of -1 if the top bit were bit 0; the loop would then not
run, as for 0. -/
def ecJMulA0 (n : List W64) (k : List Byte) (P : EcA α) : Option (EcJ α) :=
  let e := u256FromBytes k
  let e := if u256Cmp e n ≥ 0 then (u256SubBorrow e n).1 else e
  if u256EqualZero e then some (ecJInf F)
  else
    let (e3, c) := u256TplCarry e
    let T := ecJFromA F P
    let Pneg := ecANeg F P
    if c = 1 then mulALoop0 F e e3 P Pneg 255 T
    else if c = 2 then
      match ecJDbl0 F T with
      | none => none
      | some T => mulALoop0 F e e3 P Pneg 255 T
    else
      match Sm2.topBit e3 255 with
      | none => none
      | some i => mulALoop0 F e e3 P Pneg (i - 1) T

end

/-- `sm9_ec_a` over limbs. -/
abbrev A := EcA (List W64)
/-- `sm9_ec_j` over limbs. -/
abbrev J := EcJ (List W64)
/-- `sm9_fp2_t` over limbs. -/
abbrev F2 := Fp2 (List W64)
/-- `sm9_ec2_a` over limbs. -/
abbrev A2 := EcA F2
/-- `sm9_ec2_j` over limbs. -/
abbrev J2 := EcJ F2
/-- `sm9_fp2_*`. -/
abbrev fp2 : FpOps F2 := fp2Ops fp

/-! ## `sm9_ec_*` -/

/-- `sm9_ec_a_check` (sm9_field.cpp 986-996). -/
def ecCheck (P : A) : Bool := ecACheck0 fp (fpFromBytes sm9CurveB) P

/-- `sm9_ec_a_to_bytes04` (sm9_field.cpp 1004-1008). -/
def toBytes04 (P : A) : List Byte := fpToBytes P.x ++ fpToBytes P.y
/-- `sm9_ec_a_from_bytes04` (sm9_field.cpp 1010-1014) on 64 readable octets. -/
def fromBytes04 (bs : List Byte) : A := ⟨fpFromBytes (bs.take 32), fpFromBytes ((bs.drop 32).take 32)⟩

/-- `sm9_ec_a_to_bytes_uncompressed` (sm9_field.cpp 1016-1021). -/
def toUncompressed (P : A) : List Byte := 0x04 :: toBytes04 P
/-- `sm9_ec_a_to_bytes_compressed` (sm9_field.cpp 1023-1029): `out[32]` is the last octet of `y` when it is
tested. -/
def toCompressed (P : A) : List Byte :=
  (if lsbOf (fpToBytes P.y) = 0 then 0x02 else 0x03) :: fpToBytes P.x
/-- `sm9_ec_a_to_bytes_mix` (sm9_field.cpp 1031-1035). -/
def toMix (P : A) : List Byte :=
  (if lsbOf (toBytes04 P) = 0 then 0x06 else 0x07) :: toBytes04 P

/-- `sm9_ec_recover_y` (sm9_field.cpp 1037-1057); inner `none` = -1. -/
def recoverY (x : List W64) (yHat : Byte) : Option (Option (List W64)) :=
  let y2 := fpFromBytes sm9CurveB
  let t := fp.sqr x
  let t := fp.mul t x
  let y2 := fp.add y2 t
  match fpSqrt y2 with
  | none => none
  | some none => some none
  | some (some y) =>
    let lsbY := lsbOf (fpToBytes y)
    if lsbY ≠ yHat then some (some (fp.neg y)) else some (some y)

/-- `sm9_ec_a_from_bytes` (sm9_field.cpp 1059-1088): `inp` is the whole readable buffer, `inl` the length argument,
which the function only compares with 0.  A read beyond the buffer is `ub`.  `ok (R, read_n)` is return value 0. -/
def ecAFromBytes (inp : List Byte) (inl : Nat) : ParseRes (A × Nat) :=
  if inl = 0 then .fail
  else
    match inp with
    | [] => .ub
    | b :: rest =>
      if b = 0x04 ∨ b = 0x06 ∨ b = 0x07 then
        if rest.length < 64 then .ub
        else
          let R := fromBytes04 rest
          if ecCheck R then .ok (R, 65) else .fail
      else if b = 0x02 ∨ b = 0x03 then
        if rest.length < 32 then .ub
        else
          let x := fpFromBytes (rest.take 32)
          let yHat := if b = 0x02 then 0 else 1
          match recoverY x yHat with
          | none => .ub
          | some none => .fail
          | some (some y) => if ecCheck ⟨x, y⟩ then .ok (⟨x, y⟩, 33) else .fail
      else .fail

/-- `N` (sm9_field.cpp 116), the group order in limbs. -/
def nLimbs : List W64 := u256FromBytes nData

/-- `sm9_ec_j_dbl`. -/
abbrev jDbl (P : J) : Option J := ecJDbl0 fp P
/-- `sm9_ec_j_add`. -/
abbrev jAdd (P Q : J) : Option J := ecJAdd0 fp P Q
/-- `sm9_ec_j_add_a`. -/
abbrev jAddA (P : J) (Q : A) : J := ecJAddA fp P Q
/-- `sm9_ec_j_mul_a` (sm9_field.cpp 1289-1341). -/
def jMulA (k : List Byte) (P : A) : Option J := ecJMulA0 fp nLimbs k P
/-- The base point (sm9_field.cpp 1345-1347, 2337-2339). -/
def p1 : A := ⟨fpFromBytes sm9CurveGx, fpFromBytes sm9CurveGy⟩
/-- `sm9_ec_j_mul_g` (sm9_field.cpp 1343-1349). -/
def jMulG (k : List Byte) : Option J := jMulA k p1
/-- `sm9_ec_j_to_a`. -/
abbrev jToA (P : J) : Option A := ecJToA fp P

/-! ## `sm9_ec2_*` -/

/-- `sm9_ec2_a_check` (sm9_field.cpp 1420-1431). -/
def ec2Check (P : A2) : Bool := ecACheck0 fp2 ⟨fp.zero, fpFromBytes sm9CurveB⟩ P

/-- `sm9_ec2_a_to_bytes04` (sm9_field.cpp 1439-1443) into a 128-octet buffer holding `buf`: the second coordinate is
written at offset 32, over the second half of the first. -/
def ec2ToBytes04 (buf : List Byte) (P : A2) : List Byte :=
  let buf := fp2ToBytes P.x ++ buf.drop 64
  buf.take 32 ++ fp2ToBytes P.y ++ buf.drop 96

/-- `sm9_ec2_a_from_bytes04` (sm9_field.cpp 1445-1449) on 128 readable octets: both reads as written. -/
def ec2FromBytes04 (bs : List Byte) : A2 := ⟨fp2FromBytes (bs.take 64), fp2FromBytes ((bs.drop 32).take 64)⟩

/-- `sm9_ec2_a_to_bytes_uncompressed` (sm9_field.cpp 1451-1456) into a 129-octet buffer holding `buf`. -/
def ec2ToUncompressed (buf : List Byte) (P : A2) : List Byte := 0x04 :: ec2ToBytes04 (buf.drop 1) P

/-- `sm9_ec2_a_to_bytes_compressed` (sm9_field.cpp 1458-1464): `out[32]` is octet 31 of the encoding of `y`. -/
def ec2ToCompressed (P : A2) : List Byte :=
  (if ((fp2ToBytes P.y).getD 31 0) &&& 1 = 0 then 0x02 else 0x03) :: fp2ToBytes P.x

/-- `sm9_ec2_a_to_bytes_mix` (sm9_field.cpp 1466-1470): `out[64]` is octet 63 of the written coordinates. -/
def ec2ToMix (buf : List Byte) (P : A2) : List Byte :=
  let out := ec2ToBytes04 (buf.drop 1) P
  (if (out.getD 63 0) &&& 1 = 0 then 0x06 else 0x07) :: out

/-- `sm9_ec2_a_from_bytes` (sm9_field.cpp 1472-1495): no curve check, compressed points rejected; `inl` is only
compared with 0.  It reads 97 octets (offset 1 to 1+32+63). -/
def ec2AFromBytes (inp : List Byte) (inl : Nat) : ParseRes (A2 × Nat) :=
  if inl = 0 then .fail
  else
    match inp with
    | [] => .ub
    | b :: rest =>
      if b = 0x04 ∨ b = 0x06 ∨ b = 0x07 then
        if rest.length < 96 then .ub else .ok (ec2FromBytes04 rest, 129)
      else .fail

/-- `sm9_ec2_j_dbl`. -/
abbrev j2Dbl (P : J2) : Option J2 := ecJDbl0 fp2 P
/-- `sm9_ec2_j_add`. -/
abbrev j2Add (P Q : J2) : Option J2 := ecJAdd0 fp2 P Q
/-- `sm9_ec2_j_add_a`. -/
abbrev j2AddA (P : J2) (Q : A2) : J2 := ecJAddA fp2 P Q
/-- `sm9_ec2_j_mul_a` (sm9_field.cpp 1696-1748). -/
def j2MulA (k : List Byte) (P : A2) : Option J2 := ecJMulA0 fp2 nLimbs k P
/-- The base point of the twist (sm9_field.cpp 1752-1754, 2345-2347). -/
def p2 : A2 := ⟨fp2FromBytes sm9Curve2Gx, fp2FromBytes sm9Curve2Gy⟩
/-- `sm9_ec2_j_mul_g` (sm9_field.cpp 1750-1756). -/
def j2MulG (k : List Byte) : Option J2 := j2MulA k p2
/-- `sm9_ec2_j_to_a`. -/
abbrev j2ToA (P : J2) : Option A2 := ecJToA fp2 P


/-- `sm9_fp4_t` over limbs. -/
abbrev F4 := Fp4 (List W64)
/-- `sm9_fp12_t` over limbs. -/
abbrev F12 := Fp12 (List W64)

/-- `sm9_fp2_conjugate` (sm9_field.cpp 1821-1825). -/
def fp2Conj (a : F2) : F2 := ⟨a.c0, fp.neg a.c1⟩

/-- `sm9_fp4_conjugate` (sm9_field.cpp 2140-2144). -/
def fp4Conj (a : F4) : F4 := ⟨a.c0, fp2Neg fp a.c1⟩

/-- `sm9_fp12_frobenius` (sm9_field.cpp 2108-2138). -/
def fp12Frob (x : F12) : F12 :=
  let r10 := fp2Conj x.c0.c0
  let r11 := fp2MulFp fp (fp2Conj x.c0.c1) (fpFromBytes sm9Alpha3Data)
  let r20 := fp2MulFp fp (fp2Conj x.c1.c0) (fpFromBytes sm9Alpha1Data)
  let r21 := fp2MulFp fp (fp2Conj x.c1.c1) (fpFromBytes sm9Alpha4Data)
  let r30 := fp2MulFp fp (fp2Conj x.c2.c0) (fpFromBytes sm9Alpha2Data)
  let r31 := fp2MulFp fp (fp2Conj x.c2.c1) (fpFromBytes sm9Alpha5Data)
  ⟨⟨r10, r11⟩, ⟨r20, r21⟩, ⟨r30, r31⟩⟩

/-- `sm9_fp12_frobenius2` (sm9_field.cpp 2146-2164). -/
def fp12Frob2 (x : F12) : F12 :=
  let a := fp4Conj x.c0
  let b := fp4MulFp fp (fp4Conj x.c1) (fpFromBytes sm9Alpha2Data)
  let c := fp4MulFp fp (fp4Conj x.c2) (fpFromBytes sm9Alpha4Data)
  ⟨a, b, c⟩

/-- `sm9_fp12_frobenius3` (sm9_field.cpp 2166-2192). -/
def fp12Frob3 (x : F12) : F12 :=
  let beta := fpFromBytes sm9BetaData
  let ra0 := fp2Conj x.c0.c0
  let ra1 := fp2Neg fp (fp2MulFp fp (fp2Conj x.c0.c1) beta)
  let rb0 := fp2MulFp fp (fp2Conj x.c1.c0) beta
  let rb1 := fp2Conj x.c1.c1
  let rc0 := fp2Neg fp (fp2Conj x.c2.c0)
  let rc1 := fp2MulFp fp (fp2Conj x.c2.c1) beta
  ⟨⟨ra0, ra1⟩, ⟨rb0, rb1⟩, ⟨rc0, rc1⟩⟩

/-- `sm9_fp12_frobenius6` (sm9_field.cpp 2194-2212). -/
def fp12Frob6 (x : F12) : F12 :=
  let a := fp4Conj x.c0
  let b := fp4Neg fp (fp4Conj x.c1)
  let c := fp4Conj x.c2
  ⟨a, b, c⟩

/-- `sm9_pairing_final_exp_hard_part` (sm9_field.cpp 2214-2262). -/
def finalExpHard (f : F12) : Option F12 := do
  let t0 ← fp12Pow fp f a3
  let t0 ← fp12Inv fp t0
  let t1 := fp12Frob t0
  let t1 := fp12Mul fp t0 t1
  let t0 := fp12Mul fp t0 t1
  let t2 := fp12Frob f
  let t3 := fp12Mul fp t2 f
  let t4 := fp12Sqr fp t3
  let t4 := fp12Sqr fp t4
  let t4 := fp12Sqr fp t4
  let t3 := fp12Mul fp t4 t3
  let t0 := fp12Mul fp t0 t3
  let t3 := fp12Sqr fp f
  let t3 := fp12Sqr fp t3
  let t0 := fp12Mul fp t0 t3
  let t2 := fp12Sqr fp t2
  let t2 := fp12Mul fp t2 t1
  let t1 := fp12Frob2 f
  let t1 := fp12Mul fp t1 t2
  let t2 ← fp12Pow fp t1 a2
  let t0 := fp12Mul fp t2 t0
  let t1 := fp12Frob3 f
  let t1 := fp12Mul fp t1 t0
  some t1

/-- `sm9_pairing_final_exp` (sm9_field.cpp 2267-2279). -/
def finalExp (f : F12) : Option F12 := do
  let t0 := fp12Frob6 f
  let t1 ← fp12Inv fp f
  let t0 := fp12Mul fp t0 t1
  let t1 := fp12Frob2 t0
  let t0 := fp12Mul fp t0 t1
  finalExpHard t0

/-- `sm9_ec2_j_frobenius_a` (sm9_field.cpp 1827-1844). -/
def j2FrobA (Q : A2) : J2 := ⟨fp2Conj Q.x, fp2Conj Q.y, ⟨fpFromBytes cL1835, fp.zero⟩⟩

/-- `sm9_ec2_j_frobenius2_a` (sm9_field.cpp 1846-1859). -/
def j2Frob2A (Q : A2) : J2 := ⟨Q.x, Q.y, ⟨fpFromBytes cL1850, fp.zero⟩⟩

/-- The element with `a0`, `a1`, `a4` at the places the line functions use. -/
def sparse (a0 a1 a4 : F2) : F12 := ⟨⟨a0, a1⟩, ⟨fp2.zero, fp2.zero⟩, ⟨a4, fp2.zero⟩⟩

/-- `sm9_pairing_g_tangent_ja` (sm9_field.cpp 1861-1927). -/
def gTangent (T : J2) (P : A) : Option F12 := do
  let t0 := fp2.sqr T.z
  let t1 := fp2.mul t0 T.z
  let b1 := fp2.mul t1 T.y
  let b1 := fp2.dbl b1
  let t2 := fp2MulFp fp b1 P.y
  let a1 := fp2.neg t2
  let t1 := fp2.sqr T.x
  let t0 := fp2.mul t0 t1
  let t0 := fp2MulFp fp t0 P.x
  let a4 ← fp2.tpl t0
  let t1 := fp2.mul t1 T.x
  let t1 ← fp2.tpl t1
  let t0 := fp2.sqr T.y
  let t0 := fp2.dbl t0
  let a0 := fp2.sub t0 t1
  some (sparse a0 a1 a4)

/-- `sm9_pairing_g_line_jja` (sm9_field.cpp 1930-2002). -/
def gLineJ (T Q : J2) (P : A) : F12 :=
  let t0 := fp2.sqr Q.z
  let t1 := fp2.mul t0 T.x
  let t0 := fp2.mul t0 Q.z
  let t2 := fp2.sqr T.z
  let t3 := fp2.mul t2 Q.x
  let t2 := fp2.mul t2 T.z
  let t2 := fp2.mul t2 Q.y
  let t1 := fp2.sub t1 t3
  let t1 := fp2.mul t1 T.z
  let t1 := fp2.mul t1 Q.z
  let b1 := fp2.mul t1 t0
  let t1 := fp2.mul t1 Q.y
  let t3 := fp2.mul t0 T.y
  let t3 := fp2.sub t3 t2
  let t0 := fp2.mul t0 t3
  let t0 := fp2MulFp fp t0 P.x
  let a4 := t0
  let t3 := fp2.mul t3 Q.x
  let t3 := fp2.mul t3 Q.z
  let t1 := fp2.sub t1 t3
  let a0 := t1
  let t2 := fp2MulFp fp b1 P.y
  let t2 := fp2.neg t2
  let a1 := t2
  sparse a0 a1 a4

/-- `sm9_pairing_g_line_jaa` (sm9_field.cpp 2005-2069). -/
def gLineA (T : J2) (Q : A2) (P : A) : F12 :=
  let t2 := fp2.sqr T.z
  let t3 := fp2.mul t2 Q.x
  let t2 := fp2.mul t2 T.z
  let t2 := fp2.mul t2 Q.y
  let t1 := fp2.sub T.x t3
  let t1 := fp2.mul t1 T.z
  let b1 := t1
  let t1 := fp2.mul t1 Q.y
  let t3 := T.y
  let t3 := fp2.sub t3 t2
  let t0 := fp2MulFp fp t3 P.x
  let a4 := t0
  let t3 := fp2.mul t3 Q.x
  let t1 := fp2.sub t1 t3
  let a0 := t1
  let t2 := fp2MulFp fp b1 P.y
  let t2 := fp2.neg t2
  let a1 := t2
  sparse a0 a1 a4

/-- The body of the loop of `sm9_pairing` (sm9_field.cpp 2297-2319). -/
def millerStep (P : A) (Q nQ : A2) (c : Char) (f : F12) (T : J2) : Option (F12 × J2) := do
  let f := fp12Sqr fp f
  let f0 ← gTangent T P
  let f := fp12Mul fp f f0
  let T ← j2Dbl T
  if c = '1' then
    let f0 := gLineA T Q P
    let f := fp12Mul fp f f0
    some (f, j2AddA T Q)
  else if c = '2' then
    let f0 := gLineA T nQ P
    let f := fp12Mul fp f f0
    some (f, j2AddA T nQ)
  else some (f, T)

/-- `for (int i = 1; i < naf_len; i++)` (sm9_field.cpp 2295-2320). -/
def millerLoop (P : A) (Q nQ : A2) : List Char → F12 → J2 → Option (F12 × J2)
  | [], f, T => some (f, T)
  | c :: cs, f, T => do
    let (f, T) ← millerStep P Q nQ c f T
    millerLoop P Q nQ cs f T

/-- `sm9_pairing` (sm9_field.cpp 2281-2333) up to the call of `sm9_pairing_final_exp`. -/
def miller (P : A) (Q : A2) : Option F12 := do
  let f := fp12One fp
  let T := ecJFromA fp2 Q
  let nQ := ecANeg fp2 Q
  let (f, T) ← millerLoop P Q nQ nafA f T
  let qj := j2FrobA Q
  let f0 := gLineJ T qj P
  let f := fp12Mul fp f f0
  let T ← j2Add T qj
  let qj := j2Frob2A Q
  let qj := ecJNeg fp2 qj
  let f0 := gLineJ T qj P
  some (fp12Mul fp f f0)

/-- `sm9_pairing` (sm9_field.cpp 2281-2333). -/
def pairing (P : A) (Q : A2) : Option F12 := do
  let f ← miller P Q
  finalExp f

/-- `sm9_pairing_P1_Q` (sm9_field.cpp 2335-2341). -/
def pairingP1 (Q : A2) : Option F12 := pairing p1 Q
/-- `sm9_pairing_P_P2` (sm9_field.cpp 2343-2349). -/
def pairingP2 (P : A) : Option F12 := pairing P p2


/-- `n_sub1` (sm9_field.cpp 154-155, 166-167): `N - 1`. -/
def nSub1 : List W64 := (u256SubWord nLimbs 1).1

/-- `sm9_bn_mod_n_sub1` (sm9_field.cpp 152-160). -/
def bnModNSub1 (a : List W64) : List W64 := if u256Cmp a nSub1 ≥ 0 then (u256SubBorrow a nSub1).1 else a

/-- `r = random[1, N-1]` (sm9.h 300-305, 486-491) from one answer of the generator, as octets. -/
def nonce (rnd : List Byte) : List Byte :=
  let r := u256FromBytes rnd
  let r := bnModNSub1 r
  let r := (u256AddWord r 1).1
  u256ToBytes r

section
variable {S : Type} (C : HashClass S)

/-- `sm9_Hn` (sm9_alg.h 9-43), with `sm9_bn_mod_n_sub1_ex` (sm9_field.cpp 162-169). -/
def hn (Z1 Z2 : List Byte) (tag : Byte) : Outcome (List Byte) := do
  let Ha ← haLoop C [[tag], Z1, Z2] ((40 + C.DS - 1) / C.DS) 1 []
  let h1 ← Outcome.ofOption (u256Mod (Ha.take 40) nSub1)
  let h1 := (u256AddWord h1 1).1
  .ok (u256ToBytes h1)

end

/-- `SM9SignMasterPublicKey` (sm9.h 107-122): the point and the precomputed pairing. -/
structure MPub where
  P : A2
  e : F12
deriving DecidableEq, Repr

/-- `SM9SignMasterPrivateKey` (sm9.h 35-47). -/
structure MPriv where
  ks : List Byte
  pub : MPub
deriving DecidableEq, Repr

/-- `SM9SignPrivateKey` (sm9.h 164-181). -/
structure SPriv where
  priv : A
  pub : MPub
deriving DecidableEq, Repr

/-- The common tail of `set_priv` and `gen_priv` (sm9.h 285-288, 308-312): the public key of the octets `ks`. -/
def withPub (ks : List Byte) : Outcome MPriv := do
  let T ← Outcome.ofOption (j2MulG ks)
  let P ← Outcome.ofOption (j2ToA T)
  let e ← Outcome.ofOption (pairingP1 P)
  .ok ⟨ks, ⟨P, e⟩⟩

/-- `SM9SignMasterPrivateKey::set_priv` (sm9.h 270-289). -/
def setPriv (key : List Byte) : Outcome MPriv :=
  let ks := u256FromBytes key
  let N := u256FromBytes sm9CurveN
  if u256EqualZero ks ∨ u256Cmp ks N ≥ 0 then .throw else withPub key

/-- `SM9SignMasterPrivateKey::get_priv` (sm9.h 291-296). -/
def getPriv (k : MPriv) : List Byte := k.ks

/-- `SM9SignMasterPrivateKey::gen_priv` (sm9.h 298-314) when the generator answers `rnd`. -/
def genPriv (rnd : List Byte) : Outcome MPriv := withPub (nonce rnd)

/-- `SM9SignMasterPublicKey::set_pub` (sm9.h 358-371). -/
def setPub (x y : List Byte) : Outcome MPub :=
  let T : A2 := ⟨fp2FromBytes x, fp2FromBytes y⟩
  if !ec2Check T then .throw
  else do
    let e ← Outcome.ofOption (pairingP1 T)
    .ok ⟨T, e⟩

/-- `SM9SignMasterPublicKey::get_pub` (sm9.h 373-380). -/
def getPub (p : MPub) : List Byte × List Byte := (fp2ToBytes p.P.x, fp2ToBytes p.P.y)

/-- `SM9SignPrivateKey::set_priv` (sm9.h 432-448). -/
def setSignPriv (privX privY pubX pubY : List Byte) : Outcome SPriv :=
  let T : A := ⟨fpFromBytes privX, fpFromBytes privY⟩
  if !ecCheck T then .throw
  else do
    let pub ← setPub pubX pubY
    .ok ⟨T, pub⟩

/-- `SM9SignPrivateKey::get_priv` (sm9.h 450-460). -/
def getSignPriv (k : SPriv) : List Byte × List Byte × List Byte × List Byte :=
  (fpToBytes k.priv.x, fpToBytes k.priv.y, (getPub k.pub).1, (getPub k.pub).2)

section
variable {S : Type} (C : HashClass S)

/-- `SM9SignMasterPrivateKey::gen_SignPrivateKey` (sm9.h 316-349); `rng` is not used. -/
def genSignPriv (mk : MPriv) (id : List Byte) (hid : Byte) : Outcome SPriv := do
  let ks := mont256FromBytes sm9FnCtx mk.ks
  let h1 ← hn C id [hid] 1
  let t1 := mont256FromBytes sm9FnCtx h1
  let t1 := mont256Add sm9FnCtx t1 ks
  if mont256EqualZero sm9FnCtx t1 then .throw
  else do
    let t1 ← Outcome.ofOption (mont256Inv sm9FnCtx t1)
    let t1 := mont256Mul sm9FnCtx ks t1
    let t2 := mont256ToBytes sm9FnCtx t1
    let t2P1 ← Outcome.ofOption (jMulG t2)
    let priv ← Outcome.ofOption (jToA t2P1)
    .ok ⟨priv, mk.pub⟩

/-- The part of `verify` after the parsing of the signature (sm9.h 412-429). `sig` is the whole signature: the
exponentiation may read past its first 32 octets. -/
def verifyTail (pub : MPub) (sig : List Byte) (Sp : A) (msg id : List Byte) (hid : Byte) : Outcome Bool := do
  let t ← Outcome.ofOption (fp12Pow fp pub.e sig)
  let h1 ← hn C id [hid] 1
  let T ← Outcome.ofOption (j2MulG h1)
  let T := j2AddA T pub.P
  let P ← Outcome.ofOption (j2ToA T)
  let w ← Outcome.ofOption (pairing Sp P)
  let w := fp12Mul fp w t
  let h2 ← hn C msg (fp12ToBytes w) 2
  .ok (h2 == sig.take 32)

/-- The body of `SM9SignMasterPublicKey::verify` (sm9.h 382-430); `sig` is the whole readable buffer, of `sig_len`
octets. -/
def verifyBody (pub : MPub) (sig msg id : List Byte) (hid : Byte) : Outcome Bool :=
  if sig.length < 32 then .ok false
  else
    match ecAFromBytes (sig.drop 32) (sig.length - 32) with
    | .ub => .ub
    | .fail => .ok false
    | .ok (Sp, size) => if size + 32 ≠ sig.length then .ok false else verifyTail C pub sig Sp msg id hid

/-- `SM9SignMasterPublicKey::verify` (sm9.h 382-430), declared `noexcept`. -/
def verify (pub : MPub) (sig msg id : List Byte) (hid : Byte) : Noexcept Bool :=
  Noexcept.of (verifyBody C pub sig msg id hid)

/-- The encoding of the point in a signature (sm9.h 512-525). -/
def encPoint (pc : Verif.Sm2.PC) (P : A) : List Byte :=
  match pc with
  | .uncompressed => toUncompressed P
  | .compressed => toCompressed P
  | .mix => toMix P

/-- One pass of the signing loop (sm9.h 483-525); `none` = `goto retry`. -/
def signStep (key : SPriv) (msg rnd : List Byte) (pc : Verif.Sm2.PC) : Outcome (Option (List Byte)) := do
  let rb := nonce rnd
  let w ← Outcome.ofOption (fp12Pow fp key.pub.e rb)
  let h ← hn C msg (fp12ToBytes w) 2
  let r := mont256FromBytes sm9FnCtx rb
  let hf := mont256FromBytes sm9FnCtx h
  let r := mont256Sub sm9FnCtx r hf
  if mont256EqualZero sm9FnCtx r then .ok none
  else do
    let l := mont256ToBytes sm9FnCtx r
    let S ← Outcome.ofOption (jMulA l key.priv)
    let S ← Outcome.ofOption (jToA S)
    .ok (some (h ++ encPoint pc S))

/-- `goto retry` (sm9.h 483, 503): passes over the successive answers of the generator. -/
def signLoop (key : SPriv) (msg : List Byte) (pc : Verif.Sm2.PC) : List (List Byte) → Outcome (Option (List Byte))
  | [] => .ok none
  | rnd :: rest => do
    let o ← signStep C key msg rnd pc
    match o with
    | some sig => .ok (some sig)
    | none => signLoop key msg pc rest

/-- `SM9SignPrivateKey::sign` (sm9.h 469-526). -/
def sign (key : SPriv) (msg : List Byte) (rnds : List (List Byte)) (pc : Verif.Sm2.PC) : Outcome (Option (List Byte)) :=
  signLoop C key msg pc rnds

end
end Verif.X64.Sm9
