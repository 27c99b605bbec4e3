import Verif.Model.Params
/-!
# The SM2 curve group (src/sm2/sm2p256v1.cpp), default (32-bit limb) configuration

The point formulas call nothing but the field functions `sm2_fp_*`, so they are written over a record `FpOps` of
field operations; `Sm2.fp` is the record of the functions the library really uses.  `none` is an undefined or
unending run of a field function (`mont256_tpl` and `mont256_pow` contain a loop and table reads).

In-place calls such as `sm2_ec_j_dbl(T, T)` behave like calls with a fresh result: in every function below no
coordinate of an input is read after the same coordinate of the result has been written, except where the value
written is what the code means to read (those reads are modelled as reads of the new value).
-/
namespace Verif

/-- The field operations used by the point formulas. -/
structure FpOps (α : Type) where
  add : α → α → α
  sub : α → α → α
  mul : α → α → α
  sqr : α → α
  dbl : α → α
  tpl : α → Option α
  neg : α → α
  inv : α → Option α
  eq : α → α → Bool
  isZero : α → Bool
  one : α
  zero : α

/-- `sm2_ec_a` (include/gmlib/sm2/internal/sm2p256v1.h): an affine point. -/
structure EcA (α : Type) where
  x : α
  y : α
deriving DecidableEq, Repr

/-- `sm2_ec_j` (include/gmlib/sm2/internal/sm2p256v1.h): a point in Jacobian coordinates. -/
structure EcJ (α : Type) where
  x : α
  y : α
  z : α
deriving DecidableEq, Repr

section
variable {α : Type} (F : FpOps α)

/-- `sm2_ec_a_check` (sm2p256v1.cpp 375-388), with the coefficients `a`, `b` already converted. -/
def ecACheck (a b : α) (P : EcA α) : Bool :=
  let left := F.sqr P.y
  let right := b
  let t := F.mul a P.x
  let right := F.add right t
  let t := F.sqr P.x
  let t := F.mul t P.x
  let right := F.add right t
  F.eq left right

/-- `sm2_ec_a_neg` (sm2p256v1.cpp 390-394). -/
def ecANeg (P : EcA α) : EcA α := ⟨P.x, F.neg P.y⟩

/-- `sm2_ec_j_is_inf` (sm2p256v1.cpp 492-495). -/
def ecJIsInf (P : EcJ α) : Bool := F.isZero P.z

/-- `sm2_ec_j_set_inf` (sm2p256v1.cpp 497-503). -/
def ecJInf : EcJ α := ⟨F.one, F.one, F.zero⟩

/-- `sm2_ec_j_neg` (sm2p256v1.cpp 505-510). -/
def ecJNeg (P : EcJ α) : EcJ α := ⟨P.x, F.neg P.y, P.z⟩

/-- `sm2_ec_j_dbl` (sm2p256v1.cpp 640-688). -/
def ecJDbl (P : EcJ α) : Option (EcJ α) :=
  let delta := F.sqr P.z
  let gamma := F.sqr P.y
  let alpha := F.sub P.x delta
  let beta := F.add P.x delta
  let alpha := F.mul alpha beta
  match F.tpl alpha with
  | none => none
  | some alpha =>
    let beta := F.mul P.x gamma
    let x3 := F.sqr alpha
    let beta := F.dbl beta
    let beta := F.dbl beta
    let x3 := F.sub x3 beta
    let x3 := F.sub x3 beta
    let z3 := F.add P.y P.z
    let z3 := F.sqr z3
    let z3 := F.sub z3 gamma
    let z3 := F.sub z3 delta
    let y3 := F.sub beta x3
    let y3 := F.mul y3 alpha
    let gamma := F.dbl gamma
    let gamma := F.sqr gamma
    let gamma := F.dbl gamma
    let y3 := F.sub y3 gamma
    some ⟨x3, y3, z3⟩

/-- `sm2_ec_j_add` (sm2p256v1.cpp 512-584). -/
def ecJAdd (P Q : EcJ α) : Option (EcJ α) :=
  let z1z1 := F.sqr P.z
  let z2z2 := F.sqr Q.z
  let u1 := F.mul P.x z2z2
  let u2 := F.mul Q.x z1z1
  let s1 := F.mul P.y Q.z
  let s1 := F.mul s1 z2z2
  let s2 := F.mul Q.y P.z
  let s2 := F.mul s2 z1z1
  if F.eq u1 u2 then
    if F.eq s1 s2 then ecJDbl F P else some (ecJInf F)
  else
    let h := F.sub u2 u1
    let i := F.dbl h
    let i := F.sqr i
    let j := F.mul h i
    let r := F.sub s2 s1
    let r := F.dbl r
    let v := F.mul u1 i
    let x3 := F.sqr r
    let x3 := F.sub x3 j
    let x3 := F.sub x3 v
    let x3 := F.sub x3 v
    let y3 := F.sub v x3
    let y3 := F.mul y3 r
    let v := F.mul s1 j
    let v := F.dbl v
    let y3 := F.sub y3 v
    let z3 := F.add P.z Q.z
    let z3 := F.sqr z3
    let z3 := F.sub z3 z1z1
    let z3 := F.sub z3 z2z2
    let z3 := F.mul z3 h
    some ⟨x3, y3, z3⟩

/-- `sm2_ec_j_add_a` (sm2p256v1.cpp 586-638). -/
def ecJAddA (P : EcJ α) (Q : EcA α) : EcJ α :=
  let z1z1 := F.sqr P.z
  let u2 := F.mul Q.x z1z1
  let s2 := F.mul Q.y P.z
  let s2 := F.mul s2 z1z1
  let h := F.sub u2 P.x
  let hh := F.sqr h
  let i := F.dbl hh
  let i := F.dbl i
  let j := F.mul h i
  let r := F.sub s2 P.y
  let r := F.dbl r
  let v := F.mul P.x i
  let x3 := F.sqr r
  let x3 := F.sub x3 j
  let x3 := F.sub x3 v
  let x3 := F.sub x3 v
  let v := F.sub v x3
  let v := F.mul r v
  let y3 := F.mul P.y j
  let y3 := F.dbl y3
  let y3 := F.sub v y3
  let z3 := F.add P.z h
  let z3 := F.sqr z3
  let z3 := F.sub z3 z1z1
  let z3 := F.sub z3 hh
  ⟨x3, y3, z3⟩

/-- `sm2_ec_j_from_a` (sm2p256v1.cpp 778-783). -/
def ecJFromA (P : EcA α) : EcJ α := ⟨P.x, P.y, F.one⟩

/-- `sm2_ec_j_to_a` (sm2p256v1.cpp 785-794). -/
def ecJToA (P : EcJ α) : Option (EcA α) :=
  match F.inv P.z with
  | none => none
  | some inv3 =>
    let inv2 := F.sqr inv3
    let inv3 := F.mul inv3 inv2
    some ⟨F.mul P.x inv2, F.mul P.y inv3⟩

/-- `sm2_ec_j_normal` (sm2p256v1.cpp 796-811). -/
def ecJNormal (P : EcJ α) : Option (EcJ α) :=
  if ecJIsInf F P then some (ecJInf F)
  else
    match F.inv P.z with
    | none => none
    | some inv3 =>
      let inv2 := F.sqr inv3
      let inv3 := F.mul inv3 inv2
      some ⟨F.mul P.x inv2, F.mul P.y inv3, F.one⟩

/-- `sm2_ec_j_equal` (sm2p256v1.cpp 813-836). -/
def ecJEqual (P Q : EcJ α) : Bool :=
  let zp2 := F.sqr P.z
  let zp3 := F.mul zp2 P.z
  let zq2 := F.sqr Q.z
  let zq3 := F.mul zq2 Q.z
  let t1 := F.mul P.x zq2
  let t2 := F.mul Q.x zp2
  if !F.eq t1 t2 then false
  else
    let t1 := F.mul P.y zq3
    let t2 := F.mul Q.y zp3
    if !F.eq t1 t2 then false else true

/-- The body of the loop of `sm2_ec_j_mul_a` (sm2p256v1.cpp 755-767) for bit `i`. -/
def mulAStep (e e3 : List W32) (P Pneg : EcA α) (i : Nat) (T : EcJ α) : Option (EcJ α) :=
  match ecJDbl F T with
  | none => none
  | some T =>
    match u256BitTest e i, u256BitTest e3 i with
    | some ei, some e3i =>
      if e3i = true ∧ ei = false then some (ecJAddA F T P)
      else if e3i = false ∧ ei = true then some (ecJAddA F T Pneg)
      else some T
    | _, _ => none

/-- `for (; i >= 1; i--)` (sm2p256v1.cpp 753-767). -/
def mulALoop (e e3 : List W32) (P Pneg : EcA α) : Nat → EcJ α → Option (EcJ α)
  | 0, T => some T
  | i + 1, T =>
    match mulAStep F e e3 P Pneg (i + 1) T with
    | none => none
    | some T => mulALoop e e3 P Pneg i T

end

/-- `while (!uint256_bittest(e3, i)) i--` (sm2p256v1.cpp 750); `none` = the index runs below 0. -/
def topBit (e3 : List W32) : Nat → Option Nat
  | 0 => match u256BitTest e3 0 with
    | some true => some 0
    | _ => none
  | i + 1 => match u256BitTest e3 (i + 1) with
    | some true => some (i + 1)
    | some false => topBit e3 i
    | none => none

/-- `sm2_ec_j_mul_a` (sm2p256v1.cpp 690-768) with the group order `n` in limbs and the scalar in bytes.
`i--` after the search would be an index of -1 if the top bit were bit 0; the loop would then not run, as for 0. -/
def ecJMulA {α : Type} (F : FpOps α) (n : List W32) (k : List Byte) (P : EcA α) : Option (EcJ α) :=
  let e := u256FromBytes k
  let e := if u256Cmp e n ≥ 0 then (u256SubBorrow e n).1 else e
  if u256EqualZero e then some (ecJInf F)
  else
    let (e3, c) := u256TplCarry e
    let T := ecJFromA F P
    let Pneg := ecANeg F P
    if c = 1 then mulALoop F e e3 P Pneg 255 T
    else if c = 2 then
      match ecJDbl F T with
      | none => none
      | some T => mulALoop F e e3 P Pneg 255 T
    else
      match topBit e3 255 with
      | none => none
      | some i => mulALoop F e e3 P Pneg (i - 1) T

namespace Sm2

/-- `sm2_fp_*` (sm2p256v1.cpp 153-248): the Montgomery functions with the context `FP_MONT_CTX`. -/
def fp : FpOps (List W32) where
  add := mont256Add fpCtx
  sub := mont256Sub fpCtx
  mul := mont256Mul fpCtx
  sqr := mont256Sqr fpCtx
  dbl := mont256Dbl fpCtx
  tpl := mont256Tpl fpCtx
  neg := mont256Neg fpCtx
  inv := mont256Inv fpCtx
  eq := mont256Equal fpCtx
  isZero := mont256EqualZero fpCtx
  one := mont256SetOne fpCtx
  zero := u256Zero

/-- `sm2_ec_a` over limbs. -/
abbrev A := EcA (List W32)
/-- `sm2_ec_j` over limbs. -/
abbrev J := EcJ (List W32)

/-- `sm2_fp_from_bytes` (sm2p256v1.cpp 240-243). -/
def fpFromBytes (bs : List Byte) : List W32 := mont256FromBytes fpCtx bs
/-- `sm2_fp_to_bytes` (sm2p256v1.cpp 245-248). -/
def fpToBytes (a : List W32) : List Byte := mont256ToBytes fpCtx a

/-- `sm2_fp_sqrt` (sm2p256v1.cpp 183-198).  Outer `none`: undefined run; inner `none`: return value -1 (the
result array is not written). -/
def fpSqrt (a : List W32) : Option (Option (List W32)) :=
  match mont256Pow fpCtx a (setEpi8 pSub3Div4Add1) with
  | none => none
  | some t =>
    let t2 := mont256Sqr fpCtx t
    if !mont256Equal fpCtx a t2 then some none else some (some t)

/-- `sm2_ec_a_check` (sm2p256v1.cpp 375-388). -/
def ecCheck (P : A) : Bool := ecACheck fp (fpFromBytes sm2CurveA) (fpFromBytes sm2CurveB) P

/-- `sm2_ec_a_to_bytes04` (sm2p256v1.cpp 396-400). -/
def toBytes04 (P : A) : List Byte := fpToBytes P.x ++ fpToBytes P.y
/-- `sm2_ec_a_from_bytes04` (sm2p256v1.cpp 402-406) on 64 readable octets. -/
def fromBytes04 (bs : List Byte) : A := ⟨fpFromBytes (bs.take 32), fpFromBytes ((bs.drop 32).take 32)⟩

/-- `out[i] & 1` of the last octet of a field element's 32 octets. -/
def lsbOf (bs : List Byte) : Byte := bs.getLastD 0 &&& 1

/-- `sm2_ec_a_to_bytes_uncompressed` (sm2p256v1.cpp 408-413). -/
def toUncompressed (P : A) : List Byte := 0x04 :: toBytes04 P
/-- `sm2_ec_a_to_bytes_compressed` (sm2p256v1.cpp 415-421): `out[32]` is the last octet of `y` when it is
tested. -/
def toCompressed (P : A) : List Byte :=
  (if lsbOf (fpToBytes P.y) = 0 then 0x02 else 0x03) :: fpToBytes P.x
/-- `sm2_ec_a_to_bytes_mix` (sm2p256v1.cpp 423-427). -/
def toMix (P : A) : List Byte :=
  (if lsbOf (toBytes04 P) = 0 then 0x06 else 0x07) :: toBytes04 P

/-- `sm2_ec_recover_y` (sm2p256v1.cpp 429-452); inner `none` = -1. -/
def recoverY (x : List W32) (yHat : Byte) : Option (Option (List W32)) :=
  let y2 := fpFromBytes sm2CurveB
  let t := fpFromBytes sm2CurveA
  let t := fp.mul t x
  let y2 := fp.add y2 t
  let t := fp.sqr x
  let t := fp.mul t x
  let y2 := fp.add y2 t
  match fpSqrt y2 with
  | none => none
  | some none => some none
  | some (some y) =>
    let lsbY := lsbOf (fpToBytes y)
    if lsbY ≠ yHat then some (some (fp.neg y)) else some (some y)

/-- Result of a parser: `ub` = a read outside the given octets (or an undefined run). -/
inductive ParseRes (β : Type) where
  | ub
  | fail
  | ok (v : β)
deriving DecidableEq, Repr

/-- `sm2_ec_a_from_bytes` (sm2p256v1.cpp 454-483): `inp` is the whole readable buffer, `inl` the length argument,
which the function only compares with 0.  A read beyond the buffer is `ub`.  `ok (R, read_n)` is return value 0. -/
def ecAFromBytes (inp : List Byte) (inl : Nat) : ParseRes (A × Nat) :=
  if inl = 0 then .fail
  else
    match inp with
    | [] => .ub
    | b :: rest =>
      if b = 0x04 ∨ b = 0x06 ∨ b = 0x07 then
        if rest.length < 64 then .ub
        else
          let R := fromBytes04 rest
          if ecCheck R then .ok (R, 65) else .fail
      else if b = 0x02 ∨ b = 0x03 then
        if rest.length < 32 then .ub
        else
          let x := fpFromBytes (rest.take 32)
          let yHat := if b = 0x02 then 0 else 1
          match recoverY x yHat with
          | none => .ub
          | some none => .fail
          | some (some y) => if ecCheck ⟨x, y⟩ then .ok (⟨x, y⟩, 33) else .fail
      else .fail

/-- `N` (sm2p256v1.cpp 94), the group order in limbs. -/
def nLimbs : List W32 := setEpi8 nData

/-- `sm2_ec_j_dbl`. -/
abbrev jDbl (P : J) : Option J := ecJDbl fp P
/-- `sm2_ec_j_add`. -/
abbrev jAdd (P Q : J) : Option J := ecJAdd fp P Q
/-- `sm2_ec_j_add_a`. -/
abbrev jAddA (P : J) (Q : A) : J := ecJAddA fp P Q
/-- `sm2_ec_j_mul_a` (sm2p256v1.cpp 690-768). -/
def jMulA (k : List Byte) (P : A) : Option J := ecJMulA fp nLimbs k P
/-- `sm2_ec_j_mul_g` (sm2p256v1.cpp 770-776). -/
def jMulG (k : List Byte) : Option J := jMulA k ⟨fpFromBytes sm2CurveGx, fpFromBytes sm2CurveGy⟩
/-- `sm2_ec_j_to_a`. -/
abbrev jToA (P : J) : Option A := ecJToA fp P

end Sm2
end Verif
