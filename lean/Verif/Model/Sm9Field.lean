import Verif.Model.Sm2Ec
/-!
# The SM9 fields (src/sm9/sm9_field.cpp), default (32-bit limb) configuration

`sm9_fp2_t`, `sm9_fp4_t`, `sm9_fp12_t` are arrays of `sm9_fp_t`.  Their functions call nothing but the functions
of the level below, so each level is written over the record of the operations below it; `Sm9.fp` is the record of
the functions the library really uses.  `none` is an undefined or unending run of a base function.

In-place calls (`sm9_fp2_sqr(t, t)`, `sm9_fp12_mul(f, f, f0)`, ...) behave like calls with a fresh result: in every
function below no component of an input is read after the same component of the result has been written, except
where the new value is what the code means to read (modelled as a read of the new value).
-/
namespace Verif

/-- `sm9_fp2_t`: `c0 + c1 u` with `u² = -2` (sm9_field.h 20). -/
structure Fp2 (α : Type) where
  c0 : α
  c1 : α
deriving DecidableEq, Repr

/-- `sm9_fp4_t`: `c0 + c1 v` with `v² = u` (sm9_field.h 21). -/
structure Fp4 (α : Type) where
  c0 : Fp2 α
  c1 : Fp2 α
deriving DecidableEq, Repr

/-- `sm9_fp12_t`: `c0 + c1 w + c2 w²` with `w³ = v` (sm9_field.h 22). -/
structure Fp12 (α : Type) where
  c0 : Fp4 α
  c1 : Fp4 α
  c2 : Fp4 α
deriving DecidableEq, Repr

section
variable {α : Type} (F : FpOps α)

/-- `sm9_fp2_add` (sm9_field.cpp 507-511). -/
def fp2Add (a b : Fp2 α) : Fp2 α := ⟨F.add a.c0 b.c0, F.add a.c1 b.c1⟩
/-- `sm9_fp2_dbl` (sm9_field.cpp 513-517). -/
def fp2Dbl (a : Fp2 α) : Fp2 α := ⟨F.dbl a.c0, F.dbl a.c1⟩
/-- `sm9_fp2_tpl` (sm9_field.cpp 519-523). -/
def fp2Tpl (a : Fp2 α) : Option (Fp2 α) :=
  match F.tpl a.c0, F.tpl a.c1 with
  | some x, some y => some ⟨x, y⟩
  | _, _ => none
/-- `sm9_fp2_neg` (sm9_field.cpp 525-529). -/
def fp2Neg (a : Fp2 α) : Fp2 α := ⟨F.neg a.c0, F.neg a.c1⟩
/-- `sm9_fp2_sub` (sm9_field.cpp 531-535). -/
def fp2Sub (a b : Fp2 α) : Fp2 α := ⟨F.sub a.c0 b.c0, F.sub a.c1 b.c1⟩

/-- `sm9_fp2_mul` (sm9_field.cpp 537-553). -/
def fp2Mul (a b : Fp2 α) : Fp2 α :=
  let a0b0 := F.mul a.c0 b.c0
  let a1b1 := F.mul a.c1 b.c1
  let t := F.add a.c0 a.c1
  let r1 := F.add b.c0 b.c1
  let r1 := F.mul t r1
  let r1 := F.sub r1 a0b0
  let r1 := F.sub r1 a1b1
  let t := F.dbl a1b1
  let r0 := F.sub a0b0 t
  ⟨r0, r1⟩

/-- `sm9_fp2_mul_u` (sm9_field.cpp 555-562). -/
def fp2MulU (a : Fp2 α) : Fp2 α :=
  let t := F.dbl a.c1
  ⟨F.neg t, a.c0⟩

/-- `sm9_fp2_mul_fp` (sm9_field.cpp 564-568). -/
def fp2MulFp (a : Fp2 α) (b : α) : Fp2 α := ⟨F.mul a.c0 b, F.mul a.c1 b⟩

/-- `sm9_fp2_sqr` (sm9_field.cpp 570-584). -/
def fp2Sqr (a : Fp2 α) : Fp2 α :=
  let a0a0 := F.sqr a.c0
  let a1a1 := F.sqr a.c1
  let r1 := F.add a.c0 a.c1
  let r1 := F.sqr r1
  let r1 := F.sub r1 a0a0
  let r1 := F.sub r1 a1a1
  let a1a1 := F.dbl a1a1
  let r0 := F.sub a0a0 a1a1
  ⟨r0, r1⟩

/-- `sm9_fp2_inv` (sm9_field.cpp 586-600). -/
def fp2Inv (a : Fp2 α) : Option (Fp2 α) :=
  let t0 := F.sqr a.c0
  let t1 := F.sqr a.c1
  let t1 := F.dbl t1
  let t0 := F.add t0 t1
  match F.inv t0 with
  | none => none
  | some t0 =>
    let r0 := F.mul a.c0 t0
    let r1 := F.mul a.c1 t0
    some ⟨r0, F.neg r1⟩

/-- `sm9_fp2_equal` (sm9_field.cpp 480-483). -/
def fp2Eq (a b : Fp2 α) : Bool := F.eq a.c0 b.c0 && F.eq a.c1 b.c1
/-- `sm9_fp2_equal_zero` (sm9_field.cpp 485-488). -/
def fp2IsZero (a : Fp2 α) : Bool := F.isZero a.c0 && F.isZero a.c1

/-- The `sm9_fp2_*` functions as a record; `one`, `zero` are `sm9_fp2_set_one`, `sm9_fp2_set_zero`
(sm9_field.cpp 495-505). -/
def fp2Ops : FpOps (Fp2 α) where
  add := fp2Add F
  sub := fp2Sub F
  mul := fp2Mul F
  sqr := fp2Sqr F
  dbl := fp2Dbl F
  tpl := fp2Tpl F
  neg := fp2Neg F
  inv := fp2Inv F
  eq := fp2Eq F
  isZero := fp2IsZero F
  one := ⟨F.one, F.zero⟩
  zero := ⟨F.zero, F.zero⟩

/-- `sm9_fp4_add` (sm9_field.cpp 651-655). -/
def fp4Add (a b : Fp4 α) : Fp4 α := ⟨fp2Add F a.c0 b.c0, fp2Add F a.c1 b.c1⟩
/-- `sm9_fp4_neg` (sm9_field.cpp 657-661). -/
def fp4Neg (a : Fp4 α) : Fp4 α := ⟨fp2Neg F a.c0, fp2Neg F a.c1⟩
/-- `sm9_fp4_sub` (sm9_field.cpp 663-667). -/
def fp4Sub (a b : Fp4 α) : Fp4 α := ⟨fp2Sub F a.c0 b.c0, fp2Sub F a.c1 b.c1⟩

/-- `sm9_fp4_mul` (sm9_field.cpp 669-685). -/
def fp4Mul (a b : Fp4 α) : Fp4 α :=
  let a0b0 := fp2Mul F a.c0 b.c0
  let a1b1 := fp2Mul F a.c1 b.c1
  let t := fp2Add F a.c0 a.c1
  let r1 := fp2Add F b.c0 b.c1
  let r1 := fp2Mul F t r1
  let r1 := fp2Sub F r1 a0b0
  let r1 := fp2Sub F r1 a1b1
  let t := fp2MulU F a1b1
  let r0 := fp2Add F a0b0 t
  ⟨r0, r1⟩

/-- `sm9_fp4_mul_v` (sm9_field.cpp 687-694). -/
def fp4MulV (a : Fp4 α) : Fp4 α := ⟨fp2MulU F a.c1, a.c0⟩

/-- `sm9_fp4_mul_fp` (sm9_field.cpp 696-702). -/
def fp4MulFp (a : Fp4 α) (b : α) : Fp4 α :=
  ⟨⟨F.mul a.c0.c0 b, F.mul a.c0.c1 b⟩, ⟨F.mul a.c1.c0 b, F.mul a.c1.c1 b⟩⟩

/-- `sm9_fp4_mul_fp2` (sm9_field.cpp 704-708). -/
def fp4MulFp2 (a : Fp4 α) (b : Fp2 α) : Fp4 α := ⟨fp2Mul F a.c0 b, fp2Mul F a.c1 b⟩

/-- `sm9_fp4_sqr` (sm9_field.cpp 710-724). -/
def fp4Sqr (a : Fp4 α) : Fp4 α :=
  let a0a0 := fp2Sqr F a.c0
  let a1a1 := fp2Sqr F a.c1
  let r1 := fp2Add F a.c0 a.c1
  let r1 := fp2Sqr F r1
  let r1 := fp2Sub F r1 a0a0
  let r1 := fp2Sub F r1 a1a1
  let a1a1 := fp2MulU F a1a1
  let r0 := fp2Add F a0a0 a1a1
  ⟨r0, r1⟩

/-- `sm9_fp4_inv` (sm9_field.cpp 726-740). -/
def fp4Inv (a : Fp4 α) : Option (Fp4 α) :=
  let t0 := fp2Sqr F a.c0
  let t1 := fp2Sqr F a.c1
  let t1 := fp2MulU F t1
  let t0 := fp2Sub F t0 t1
  match fp2Inv F t0 with
  | none => none
  | some t0 =>
    let r0 := fp2Mul F a.c0 t0
    let r1 := fp2Mul F a.c1 t0
    some ⟨r0, fp2Neg F r1⟩

/-- `sm9_fp4_equal` (sm9_field.cpp 624-627). -/
def fp4Eq (a b : Fp4 α) : Bool := fp2Eq F a.c0 b.c0 && fp2Eq F a.c1 b.c1
/-- `sm9_fp4_equal_zero` (sm9_field.cpp 629-632). -/
def fp4IsZero (a : Fp4 α) : Bool := fp2IsZero F a.c0 && fp2IsZero F a.c1
/-- `sm9_fp4_set_zero` (sm9_field.cpp 639-643). -/
def fp4Zero : Fp4 α := ⟨(fp2Ops F).zero, (fp2Ops F).zero⟩
/-- `sm9_fp4_set_one` (sm9_field.cpp 645-649). -/
def fp4One : Fp4 α := ⟨(fp2Ops F).one, (fp2Ops F).zero⟩

/-- `sm9_fp12_equal` (sm9_field.cpp 767-771). -/
def fp12Eq (a b : Fp12 α) : Bool := fp4Eq F a.c0 b.c0 && fp4Eq F a.c1 b.c1 && fp4Eq F a.c2 b.c2
/-- `sm9_fp12_equal_zero` (sm9_field.cpp 773-777). -/
def fp12IsZero (a : Fp12 α) : Bool := fp4IsZero F a.c0 && fp4IsZero F a.c1 && fp4IsZero F a.c2
/-- `sm9_fp12_set_zero` (sm9_field.cpp 785-790). -/
def fp12Zero : Fp12 α := ⟨fp4Zero F, fp4Zero F, fp4Zero F⟩
/-- `sm9_fp12_set_one` (sm9_field.cpp 792-797). -/
def fp12One : Fp12 α := ⟨fp4One F, fp4Zero F, fp4Zero F⟩
/-- `sm9_fp12_add` (sm9_field.cpp 799-804). -/
def fp12Add (a b : Fp12 α) : Fp12 α := ⟨fp4Add F a.c0 b.c0, fp4Add F a.c1 b.c1, fp4Add F a.c2 b.c2⟩
/-- `sm9_fp12_neg` (sm9_field.cpp 806-811). -/
def fp12Neg (a : Fp12 α) : Fp12 α := ⟨fp4Neg F a.c0, fp4Neg F a.c1, fp4Neg F a.c2⟩
/-- `sm9_fp12_sub` (sm9_field.cpp 812-817). -/
def fp12Sub (a b : Fp12 α) : Fp12 α := ⟨fp4Sub F a.c0 b.c0, fp4Sub F a.c1 b.c1, fp4Sub F a.c2 b.c2⟩

/-- `sm9_fp12_mul` (sm9_field.cpp 819-858). -/
def fp12Mul (a b : Fp12 α) : Fp12 α :=
  let a0b0 := fp4Mul F a.c0 b.c0
  let a1b1 := fp4Mul F a.c1 b.c1
  let a2b2 := fp4Mul F a.c2 b.c2
  let a1_add_a2 := fp4Add F a.c1 a.c2
  let a0_add_a1 := fp4Add F a.c0 a.c1
  let a0_add_a2 := fp4Add F a.c0 a.c2
  let b1_add_b2 := fp4Add F b.c1 b.c2
  let b0_add_b1 := fp4Add F b.c0 b.c1
  let b0_add_b2 := fp4Add F b.c0 b.c2
  let r0 := fp4Mul F a1_add_a2 b1_add_b2
  let r0 := fp4Sub F r0 a1b1
  let r0 := fp4Sub F r0 a2b2
  let r0 := fp4MulV F r0
  let r0 := fp4Add F r0 a0b0
  let r2 := fp4Mul F a0_add_a2 b0_add_b2
  let r2 := fp4Sub F r2 a0b0
  let r2 := fp4Sub F r2 a2b2
  let r2 := fp4Add F r2 a1b1
  let r1 := fp4Mul F a0_add_a1 b0_add_b1
  let r1 := fp4Sub F r1 a0b0
  let r1 := fp4Sub F r1 a1b1
  let a2b2 := fp4MulV F a2b2
  let r1 := fp4Add F r1 a2b2
  ⟨r0, r1, r2⟩

/-- `sm9_fp12_mul_fp4` (sm9_field.cpp 860-867). -/
def fp12MulFp4 (a : Fp12 α) (b : Fp4 α) : Fp12 α := ⟨fp4Mul F a.c0 b, fp4Mul F a.c1 b, fp4Mul F a.c2 b⟩

/-- `sm9_fp12_sqr` (sm9_field.cpp 869-872). -/
def fp12Sqr (a : Fp12 α) : Fp12 α := fp12Mul F a a

/-- `sm9_fp12_inv` (sm9_field.cpp 874-908). -/
def fp12Inv (a : Fp12 α) : Option (Fp12 α) :=
  let A := fp4Sqr F a.c0
  let t0 := fp4Mul F a.c1 a.c2
  let t0 := fp4MulV F t0
  let A := fp4Sub F A t0
  let B := fp4Sqr F a.c2
  let B := fp4MulV F B
  let t0 := fp4Mul F a.c0 a.c1
  let B := fp4Sub F B t0
  let C := fp4Sqr F a.c1
  let t0 := fp4Mul F a.c0 a.c2
  let C := fp4Sub F C t0
  let t0 := fp4Mul F a.c1 C
  let t1 := fp4Mul F a.c2 B
  let t0 := fp4Add F t0 t1
  let t0 := fp4MulV F t0
  let t1 := fp4Mul F a.c0 A
  let t0 := fp4Add F t0 t1
  match fp4Inv F t0 with
  | none => none
  | some t0 => some ⟨fp4Mul F A t0, fp4Mul F B t0, fp4Mul F C t0⟩

/-- `lut_table` of `sm9_fp12_pow` (sm9_field.cpp 920-928): entry `j` is the power `j+2`. -/
def fp12Table (a : Fp12 α) : Nat → Fp12 α → List (Fp12 α)
  | 0, _ => []
  | n + 1, prev => prev :: fp12Table a n (fp12Mul F prev a)

/-- `(index == 1) ? a : lut_table[index - 2]` (sm9_field.cpp 934, 943, 949, 961, 970); `none` = out of bounds. -/
def fp12Sel (lut : List (Fp12 α)) (a : Fp12 α) (index : Nat) : Option (Fp12 α) :=
  if index = 1 then some a else if index < 2 then none else lut[index - 2]?

/-- `if (index != 0) sm9_fp12_mul(t, t, ...)`. -/
def fp12MulSel (lut : List (Fp12 α)) (a t : Fp12 α) (index : Nat) : Option (Fp12 α) :=
  if index ≠ 0 then (fp12Sel lut a index).map (fp12Mul F t) else some t

/-- Four squarings (sm9_field.cpp 936-939 etc.). -/
def fp12Sqr4 (t : Fp12 α) : Fp12 α := fp12Sqr F (fp12Sqr F (fp12Sqr F (fp12Sqr F t)))

/-- The main loop of `sm9_fp12_pow` (sm9_field.cpp 952-972). -/
def fp12PowLoop (lut : List (Fp12 α)) (a : Fp12 α) : List Byte → Fp12 α → Option (Fp12 α)
  | [], t => some t
  | e :: es, t => do
    let t ← fp12MulSel F lut a (fp12Sqr4 F t) (((e >>> 4) &&& 0xF#8).toNat)
    let t ← fp12MulSel F lut a (fp12Sqr4 F t) ((e &&& 0xF#8).toNat)
    fp12PowLoop lut a es t

/-- `sm9_fp12_pow` (sm9_field.cpp 910-974).  `e` is every octet readable from the pointer `e_u8` on: the search
`while (e_u8[i] == 0) i++` does not stop at 32.  `none` = a read outside the buffer. -/
def fp12Pow (a : Fp12 α) (e : List Byte) : Option (Fp12 α) :=
  if fp12IsZero F a then some (fp12Zero F)
  else
    let lut := fp12Table F a 14 (fp12Sqr F a)
    let i := (e.takeWhile (· == 0)).length
    match e[i]? with
    | none => none
    | some b => do
      let t ← if b > 0xF#8 then do
          let t ← fp12Sel lut a (((b >>> 4) &&& 0xF#8).toNat)
          fp12MulSel F lut a (fp12Sqr4 F t) ((b &&& 0xF#8).toNat)
        else fp12Sel lut a ((b &&& 0xF#8).toNat)
      fp12PowLoop F lut a ((e.take 32).drop (i + 1)) t

end

namespace Sm9

/-- `sm9_fp_*` (sm9_field.cpp 288-399): the Montgomery functions with the context `FP_MONT_CTX`. -/
def fp : FpOps (List W32) where
  add := mont256Add fpCtx
  sub := mont256Sub fpCtx
  mul := mont256Mul fpCtx
  sqr := mont256Sqr fpCtx
  dbl := mont256Dbl fpCtx
  tpl := mont256Tpl fpCtx
  neg := mont256Neg fpCtx
  inv := mont256Inv fpCtx
  eq := mont256Equal fpCtx
  isZero := mont256EqualZero fpCtx
  one := mont256SetOne fpCtx
  zero := u256Zero

/-- `sm9_fp_from_bytes` (sm9_field.cpp 402-405). -/
def fpFromBytes (bs : List Byte) : List W32 := mont256FromBytes fpCtx bs
/-- `sm9_fp_to_bytes` (sm9_field.cpp 407-410). -/
def fpToBytes (a : List W32) : List Byte := mont256ToBytes fpCtx a

/-- `sm9_fp_sqrt` (sm9_field.cpp 318-360).  Outer `none`: undefined run; inner `none`: return value -1 (the
result array is not written). -/
def fpSqrt (a : List W32) : Option (Option (List W32)) :=
  let neg1 := mont256Neg fpCtx (mont256SetOne fpCtx)
  match mont256Pow fpCtx a (setEpi8 uMul2Add1) with
  | none => none
  | some z =>
    if !mont256EqualOne fpCtx z && !mont256Equal fpCtx z neg1 then some none
    else
      match mont256Pow fpCtx a (setEpi8 uAdd1) with
      | none => none
      | some r =>
        if mont256Equal fpCtx z neg1 then
          let z := mont256FromBytes fpCtx twoPow2u1Data
          some (some (mont256Mul fpCtx r z))
        else some (some r)

/-- `sm9_fp2_to_bytes` (sm9_field.cpp 462-466). -/
def fp2ToBytes (a : Fp2 (List W32)) : List Byte := fpToBytes a.c1 ++ fpToBytes a.c0
/-- `sm9_fp2_from_bytes` (sm9_field.cpp 468-472) on 64 readable octets. -/
def fp2FromBytes (bs : List Byte) : Fp2 (List W32) := ⟨fpFromBytes ((bs.drop 32).take 32), fpFromBytes (bs.take 32)⟩
/-- `sm9_fp4_to_bytes` (sm9_field.cpp 606-610). -/
def fp4ToBytes (a : Fp4 (List W32)) : List Byte := fp2ToBytes a.c1 ++ fp2ToBytes a.c0
/-- `sm9_fp4_from_bytes` (sm9_field.cpp 612-616) on 128 readable octets. -/
def fp4FromBytes (bs : List Byte) : Fp4 (List W32) := ⟨fp2FromBytes ((bs.drop 64).take 64), fp2FromBytes (bs.take 64)⟩
/-- `sm9_fp12_to_bytes` (sm9_field.cpp 746-751). -/
def fp12ToBytes (a : Fp12 (List W32)) : List Byte := fp4ToBytes a.c2 ++ fp4ToBytes a.c1 ++ fp4ToBytes a.c0
/-- `sm9_fp12_from_bytes` (sm9_field.cpp 753-758) on 384 readable octets. -/
def fp12FromBytes (bs : List Byte) : Fp12 (List W32) :=
  ⟨fp4FromBytes ((bs.drop 256).take 128), fp4FromBytes ((bs.drop 128).take 128), fp4FromBytes (bs.take 128)⟩

end Sm9
end Verif
