import Verif.Model.Alias
import Verif.Model.Sm9Pairing
/-!
# Exponentiation, point multiplication and the pairing as programs on memory (mont256_common.cpp, sm2p256v1.cpp,
sm9_field.cpp)

As in `Verif.Model.Alias`, functions get addresses in one flat memory and keep their local variables on a stack from `L`
on.  Here are the functions with loops, and the functions that use parts of their results as scratch space.  Numbers that
are not operands of field functions (exponents, scalars, loop counters) are values: they live in local arrays of their
own, or are read before anything of the caller is written, as said at each definition.
-/
namespace Verif.PairMem
open Verif Verif.Alias Verif.Alias.Sym Verif.Alias.Nm

/-! ## Powers: `mont256_pow`, `sm9_fp12_pow`

Locals: `t` is `loc 0`, `lut_table[j]` is `loc (j + 1)`.  For a given exponent the calls form a list. -/

/-- `lut_table` (mont256_common.cpp 207-212, sm9_field.cpp 920-928). -/
def tabP : List Ins :=
  i1 sqr (loc 1) (A 0) :: (List.range 13).map fun j => i2 mul (loc (j + 2)) (loc (j + 1)) (A 0)

/-- `(index == 1) ? base : lut_table[index - 2]`; `none` = outside the table. -/
def selN (index : Nat) : Option Nm :=
  if index = 1 then some (A 0) else if index < 2 then none else if index < 16 then some (loc (index - 1)) else none

/-- `if (index != 0) _mul(t, t, …)`. -/
def mulSelP (index : Nat) : Option (List Ins) :=
  if index ≠ 0 then (selN index).map fun s => [i2 mul (loc 0) (loc 0) s] else some []

/-- Four times `_sqr(t, t)`. -/
def sqr4P : List Ins := List.replicate 4 (i1 sqr (loc 0) (loc 0))

/-- The first octet that is not zero (mont256_common.cpp 216-236, sm9_field.cpp 931-950). -/
def headP (b : Byte) : Option (List Ins) :=
  if b > 0xF#8 then
    match selN (((b >>> 4) &&& 0xF#8).toNat), mulSelP ((b &&& 0xF#8).toNat) with
    | some s, some q => some (i1 cpy (loc 0) s :: sqr4P ++ q)
    | _, _ => none
  else (selN ((b &&& 0xF#8).toNat)).map fun s => [i1 cpy (loc 0) s]

/-- The main loop (mont256_common.cpp 238-260, sm9_field.cpp 952-972). -/
def powLoopP : List Byte → Option (List Ins)
  | [] => some []
  | e :: es =>
    match mulSelP (((e >>> 4) &&& 0xF#8).toNat), mulSelP ((e &&& 0xF#8).toNat), powLoopP es with
    | some p, some q, some s => some (sqr4P ++ p ++ (sqr4P ++ q) ++ s)
    | _, _, _ => none

/-- From the search of the exponent on, up to the copy to the result. -/
def tailP (b : Byte) (es : List Byte) : Option (List Ins) :=
  match headP b, powLoopP es with
  | some h, some l => some (h ++ l ++ [i1 cpy (R 0) (loc 0)])
  | _, _ => none

/-- `sm9_fp12_pow` (sm9_field.cpp 910-974) over the functions `I` of `sm9_fp12_*`.  `e` is every octet readable from
`e_u8` on; it is not written by the calls before the last one. -/
def fp12Pow {β : Type} (I : Impl β) (e : List Byte) : MemOp β := fun L r a b m =>
  if I.isZero a m then I.op zero L r r r m
  else
    match exec I (L + 15 * I.size) (addr I.size L r a b) tabP m with
    | none => none
    | some m =>
      let i := (e.takeWhile (· == 0)).length
      match e[i]? with
      | none => none
      | some c =>
        match tailP c ((e.take 32).drop (i + 1)) with
        | none => none
        | some p => exec I (L + 15 * I.size) (addr I.size L r a b) p m

/-- `mont256_pow` (mont256_common.cpp 187-262, mont256_x64.cpp 243-318) over the functions `I` of `mont256_*`: `set1` is
`uint256_set_one`, `ez` says whether the exponent is zero, `eb` gives its octets, which are taken only after the table has
been computed. -/
def powOn {β : Type} (I : Impl β) (set1 : MemOp β) (ez : Mem β → Bool) (eb : Mem β → List Byte) : MemOp β :=
  fun L r a b m =>
  if I.isZero a m then I.op zero L r r r m
  else if ez m then set1 L r r r m
  else
    match exec I (L + 15 * I.size) (addr I.size L r a b) tabP m with
    | none => none
    | some m =>
      match (eb m).dropWhile (· == 0) with
      | [] => none
      | c :: es =>
        match tailP c es with
        | none => none
        | some p => exec I (L + 15 * I.size) (addr I.size L r a b) p m

/-! ## Square roots -/

/-- `sm9_fp_sqrt(r, a)` (sm9_field.cpp 318-360); locals `z` at `L`, `neg1` behind it.  `pow e` is `mont256_pow` with the
constant exponent of octets `e`, `isOne` is `mont256_equal_one`, `fb` is `mont256_from_bytes`.  The boolean is whether the
return value is 0. -/
def sqrt9 {β : Type} (I : Impl β) (pow : List Byte → MemOp β) (isOne : Nat → Mem β → Bool) (fb : List Byte → MemOp β)
    (L r a : Nat) (m : Mem β) : Option (Bool × Mem β) :=
  let z := L
  let neg1 := L + I.size
  let top := L + 2 * I.size
  match I.op one top neg1 neg1 neg1 m with
  | none => none
  | some m =>
    match I.op neg top neg1 neg1 neg1 m with
    | none => none
    | some m =>
      match pow Sm9.uMul2Add1 top z a a m with
      | none => none
      | some m =>
        if !isOne z m && !I.eq z neg1 m then some (false, m)
        else
          match pow Sm9.uAdd1 top r a a m with
          | none => none
          | some m =>
            if I.eq z neg1 m then
              match fb Sm9.twoPow2u1Data top z z z m with
              | none => none
              | some m => (I.op mul top r r z m).map fun m => (true, m)
            else some (true, m)

/-- `sm2_fp_sqrt(r, a)` (sm2p256v1.cpp 183-198); locals `t` at `L`, `t2` behind it. -/
def sqrt2 {β : Type} (I : Impl β) (pow : List Byte → MemOp β) (L r a : Nat) (m : Mem β) : Option (Bool × Mem β) :=
  let t := L
  let t2 := L + I.size
  let top := L + 2 * I.size
  match pow Sm2.pSub3Div4Add1 top t a a m with
  | none => none
  | some m =>
    match I.op sqr top t2 t t m with
    | none => none
    | some m =>
      if !I.eq a t2 m then some (false, m)
      else (I.op cpy top r t t m).map fun m => (true, m)

/-! ## Point multiplication -/

/-- `_cpy` of a Jacobian point (sm2p256v1.cpp 485-490; sm9_field.cpp 1090-1095, 1497-1502). -/
def ecJCpyP : List Ins := [i1 cpy (R 0) (A 0), i1 cpy (R 1) (A 1), i1 cpy (R 2) (A 2)]

section
variable {β : Type} (I : Impl β) (dblP : List Ins) (nd : Nat)

/-- The body of the loop (sm2p256v1.cpp 753-767; sm9_field.cpp 1326-1339, 1733-1746): `T` lies at `t`, `P_neg` at `q`;
`bits i` is the pair of bits `i` of `e` and `e3`, `none` outside the arrays. -/
def mulAStep (top t p q : Nat) (bits : Nat → Option (Bool × Bool)) (i : Nat) (m : Mem β) : Option (Mem β) :=
  match call I nd dblP top t t t m with
  | none => none
  | some m =>
    match bits i with
    | none => none
    | some (ei, e3i) =>
      if e3i = true ∧ ei = false then call I 9 addAP top t t p m
      else if e3i = false ∧ ei = true then call I 9 addAP top t t q m
      else some m

/-- `for (; i >= 1; i--)`. -/
def mulALoop (top t p q : Nat) (bits : Nat → Option (Bool × Bool)) : Nat → Mem β → Option (Mem β)
  | 0, m => some m
  | i + 1, m =>
    match mulAStep I dblP nd top t p q bits (i + 1) m with
    | none => none
    | some m => mulALoop top t p q bits i m

/-- The three ways to begin the loop (sm2p256v1.cpp 737-752; sm9_field.cpp 1310-1325, 1717-1732): `c` is the carry of `3e`,
`topBit` the result of the search for its top bit. -/
def mulAMid (top t p q : Nat) (bits : Nat → Option (Bool × Bool)) (c : CInt) (topBit : Option Nat) (m : Mem β) :
    Option (Mem β) :=
  if c = 1 then mulALoop I dblP nd top t p q bits 255 m
  else if c = 2 then
    match call I nd dblP top t t t m with
    | none => none
    | some m => mulALoop I dblP nd top t p q bits 255 m
  else
    match topBit with
    | none => none
    | some i => mulALoop I dblP nd top t p q bits (i - 1) m

/-- The function from the declaration of `T` on (sm2p256v1.cpp 730-768; sm9_field.cpp 1303-1341, 1710-1748): `T` at `L`,
`P_neg` behind it. -/
def mulABody (bits : Nat → Option (Bool × Bool)) (c : CInt) (topBit : Option Nat) : MemOp β := fun L r p _ m =>
  let k := I.size
  let q := L + 3 * k
  let top := L + 5 * k
  match call I 0 ecJFromAP top L p p m with
  | none => none
  | some m =>
    match call I 0 ecANegP top q p p m with
    | none => none
    | some m =>
      match mulAMid I dblP nd top L p q bits c topBit m with
      | none => none
      | some m => call I 0 ecJCpyP top r L L m

/-- `sm2_ec_j_mul_a`, `sm9_ec_j_mul_a`, `sm9_ec2_j_mul_a` (sm2p256v1.cpp 690-769; sm9_field.cpp 1289-1341, 1696-1748) on
32-bit limbs, for the octets `k` of the scalar, which are read in the first statement only; `e`, `e3` are local. -/
def mulA (n : List W32) (k : List Byte) : MemOp β := fun L r p b m =>
  let e := u256FromBytes k
  let e := if u256Cmp e n ≥ 0 then (u256SubBorrow e n).1 else e
  if u256EqualZero e then call I 0 ecJInfP L r r r m
  else
    let (e3, c) := u256TplCarry e
    let bits := fun i => match u256BitTest e i, u256BitTest e3 i with
      | some x, some y => some (x, y)
      | _, _ => none
    mulABody I dblP nd bits c (topBit e3 255) L r p b m
end

/-! ## The pairing -/

/-- A call of one of the functions `ι`. -/
structure GIns (ι : Type) where
  op : ι
  r : Nm
  a : Nm
  b : Nm

/-- Execute calls one after the other; the stack of the functions called begins at `top`. -/
def execG {β ι : Type} (ops : ι → MemOp β) (top : Nat) (e : Nm → Nat) : List (GIns ι) → Mem β → Option (Mem β)
  | [], m => some m
  | i :: p, m =>
    match ops i.op top (e i.r) (e i.a) (e i.b) m with
    | none => none
    | some m => execG ops top e p m

/-- A function with `n` local variables of size `k`. -/
def callG {β ι : Type} (ops : ι → MemOp β) (k n : Nat) (p : List (GIns ι)) : MemOp β :=
  fun L r a b m => execG ops (L + n * k) (addr k L r a b) p m

/-- What a build provides: the functions `sm9_fp_*`, and `sm9_fp_from_bytes` for the constants of the pairing. -/
structure Build (β : Type) where
  fp : Impl β
  fromBytes : List Byte → MemOp β

section
variable {β : Type} (B : Build β)

/-- `sm9_fp2_*`, `sm9_fp4_*`, `sm9_fp12_*` of the build. -/
def Build.fp2 : Impl β := Alias.fp2 B.fp
def Build.fp4 : Impl β := Alias.fp4 B.fp2
def Build.fp12 : Impl β := Alias.fp12 B.fp4
end

/-- The functions of the base field and the constants. -/
abbrev FOp := Sym ⊕ List Byte
def fOps {β : Type} (B : Build β) : FOp → MemOp β
  | .inl s => B.fp.op s
  | .inr bs => B.fromBytes bs

/-- Calls on elements of the base field.  An `sm9_fp2_t` is two of them, an `sm9_fp12_t` twelve; `c i` is the `i`-th one of
an object. -/
def f2 (o : Sym) (r a b : Nm) : GIns FOp := ⟨.inl o, r, a, b⟩
def fc (bs : List Byte) (r : Nm) : GIns FOp := ⟨.inr bs, r, r, r⟩

/-- `sm9_fp2_conjugate` (sm9_field.cpp 1821-1825). -/
def conj2P (c : Nat → Nm) (i : Nat) (d : Nat → Nm) (j : Nat) : List (GIns FOp) :=
  [f2 cpy (c i) (d j) (d j), f2 neg (c (i + 1)) (d (j + 1)) (d (j + 1))]
/-- `sm9_fp2_cpy`, `sm9_fp2_neg` (sm9_field.cpp 474-478, 525-529). -/
def un2P (o : Sym) (c : Nat → Nm) (i : Nat) (d : Nat → Nm) (j : Nat) : List (GIns FOp) :=
  [f2 o (c i) (d j) (d j), f2 o (c (i + 1)) (d (j + 1)) (d (j + 1))]
/-- `sm9_fp2_mul_fp` (sm9_field.cpp 564-568). -/
def mulFp2P (c : Nat → Nm) (i : Nat) (d : Nat → Nm) (j : Nat) (t : Nm) : List (GIns FOp) :=
  [f2 mul (c i) (d j) t, f2 mul (c (i + 1)) (d (j + 1)) t]
/-- `sm9_fp4_cpy`, `sm9_fp4_neg` (sm9_field.cpp 618-622, 657-661). -/
def un4P (o : Sym) (c : Nat → Nm) (i : Nat) (d : Nat → Nm) (j : Nat) : List (GIns FOp) :=
  un2P o c i d j ++ un2P o c (i + 2) d (j + 2)
/-- `sm9_fp4_mul_fp` (sm9_field.cpp 696-702). -/
def mulFp4P (c : Nat → Nm) (i : Nat) (d : Nat → Nm) (j : Nat) (t : Nm) : List (GIns FOp) :=
  mulFp2P c i d j t ++ mulFp2P c (i + 2) d (j + 2) t
/-- `sm9_fp4_conjugate` (sm9_field.cpp 2140-2144). -/
def conj4P (c : Nat → Nm) (i : Nat) (d : Nat → Nm) (j : Nat) : List (GIns FOp) :=
  un2P cpy c i d j ++ un2P neg c (i + 2) d (j + 2)

/-- The three copies to the result at the end of the maps below. -/
def outP : List (GIns FOp) := un4P cpy R 0 loc 0 ++ un4P cpy R 4 loc 4 ++ un4P cpy R 8 loc 8

/-- `sm9_fp12_frobenius` (sm9_field.cpp 2108-2138); locals `r1`, `r2`, `r3` (four elements each), `t`. -/
def frobP : List (GIns FOp) :=
  conj2P loc 0 A 0 ++ conj2P loc 2 A 2 ++ fc Sm9.sm9Alpha3Data (loc 12) :: mulFp2P loc 2 loc 2 (loc 12) ++
  (conj2P loc 4 A 4 ++ fc Sm9.sm9Alpha1Data (loc 12) :: mulFp2P loc 4 loc 4 (loc 12)) ++
  (conj2P loc 6 A 6 ++ fc Sm9.sm9Alpha4Data (loc 12) :: mulFp2P loc 6 loc 6 (loc 12)) ++
  (conj2P loc 8 A 8 ++ fc Sm9.sm9Alpha2Data (loc 12) :: mulFp2P loc 8 loc 8 (loc 12)) ++
  (conj2P loc 10 A 10 ++ fc Sm9.sm9Alpha5Data (loc 12) :: mulFp2P loc 10 loc 10 (loc 12)) ++ outP

/-- `sm9_fp12_frobenius2` (sm9_field.cpp 2146-2164); locals `a`, `b`, `c`, `t`. -/
def frob2P : List (GIns FOp) :=
  conj4P loc 0 A 0 ++ conj4P loc 4 A 4 ++ fc Sm9.sm9Alpha2Data (loc 12) :: mulFp4P loc 4 loc 4 (loc 12) ++
  (conj4P loc 8 A 8 ++ fc Sm9.sm9Alpha4Data (loc 12) :: mulFp4P loc 8 loc 8 (loc 12)) ++ outP

/-- `sm9_fp12_frobenius3` (sm9_field.cpp 2166-2192); locals `ra`, `rb`, `rc`, `SM9_BETA`. -/
def frob3P : List (GIns FOp) :=
  fc Sm9.sm9BetaData (loc 12) ::
  (conj2P loc 0 A 0 ++ conj2P loc 2 A 2 ++ mulFp2P loc 2 loc 2 (loc 12) ++ un2P neg loc 2 loc 2) ++
  (conj2P loc 4 A 4 ++ mulFp2P loc 4 loc 4 (loc 12) ++ conj2P loc 6 A 6) ++
  (conj2P loc 8 A 8 ++ un2P neg loc 8 loc 8 ++ conj2P loc 10 A 10 ++ mulFp2P loc 10 loc 10 (loc 12)) ++ outP

/-- `sm9_fp12_frobenius6` (sm9_field.cpp 2194-2212); locals `a`, `b`, `c`. -/
def frob6P : List (GIns FOp) :=
  un4P cpy loc 0 A 0 ++ un4P cpy loc 4 A 4 ++ un4P cpy loc 8 A 8 ++
  (conj4P loc 0 loc 0 ++ conj4P loc 4 loc 4 ++ un4P neg loc 4 loc 4 ++ conj4P loc 8 loc 8) ++ outP

/-- `sm9_ec2_j_frobenius_a` (sm9_field.cpp 1827-1844). -/
def frobAP : List (GIns FOp) :=
  conj2P R 0 A 0 ++ conj2P R 2 A 2 ++ [f2 zero (R 5) (R 5) (R 5), fc Sm9.cL1835 (R 4)]

/-- `sm9_ec2_j_frobenius2_a` (sm9_field.cpp 1846-1859). -/
def frob2AP : List (GIns FOp) :=
  un2P cpy R 0 A 0 ++ un2P cpy R 2 A 2 ++ [f2 zero (R 5) (R 5) (R 5), fc Sm9.cL1850 (R 4)]

/-- The functions `sm9_fp2_*` and the products with `xP` (`false`) and `yP` (`true`), the coordinates of the point at `p`. -/
abbrev LOp := Sym ⊕ Bool
def lOps {β : Type} (B : Build β) (p : Nat) : LOp → MemOp β
  | .inl s => B.fp2.op s
  | .inr j => fun L r a _ m => call B.fp 0 mulCompP L r a (if j then p + B.fp.size else p) m
def l2 (o : Sym) (r a b : Nm) : GIns LOp := ⟨.inl o, r, a, b⟩
def l1 (o : Sym) (r a : Nm) : GIns LOp := ⟨.inl o, r, a, a⟩
def l0 (o : Sym) (r : Nm) : GIns LOp := ⟨.inl o, r, r, r⟩
def lx (r a : Nm) : GIns LOp := ⟨.inr false, r, a, a⟩
def ly (r a : Nm) : GIns LOp := ⟨.inr true, r, a, a⟩

/-! In the line functions `R` is `f` (`f[0][0]` … `f[2][1]` are `R 0` … `R 5`), `A` is `T`, `B` is `Q`.  Their second result
`d` is `d0`, the last local variable of `sm9_pairing`: `d[0]` is `loc 0`, `d[1]` is `loc 1`.  So `a0`, `a1`, `a4`, `b1` are
`R 0`, `R 1`, `R 4`, `loc 1` and `t0`, `t1`, `t2`, `t3` are `R 2`, `R 3`, `R 5`, `loc 0`. -/

/-- `sm9_pairing_g_tangent_ja` (sm9_field.cpp 1861-1927). -/
def tangentP : List (GIns LOp) :=
  [l1 sqr (R 2) (A 2), l2 mul (R 3) (R 2) (A 2), l2 mul (loc 1) (R 3) (A 1), l1 dbl (loc 1) (loc 1),
   ly (R 5) (loc 1), l1 neg (R 1) (R 5),
   l1 sqr (R 3) (A 0), l2 mul (R 2) (R 2) (R 3), lx (R 2) (R 2), l1 tpl (R 4) (R 2),
   l2 mul (R 3) (R 3) (A 0), l1 tpl (R 3) (R 3), l1 sqr (R 2) (A 1), l1 dbl (R 2) (R 2), l2 sub (R 0) (R 2) (R 3),
   l0 zero (R 2), l0 zero (R 3), l0 zero (R 5)]

/-- `sm9_pairing_g_line_jja` (sm9_field.cpp 1930-2002). -/
def lineJP : List (GIns LOp) :=
  [l1 sqr (R 2) (B 2), l2 mul (R 3) (R 2) (A 0), l2 mul (R 2) (R 2) (B 2), l1 sqr (R 5) (A 2),
   l2 mul (loc 0) (R 5) (B 0), l2 mul (R 5) (R 5) (A 2), l2 mul (R 5) (R 5) (B 1), l2 sub (R 3) (R 3) (loc 0),
   l2 mul (R 3) (R 3) (A 2), l2 mul (R 3) (R 3) (B 2), l2 mul (loc 1) (R 3) (R 2), l2 mul (R 3) (R 3) (B 1),
   l2 mul (loc 0) (R 2) (A 1), l2 sub (loc 0) (loc 0) (R 5), l2 mul (R 2) (R 2) (loc 0), lx (R 2) (R 2),
   l1 cpy (R 4) (R 2), l2 mul (loc 0) (loc 0) (B 0), l2 mul (loc 0) (loc 0) (B 2), l2 sub (R 3) (R 3) (loc 0),
   l1 cpy (R 0) (R 3), ly (R 5) (loc 1), l1 neg (R 5) (R 5), l1 cpy (R 1) (R 5),
   l0 zero (R 2), l0 zero (R 3), l0 zero (R 5), l0 zero (loc 0)]

/-- `sm9_pairing_g_line_jaa` (sm9_field.cpp 2005-2069). -/
def lineAP : List (GIns LOp) :=
  [l1 sqr (R 5) (A 2), l2 mul (loc 0) (R 5) (B 0), l2 mul (R 5) (R 5) (A 2), l2 mul (R 5) (R 5) (B 1),
   l2 sub (R 3) (A 0) (loc 0),
   l2 mul (R 3) (R 3) (A 2), l1 cpy (loc 1) (R 3), l2 mul (R 3) (R 3) (B 1), l1 cpy (loc 0) (A 1),
   l2 sub (loc 0) (loc 0) (R 5), lx (R 2) (loc 0), l1 cpy (R 4) (R 2), l2 mul (loc 0) (loc 0) (B 0),
   l2 sub (R 3) (R 3) (loc 0), l1 cpy (R 0) (R 3), ly (R 5) (loc 1), l1 neg (R 5) (R 5), l1 cpy (R 1) (R 5),
   l0 zero (R 2), l0 zero (R 3), l0 zero (R 5), l0 zero (loc 0)]

/-- The functions of the final exponentiation: `sm9_fp12_*` and the powers and maps it uses. -/
inductive EOp where
  | f (s : Sym) | pow (e : List Byte) | frob | frob2 | frob3 | frob6

section
variable {β : Type} (B : Build β)

def eOps : EOp → MemOp β
  | .f s => B.fp12.op s
  | .pow e => fp12Pow B.fp12 e
  | .frob => callG (fOps B) B.fp.size 13 frobP
  | .frob2 => callG (fOps B) B.fp.size 13 frob2P
  | .frob3 => callG (fOps B) B.fp.size 13 frob3P
  | .frob6 => callG (fOps B) B.fp.size 12 frob6P
end

def e2 (o : Sym) (r a b : Nm) : GIns EOp := ⟨.f o, r, a, b⟩
def e1 (o : EOp) (r a : Nm) : GIns EOp := ⟨o, r, a, a⟩

/-- `sm9_pairing_final_exp_hard_part` (sm9_field.cpp 2214-2262); locals `t0` … `t4`. -/
def hardP : List (GIns EOp) :=
  [e1 (.pow Sm9.a3) (loc 0) (A 0), e1 (.f inv) (loc 0) (loc 0), e1 .frob (loc 1) (loc 0),
   e2 mul (loc 1) (loc 0) (loc 1), e2 mul (loc 0) (loc 0) (loc 1), e1 .frob (loc 2) (A 0),
   e2 mul (loc 3) (loc 2) (A 0),
   e1 (.f sqr) (loc 4) (loc 3), e1 (.f sqr) (loc 4) (loc 4), e1 (.f sqr) (loc 4) (loc 4),
   e2 mul (loc 3) (loc 4) (loc 3), e2 mul (loc 0) (loc 0) (loc 3),
   e1 (.f sqr) (loc 3) (A 0), e1 (.f sqr) (loc 3) (loc 3), e2 mul (loc 0) (loc 0) (loc 3),
   e1 (.f sqr) (loc 2) (loc 2), e2 mul (loc 2) (loc 2) (loc 1), e1 .frob2 (loc 1) (A 0),
   e2 mul (loc 1) (loc 1) (loc 2),
   e1 (.pow Sm9.a2) (loc 2) (loc 1), e2 mul (loc 0) (loc 2) (loc 0), e1 .frob3 (loc 1) (A 0),
   e2 mul (loc 1) (loc 1) (loc 0), e1 (.f cpy) (R 0) (loc 1)]

/-- The functions `sm9_pairing_final_exp` calls: those above and the hard part. -/
def xOps {β : Type} (B : Build β) : EOp ⊕ Unit → MemOp β
  | .inl o => eOps B o
  | .inr _ => callG (eOps B) B.fp12.size 5 hardP
def x2 (o : Sym) (r a b : Nm) : GIns (EOp ⊕ Unit) := ⟨.inl (.f o), r, a, b⟩
def x1 (o : EOp ⊕ Unit) (r a : Nm) : GIns (EOp ⊕ Unit) := ⟨o, r, a, a⟩

/-- `sm9_pairing_final_exp` (sm9_field.cpp 2267-2279); locals `t0`, `t1`. -/
def finalP : List (GIns (EOp ⊕ Unit)) :=
  [x1 (.inl .frob6) (loc 0) (A 0), x1 (.inl (.f inv)) (loc 1) (A 0), x2 mul (loc 0) (loc 0) (loc 1),
   x1 (.inl .frob2) (loc 1) (loc 0), x2 mul (loc 0) (loc 0) (loc 1), x1 (.inr ()) (loc 0) (loc 0),
   x1 (.inl (.f cpy)) (R 0) (loc 0)]

section
variable {β : Type} (B : Build β)

/-- `sm9_pairing_final_exp(r, f)`. -/
def finalExp : MemOp β := callG (xOps B) B.fp12.size 2 finalP

/-- The line functions `g(f, d, T, Q, P)`; `d` is at the stack pointer, see above. -/
def tangent (p : Nat) : MemOp β := callG (lOps B p) B.fp2.size 2 tangentP
def lineJ (p : Nat) : MemOp β := callG (lOps B p) B.fp2.size 2 lineJP
def lineA (p : Nat) : MemOp β := callG (lOps B p) B.fp2.size 2 lineAP

/-- The local variables of `sm9_pairing` (sm9_field.cpp 2287-2290) from `L` on, in elements of the base field: `T` (6),
the union `_Q` (6), `f` (12), `f0` (12), `d` (4), `d0` (4). -/
def vT (L : Nat) : Nat := L
def vQ (L : Nat) : Nat := L + 6 * B.fp.size
def vF (L : Nat) : Nat := L + 12 * B.fp.size
def vF0 (L : Nat) : Nat := L + 24 * B.fp.size
def vD (L : Nat) : Nat := L + 36 * B.fp.size
def vD0 (L : Nat) : Nat := L + 40 * B.fp.size
def vTop (L : Nat) : Nat := L + 44 * B.fp.size

/-- The body of the loop of `sm9_pairing` (sm9_field.cpp 2297-2319). -/
def millerStep (L p q : Nat) (c : Char) (m : Mem β) : Option (Mem β) := do
  let m ← B.fp12.op sqr (vTop B L) (vF B L) (vF B L) (vF B L) m
  let m ← tangent B p (vD0 B L) (vF0 B L) (vT L) (vT L) m
  let m ← B.fp12.op mul (vTop B L) (vF B L) (vF B L) (vF0 B L) m
  let m ← call B.fp2 6 sm9DblP (vTop B L) (vT L) (vT L) (vT L) m
  if c = '1' then
    let m ← lineA B p (vD0 B L) (vF0 B L) (vT L) q m
    let m ← B.fp12.op mul (vTop B L) (vF B L) (vF B L) (vF0 B L) m
    call B.fp2 9 addAP (vTop B L) (vT L) (vT L) q m
  else if c = '2' then
    let m ← lineA B p (vD0 B L) (vF0 B L) (vT L) (vQ B L) m
    let m ← B.fp12.op mul (vTop B L) (vF B L) (vF B L) (vF0 B L) m
    call B.fp2 9 addAP (vTop B L) (vT L) (vT L) (vQ B L) m
  else some m

/-- `for (int i = 1; i < naf_len; i++)` (sm9_field.cpp 2295-2320). -/
def millerLoop (L p q : Nat) : List Char → Mem β → Option (Mem β)
  | [], m => some m
  | c :: cs, m => do
    let m ← millerStep B L p q c m
    millerLoop L p q cs m

/-- `sm9_pairing(r, P, Q)` (sm9_field.cpp 2281-2333). -/
def pairing : MemOp β := fun L r p q m => do
  let m ← B.fp12.op one (vTop B L) (vF B L) (vF B L) (vF B L) m
  let m ← B.fp4.op one (vTop B L) (vD B L) (vD B L) (vD B L) m
  let m ← call B.fp2 0 ecJFromAP (vTop B L) (vT L) q q m
  let m ← call B.fp2 0 ecANegP (vTop B L) (vQ B L) q q m
  let m ← millerLoop B L p q Sm9.nafA m
  let m ← callG (fOps B) B.fp.size 0 frobAP (vTop B L) (vQ B L) q q m
  let m ← lineJ B p (vD0 B L) (vF0 B L) (vT L) (vQ B L) m
  let m ← B.fp12.op mul (vTop B L) (vF B L) (vF B L) (vF0 B L) m
  let m ← Alias.ecJAdd B.fp2 sm9DblP 6 (vTop B L) (vT L) (vT L) (vQ B L) m
  let m ← callG (fOps B) B.fp.size 0 frob2AP (vTop B L) (vQ B L) q q m
  let m ← call B.fp2 0 ecJNegP (vTop B L) (vQ B L) (vQ B L) (vQ B L) m
  let m ← lineJ B p (vD0 B L) (vF0 B L) (vT L) (vQ B L) m
  let m ← B.fp12.op mul (vTop B L) (vF B L) (vF B L) (vF0 B L) m
  finalExp B (vTop B L) r (vF B L) (vF B L) m

/-- `sm9_pairing_P1_Q(r, Q)` (sm9_field.cpp 2335-2341): `P1` is a local variable. -/
def pairingP1 : MemOp β := fun L r q _ m => do
  let k := B.fp.size
  let m ← B.fromBytes Sm9.sm9CurveGx (L + 2 * k) L L L m
  let m ← B.fromBytes Sm9.sm9CurveGy (L + 2 * k) (L + k) (L + k) (L + k) m
  pairing B (L + 2 * k) r L q m

/-- `sm9_fp2_from_bytes` (sm9_field.cpp 468-472): the second component first. -/
def fp2FromBytes (bs : List Byte) : MemOp β := fun L r _ _ m => do
  let m ← B.fromBytes (bs.take 32) L (r + B.fp.size) (r + B.fp.size) (r + B.fp.size) m
  B.fromBytes ((bs.drop 32).take 32) L r r r m

/-- `sm9_pairing_P_P2(r, P)` (sm9_field.cpp 2343-2349): `P2` is a local variable. -/
def pairingP2 : MemOp β := fun L r p _ m => do
  let k := B.fp.size
  let m ← fp2FromBytes B Sm9.sm9Curve2Gx (L + 4 * k) L L L m
  let m ← fp2FromBytes B Sm9.sm9Curve2Gy (L + 4 * k) (L + 2 * k) (L + 2 * k) (L + 2 * k) m
  pairing B (L + 4 * k) r p L m
end

/-! ## The portable build -/

/-- `mont256_from_bytes(r, bs)` (mont256_common.cpp 326-332): the limbs are stored, then converted in place, by a
multiplication with the constant `ctx->R_POW2` (65-70). -/
def memFromBytes (ctx : Mont256CTX) (bs : List Byte) : MemOp W32 := fun _ r _ _ m =>
  let m := memCpy r (.const (u256FromBytes bs)) m
  some (memRedc ctx r (u256Mul (rd8 m r) ctx.RPow2) m)

/-- `mont256_pow(ctx, r, a, x)` with 32-bit limbs; `x` reads the exponent. -/
def memPow (ctx : Mont256CTX) (x : Mem W32 → List W32) : MemOp W32 :=
  powOn (fpImpl ctx) (fun _ r _ _ m => some (memCpy r (.const u256One) m)) (fun m => u256EqualZero (x m))
    (fun m => u256ToBytes (x m))
/-- `mont256_pow(ctx, r, a, b)`: the exponent lies in memory at `b`. -/
def memPowAt (ctx : Mont256CTX) : MemOp W32 := fun L r a b m => memPow ctx (fun m => rd8 m b) L r a b m
/-- `mont256_inv(ctx, r, a)` (mont256_common.cpp 264-269). -/
def memInvP (ctx : Mont256CTX) : MemOp W32 := memPow ctx fun _ => ctx.PSub2

/-- The functions `sm9_fp_*` and constants with 32-bit limbs. -/
def build32 : Build W32 := ⟨sm9Fp, memFromBytes Sm9.fpCtx⟩

/-- `sm9_fp_sqrt`, `sm2_fp_sqrt` with 32-bit limbs. -/
def sm9Sqrt : Nat → Nat → Nat → Mem W32 → Option (Bool × Mem W32) :=
  sqrt9 sm9Fp (fun e => memPow Sm9.fpCtx fun _ => setEpi8 e) (fun x m => u256Equal (rd8 m x) Sm9.fpCtx.R)
    (memFromBytes Sm9.fpCtx)
def sm2Sqrt : Nat → Nat → Nat → Mem W32 → Option (Bool × Mem W32) :=
  sqrt2 sm2Fp fun e => memPow Sm2.fpCtx fun _ => setEpi8 e

end Verif.PairMem
