import Verif.Model.Sm9Ec
/-!
# The field and curve functions as programs on memory (sm2p256v1.cpp, sm9_field.cpp)

The other models of these functions return fresh values.  Here the same functions get what the C++ functions get:
addresses of the result and of the operands, which may coincide, in one flat memory.  Local variables live on a stack
that begins at `L`; everything the caller owns lies below `L`.

A function that calls nothing but functions of the level below is a list of instructions `op(r, a, b)`, one per call, in
the order of the code.  `Nm` names the operands of an instruction: local variable `i`, component `i` of the result
`R`, or component `i` of the first or second argument `A`, `B`.
-/
namespace Verif.Alias
open Verif

/-- Memory: an address to a cell (a limb, or a field element where limbs do not matter). -/
abbrev Mem (β : Type) := Nat → β

/-- A function `f(r, a, b)` on memory: stack pointer, the three addresses, the memory.  `none` is an undefined or unending
run. -/
abbrev MemOp (β : Type) := Nat → Nat → Nat → Nat → Mem β → Option (Mem β)

/-- The functions of a level: `_add`, `_sub`, `_mul`, `_sqr`, `_dbl`, `_tpl`, `_neg`, `_inv`, `_cpy`, `_set_one`,
`_set_zero`, and `sm9_fp2_mul_u` or `sm9_fp4_mul_v`. -/
inductive Sym where
  | add | sub | mul | sqr | dbl | tpl | neg | inv | cpy | one | zero | twist
  deriving DecidableEq, Repr

inductive Nm where
  | loc (i : Nat)
  | R (i : Nat)
  | A (i : Nat)
  | B (i : Nat)
  deriving DecidableEq, Repr

/-- One call; functions of one argument ignore `b`, `_set_one` and `_set_zero` ignore both. -/
structure Ins where
  op : Sym
  r : Nm
  a : Nm
  b : Nm

/-- What the code of a level offers to the level above: the size of an element in cells, the functions, and the
comparisons `_equal`, `_equal_zero`. -/
structure Impl (β : Type) where
  size : Nat
  op : Sym → MemOp β
  eq : Nat → Nat → Mem β → Bool
  isZero : Nat → Mem β → Bool

/-- Where the operands of an instruction are: components and local variables are consecutive elements. -/
def addr (k L r a b : Nat) : Nm → Nat
  | .loc i => L + i * k
  | .R i => r + i * k
  | .A i => a + i * k
  | .B i => b + i * k

/-- Execute the calls one after the other; the stack of the functions called begins at `top`. -/
def exec {β : Type} (I : Impl β) (top : Nat) (e : Nm → Nat) : List Ins → Mem β → Option (Mem β)
  | [], m => some m
  | i :: p, m =>
    match I.op i.op top (e i.r) (e i.a) (e i.b) m with
    | none => none
    | some m => exec I top e p m

/-- A function with `n` local variables and a straight body. -/
def call {β : Type} (I : Impl β) (n : Nat) (p : List Ins) : MemOp β :=
  fun L r a b m => exec I (L + n * I.size) (addr I.size L r a b) p m

/-- A call with two arguments, one argument, none. -/
def i2 (o : Sym) (r a b : Nm) : Ins := ⟨o, r, a, b⟩
def i1 (o : Sym) (r a : Nm) : Ins := ⟨o, r, a, a⟩
def i0 (o : Sym) (r : Nm) : Ins := ⟨o, r, r, r⟩

open Sym Nm

/-! ## Two components: `sm9_fp2_*` over `sm9_fp_*`, `sm9_fp4_*` over `sm9_fp2_*` -/

/-- `sm9_fp2_cpy`, `_add`, `_dbl`, `_tpl`, `_neg`, `_sub` (sm9_field.cpp 474-478, 507-535), `sm9_fp4_cpy`, `_add`, `_neg`,
`_sub` (618-622, 651-667): the same call for both components. -/
def both (o : Sym) : List Ins := [i2 o (R 0) (A 0) (B 0), i2 o (R 1) (A 1) (B 1)]

/-- `sm9_fp2_set_one`, `sm9_fp4_set_one` (sm9_field.cpp 501-505, 645-649). -/
def oneP : List Ins := [i0 one (R 0), i0 zero (R 1)]
/-- `sm9_fp2_set_zero`, `sm9_fp4_set_zero` (sm9_field.cpp 495-499, 639-643). -/
def zeroP : List Ins := [i0 zero (R 0), i0 zero (R 1)]

/-- `sm9_fp2_mul` (sm9_field.cpp 537-553); locals `a0b0`, `a1b1`, `t`. -/
def fp2MulP : List Ins :=
  [i2 mul (loc 0) (A 0) (B 0), i2 mul (loc 1) (A 1) (B 1),
   i2 add (loc 2) (A 0) (A 1), i2 add (R 1) (B 0) (B 1), i2 mul (R 1) (loc 2) (R 1),
   i2 sub (R 1) (R 1) (loc 0), i2 sub (R 1) (R 1) (loc 1),
   i1 dbl (loc 2) (loc 1), i2 sub (R 0) (loc 0) (loc 2)]

/-- `sm9_fp2_mul_u` (sm9_field.cpp 555-562); local `t`. -/
def fp2MulUP : List Ins := [i1 dbl (loc 0) (A 1), i1 cpy (R 1) (A 0), i1 neg (R 0) (loc 0)]

/-- `sm9_fp2_sqr` (sm9_field.cpp 570-584); locals `a0a0`, `a1a1`. -/
def fp2SqrP : List Ins :=
  [i1 sqr (loc 0) (A 0), i1 sqr (loc 1) (A 1),
   i2 add (R 1) (A 0) (A 1), i1 sqr (R 1) (R 1), i2 sub (R 1) (R 1) (loc 0), i2 sub (R 1) (R 1) (loc 1),
   i1 dbl (loc 1) (loc 1), i2 sub (R 0) (loc 0) (loc 1)]

/-- `sm9_fp2_inv` (sm9_field.cpp 586-600); locals `t0`, `t1`. -/
def fp2InvP : List Ins :=
  [i1 sqr (loc 0) (A 0), i1 sqr (loc 1) (A 1), i1 dbl (loc 1) (loc 1), i2 add (loc 0) (loc 0) (loc 1),
   i1 inv (loc 0) (loc 0),
   i2 mul (R 0) (A 0) (loc 0), i2 mul (R 1) (A 1) (loc 0), i1 neg (R 1) (R 1)]

/-- `sm9_fp2_*` over the functions `sm9_fp_*`; `_equal`, `_equal_zero` at 480-488. -/
def fp2 {β : Type} (I : Impl β) : Impl β where
  size := 2 * I.size
  op
    | add => call I 0 (both add)
    | sub => call I 0 (both sub)
    | dbl => call I 0 (both dbl)
    | tpl => call I 0 (both tpl)
    | neg => call I 0 (both neg)
    | cpy => call I 0 (both cpy)
    | one => call I 0 oneP
    | zero => call I 0 zeroP
    | mul => call I 3 fp2MulP
    | sqr => call I 2 fp2SqrP
    | inv => call I 2 fp2InvP
    | twist => call I 1 fp2MulUP
  eq x y m := I.eq x y m && I.eq (x + I.size) (y + I.size) m
  isZero x m := I.isZero x m && I.isZero (x + I.size) m

/-- `sm9_fp4_mul` (sm9_field.cpp 669-685); locals `a0b0`, `a1b1`, `t`. -/
def fp4MulP : List Ins :=
  [i2 mul (loc 0) (A 0) (B 0), i2 mul (loc 1) (A 1) (B 1),
   i2 add (loc 2) (A 0) (A 1), i2 add (R 1) (B 0) (B 1), i2 mul (R 1) (loc 2) (R 1),
   i2 sub (R 1) (R 1) (loc 0), i2 sub (R 1) (R 1) (loc 1),
   i1 twist (loc 2) (loc 1), i2 add (R 0) (loc 0) (loc 2)]

/-- `sm9_fp4_mul_v` (sm9_field.cpp 687-694); local `t`. -/
def fp4MulVP : List Ins := [i1 twist (loc 0) (A 1), i1 cpy (R 1) (A 0), i1 cpy (R 0) (loc 0)]

/-- `sm9_fp4_sqr` (sm9_field.cpp 710-724); locals `a0a0`, `a1a1`. -/
def fp4SqrP : List Ins :=
  [i1 sqr (loc 0) (A 0), i1 sqr (loc 1) (A 1),
   i2 add (R 1) (A 0) (A 1), i1 sqr (R 1) (R 1), i2 sub (R 1) (R 1) (loc 0), i2 sub (R 1) (R 1) (loc 1),
   i1 twist (loc 1) (loc 1), i2 add (R 0) (loc 0) (loc 1)]

/-- `sm9_fp4_inv` (sm9_field.cpp 726-740); locals `t0`, `t1`. -/
def fp4InvP : List Ins :=
  [i1 sqr (loc 0) (A 0), i1 sqr (loc 1) (A 1), i1 twist (loc 1) (loc 1), i2 sub (loc 0) (loc 0) (loc 1),
   i1 inv (loc 0) (loc 0),
   i2 mul (R 0) (A 0) (loc 0), i2 mul (R 1) (A 1) (loc 0), i1 neg (R 1) (R 1)]

/-- `sm9_fp4_*` over the functions `sm9_fp2_*`; there is no `sm9_fp4_dbl` or `sm9_fp4_tpl`. -/
def fp4 {β : Type} (I : Impl β) : Impl β where
  size := 2 * I.size
  op
    | add => call I 0 (both add)
    | sub => call I 0 (both sub)
    | dbl => fun _ _ _ _ _ => none
    | tpl => fun _ _ _ _ _ => none
    | neg => call I 0 (both neg)
    | cpy => call I 0 (both cpy)
    | one => call I 0 oneP
    | zero => call I 0 zeroP
    | mul => call I 3 fp4MulP
    | sqr => call I 2 fp4SqrP
    | inv => call I 2 fp4InvP
    | twist => call I 1 fp4MulVP
  eq x y m := I.eq x y m && I.eq (x + I.size) (y + I.size) m
  isZero x m := I.isZero x m && I.isZero (x + I.size) m

/-! ## Three components: `sm9_fp12_*` over `sm9_fp4_*` -/

/-- `sm9_fp12_cpy`, `_add`, `_neg`, `_sub` (sm9_field.cpp 760-765, 799-817). -/
def three (o : Sym) : List Ins := both o ++ [i2 o (R 2) (A 2) (B 2)]

/-- `sm9_fp12_mul` (sm9_field.cpp 819-858); locals `a0b0`, `a1b1`, `a2b2`, `a1_add_a2`, `a0_add_a1`, `a0_add_a2`,
`b1_add_b2`, `b0_add_b1`, `b0_add_b2`. -/
def fp12MulP : List Ins :=
  [i2 mul (loc 0) (A 0) (B 0), i2 mul (loc 1) (A 1) (B 1), i2 mul (loc 2) (A 2) (B 2),
   i2 add (loc 3) (A 1) (A 2), i2 add (loc 4) (A 0) (A 1), i2 add (loc 5) (A 0) (A 2),
   i2 add (loc 6) (B 1) (B 2), i2 add (loc 7) (B 0) (B 1), i2 add (loc 8) (B 0) (B 2),
   i2 mul (R 0) (loc 3) (loc 6), i2 sub (R 0) (R 0) (loc 1), i2 sub (R 0) (R 0) (loc 2), i1 twist (R 0) (R 0),
   i2 add (R 0) (R 0) (loc 0),
   i2 mul (R 2) (loc 5) (loc 8), i2 sub (R 2) (R 2) (loc 0), i2 sub (R 2) (R 2) (loc 2), i2 add (R 2) (R 2) (loc 1),
   i2 mul (R 1) (loc 4) (loc 7), i2 sub (R 1) (R 1) (loc 0), i2 sub (R 1) (R 1) (loc 1), i1 twist (loc 2) (loc 2),
   i2 add (R 1) (R 1) (loc 2)]

/-- `sm9_fp12_sqr` (sm9_field.cpp 869-872). -/
def fp12Sqr {β : Type} (I : Impl β) : MemOp β := fun L r a _ m => call I 9 fp12MulP L r a a m

/-- `sm9_fp12_inv` (sm9_field.cpp 874-908); locals `A`, `B`, `C`, `t0`, `t1`. -/
def fp12InvP : List Ins :=
  [i1 sqr (loc 0) (A 0), i2 mul (loc 3) (A 1) (A 2), i1 twist (loc 3) (loc 3), i2 sub (loc 0) (loc 0) (loc 3),
   i1 sqr (loc 1) (A 2), i1 twist (loc 1) (loc 1), i2 mul (loc 3) (A 0) (A 1), i2 sub (loc 1) (loc 1) (loc 3),
   i1 sqr (loc 2) (A 1), i2 mul (loc 3) (A 0) (A 2), i2 sub (loc 2) (loc 2) (loc 3),
   i2 mul (loc 3) (A 1) (loc 2), i2 mul (loc 4) (A 2) (loc 1), i2 add (loc 3) (loc 3) (loc 4), i1 twist (loc 3) (loc 3),
   i2 mul (loc 4) (A 0) (loc 0), i2 add (loc 3) (loc 3) (loc 4),
   i1 inv (loc 3) (loc 3),
   i2 mul (R 0) (loc 0) (loc 3), i2 mul (R 1) (loc 1) (loc 3), i2 mul (R 2) (loc 2) (loc 3)]

/-- `sm9_fp12_*` over the functions `sm9_fp4_*`. -/
def fp12 {β : Type} (I : Impl β) : Impl β where
  size := 3 * I.size
  op
    | add => call I 0 (three add)
    | sub => call I 0 (three sub)
    | dbl => fun _ _ _ _ _ => none
    | tpl => fun _ _ _ _ _ => none
    | neg => call I 0 (three neg)
    | cpy => call I 0 (three cpy)
    | one => call I 0 (oneP ++ [i0 zero (R 2)])
    | zero => call I 0 (zeroP ++ [i0 zero (R 2)])
    | mul => call I 9 fp12MulP
    | sqr => fp12Sqr I
    | inv => call I 5 fp12InvP
    | twist => fun _ _ _ _ _ => none
  eq x y m := I.eq x y m && I.eq (x + I.size) (y + I.size) m && I.eq (x + 2 * I.size) (y + 2 * I.size) m
  isZero x m := I.isZero x m && I.isZero (x + I.size) m && I.isZero (x + 2 * I.size) m

/-! ## Points -/

/-- `sm2_ec_a_neg`, `sm9_ec_a_neg`, `sm9_ec2_a_neg` (sm2p256v1.cpp 390-394; sm9_field.cpp 998-1002, 1433-1437). -/
def ecANegP : List Ins := [i1 cpy (R 0) (A 0), i1 neg (R 1) (A 1)]

/-- `sm2_ec_j_neg`, `sm9_ec_j_neg`, `sm9_ec2_j_neg` (sm2p256v1.cpp 505-510; sm9_field.cpp 1110-1115, 1517-1522). -/
def ecJNegP : List Ins := [i1 cpy (R 0) (A 0), i1 neg (R 1) (A 1), i1 cpy (R 2) (A 2)]

/-- `sm2_ec_j_set_inf`, `sm9_ec_j_set_inf`, `sm9_ec2_j_set_inf` (sm2p256v1.cpp 497-503; sm9_field.cpp 1102-1108,
1509-1515). -/
def ecJInfP : List Ins := [i0 one (R 0), i0 one (R 1), i0 zero (R 2)]

/-- `sm2_ec_j_from_a` and the SM9 functions (sm2p256v1.cpp 778-783; sm9_field.cpp 1351-1356, 1758-1763). -/
def ecJFromAP : List Ins := [i1 cpy (R 0) (A 0), i1 cpy (R 1) (A 1), i0 one (R 2)]

/-- `sm2_ec_j_to_a` and the SM9 functions (sm2p256v1.cpp 785-794; sm9_field.cpp 1358-1367, 1765-1774); locals `inv2`,
`inv3`. -/
def ecJToAP : List Ins :=
  [i1 inv (loc 1) (A 2), i1 sqr (loc 0) (loc 1), i2 mul (loc 1) (loc 1) (loc 0),
   i2 mul (R 0) (A 0) (loc 0), i2 mul (R 1) (A 1) (loc 1)]

/-- `sm2_ec_j_normal` and the SM9 functions (sm2p256v1.cpp 796-811; sm9_field.cpp 1369-1384, 1776-1791). -/
def ecJNormal {β : Type} (I : Impl β) : MemOp β := fun L r a b m =>
  if I.isZero (a + 2 * I.size) m then call I 0 ecJInfP L r a b m
  else call I 2 (ecJToAP ++ [i0 one (R 2)]) L r a b m

/-- `sm2_ec_j_dbl` (sm2p256v1.cpp 640-688); locals `delta`, `gamma`, `beta`, `alpha`. -/
def sm2DblP : List Ins :=
  [i1 sqr (loc 0) (A 2), i1 sqr (loc 1) (A 1),
   i2 sub (loc 3) (A 0) (loc 0), i2 add (loc 2) (A 0) (loc 0), i2 mul (loc 3) (loc 3) (loc 2), i1 tpl (loc 3) (loc 3),
   i2 mul (loc 2) (A 0) (loc 1),
   i1 sqr (R 0) (loc 3), i1 dbl (loc 2) (loc 2), i1 dbl (loc 2) (loc 2), i2 sub (R 0) (R 0) (loc 2),
   i2 sub (R 0) (R 0) (loc 2),
   i2 add (R 2) (A 1) (A 2), i1 sqr (R 2) (R 2), i2 sub (R 2) (R 2) (loc 1), i2 sub (R 2) (R 2) (loc 0),
   i2 sub (R 1) (loc 2) (R 0), i2 mul (R 1) (R 1) (loc 3), i1 dbl (loc 1) (loc 1), i1 sqr (loc 1) (loc 1),
   i1 dbl (loc 1) (loc 1), i2 sub (R 1) (R 1) (loc 1)]

/-- `sm9_ec_j_dbl`, `sm9_ec2_j_dbl` (sm9_field.cpp 1243-1287, 1650-1694); locals `A`, `B`, `C`, `D`, `E`, `F`. -/
def sm9DblP : List Ins :=
  [i1 sqr (loc 0) (A 0), i1 sqr (loc 1) (A 1), i1 sqr (loc 2) (loc 1),
   i2 add (loc 3) (A 0) (loc 1), i1 sqr (loc 3) (loc 3), i2 sub (loc 3) (loc 3) (loc 0), i2 sub (loc 3) (loc 3) (loc 2),
   i1 dbl (loc 3) (loc 3), i1 tpl (loc 4) (loc 0), i1 sqr (loc 5) (loc 4),
   i2 sub (R 0) (loc 5) (loc 3), i2 sub (R 0) (R 0) (loc 3),
   i2 mul (R 2) (A 1) (A 2), i1 dbl (R 2) (R 2),
   i2 sub (R 1) (loc 3) (R 0), i2 mul (R 1) (R 1) (loc 4), i1 dbl (loc 2) (loc 2), i1 dbl (loc 2) (loc 2),
   i1 dbl (loc 2) (loc 2), i2 sub (R 1) (R 1) (loc 2)]

/-- The common prefix of `sm2_ec_j_add`, `sm9_ec_j_add`, `sm9_ec2_j_add` (sm2p256v1.cpp 527-535; sm9_field.cpp 1132-1139,
1539-1546); locals `Z1Z1`, `Z2Z2`, `U1`, `U2`, `S1`, `S2`, `H`, `I`, `J`, `r`, `V`. -/
def addP1 : List Ins :=
  [i1 sqr (loc 0) (A 2), i1 sqr (loc 1) (B 2), i2 mul (loc 2) (A 0) (loc 1), i2 mul (loc 3) (B 0) (loc 0),
   i2 mul (loc 4) (A 1) (B 2), i2 mul (loc 4) (loc 4) (loc 1), i2 mul (loc 5) (B 1) (A 2),
   i2 mul (loc 5) (loc 5) (loc 0)]

/-- The rest of these functions when the points have different `x` (sm2p256v1.cpp 550-574; sm9_field.cpp 1154-1178,
1561-1585). -/
def addP2 : List Ins :=
  [i2 sub (loc 6) (loc 3) (loc 2), i1 dbl (loc 7) (loc 6), i1 sqr (loc 7) (loc 7), i2 mul (loc 8) (loc 6) (loc 7),
   i2 sub (loc 9) (loc 5) (loc 4), i1 dbl (loc 9) (loc 9), i2 mul (loc 10) (loc 2) (loc 7),
   i1 sqr (R 0) (loc 9), i2 sub (R 0) (R 0) (loc 8), i2 sub (R 0) (R 0) (loc 10), i2 sub (R 0) (R 0) (loc 10),
   i2 sub (R 1) (loc 10) (R 0), i2 mul (R 1) (R 1) (loc 9), i2 mul (loc 10) (loc 4) (loc 8), i1 dbl (loc 10) (loc 10),
   i2 sub (R 1) (R 1) (loc 10),
   i2 add (R 2) (A 2) (B 2), i1 sqr (R 2) (R 2), i2 sub (R 2) (R 2) (loc 0), i2 sub (R 2) (R 2) (loc 1),
   i2 mul (R 2) (R 2) (loc 6)]

/-- `sm2_ec_j_add`, `sm9_ec_j_add`, `sm9_ec2_j_add` (sm2p256v1.cpp 512-584; sm9_field.cpp 1117-1188, 1524-1595), with the
doubling function of the curve and the number of its local variables. -/
def ecJAdd {β : Type} (I : Impl β) (dblP : List Ins) (nd : Nat) : MemOp β := fun L r a b m =>
  let k := I.size
  let top := L + 11 * k
  let e := addr k L r a b
  match exec I top e addP1 m with
  | none => none
  | some m =>
    if I.eq (e (loc 2)) (e (loc 3)) m then
      if I.eq (e (loc 4)) (e (loc 5)) m then call I nd dblP top r a a m
      else call I 0 ecJInfP top r r r m
    else exec I top e addP2 m

/-- `sm2_ec_j_add_a`, `sm9_ec_j_add_a`, `sm9_ec2_j_add_a` (sm2p256v1.cpp 586-638; sm9_field.cpp 1190-1241, 1597-1648);
locals `Z1Z1`, `U2`, `S2`, `H`, `HH`, `I`, `J`, `r`, `V`. -/
def addAP : List Ins :=
  [i1 sqr (loc 0) (A 2), i2 mul (loc 1) (B 0) (loc 0), i2 mul (loc 2) (B 1) (A 2), i2 mul (loc 2) (loc 2) (loc 0),
   i2 sub (loc 3) (loc 1) (A 0), i1 sqr (loc 4) (loc 3), i1 dbl (loc 5) (loc 4), i1 dbl (loc 5) (loc 5),
   i2 mul (loc 6) (loc 3) (loc 5), i2 sub (loc 7) (loc 2) (A 1), i1 dbl (loc 7) (loc 7), i2 mul (loc 8) (A 0) (loc 5),
   i1 sqr (R 0) (loc 7), i2 sub (R 0) (R 0) (loc 6), i2 sub (R 0) (R 0) (loc 8), i2 sub (R 0) (R 0) (loc 8),
   i2 sub (loc 8) (loc 8) (R 0), i2 mul (loc 8) (loc 7) (loc 8), i2 mul (R 1) (A 1) (loc 6), i1 dbl (R 1) (R 1),
   i2 sub (R 1) (loc 8) (R 1),
   i2 add (R 2) (A 2) (loc 3), i1 sqr (R 2) (R 2), i2 sub (R 2) (R 2) (loc 0), i2 sub (R 2) (R 2) (loc 4)]

/-- `sm9_fp2_mul_fp`, `sm9_fp4_mul_fp2` (sm9_field.cpp 564-568, 704-708): `b` is one component long. -/
def mulCompP : List Ins := [i2 mul (R 0) (A 0) (B 0), i2 mul (R 1) (A 1) (B 0)]

/-- `sm9_fp4_mul_fp` (sm9_field.cpp 696-702), over the base field: four components. -/
def fp4MulFpP : List Ins := mulCompP ++ [i2 mul (R 2) (A 2) (B 0), i2 mul (R 3) (A 3) (B 0)]

/-- `sm9_fp12_mul_fp4` (sm9_field.cpp 860-867). -/
def fp12MulFp4P : List Ins := mulCompP ++ [i2 mul (R 2) (A 2) (B 0)]

/-! ## The functions on values that the functions on memory are compared with

`rd2` … `rdJ` say how elements and points lie in memory, `fnF` … `fn12` which function of the value-level models
(`Verif.Model.Sm9Field`, `Verif.Model.Sm2Ec`) belongs to which `Sym`. -/

/-- Elements of two or three components, and points, as they lie in memory. -/
def rd2 {β α : Type} (k : Nat) (rd : Mem β → Nat → α) (m : Mem β) (a : Nat) : Fp2 α := ⟨rd m a, rd m (a + k)⟩
def rd4 {β α : Type} (k : Nat) (rd : Mem β → Nat → Fp2 α) (m : Mem β) (a : Nat) : Fp4 α := ⟨rd m a, rd m (a + k)⟩
def rd12 {β α : Type} (k : Nat) (rd : Mem β → Nat → Fp4 α) (m : Mem β) (a : Nat) : Fp12 α :=
  ⟨rd m a, rd m (a + k), rd m (a + 2 * k)⟩
def rdA {β α : Type} (k : Nat) (rd : Mem β → Nat → α) (m : Mem β) (a : Nat) : EcA α := ⟨rd m a, rd m (a + k)⟩
def rdJ {β α : Type} (k : Nat) (rd : Mem β → Nat → α) (m : Mem β) (a : Nat) : EcJ α :=
  ⟨rd m a, rd m (a + k), rd m (a + 2 * k)⟩

/-- The functions of a record, with `_cpy` and a function for `twist`. -/
def fnF {α : Type} (F : FpOps α) (tw : α → Option α) : Sym → α → α → Option α
  | .add, a, b => some (F.add a b)
  | .sub, a, b => some (F.sub a b)
  | .mul, a, b => some (F.mul a b)
  | .sqr, a, _ => some (F.sqr a)
  | .dbl, a, _ => some (F.dbl a)
  | .tpl, a, _ => F.tpl a
  | .neg, a, _ => some (F.neg a)
  | .inv, a, _ => F.inv a
  | .cpy, a, _ => some a
  | .one, _, _ => some F.one
  | .zero, _, _ => some F.zero
  | .twist, a, _ => tw a

/-- The functions `sm9_fp4_*`. -/
def fn4 {α : Type} (F : FpOps α) : Sym → Fp4 α → Fp4 α → Option (Fp4 α)
  | .add, a, b => some (fp4Add F a b)
  | .sub, a, b => some (fp4Sub F a b)
  | .mul, a, b => some (fp4Mul F a b)
  | .sqr, a, _ => some (fp4Sqr F a)
  | .dbl, _, _ => none
  | .tpl, _, _ => none
  | .neg, a, _ => some (fp4Neg F a)
  | .inv, a, _ => fp4Inv F a
  | .cpy, a, _ => some a
  | .one, _, _ => some (fp4One F)
  | .zero, _, _ => some (fp4Zero F)
  | .twist, a, _ => some (fp4MulV F a)

/-- The functions `sm9_fp2_*` as seen by the level above. -/
abbrev fn2 {α : Type} (F : FpOps α) : Sym → Fp2 α → Fp2 α → Option (Fp2 α) := fnF (fp2Ops F) fun a => some (fp2MulU F a)

/-- The functions `sm9_fp12_*`. -/
def fn12 {α : Type} (F : FpOps α) : Sym → Fp12 α → Fp12 α → Option (Fp12 α)
  | .add, a, b => some (fp12Add F a b)
  | .sub, a, b => some (fp12Sub F a b)
  | .mul, a, b => some (fp12Mul F a b)
  | .sqr, a, _ => some (Verif.fp12Sqr F a)
  | .dbl, _, _ => none
  | .tpl, _, _ => none
  | .neg, a, _ => some (fp12Neg F a)
  | .inv, a, _ => fp12Inv F a
  | .cpy, a, _ => some a
  | .one, _, _ => some (fp12One F)
  | .zero, _, _ => some (fp12Zero F)
  | .twist, _, _ => none

/-! ## Limbs: `mont256_*` on a memory of 32-bit words (mont256_common.cpp, uint256_common.cpp) -/

/-- An operand: eight words in memory, or a constant array of the context (`ctx->P`, `ctx->R`), which the caller does
not own. -/
inductive Src where
  | mem (a : Nat)
  | const (l : List W32)

/-- Word `i` of an operand. -/
def Src.get (m : Mem W32) : Src → Nat → W32
  | .mem a, i => m (a + i)
  | .const l, i => l.getD i 0

/-- Store a word. -/
def upd (m : Mem W32) (x : Nat) (v : W32) : Mem W32 := fun y => if y = x then v else m y

/-- `n` words from address `a` on, and eight of them: an element of the field as the value-level functions take it. -/
def rdN : Nat → Mem W32 → Nat → List W32
  | 0, _, _ => []
  | n + 1, m, a => m a :: rdN n m (a + 1)
def rd8 (m : Mem W32) (a : Nat) : List W32 := rdN 8 m a

/-- The unrolled bodies of `uint256_add_carry`, `_sub_borrow`, `_dbl_carry`, `_tpl_carry` (uint256_common.cpp 96-156): for
`i = i .. i + n` read limb `i` of both operands, store limb `i` of the result, hand the carry on. -/
def ripple (step : W32 → W32 → CInt → W32 × CInt) (r : Nat) (a b : Src) : Nat → Nat → CInt → Mem W32 → Mem W32 × CInt
  | 0, _, c, m => (m, c)
  | n + 1, i, c, m =>
    let (v, c) := step (a.get m i) (b.get m i) c
    ripple step r a b n (i + 1) c (upd m (r + i) v)

/-- `uint256_add_carry` (uint256_common.cpp 96-110). -/
def memAddCarry (r : Nat) (a b : Src) (m : Mem W32) : Mem W32 × CInt := ripple addCarry r a b 8 0 0 m
/-- `uint256_sub_borrow` (uint256_common.cpp 112-126). -/
def memSubBorrow (r : Nat) (a b : Src) (m : Mem W32) : Mem W32 × CInt := ripple subBorrow r a b 8 0 0 m
/-- `uint256_dbl_carry` (uint256_common.cpp 128-141). -/
def memDblCarry (r : Nat) (a : Src) (m : Mem W32) : Mem W32 × CInt := ripple (fun x _ c => dblCarry x c) r a a 8 0 0 m
/-- `uint256_tpl_carry` (uint256_common.cpp 143-156). -/
def memTplCarry (r : Nat) (a : Src) (m : Mem W32) : Mem W32 × CInt := ripple (fun x _ c => tplCarry x c) r a a 8 0 0 m
/-- `uint256_cpy` (uint256_common.cpp 444-448) and, with a constant, `uint256_set_zero` (450-453). -/
def memCpy (r : Nat) (a : Src) (m : Mem W32) : Mem W32 := (ripple (fun x _ c => (x, c)) r a a 8 0 0 m).1

/-- `uint256_mod_add` behind `mont256_add` (uint256_common.cpp 315-325, mont256_common.cpp 87-98). -/
def memAdd (ctx : Mont256CTX) : MemOp W32 := fun _ r a b m =>
  let (m, carry) := memAddCarry r (.mem a) (.mem b) m
  some (if carry ≠ 0 ∨ u256Cmp (rd8 m r) ctx.P ≥ 0 then (memSubBorrow r (.mem r) (.const ctx.P) m).1 else m)

/-- `uint256_mod_sub` behind `mont256_sub` (uint256_common.cpp 327-337, mont256_common.cpp 100-111). -/
def memSub (ctx : Mont256CTX) : MemOp W32 := fun _ r a b m =>
  let (m, borrow) := memSubBorrow r (.mem a) (.mem b) m
  some (if borrow ≠ 0 ∨ u256Cmp (rd8 m r) ctx.P ≥ 0 then (memAddCarry r (.mem r) (.const ctx.P) m).1 else m)

/-- `mont256_dbl` (mont256_common.cpp 113-122). -/
def memDbl (ctx : Mont256CTX) : MemOp W32 := fun _ r a _ m =>
  let (m, carry) := memDblCarry r (.mem a) m
  some (if carry ≠ 0 ∨ u256Cmp (rd8 m r) ctx.P ≥ 0 then (memSubBorrow r (.mem r) (.const ctx.P) m).1 else m)

/-- `while (carry) carry += uint256_sub_borrow(product, product, P)` (mont256_common.cpp 129-132); `none` = still running
after `fuel` rounds. -/
def memTplLoop (P : List W32) (r : Nat) : Nat → CInt → Mem W32 → Option (Mem W32)
  | 0, _, _ => none
  | fuel + 1, carry, m =>
    if carry ≠ 0 then
      let (m, b) := memSubBorrow r (.mem r) (.const P) m
      memTplLoop P r fuel (carry + b) m
    else some m

/-- `mont256_tpl` (mont256_common.cpp 124-137). -/
def memTpl (ctx : Mont256CTX) : MemOp W32 := fun _ r a _ m =>
  let (m, carry) := memTplCarry r (.mem a) m
  match memTplLoop ctx.P r (2 ^ 258) carry m with
  | none => none
  | some m => some (if u256Cmp (rd8 m r) ctx.P ≥ 0 then (memSubBorrow r (.mem r) (.const ctx.P) m).1 else m)

/-- `mont256_neg` (mont256_common.cpp 139-148): the subtraction comes after the store of the zero case, and reads `num`
again. -/
def memNeg (ctx : Mont256CTX) : MemOp W32 := fun _ r a _ m =>
  let m := if u256EqualZero (rd8 m a) then memCpy r (.const u256Zero) m else m
  some (memSubBorrow r (.const ctx.P) (.mem a) m).1

/-- `mont256_redc` from the copy on (mont256_common.cpp 58-62).  The array `t` is a local variable of the callers
(`T[16]`), which nothing else points to, so it is kept as a value; so is what `redcLoop` makes of it. -/
def memRedc (ctx : Mont256CTX) (r : Nat) (t : List W32) (m : Mem W32) : Mem W32 :=
  let (t, t16) := redcLoop ctx.P ctx.N_ 8 t 0
  let m := memCpy r (.const t) m
  if t16 ≠ 0 ∨ u256Cmp (rd8 m r) ctx.P ≥ 0 then (memSubBorrow r (.mem r) (.const ctx.P) m).1 else m

/-- `mont256_mul`, `mont256_sqr` (mont256_common.cpp 150-167). -/
def memMul (ctx : Mont256CTX) : MemOp W32 := fun _ r a b m => some (memRedc ctx r (u256Mul (rd8 m a) (rd8 m b)) m)
def memSqr (ctx : Mont256CTX) : MemOp W32 := fun _ r a _ m => some (memRedc ctx r (u256Sqr (rd8 m a)) m)

/-- `mont256_inv`, that is `mont256_pow` with the exponent `P_SUB2` (mont256_common.cpp 187-269): `power` is not written
before the last statement (or the early return), everything before works on the local `mont_t`, `lut_table`, `e_u8`. -/
def memInv (ctx : Mont256CTX) : MemOp W32 := fun _ r a _ m =>
  match mont256Inv ctx (rd8 m a) with
  | none => none
  | some v => some (memCpy r (.const v) m)

/-- The shift loop of `mont256_div2` (mont256_common.cpp 180-184) from `i` on, `n + 1` limbs to go. -/
def memShr (r : Nat) (s : Src) (c : W32) : Nat → Nat → Mem W32 → Mem W32
  | 0, i, m => upd m (r + i) ((c <<< 31) ||| (s.get m i >>> 1))
  | n + 1, i, m => memShr r s c n (i + 1) (upd m (r + i) ((s.get m (i + 1) <<< 31) ||| (s.get m i >>> 1)))

/-- `mont256_div2` (mont256_common.cpp 169-185): the sum with `P` goes to `quotient`, which is then shifted in place. -/
def memDiv2 (ctx : Mont256CTX) : MemOp W32 := fun _ r a _ m =>
  if m a &&& 1 ≠ 0 then
    let (m, c) := memAddCarry r (.mem a) (.const ctx.P) m
    some (memShr r (.mem r) c 7 0 m)
  else some (memShr r (.mem a) 0 7 0 m)

/-- `sm2_fp_*`, `sm9_fp_*` (sm2p256v1.cpp 153-238, sm9_field.cpp 288-399) on a memory of words. -/
def fpImpl (ctx : Mont256CTX) : Impl W32 where
  size := 8
  op
    | add => memAdd ctx
    | sub => memSub ctx
    | mul => memMul ctx
    | sqr => memSqr ctx
    | dbl => memDbl ctx
    | tpl => memTpl ctx
    | neg => memNeg ctx
    | inv => memInv ctx
    | cpy => fun _ r a _ m => some (memCpy r (.mem a) m)
    | one => fun _ r _ _ m => some (memCpy r (.const ctx.R) m)
    | zero => fun _ r _ _ m => some (memCpy r (.const u256Zero) m)
    | twist => fun _ _ _ _ _ => none
  eq x y m := u256Equal (rd8 m x) (rd8 m y)
  isZero x m := u256EqualZero (rd8 m x)

/-! ## The library's instances -/

/-- `sm2_fp_*` and `sm9_fp_*` with their contexts; `sm9_fp2_*`, `sm9_fp4_*`, `sm9_fp12_*` on top of `sm9_fp_*`. -/
def sm2Fp : Impl W32 := fpImpl Sm2.fpCtx
def sm9Fp : Impl W32 := fpImpl Sm9.fpCtx
def sm9Fp2 : Impl W32 := fp2 sm9Fp
def sm9Fp4 : Impl W32 := fp4 sm9Fp2
def sm9Fp12 : Impl W32 := fp12 sm9Fp4

/-- An `sm9_fp2_t`, `sm9_fp4_t`, `sm9_fp12_t` at an address: 16, 32, 96 words (sm9_field.h 25-27). -/
def rdFp2 : Mem W32 → Nat → Fp2 (List W32) := rd2 8 rd8
def rdFp4 : Mem W32 → Nat → Fp4 (List W32) := rd4 16 rdFp2
def rdFp12 : Mem W32 → Nat → Fp12 (List W32) := rd12 32 rdFp4

/-- An `sm2_ec_a`, `sm9_ec_a` (16 words), `sm2_ec_j`, `sm9_ec_j` (24), `sm9_ec2_a` (32), `sm9_ec2_j` (48) at an address. -/
def rdEcA : Mem W32 → Nat → EcA (List W32) := rdA 8 rd8
def rdEcJ : Mem W32 → Nat → EcJ (List W32) := rdJ 8 rd8
def rdEc2A : Mem W32 → Nat → EcA (Fp2 (List W32)) := rdA 16 rdFp2
def rdEc2J : Mem W32 → Nat → EcJ (Fp2 (List W32)) := rdJ 16 rdFp2

end Verif.Alias
