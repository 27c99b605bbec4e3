import Verif.Model.Mont
import Verif.Model.MontX64
import Verif.Spec.Mont
import Mathlib.Algebra.Field.ZMod
/-! # Specification: straight-line programs of field operations

A program over 32-byte inputs; what it means in `ZMod p`, and its run with either build of the library. -/
namespace Verif.Spec

/-- Field programs: inputs, the constant one, and the arithmetic operations of `mont256`. -/
inductive FieldProg where
  | input (i : Nat)
  | one
  | add (a b : FieldProg)
  | sub (a b : FieldProg)
  | mul (a b : FieldProg)
  | sqr (a : FieldProg)
  | dbl (a : FieldProg)
  | tpl (a : FieldProg)
  | div2 (a : FieldProg)
  | inv (a : FieldProg)
  | neg (a : FieldProg)

namespace FieldProg

/-- The meaning of a program in the integers modulo the prime `p` (`inv 0 = 0`). -/
def denote (p : Nat) [Fact p.Prime] (env : Nat → List Byte) : FieldProg → ZMod p
  | input i => (beVal (env i) : ZMod p)
  | one => 1
  | add a b => denote p env a + denote p env b
  | sub a b => denote p env a - denote p env b
  | mul a b => denote p env a * denote p env b
  | sqr a => denote p env a ^ 2
  | dbl a => 2 * denote p env a
  | tpl a => 3 * denote p env a
  | div2 a => denote p env a * 2⁻¹
  | inv a => (denote p env a)⁻¹
  | neg a => - denote p env a

/-- Wherever the program negates, the operand is not zero. -/
def NegNonzero (p : Nat) [Fact p.Prime] (env : Nat → List Byte) : FieldProg → Prop
  | input _ | one => True
  | add a b | sub a b | mul a b => NegNonzero p env a ∧ NegNonzero p env b
  | sqr a | dbl a | tpl a | div2 a | inv a => NegNonzero p env a
  | neg a => NegNonzero p env a ∧ denote p env a ≠ 0

/-- Run with the portable build. -/
def runCommon (ctx : Mont256CTX) (env : Nat → List Byte) : FieldProg → Option (List W32)
  | input i => some (mont256FromBytes ctx (env i))
  | one => some (mont256SetOne ctx)
  | add a b => do some (mont256Add ctx (← runCommon ctx env a) (← runCommon ctx env b))
  | sub a b => do some (mont256Sub ctx (← runCommon ctx env a) (← runCommon ctx env b))
  | mul a b => do some (mont256Mul ctx (← runCommon ctx env a) (← runCommon ctx env b))
  | sqr a => do some (mont256Sqr ctx (← runCommon ctx env a))
  | dbl a => do some (mont256Dbl ctx (← runCommon ctx env a))
  | tpl a => do mont256Tpl ctx (← runCommon ctx env a)
  | div2 a => do some (mont256Div2 ctx (← runCommon ctx env a))
  | inv a => do mont256Inv ctx (← runCommon ctx env a)
  | neg a => do some (mont256Neg ctx (← runCommon ctx env a))

/-- Run with the 64-bit build. -/
def runX64 (ctx : Verif.X64.Mont256CTX) (env : Nat → List Byte) : FieldProg → Option (List W64)
  | input i => some (X64.mont256FromBytes ctx (env i))
  | one => some (X64.mont256SetOne ctx)
  | add a b => do some (X64.mont256Add ctx (← runX64 ctx env a) (← runX64 ctx env b))
  | sub a b => do some (X64.mont256Sub ctx (← runX64 ctx env a) (← runX64 ctx env b))
  | mul a b => do some (X64.mont256Mul ctx (← runX64 ctx env a) (← runX64 ctx env b))
  | sqr a => do some (X64.mont256Sqr ctx (← runX64 ctx env a))
  | dbl a => do some (X64.mont256Dbl ctx (← runX64 ctx env a))
  | tpl a => do some (X64.mont256Tpl ctx (← runX64 ctx env a))
  | div2 a => do some (X64.mont256Div2 ctx (← runX64 ctx env a))
  | inv a => do X64.mont256Inv ctx (← runX64 ctx env a)
  | neg a => do some (X64.mont256Neg ctx (← runX64 ctx env a))

end FieldProg
end Verif.Spec
