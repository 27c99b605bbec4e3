import Mathlib.RingTheory.AdjoinRoot
import Mathlib.Data.ZMod.Basic
/-!
# Specification: GHASH (SP 800-38D, 6.3 and 6.4)

The field GF(2^128) is `(ZMod 2)[X] / (X^128 + X^7 + X^2 + X + 1)`.  A 16-byte block stands for the polynomial
whose coefficient of `X^(8j+i)` is bit `i` of byte `j`, counted from the most significant bit of the byte.
-/
namespace Verif.Spec.GF128
open Polynomial

noncomputable def modulus : (ZMod 2)[X] := X ^ 128 + X ^ 7 + X ^ 2 + X + 1

abbrev GF := AdjoinRoot modulus

/-- The class of `X`. -/
noncomputable def x : GF := AdjoinRoot.root modulus

/-- The polynomial of a byte, leftmost bit first. -/
noncomputable def ofByte (b : BitVec 8) : GF :=
  ∑ i ∈ Finset.range 8, if b.getMsbD i then x ^ i else 0

/-- The polynomial of a byte string. -/
noncomputable def ofBytes : List (BitVec 8) → GF
  | [] => 0
  | b :: bs => ofByte b + x ^ 8 * ofBytes bs

/-- `Y_0 = 0`, `Y_i = (Y_{i-1} + X_i) · H`. -/
noncomputable def ghash (H : GF) (blocks : List (List (BitVec 8))) : GF :=
  blocks.foldl (fun y b => (y + ofBytes b) * H) 0

end Verif.Spec.GF128
