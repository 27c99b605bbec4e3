# Edits of Model/PairMem and Model/PairMemX64 (C101, C102).
P = "Model/PairMem.lean"
X = "Model/PairMemX64.lean"
W = "powers are those of the operands on entry"
M = "point multiplication over the point is exact"
F = "the Frobenius maps may be taken in place"
L = "the line functions give the value of the line; the pairing is exact"
E = "the final exponentiation is exact in place"
G = "the pairing over a point is exact"
MUTS = [
 (P, "  i1 sqr (loc 1) (A 0) :: (List.range 13).map fun j => i2 mul (loc (j + 2)) (loc (j + 1)) (A 0)",
  "  i1 sqr (R 0) (A 0) :: i1 cpy (loc 1) (R 0) :: (List.range 13).map fun j => i2 mul (loc (j + 2)) (loc (j + 1)) (A 0)",
  "tabP", "the square is computed in the result array", W),
 (P, "(List.range 13).map fun j =>", "(List.range 12).map fun j =>", "tabP", "the table has one entry too few", W),
 (P, "some (loc (index - 1)) else none", "some (loc index) else none", "selN", "off by one in the table", W),
 (P, "def sqr4P : List Ins := List.replicate 4 (i1 sqr (loc 0) (loc 0))", "def sqr4P : List Ins := List.replicate 3 (i1 sqr (loc 0) (loc 0))",
  "sqr4P", "three squarings instead of four", W),
 (P, "[i2 mul (loc 0) (loc 0) s] else some []", "[i2 mul (loc 0) (loc 0) s, i1 cpy (R 0) (loc 0)] else some []",
  "mulSelP", "the intermediate power is stored in the result after each digit", W),
 (P, "| some h, some l => some (h ++ l ++ [i1 cpy (R 0) (loc 0)])", "| some h, some l => some (h ++ l)",
  "tailP", "the copy to the result is dropped", W),
 (P, "  if I.isZero a m then I.op zero L r r r m\n  else if ez m then set1 L r r r m\n  else\n", "  if ez m then set1 L r r r m\n  else if I.isZero a m then I.op zero L r r r m\n  else\n",
  "powOn", "the exponent zero is tested before the base zero", "0^0 is the value the function gives"),
 (P, "          match pow Sm9.uAdd1 top r a a m with", "          match pow Sm9.uAdd1 top r z z m with",
  "sqrt9", "the root is taken of z", "square roots over the operand are exact"),
 (P, "        if !isOne z m && !I.eq z neg1 m then some (false, m)\n        else", "        if !isOne z m && !I.eq z neg1 m then (I.op zero top r r r m).map fun m => (false, m)\n        else",
  "sqrt9", "a refused root clears the result", "a refused root leaves the caller's memory as it was"),
 (P, "  match pow Sm2.pSub3Div4Add1 top t a a m with\n  | none => none\n  | some m =>\n    match I.op sqr top t2 t t m with",
  "  match pow Sm2.pSub3Div4Add1 top r a a m with\n  | none => none\n  | some m =>\n    match I.op sqr top t2 r r m with",
  "sqrt2", "the candidate is computed in the result array", "a refused root leaves the caller's memory as it was; in-place roots"),
 (P, "      if e3i = true ∧ ei = false then call I 9 addAP top t t p m", "      if e3i = true ∧ ei = false then call I 9 addAP top t t q m",
  "mulAStep", "the negated point is added for a digit 1", M),
 (P, "      | some m => call I 0 ecJCpyP top r L L m", "      | some m => call I 0 [i1 cpy (R 0) (A 0), i1 cpy (R 1) (A 1)] top r L L m",
  "mulABody", "the third coordinate is not copied", M),
 (P, "  let q := L + 3 * k\n  let top := L + 5 * k", "  let q := L + 2 * k\n  let top := L + 5 * k",
  "mulABody", "the negated point overlaps T", M),
 (P, "  let q := L + 3 * k\n  let top := L + 5 * k", "  let q := L + 3 * k\n  let top := L + 4 * k",
  "mulABody", "the stack of the callees begins inside the negated point", M),
 (P, "  match call I 0 ecJFromAP top L p p m with", "  match call I 0 ecJFromAP top r p p m with",
  "mulABody", "T is initialised in the result", M),
 (P, "    | some i => mulALoop I dblP nd top t p q bits (i - 1) m", "    | some i => mulALoop I dblP nd top t p q bits i m",
  "mulAMid", "the top bit is processed again", M),
 (P, "  [f2 cpy (c i) (d j) (d j), f2 neg (c (i + 1)) (d (j + 1)) (d (j + 1))]", "  [f2 cpy (c i) (d j) (d j), f2 neg (c (i + 1)) (d j) (d j)]",
  "conj2P", "the conjugate negates the wrong component", F),
 (P, "def outP : List (GIns FOp) := un4P cpy R 0 loc 0 ++ un4P cpy R 4 loc 4 ++ un4P cpy R 8 loc 8", "def outP : List (GIns FOp) := un4P cpy R 0 loc 0 ++ un4P cpy R 4 loc 8 ++ un4P cpy R 8 loc 4",
  "outP", "two copies are exchanged", F),
 (P, "  (conj2P loc 4 A 4 ++ fc Sm9.sm9Alpha1Data (loc 12) ::", "  (conj2P loc 4 A 4 ++ fc Sm9.sm9Alpha2Data (loc 12) ::",
  "frobP", "the wrong constant", F),
 (P, "  conj4P loc 0 A 0 ++ conj4P loc 4 A 4 ++ fc Sm9.sm9Alpha2Data", "  conj4P R 0 A 0 ++ conj4P loc 0 R 0 ++ conj4P loc 0 loc 0 ++ conj4P loc 4 A 4 ++ fc Sm9.sm9Alpha2Data",
  "frob2P", "a component of the result is written first and copied wrongly", F),
 (P, "mulFp2P loc 2 loc 2 (loc 12) ++ un2P neg loc 2 loc 2) ++\n", "mulFp2P loc 2 loc 2 (loc 12)) ++\n",
  "frob3P", "a negation is dropped", F),
 (P, "conj4P loc 4 loc 4 ++ un4P neg loc 4 loc 4 ++ conj4P loc 8 loc 8) ++ outP", "un4P neg loc 4 loc 4 ++ conj4P loc 8 loc 8) ++ outP",
  "frob6P", "a conjugation is dropped", F),
 (P, "  un2P cpy R 0 A 0 ++ un2P cpy R 2 A 2 ++ [f2 zero (R 5) (R 5) (R 5), fc Sm9.cL1850 (R 4)]", "  [f2 zero (R 5) (R 5) (R 5), fc Sm9.cL1850 (R 4)] ++ un2P cpy R 2 A 0 ++ un2P cpy R 0 A 2",
  "frob2AP", "the coordinates are exchanged", F),
 (P, "  | .inr j => fun L r a _ m => call B.fp 0 mulCompP L r a (if j then p + B.fp.size else p) m", "  | .inr j => fun L r a _ m => call B.fp 0 mulCompP L r a (if j then p else p + B.fp.size) m",
  "lOps", "the coordinates of P are exchanged", L),
 (P, "   l2 mul (R 3) (R 3) (A 0), l1 tpl (R 3) (R 3), l1 sqr (R 2) (A 1), l1 dbl (R 2) (R 2), l2 sub (R 0) (R 2) (R 3),\n   l0 zero (R 2), l0 zero (R 3), l0 zero (R 5)]",
  "   l2 mul (R 3) (R 3) (A 0), l1 tpl (R 3) (R 3), l1 sqr (R 2) (A 1), l1 dbl (R 2) (R 2), l2 sub (R 0) (R 2) (R 3),\n   l0 zero (R 2), l0 zero (R 3)]",
  "tangentP", "a scratch component of the result is not cleared", L),
 (P, "l1 neg (R 1) (R 5),\n   l1 sqr (R 3) (A 0), l2 mul (R 2) (R 2) (R 3)", "l1 neg (R 1) (R 5),\n   l1 sqr (R 2) (A 0), l2 mul (R 2) (R 2) (R 3)",
  "tangentP", "a scratch component is overwritten while still needed", L),
 (P, "   l2 mul (loc 0) (R 5) (B 0), l2 mul (R 5) (R 5) (A 2), l2 mul (R 5) (R 5) (B 1), l2 sub (R 3) (R 3) (loc 0),\n   l2 mul (R 3) (R 3) (A 2)",
  "   l2 mul (R 4) (R 5) (B 0), l2 mul (R 5) (R 5) (A 2), l2 mul (R 5) (R 5) (B 1), l2 sub (R 3) (R 3) (loc 0),\n   l2 mul (R 3) (R 3) (A 2)",
  "lineJP", "a product goes to another scratch component", L),
 (P, "l1 cpy (loc 1) (R 3), l2 mul (R 3) (R 3) (B 1), l1 cpy (loc 0) (A 1),", "l2 mul (R 3) (R 3) (B 1), l1 cpy (loc 1) (R 3), l1 cpy (loc 0) (A 1),",
  "lineAP", "the copy of t1 is taken one step late", L),
 (P, "   e1 (.f sqr) (loc 4) (loc 3), e1 (.f sqr) (loc 4) (loc 4), e1 (.f sqr) (loc 4) (loc 4),", "   e1 (.f sqr) (loc 4) (loc 3), e1 (.f sqr) (loc 4) (loc 4),",
  "hardP", "a squaring is dropped", E),
 (P, "  [e1 (.pow Sm9.a3) (loc 0) (A 0), e1 (.f inv) (loc 0) (loc 0)", "  [e1 (.pow Sm9.a3) (R 0) (A 0), e1 (.f inv) (loc 0) (R 0)",
  "hardP", "the first power is computed in the result", E),
 (P, "   x1 (.inl .frob2) (loc 1) (loc 0), x2 mul (loc 0) (loc 0) (loc 1), x1 (.inr ()) (loc 0) (loc 0),", "   x1 (.inl .frob2) (loc 1) (loc 0), x1 (.inr ()) (loc 0) (loc 0),",
  "finalP", "a multiplication is dropped", E),
 (P, "def finalExp : MemOp β := callG (xOps B) B.fp12.size 2 finalP", "def finalExp : MemOp β := callG (xOps B) B.fp12.size 1 finalP",
  "finalExp", "the stack of the callees begins at t1", E),
 (P, "def vQ (L : Nat) : Nat := L + 6 * B.fp.size", "def vQ (L : Nat) : Nat := L + 4 * B.fp.size",
  "vQ", "the union overlaps T", G),
 (P, "def vD0 (L : Nat) : Nat := L + 40 * B.fp.size", "def vD0 (L : Nat) : Nat := L + 34 * B.fp.size",
  "vD0", "the denominator overlaps f0", G),
 (P, "  let m ← tangent B p (vD0 B L) (vF0 B L) (vT L) (vT L) m\n  let m ← B.fp12.op mul (vTop B L) (vF B L) (vF B L) (vF0 B L) m\n  let m ← call B.fp2 6 sm9DblP (vTop B L) (vT L) (vT L) (vT L) m",
  "  let m ← call B.fp2 6 sm9DblP (vTop B L) (vT L) (vT L) (vT L) m\n  let m ← tangent B p (vD0 B L) (vF0 B L) (vT L) (vT L) m\n  let m ← B.fp12.op mul (vTop B L) (vF B L) (vF B L) (vF0 B L) m",
  "millerStep", "T is doubled before the tangent is taken", G),
 (P, "    call B.fp2 9 addAP (vTop B L) (vT L) (vT L) (vQ B L) m\n  else some m", "    call B.fp2 9 addAP (vTop B L) (vT L) (vT L) q m\n  else some m",
  "millerStep", "Q instead of -Q is added for a digit -1", G),
 (P, "  let m ← B.fp12.op sqr (vTop B L) (vF B L) (vF B L) (vF B L) m\n", "", "millerStep", "the squaring of f is dropped", G),
 (P, "  let m ← B.fp12.op one (vTop B L) (vF B L) (vF B L) (vF B L) m\n", "  let m ← B.fp12.op one (vTop B L) r r r m\n  let m ← B.fp12.op cpy (vTop B L) (vF B L) r r m\n",
  "pairing", "1 is stored in the result first, before the points are read", G),
 (P, "  let m ← call B.fp2 0 ecANegP (vTop B L) (vQ B L) q q m\n", "", "pairing", "the negated point is never computed", G),
 (P, "  let m ← call B.fp2 0 ecJNegP (vTop B L) (vQ B L) (vQ B L) (vQ B L) m\n", "", "pairing", "the second Frobenius image is not negated", G),
 (P, "  let m ← callG (fOps B) B.fp.size 0 frob2AP (vTop B L) (vQ B L) q q m\n", "  let m ← callG (fOps B) B.fp.size 0 frob2AP (vTop B L) (vQ B L) (vQ B L) (vQ B L) m\n",
  "pairing", "the second map is applied to the union instead of Q", G),
 (P, "  finalExp B (vTop B L) r (vF B L) (vF B L) m\n", "  finalExp B (vF B L) r (vF B L) (vF B L) m\n",
  "pairing", "the stack of the final exponentiation begins at f", G),
 (P, "  let m ← B.fromBytes Sm9.sm9CurveGy (L + 2 * k) (L + k) (L + k) (L + k) m\n  pairing B (L + 2 * k) r L q m", "  let m ← B.fromBytes Sm9.sm9CurveGy (L + 2 * k) (L + k) (L + k) (L + k) m\n  pairing B L r L q m",
  "pairingP1", "the locals of the pairing overlap P1", "the pairing with P1 is exact"),
 (P, "  let m ← fp2FromBytes B Sm9.sm9Curve2Gy (L + 4 * k) (L + 2 * k) (L + 2 * k) (L + 2 * k) m", "  let m ← fp2FromBytes B Sm9.sm9Curve2Gy (L + 4 * k) (L + k) (L + k) (L + k) m",
  "pairingP2", "the second coordinate overlaps the first", "the pairing with P2 is exact"),
 (P, "  let m ← B.fromBytes (bs.take 32) L (r + B.fp.size) (r + B.fp.size) (r + B.fp.size) m\n  B.fromBytes ((bs.drop 32).take 32) L r r r m",
  "  let m ← B.fromBytes (bs.take 32) L r r r m\n  B.fromBytes ((bs.drop 32).take 32) L (r + B.fp.size) (r + B.fp.size) (r + B.fp.size) m",
  "fp2FromBytes", "the components are exchanged", "the pairing with P2 is exact"),
 (P, "  some (memRedc ctx r (u256Mul (rd8 m r) ctx.RPow2) m)", "  some (memRedc ctx r (u256Mul (rd8 m r) ctx.R) m)",
  "memFromBytes", "converted with R instead of R^2", "constants of the pairing are exact"),
 (X, "  some (memRedc ctx r (u256Mul (rdW m r) ctx.RPow2) m)", "  some (memRedc ctx (r + 1) (u256Mul (rdW m r) ctx.RPow2) m)",
  "X64 memFromBytes", "stored one word too far", "constants of the pairing are exact in the 64-bit build"),
 (X, "def memInvP (ctx : Mont256CTX) : MemOp W64 := memPow ctx fun _ => ctx.PSub2", "def memInvP (ctx : Mont256CTX) : MemOp W64 := memPow ctx fun _ => ctx.P",
  "X64 memInvP", "the exponent is p", "inversion in place in the 64-bit build"),
 (X, "  let e := if u256Cmp e n ≥ 0 then (u256SubBorrow e n).1 else e\n", "", "X64 mulA", "the scalar is not reduced", "point multiplication in place in the 64-bit build"),
]
