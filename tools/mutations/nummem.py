# Edits of Model/NumMem and Model/NumMemX64 (C100).
N = "Model/NumMem.lean"
X = "Model/NumMemX64.lean"
MUTS = [
 (N, "    let s := step (a.hd m) (b.hd m) c\n    chain step n (r + 1) a.tl b.tl s.2 (put m r s.1)",
  "    let s := step (a.hd m) (b.hd m) c\n    chain step n (r + 1) a.tl b.tl s.2 (put (put m r 0) r (step (a.hd (put m r 0)) (b.hd (put m r 0)) c).1)",
  "chain", "the result word is cleared before the operands are read", "in-place addition is exact"),
 (N, "    chain step n (r + 1) a.tl b.tl s.2 (put m r s.1)", "    chain step n (r + 1) a.tl b s.2 (put m r s.1)",
  "chain", "the second operand is not advanced", "sums are exact"),
 (N, "    row step n (r + 1) (a + 1) b s.2 (put m r s.1)", "    row step n (r + 1) (a + 1) b s.2 (put (put m r s.1) (r + 1) 0)",
  "row", "the next product word is cleared too early", "products are exact"),
 (N, "    rows step n a k (r + 1) (b + 1) (put s.1 (r + n) s.2)", "    rows step n a k (r + 1) (b + 1) s.1",
  "rows", "the carry of a row is not stored", "products are exact"),
 (N, "    rows addMulCarry n a (n - 1) (r + 1) (b + 1) (put s.1 (r + n) s.2)", "    rows addMulCarry n a (n - 2) (r + 1) (b + 1) (put s.1 (r + n) s.2)",
  "mpzMul", "one row too few", "products are exact for every limb count"),
 (N, "    let s := row (fun _ x y c => mulCarry x y c) n r a b 0 m", "    let s := row addMulCarry n r a b 0 m",
  "mpzMul", "the first row adds to what the product array held", "products do not depend on the old contents"),
 (N, "    rows addMulCarry n a (n - 1) (r + 1) (b + 1) (put s.1 (r + n) s.2)", "    rows addMulCarry n a (n - 1) (r + 1) (b + 1) (put (put s.1 (r + n) s.2) (r + 2 * n) 0)",
  "mpzMul", "a word beyond the product is cleared", "nothing outside the product changes"),
 (N, "    down step n q a s.2 (put m (q + n) s.1)", "    down step n q a s.2 (put m (q + n + 1) s.1)",
  "down", "the quotient is stored one word up", "quotients are exact"),
 (N, "def dbl (r a : Nat) (m : Mem 32) : Mem 32 × CInt := chain (fun x _ c => dblCarry x c) 8",
  "def dbl (r a : Nat) (m : Mem 32) : Mem 32 × CInt := chain (fun x _ c => dblCarry x c) 7",
  "dbl", "the last word is not doubled", "doubles are exact"),
 (N, "add r (.mem a) (.lit [b]) m", "add r (.mem a) (.lit [b, b]) m",
  "addWord", "the word is added at two positions", "sums with a word are exact"),
 (N, "(sub r (.mem r) (.mem d) s.1).1 else s.1", "(sub r (.mem r) (.mem d) m).1 else s.1",
  "modAdd", "the old contents of the result are reduced instead of the sum", "modular sums are exact"),
 (N, "  let s := add r a b m\n  if s.2 ≠ 0 ∨ u256Cmp (words s.1 r 8) (words s.1 d 8) ≥ 0", "  let s := add r a b m\n  if u256Cmp (words s.1 r 8) (words s.1 d 8) ≥ 0",
  "modAdd", "the carry is ignored", "modular sums are exact"),
 (N, "  let s := add r a b m\n  if s.2 ≠ 0 ∨ u256Cmp (words s.1 r 8) (words s.1 d 8) ≥ 0", "  let s := add r a b m\n  if s.2 ≠ 0 ∨ u256Cmp (words s.1 r 8) (words m d 8) ≥ 0",
  "modAdd", "the divisor is read before the sum is stored (half a repair)", "the result stored over the divisor is zero"),
 (N, "  let m := setZero r m\n  if data.length ≥ 32 then", "  if data.length ≥ 32 then",
  "mod", "the remainder is not cleared", "remainders do not depend on the old contents"),
 (N, "    | some t => modLoop fuel r d (data.drop 32) (modAdd r (.mem r) (.lit t) d m)\n  else if", "    | some t => modLoop fuel r d (data.drop 32) (modAdd r (.mem d) (.lit t) d m)\n  else if",
  "modLoop", "the divisor is added instead of the remainder", "remainders are exact"),
 (X, "  let t := chain addStep 3 (r + 1) (.mem (r + 1)) (.lit s.2) 0 s.1\n  put t.1", "  let t := chain addStep 3 (r + 1) (.mem r) (.lit s.2) 0 s.1\n  put t.1",
  "mulFirst", "high words are added to the wrong low words", "products are exact"),
 (X, "    let m := put s.1 (r + 4) (addcarryU64 s.2 0 0).1", "    let m := s.1",
  "mulRows", "the carry of the low words is not stored", "products are exact"),
 (X, "    let lh := mulxRow (words m a 4) (m b)\n", "    let lh := mulxRow (words (put m r 0) a 4) (m b)\n",
  "mulRows", "the first word of the window is cleared before the multiplier is read", "nothing: the multiplier is apart"),
 (X, "def mul (r a b : Nat) (m : Verif.NumMem.Mem 64) : Verif.NumMem.Mem 64 := mulRows a 3 (r + 1) (b + 1) (mulFirst r a b m)",
  "def mul (r a b : Nat) (m : Verif.NumMem.Mem 64) : Verif.NumMem.Mem 64 := mulRows a 3 (r + 1) (b + 1) (mulFirst r b a m)",
  "mul", "operands of the first step swapped", "products are exact"),
 (X, "    (s.1, -(s.2.setWidth 32))\n\n/-- `mpz_mul`", "    (s.1, s.2.setWidth 32)\n\n/-- `mpz_mul`",
  "mpzSub", "the borrow is returned without its sign", "the borrow is 0 or -1"),
 (X, "  let s := chain subStep 4 r a b 0 m\n  if s.2 ≠ 0 ∨", "  let s := chain subStep 4 r b a 0 m\n  if s.2 ≠ 0 ∨",
  "modSub", "operands swapped", "modular differences are exact"),
 (X, "  (s.1, t.2.setWidth 32 + s.2.setWidth 32)", "  (s.1, s.2.setWidth 32)",
  "tpl", "the first carry is dropped", "triples are exact"),
]
