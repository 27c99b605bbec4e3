F='Model/Alias.lean'
MUTS=[
(F,"i1 twist (loc 2) (loc 1), i2 add (R 0) (loc 0) (loc 2)]\n\n/-- `sm9_fp4_mul_v`","i1 twist (R 0) (loc 1), i2 add (R 0) (loc 0) (R 0)]\n\n/-- `sm9_fp4_mul_v`","Alias.fp4MulP","result used as temporary after all reads: equivalent rewriting","(equivalent)"),
(F,"[i2 mul (loc 0) (A 0) (B 0), i2 mul (loc 1) (A 1) (B 1),\n   i2 add (loc 2) (A 0) (A 1), i2 add (R 1) (B 0) (B 1), i2 mul (R 1) (loc 2) (R 1),\n   i2 sub (R 1) (R 1) (loc 0), i2 sub (R 1) (R 1) (loc 1),\n   i1 dbl","[i2 mul (R 0) (A 0) (B 0), i1 cpy (loc 0) (R 0), i2 mul (loc 1) (A 1) (B 1),\n   i2 add (loc 2) (A 0) (A 1), i2 add (R 1) (B 0) (B 1), i2 mul (R 1) (loc 2) (R 1),\n   i2 sub (R 1) (R 1) (loc 0), i2 sub (R 1) (R 1) (loc 1),\n   i1 dbl","Alias.fp2MulP","result written before the operands are read again","C78"),
(F,"def fp2MulUP : List Ins := [i1 dbl (loc 0) (A 1), i1 cpy (R 1) (A 0), i1 neg (R 0) (loc 0)]","def fp2MulUP : List Ins := [i1 dbl (R 0) (A 1), i1 neg (R 0) (R 0), i1 cpy (R 1) (A 0)]","Alias.fp2MulUP","no temporary","C78"),
(F,"i2 mul (R 0) (A 0) (loc 0), i2 mul (R 1) (A 1) (loc 0), i1 neg (R 1) (R 1)]\n\n/-- `sm9_fp2_*`","i2 mul (R 0) (A 0) (loc 0), i2 mul (R 1) (A 0) (loc 0), i1 neg (R 1) (R 1)]\n\n/-- `sm9_fp2_*`","Alias.fp2InvP","wrong component","C78"),
(F,"i1 sqr (R 0) (loc 7), i2 sub (R 0) (R 0) (loc 6)","i1 sqr (R 1) (loc 7), i2 sub (R 0) (R 1) (loc 6)","Alias.addAP","y of the result overwritten before y of the operand is read","C78"),
(F,"i2 sub (loc 8) (loc 8) (R 0), i2 mul (loc 8) (loc 7) (loc 8), i2 mul (R 1) (A 1) (loc 6)","i2 sub (loc 8) (loc 8) (A 0), i2 mul (loc 8) (loc 7) (loc 8), i2 mul (R 1) (A 1) (loc 6)","Alias.addAP","old x instead of new x","C78"),
(F,"i2 mul (R 2) (A 1) (A 2), i1 dbl (R 2) (R 2),\n   i2 sub (R 1) (loc 3) (R 0), i2 mul (R 1) (R 1) (loc 4)","i2 sub (R 1) (loc 3) (R 0), i2 mul (R 1) (R 1) (loc 4), i2 mul (R 2) (A 1) (A 2), i1 dbl (R 2) (R 2)","Alias.sm9DblP","z computed after y was overwritten","C78"),
(F,"i2 add (R 2) (A 1) (A 2), i1 sqr (R 2) (R 2), i2 sub (R 2) (R 2) (loc 1), i2 sub (R 2) (R 2) (loc 0),\n   i2 sub (R 1) (loc 2) (R 0)","i2 sub (R 1) (loc 2) (R 0), i2 add (R 2) (A 1) (A 2), i1 sqr (R 2) (R 2), i2 sub (R 2) (R 2) (loc 1), i2 sub (R 2) (R 2) (loc 0)","Alias.sm2DblP","z computed after y was overwritten","C78"),
(F,"i2 mul (R 0) (loc 3) (loc 6), i2 sub (R 0) (R 0) (loc 1)","i2 mul (R 0) (loc 3) (loc 6), i2 sub (R 0) (R 0) (loc 0)","Alias.fp12MulP","wrong product subtracted","C78"),
(F,"i2 add (loc 6) (B 1) (B 2), i2 add (loc 7) (B 0) (B 1), i2 add (loc 8) (B 0) (B 2),\n   i2 mul (R 0) (loc 3) (loc 6)","i2 add (loc 6) (B 1) (B 2), i2 add (loc 7) (B 0) (B 1), \n   i2 mul (R 0) (loc 3) (loc 6), i2 add (loc 8) (B 0) (B 2)","Alias.fp12MulP","operand read after the result was written","C78"),
(F,"i2 mul (R 0) (loc 0) (loc 3), i2 mul (R 1) (loc 1) (loc 3), i2 mul (R 2) (loc 2) (loc 3)]","i2 mul (R 0) (loc 0) (loc 3), i2 mul (R 1) (loc 1) (loc 3), i2 mul (R 2) (A 2) (loc 3)]","Alias.fp12InvP","operand instead of cofactor","C78"),
(F,"let (m, carry) := memAddCarry r (.mem a) (.mem b) m\n  some (if carry ≠ 0 ∨","let (m, carry) := memAddCarry r (.mem a) (.mem b) m\n  some (if carry = 0 ∨","Alias.memAdd","carry test inverted","C78"),
(F,"some (memSubBorrow r (.const ctx.P) (.mem a) m).1","some (if u256EqualZero (rd8 m a) then m else (memSubBorrow r (.const ctx.P) (.mem a) m).1)","Alias.memNeg","early return for zero","C78"),
(F,"ripple step r a b n (i + 1) c (upd m (r + i) v)","ripple step r a b n (i + 1) c (upd m (r + i + 1) v)","Alias.ripple","stores one word too high","C78"),
(F,"if I.eq (e (loc 4)) (e (loc 5)) m then call I nd dblP top r a a m","if I.eq (e (loc 4)) (e (loc 5)) m then call I nd dblP top r b a m","Alias.ecJAdd","doubles the other point (equal as a point, other representative)","C78"),
(F,"i2 add (R 2) (A 2) (B 2), i1 sqr (R 2) (R 2)","i2 add (R 2) (A 2) (A 2), i1 sqr (R 2) (R 2)","Alias.addP2","wrong operand","C78"),
(F,"def mulCompP : List Ins := [i2 mul (R 0) (A 0) (B 0), i2 mul (R 1) (A 1) (B 0)]","def mulCompP : List Ins := [i2 mul (R 1) (A 1) (B 0), i2 mul (R 0) (A 0) (R 1)]","Alias.mulCompP","reads the result instead of the factor","C78"),
(F,"let t := t","let t := t","x","x","x"),
]
MUTS=MUTS[:-1]
