F='Model/Sm9Field.lean'
P='Model/Sm9Pairing.lean'
MUTS=[
(F,"  let t := F.dbl a1b1\n  let r0 := F.sub a0b0 t\n  ⟨r0, r1⟩","  let r0 := F.sub a0b0 a1b1\n  ⟨r0, r1⟩","fp2Mul","u^2 = -1 instead of -2","C51_fp2"),
(F,"  let t := F.dbl a.c1\n  ⟨F.neg t, a.c0⟩","  let t := F.dbl a.c1\n  ⟨t, a.c0⟩","fp2MulU","sign dropped","C51_fp4"),
(F,"  let r1 := F.sub r1 a0a0\n  let r1 := F.sub r1 a1a1\n  let a1a1 := F.dbl a1a1","  let r1 := F.sub r1 a0a0\n  let a1a1 := F.dbl a1a1","fp2Sqr","missing subtraction","C51_fp2"),
(F,"    some ⟨r0, F.neg r1⟩","    some ⟨r0, r1⟩","fp2Inv","conjugate dropped","C51_fp2"),
(F,"def fp2Eq (a b : Fp2 α) : Bool := F.eq a.c0 b.c0 && F.eq a.c1 b.c1","def fp2Eq (a b : Fp2 α) : Bool := F.eq a.c0 b.c0","fp2Eq","second component not compared","C51_fp2"),
(F,"def fp4MulV (a : Fp4 α) : Fp4 α := ⟨fp2MulU F a.c1, a.c0⟩","def fp4MulV (a : Fp4 α) : Fp4 α := ⟨a.c1, fp2MulU F a.c0⟩","fp4MulV","components swapped","C51_fp4"),
(F,"  let t1 := fp2Sqr F a.c1\n  let t1 := fp2MulU F t1\n  let t0 := fp2Sub F t0 t1","  let t1 := fp2Sqr F a.c1\n  let t1 := fp2MulU F t1\n  let t0 := fp2Add F t0 t1","fp4Inv","norm with wrong sign","C51_fp4"),
(F,"  let r2 := fp4Add F r2 a1b1\n","","fp12Mul","a1b1 missing in the w^2 coefficient","C51_fp12"),
(F,"  let a2b2 := fp4MulV F a2b2\n  let r1 := fp4Add F r1 a2b2","  let r1 := fp4Add F r1 a2b2","fp12Mul","w^3 = v reduction missing","C51_fp12"),
(F,"  let C := fp4Sqr F a.c1\n  let t0 := fp4Mul F a.c0 a.c2","  let C := fp4Sqr F a.c1\n  let t0 := fp4Mul F a.c0 a.c1","fp12Inv","wrong cofactor","C51_fp12_inv_partial"),
(F,"  let t0 := fp4MulV F t0\n  let t1 := fp4Mul F a.c0 A\n","  let t1 := fp4Mul F a.c0 A\n","fp12Inv","norm without v","C51_fp12_inv_partial"),
(F,"    let t ← fp12MulSel F lut a (fp12Sqr4 F t) (((e >>> 4) &&& 0xF#8).toNat)\n    let t ← fp12MulSel F lut a (fp12Sqr4 F t) ((e &&& 0xF#8).toNat)","    let t ← fp12MulSel F lut a (fp12Sqr4 F t) ((e &&& 0xF#8).toNat)\n    let t ← fp12MulSel F lut a (fp12Sqr4 F t) (((e >>> 4) &&& 0xF#8).toNat)","fp12PowLoop","nibbles swapped","C61"),
(F,"    let lut := fp12Table F a 14 (fp12Sqr F a)","    let lut := fp12Table F a 13 (fp12Sqr F a)","fp12Pow","table one entry short","C61"),
(F,"      fp12PowLoop F lut a ((e.take 32).drop (i + 1)) t","      fp12PowLoop F lut a ((e.take 31).drop (i + 1)) t","fp12Pow","last octet ignored","C61"),
(F,"      let t ← if b > 0xF#8 then do","      let t ← if b ≥ 0xF#8 then do","fp12Pow","wrong boundary for the leading nibble","C61"),
(F,"    if !mont256EqualOne fpCtx z && !mont256Equal fpCtx z neg1 then some none","    if !mont256EqualOne fpCtx z then some none","fpSqrt","squares of the second kind refused","C55"),
(F,"          some (some (mont256Mul fpCtx r z))","          some (some r)","fpSqrt","correction factor dropped","C55"),
(F,"def fp2ToBytes (a : Fp2 (List W32)) : List Byte := fpToBytes a.c1 ++ fpToBytes a.c0","def fp2ToBytes (a : Fp2 (List W32)) : List Byte := fpToBytes a.c0 ++ fpToBytes a.c1","fp2ToBytes","component order","C51_bytes"),
(P,"  let r20 := fp2MulFp fp (fp2Conj x.c1.c0) (fpFromBytes sm9Alpha1Data)","  let r20 := fp2MulFp fp (fp2Conj x.c1.c0) (fpFromBytes sm9Alpha2Data)","fp12Frob","wrong constant","C62"),
(P,"  let ra1 := fp2Neg fp (fp2MulFp fp (fp2Conj x.c0.c1) beta)","  let ra1 := fp2MulFp fp (fp2Conj x.c0.c1) beta","fp12Frob3","sign","C62"),
(P,"  let b := fp4Neg fp (fp4Conj x.c1)","  let b := fp4Conj x.c1","fp12Frob6","sign","C62"),
(P,"  let t4 := fp12Sqr fp t3\n  let t4 := fp12Sqr fp t4\n  let t4 := fp12Sqr fp t4","  let t4 := fp12Sqr fp t3\n  let t4 := fp12Sqr fp t4","finalExpHard","one squaring missing","C63"),
(P,"  let t0 ← fp12Inv fp t0\n","","finalExpHard","inversion dropped","C63"),
(P,"  let t2 ← fp12Pow fp t1 a2","  let t2 ← fp12Pow fp t1 a3","finalExpHard","wrong exponent","C63"),
(P,"  let t1 := fp12Frob2 t0\n  let t0 := fp12Mul fp t0 t1\n  finalExpHard t0","  let t1 := fp12Frob t0\n  let t0 := fp12Mul fp t0 t1\n  finalExpHard t0","finalExp","p+1 instead of p^2+1","C63"),
]
