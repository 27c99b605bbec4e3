L='Model/LimbsX64.lean'; M='Model/MontX64.lean'; S='Model/Sm2X64.lean'; N='Model/Sm9X64.lean'
MUTS=[
(L,"let (r, c2) := addLoop a t 0\n  (r, c1.setWidth 32 + c2.setWidth 32)","let (r, c2) := addLoop a t 0\n  (r, c2.setWidth 32)","X64.u256TplCarry","carry of the doubling lost","64-bit limbs"),
(L,"let top := (addcarryU64 cf 0 0).1\n  (w.headD 0","let top := 0\n  (w.headD 0","X64.mulStep","carry into the top word lost","64-bit limbs"),
(L,"(l0 :: rs, (addcarryU64 cf 0 (his.getLastD 0)).1)","(l0 :: rs, his.getLastD 0)","X64.mulWord","carry into the top word lost","64-bit limbs"),
(L,"let hi := (addcarryU64 cf hi 0).1\n  let (r, cf) := addcarryU64 0 r preHi","let (r, cf) := addcarryU64 0 r preHi","X64.addMulCarry","first carry lost","64-bit limbs"),
(L,"else if a < b then -1 else cmpFromBottom as bs","else if a < b then 1 else cmpFromBottom as bs","X64.cmpFromBottom","less reported as greater","64-bit limbs"),
(L,"def u256Cmp (a b : List W64) : Int := cmpFromTop a.reverse b.reverse","def u256Cmp (a b : List W64) : Int := cmpFromTop a b","X64.u256Cmp","limbs compared from the bottom","64-bit limbs"),
(L,"(l0 :: ls, his) =>\n    let (rs, cf) := addLoop ls his.dropLast 0","(l0 :: ls, his) =>\n    let (rs, cf) := addLoop ls his.tail 0","X64.mulWord","high words shifted","64-bit limbs"),
(L,"if divisor = 0 then none\n  else\n    let (qs, r) := divWordLoop divisor a.reverse 0","if divisor = 0 then none\n  else\n    let (qs, r) := divWordLoop divisor a 0","X64.u256DivWord","division from the low word","64-bit limbs"),
(L,"if c ≠ 0 ∨ u256Cmp sum divisor ≥ 0 then","if u256Cmp sum divisor ≥ 0 then","X64.u256ModAdd","carry ignored","64-bit limbs"),
(L,"if c ≠ 0 ∨ u256Cmp diff divisor ≥ 0 then","if c ≠ 0 ∧ u256Cmp diff divisor ≥ 0 then","X64.u256ModSub","or replaced by and","64-bit limbs"),
(L,"u256SelfModSll rem (8 * data.length) divisor","u256SelfModSll rem data.length divisor","X64.u256ModLoop","shift by bytes instead of bits","64-bit limbs"),
(L,"(a[i / 64]?).map","(a[i / 32]?).map","X64.u256BitTest","32-bit index","64-bit limbs"),
(L,"if hi.any (fun x => decide (x > 0)) then 1 else if a0 > b","if a0 > b","X64.u256CmpWord","high words ignored","64-bit limbs"),
(L,"hi.foldl (· ||| ·) 0 == 0 && a0 == 1","a0 == 1","X64.u256EqualOne","high words ignored","64-bit limbs"),
(L,"((-borrow).setWidth 8)","(borrow.setWidth 8)","X64.mpzSubBorrow","sign of the borrow in","64-bit limbs"),
(L,"loadWordsBE (src.take (8 * limbSize))","loadWordsBE (src.take (4 * limbSize))","X64.mpzFromBytes","four bytes per limb","64-bit limbs"),
(M,"~~~(x1 - y1) + 1","(x1 - y1)","X64.montComputeN","not negated","64-bit Montgomery"),
(M,"(s'.tail, (addcarryU64 cf T8 0).1)","(s'.tail, cf.setWidth 64)","X64.redcStep","previous carry forgotten","64-bit Montgomery"),
(M,"if T8 ≠ 0 ∨ u256Cmp r ctx.P ≥ 0 then (subLoop r ctx.P 0).1 else r","if u256Cmp r ctx.P ≥ 0 then (subLoop r ctx.P 0).1 else r","X64.mont256Redc","carry ignored","64-bit Montgomery"),
(M,"if u256EqualZero num then u256Zero else (u256SubBorrow ctx.P num).1","(u256SubBorrow ctx.P num).1","X64.mont256Neg","zero not treated","64-bit negation is reduced"),
(M,"shr1Loop s (c.signExtend 64)","shr1Loop s 0","X64.mont256Div2","carry lost","64-bit Montgomery"),
(M,"((y <<< 63) ||| (x >>> 1)) ::","((y <<< 31) ||| (x >>> 1)) ::","X64.shr1Loop","shift by 31","64-bit Montgomery"),
(M,"let t ← powMulSel ctx lut base (sqr4 ctx t) ((e &&& 0xF#8).toNat)\n    powLoop","let t ← powMulSel ctx lut base (sqr4 ctx t) ((e &&& 0x7#8).toNat)\n    powLoop","X64.powLoop","three-bit mask","64-bit Montgomery"),
(M,"else if u256EqualZero exponent then some u256One","else if u256EqualZero exponent then some ctx.R","X64.mont256Pow","one in Montgomery form","64-bit Montgomery"),
(M,"def mont256EqualOne (ctx : Mont256CTX) (a : List W64) : Bool := u256Equal a ctx.R","def mont256EqualOne (ctx : Mont256CTX) (a : List W64) : Bool := u256EqualOne a","X64.mont256EqualOne","compared with plain one","64-bit Montgomery"),
(S,"if e3i = true ∧ ei = false then some (ecJAddA F T P)","if e3i = true ∧ ei = false then some (ecJAddA F T Pneg)","X64.Sm2.mulAStep","sign of the digit","SM2 builds agree"),
(S,"else if c = 2 then\n      match ecJDbl F T with\n      | none => none\n      | some T => mulALoop F e e3 P Pneg 255 T","else if c = 2 then mulALoop F e e3 P Pneg 255 T","X64.Sm2.ecJMulA","carry 2 treated as carry 1","SM2 builds agree"),
(S,"if lsbY ≠ yHat then some (some (fp.neg y)) else some (some y)","some (some y)","X64.Sm2.recoverY","parity ignored","SM2 builds agree"),
(S,"if u256EqualZero d ∨ u256Cmp d t ≠ 0 then .throw","if u256Cmp d t ≠ 0 then .throw","X64.Sm2.setPriv","zero key accepted","SM2 builds agree"),
(S,"if outl ≠ C1.length ∨ C3.length ≠ C.DS then .throw","if C3.length ≠ C.DS then .throw","X64.Sm2.decryptBody","length of C1 not checked","SM2 builds agree"),
(S,"let k := mont256Sub sm2FnCtx k tmp\n    let s","let k := mont256Add sm2FnCtx k tmp\n    let s","X64.Sm2.signStep","plus instead of minus","SM2 builds agree"),
(S,"if mont256EqualZero sm2FnCtx tmp then .ok false","if mont256EqualZero sm2FnCtx tmp then .ok true","X64.Sm2.verifyBody","r + s = 0 accepted","SM2 builds agree"),
(S,"def toBytes04 (P : A) : List Byte := fpToBytes P.x ++ fpToBytes P.y","def toBytes04 (P : A) : List Byte := fpToBytes P.y ++ fpToBytes P.x","X64.Sm2.toBytes04","coordinates swapped","SM2 builds agree"),
(N,"if !mont256EqualOne sm9FpCtx z && !mont256Equal sm9FpCtx z neg1 then some none","if !mont256EqualOne sm9FpCtx z then some none","X64.Sm9.fpSqrt","-1 branch lost","SM9 x64 points"),
(N,"fp2MulFp fp (fp2Conj x.c1.c0) (fpFromBytes sm9Alpha1Data)","fp2MulFp fp (fp2Conj x.c1.c0) (fpFromBytes sm9Alpha2Data)","X64.Sm9.fp12Frob","wrong constant","SM9 x64 pairing"),
(N,"let b := fp4Neg fp (fp4Conj x.c1)","let b := fp4Conj x.c1","X64.Sm9.fp12Frob6","sign","SM9 x64 pairing"),
(N,"let t2 := fp12Sqr fp t2\n  let t2 := fp12Mul fp t2 t1","let t2 := fp12Mul fp t2 t1","X64.Sm9.finalExpHard","squaring dropped","SM9 x64 pairing"),
(N,"some (f, j2AddA T nQ)","some (f, j2AddA T Q)","X64.Sm9.millerStep","digit -1 adds Q","SM9 x64 pairing"),
(N,"let qj := ecJNeg fp2 qj\n","","X64.Sm9.miller","last point not negated","SM9 x64 pairing"),
(N,"if u256EqualZero ks ∨ u256Cmp ks N ≥ 0 then .throw","if u256EqualZero ks ∨ u256Cmp ks N > 0 then .throw","X64.Sm9.setPriv","N accepted","SM9 x64 keys"),
(N,"if mont256EqualZero sm9FnCtx t1 then .throw","if mont256EqualOne sm9FnCtx t1 then .throw","X64.Sm9.genSignPriv","wrong exceptional case","SM9 x64 keys"),
(N,"if size + 32 ≠ sig.length then .ok false else","if false then .ok false else","X64.Sm9.verifyBody","trailing octets accepted","SM9 x64 verify"),
(N,".ok (h2 == sig.take 32)",".ok (h2.take 31 == sig.take 31)","X64.Sm9.verifyTail","last octet not compared","SM9 x64 verify"),
(N,"let r := mont256Sub sm9FnCtx r hf","let r := mont256Add sm9FnCtx r hf","X64.Sm9.signStep","plus instead of minus","SM9 x64 sign"),
(N,"if mont256EqualZero sm9FnCtx r then .ok none","if mont256EqualOne sm9FnCtx r then .ok none","X64.Sm9.signStep","retry on the wrong value","SM9 x64 sign"),
(N,"def getPub (p : MPub) : List Byte × List Byte := (fp2ToBytes p.P.x, fp2ToBytes p.P.y)","def getPub (p : MPub) : List Byte × List Byte := (fp2ToBytes p.P.y, fp2ToBytes p.P.x)","X64.Sm9.getPub","coordinates swapped","SM9 x64 key round trip"),
(N,"if !ec2Check T then .throw","if ec2Check T then .throw","X64.Sm9.setPub","check inverted","SM9 x64 key round trip"),
(N,"if !ecCheck T then .throw\n  else do\n    let pub ← setPub pubX pubY","if !ecCheck T then .throw\n  else do\n    let pub ← setPub pubY pubX","X64.Sm9.setSignPriv","coordinates swapped","SM9 x64 key round trip"),
(N,"(fpToBytes k.priv.x, fpToBytes k.priv.y,","(fpToBytes k.priv.y, fpToBytes k.priv.x,","X64.Sm9.getSignPriv","coordinates swapped","SM9 x64 key round trip"),
(N,"buf.take 32 ++ fp2ToBytes P.y ++ buf.drop 96","buf.take 64 ++ fp2ToBytes P.y","X64.Sm9.ec2ToBytes04","offset corrected to 64","SM9 x64 twist encodings lose half of x"),
(N,"fp2FromBytes (bs.take 64), fp2FromBytes ((bs.drop 32).take 64)⟩","fp2FromBytes (bs.take 64), fp2FromBytes ((bs.drop 64).take 64)⟩","X64.Sm9.ec2FromBytes04","offset corrected to 64","SM9 x64 twist encodings"),
(N,"if rest.length < 96 then .ub else .ok (ec2FromBytes04 rest, 129)","if rest.length < 96 then .ub else .ok (ec2FromBytes04 rest, 65)","X64.Sm9.ec2AFromBytes","wrong length reported","SM9 x64 twist encodings"),
(N,"⟨fp4FromBytes ((bs.drop 256).take 128), fp4FromBytes ((bs.drop 128).take 128), fp4FromBytes (bs.take 128)⟩","⟨fp4FromBytes (bs.take 128), fp4FromBytes ((bs.drop 128).take 128), fp4FromBytes ((bs.drop 256).take 128)⟩","X64.Sm9.fp12FromBytes","coefficients reversed","SM9 x64 field encodings"),
(N,"(if lsbOf (toBytes04 P) = 0 then 0x06 else 0x07) :: toBytes04 P","(if lsbOf (toBytes04 P) = 0 then 0x07 else 0x06) :: toBytes04 P","X64.Sm9.toMix","prefix swapped","SM9 x64 points"),
]
