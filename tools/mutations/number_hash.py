L='Model/Limbs.lean'; M='Model/Mont.lean'; H='Model/Hash.lean'; S='Model/Sm3.lean'
MUTS=[
(L,"let tmp : W64 := a.setWidth 64 - b.setWidth 64 + borrow.signExtend 64","let tmp : W64 := a.setWidth 64 - b.setWidth 64 - borrow.signExtend 64","subBorrow","borrow added instead of subtracted","C31 subtraction exact"),
(L,"if limbSize = 0 then ([], 0) else addCarryLoop (a.take limbSize) (b.take limbSize) carry","if limbSize = 0 then ([], 0) else addCarryLoop (a.take limbSize) (b.take limbSize) 0","mpzAddCarry","incoming carry dropped","C30 addition exact"),
(L,"(b.take limbSize) borrow","(b.take (limbSize - 1) ++ [0]) borrow","mpzSubBorrow","top limb of subtrahend ignored","C30 subtraction exact"),
(L,"let tmp : W64 := n.setWidth 64 * m.setWidth 64 + r.setWidth 64 + carry.setWidth 64","let tmp : W64 := n.setWidth 64 * m.setWidth 64 + carry.setWidth 64","addMulCarry","accumulator not added","C30/C31 product, C34"),
(L,"| (r0 :: rs, c) => r0 :: mulLoop a bs (rs ++ [c])\n    | ([], c) => [c]\n\n/-- `mpz_mul`","| (r0 :: rs, _) => r0 :: mulLoop a bs (rs ++ [0])\n    | ([], c) => [c]\n\n/-- `mpz_mul`","mulLoop","row carry lost","C30/C31 product"),
(L,"if a > b then 1 else if a < b then -1 else cmpFromTop as bs","if a ≥ b then 1 else if a < b then -1 else cmpFromTop as bs","cmpFromTop",">= instead of >","C30/C31 comparison"),
(L,"if carry ≠ 0 ∨ u256Cmp sum divisor ≥ 0 then (u256SubBorrow sum divisor).1 else sum","if carry ≠ 0 ∨ u256Cmp sum divisor > 0 then (u256SubBorrow sum divisor).1 else sum","u256ModAdd","> instead of >= (sum = modulus not reduced)","C32, C35 canonical results"),
(L,"if carry ≠ 0 ∨ u256Cmp sum divisor ≥ 0","if u256Cmp sum divisor ≥ 0","u256ModAdd","carry ignored","C32, C35"),
(L,"let rem := u256SelfModSll rem (8 * data.length) divisor","let rem := u256SelfModSll rem 256 divisor","u256ModLoop","ragged rest shifted by 256","C32"),
(L,"(u256FromBytes (List.replicate (32 - data.length) 0 ++ data))","(u256FromBytes (data ++ List.replicate (32 - data.length) 0))","u256ModLoop","ragged rest left aligned","C32"),
(L,"if u256EqualZero num then num else modDoubleN divisor n num","modDoubleN divisor (n - 1) num","u256SelfModSll","one doubling too few","C32"),
(L,"let rem := (rem <<< 32) ||| d.setWidth 64","let rem := (rem <<< 31) ||| d.setWidth 64","divWordLoop","wrong shift","C31 word division"),
(L,"| a0 :: hi => hi.foldl (· ||| ·) 0 == 0 && a0 == 1","| a0 :: _ => a0 == 1","u256EqualOne","high limbs ignored","C31 comparisons"),
(L,"(a[i / 32]?).map fun (w : W32) => ((w >>> (i % 32))","(a[i / 32]?).map fun (w : W32) => ((w >>> (31 - i % 32))","u256BitTest","bit order inside the limb reversed","C31 bittest"),
(L,"def u256FromBytes (bytes : List Byte) : List W32 := (loadWordsBE bytes).reverse","def u256FromBytes (bytes : List Byte) : List W32 := loadWordsBE bytes","u256FromBytes","limb order reversed","C33"),
(M,"let (t8', c) := addCarry t8 carry 0","let (t8', c) := addCarry t8 0 0","redcRound","row carry not added","C34"),
(M,"redcLoop P N_ n s (t16 + c)","redcLoop P N_ n s t16","redcLoop","overflow limb not accumulated","C34"),
(M,"if t16 ≠ 0 ∨ u256Cmp r ctx.P ≥ 0 then (u256SubBorrow r ctx.P).1 else r","if u256Cmp r ctx.P ≥ 0 then (u256SubBorrow r ctx.P).1 else r","mont256Redc","overflow ignored in the final subtraction","C34"),
(M,"let m := t0 * N_","let m := t0 + N_","redcRound","wrong multiplier","C34"),
(M,"if carry ≠ 0 ∨ u256Cmp r ctx.P ≥ 0 then (u256SubBorrow r ctx.P).1 else r\n\n/-- `while (carry)","if carry ≠ 0 then (u256SubBorrow r ctx.P).1 else r\n\n/-- `while (carry)","mont256Dbl","comparison dropped","C35 dbl canonical"),
(M,"tplSubLoop P fuel t (carry + b)","tplSubLoop P fuel t 0","tplSubLoop","loop leaves after one subtraction","C35 tpl"),
(M,"let (s, c) := u256AddCarry a ctx.P\n      shr1Loop s c","let (s, _) := u256AddCarry a ctx.P\n      shr1Loop s 0","mont256Div2","carry bit lost","C35 div2"),
(M,"if index = 1 then some base else","if index = 1 then lut[0]? else","powSel","index 1 reads the square","C37"),
(M,"powTable ctx base 14","powTable ctx base 13","mont256Pow","table one entry short","C37 (out-of-bounds read)"),
(M,"mont256Pow ctx a ctx.PSub2","mont256Pow ctx a ctx.P","mont256Inv","wrong exponent","C37 inv"),
(M,"~~~(x1 - y1) + 1","(x1 - y1)","montComputeN","sign dropped","C38"),
(M,"u256ToBytes (u256FromMont ctx a)","u256ToBytes a","mont256ToBytes","conversion out of Montgomery form dropped","C39"),
(H,"hashAbsorb BS I st inp (inp.length / 64)","hashAbsorb BS I st inp (inp.length / 128)","hashUpdate","wrong block count after filling the buffer","C01, C07"),
(H,"let st ← I.updateBlocks h.st buf 1\n","let st ← I.updateBlocks h.st h.buf 1\n","hashUpdate","old buffer compressed instead of the filled one","C01"),
(H,"if BS - h.buf.length > inp.length then inp.length else BS - h.buf.length","if BS - h.buf.length ≥ inp.length then inp.length else BS - h.buf.length - 1","hashUpdate","off-by-one fill size","C01, C07"),
(H,"    else .ok ⟨buf, h.st⟩","    else .ok ⟨h.buf, h.st⟩","hashUpdate","buffer update dropped","C01"),
(H,"if key.length > C.BS then do","if key.length ≥ C.BS then do","HMac.setKey","boundary: 64-byte keys hashed","C05"),
(H,"let h ← hashUpdate C.BS C.impl h i.2\n","","HMac.final","inner digest not absorbed","C05"),
(H,"let h := C.reset i.1\n","let h := i.1\n","HMac.final","missing reset before the outer hash","C05"),
(H,"let h := C.reset m.h\n","let h := m.h\n","HMac.setKey","missing reset at set_key","C05"),
(S,"(j - 13)","(j - 12)","expand","wrong tap","C02"),
(S,"⟨A, rotl B 9, C, TT1, E, rotl F 19, G, P0 TT2⟩","⟨A, rotl B 9, C, TT1, E, rotl F 19, G, P1 TT2⟩","R","P1 instead of P0","C02"),
(S,"let ⟨C, D, A, B, G, H, E, F⟩ := R ff gg W (j + 2) C D A B G H E F","let ⟨C, D, A, B, G, H, E, F⟩ := R ff gg W (j + 2) C D A B H G E F","R4","swapped arguments","C02"),
(S,"(64 + 56 - 1 - inp.length) % 64","(64 + 56 - inp.length) % 64","finalBlock","padding one byte too long","C02"),
(S,"0x228cbce6, 0x9d8a7a87,","0x228cbce6, 0x9d8a7a88,","T","table typo","C02"),
(S,"if nxt.ult ctx.dataBits then none","if nxt.ult 0 then none","updateBlocks","overflow check dropped","C04"),
(S,"let nxt : W64 := BitVec.ofNat 64 (inp.length * 8) + ctx.dataBits\n  if","let nxt : W64 := ctx.dataBits\n  if","finalBlock","final bytes not counted","C02"),
(S,"if blockNum > (2 ^ 64 - 1) / 512 then none\n  else\n","","updateBlocks","block count bound dropped","C04"),
(S,"  let r ← Rloop sh32 0x7a879d8a FF16 GG16 W W_ 48 16 r","  let r ← Rloop sh32 0x7a879d8a FF16 GG00 W W_ 48 16 r","Common.compress","wrong boolean function","C03"),
]
