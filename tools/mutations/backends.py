N='Model/AesNi.lean'; G='Model/GhashPclmul.lean'; A='Model/Sm4Avx2.lean'; R='Model/Rng.lean'; D='Model/Dump.lean'; E='Model/EndianMovbe.lean'
MUTS=[
(N,"xor (spread temp1) (shuffle32 temp2 0xff)\n\n/-- `AES_128_Key","xor (spread temp1) (shuffle32 temp2 0xaa)\n\n/-- `AES_128_Key","AesNi.assist128","lane 2 broadcast instead of lane 3","AES-NI equals FIPS 197"),
(N,"let temp3 := slli4 temp3\n  let temp1 := xor temp1 temp3\n  let temp3 := slli4 temp3\n  xor temp1 temp3","let temp3 := slli4 temp3\n  xor temp1 temp3","AesNi.spread","one shifted exclusive or dropped","AES-NI equals FIPS 197"),
(N,"0x80, 0x1b, 0x36])","0x80, 0x1b, 0x6c])","AesNi.expand128","last round constant wrong","AES-NI equals FIPS 197"),
(N,"shuffle64 t1 t3 1 ::","shuffle64 t1 t3 0 ::","AesNi.steps192","low half instead of high half","AES-NI equals FIPS 197"),
(N,"let temp2 := shuffle32 temp2 0x55","let temp2 := shuffle32 temp2 0xff","AesNi.assist192","wrong lane of keygenassist","AES-NI equals FIPS 197"),
(N,"(keygenassist temp1 0x0) 0xaa)","(keygenassist temp1 0x0) 0xff)","AesNi.assist256b","rotated word used in the second half","AES-NI equals FIPS 197"),
(N,"let temp3 ← loadu (userkey.drop 16)\n  pure (steps192","let temp3 ← loadu (userkey.drop 8)\n  pure (steps192","AesNi.expand192","second load at offset 8, no read past the key","192-bit key expansion reads past the key"),
(N,"if bits = 128 then 10 else if bits = 192 then 12 else 14","if bits = 128 then 10 else if bits = 192 then 12 else 13","AesNi.nr","13 rounds for 256-bit keys","AES-NI equals FIPS 197"),
(N,"fun i => aesimc (rk.getD (nr bits - i) zero)","fun i => (rk.getD (nr bits - i) zero)","AesNi.decKeyInit","InvMixColumns missing in the decryption keys","AES-NI inverse"),
(N,"foldl (fun s i => aesdec s (rk.getD i zero)) state","foldl (fun s i => aesdec s (rk.getD (i + 1) zero)) state","AesNi.decBlock","round keys shifted by one","AES-NI inverse"),
(N,"(aesenclast state (rk.getD (nr bits) zero)).bytes","(aesenc state (rk.getD (nr bits) zero)).bytes","AesNi.encBlock","MixColumns in the last round","AES-NI equals FIPS 197"),
(N,"encBlocks bits rk (inp.drop 16) n","encBlocks bits rk inp n","AesNi.encBlocks","input pointer not advanced","AES-NI equals FIPS 197"),
(G,"setEpi32 0x0f070b03 0x0d050901 0x0e060a02 0x0c040800","setEpi32 0x0f070b03 0x0d050901 0x0e060a02 0x0c080400","GhashPclmul.reflectXmm","two entries of a mask swapped","PCLMUL GHASH"),
(G,"let tmp9 := srliEpi32 tmp6 25","let tmp9 := srliEpi32 tmp6 24","GhashPclmul.reduce","shift 24 instead of 25","PCLMUL GHASH"),
(G,"shuffleEpi32 tmp7 147","shuffleEpi32 tmp7 57","GhashPclmul.reduce","rotated the other way","PCLMUL GHASH"),
(G,"let tmp4 := tmp4 ^^^ tmp3\n  let tmp4 := tmp4 ^^^ tmp6","let tmp4 := tmp4 ^^^ tmp3","GhashPclmul.gfmul","high product not subtracted in Karatsuba","PCLMUL GHASH"),
(G,"gfmul (c.state ^^^ reflectXmm (loadu inp)) c.H⟩ (inp.drop 16) n","gfmul (c.state ^^^ reflectXmm (loadu inp)) c.H⟩ inp n","GhashPclmul.updateBlocks","input pointer not advanced","PCLMUL GHASH"),
(G,"def ghashReset (c : Ctx) : Ctx := ⟨c.H, 0⟩","def ghashReset (c : Ctx) : Ctx := c","GhashPclmul.ghashReset","reset keeps the state","PCLMUL GHASH"),
(G,"storeu (reflectXmm c.state))","storeu c.state)","GhashPclmul.finalBlock","result not reflected","PCLMUL GHASH"),
(A,"let t0 ← gather Sm4.t3 t0\n  let t1 ← gather Sm4.t2 t1\n  let t2 ← gather Sm4.t1 t2\n  let t3 ← gather Sm4.t0 t3\n  let t0 := xor","let t0 ← gather Sm4.t3 t0\n  let t1 ← gather Sm4.t1 t1\n  let t2 ← gather Sm4.t2 t2\n  let t3 ← gather Sm4.t0 t3\n  let t0 := xor","Avx2.roundX8","tables T1 and T2 swapped","AVX2 SM4"),
(A,"let t5 := srli t4 8","let t5 := srli t0 8","Avx2.roundX16","second half reads the first half's register","AVX2 SM4"),
(A,"let t6 := and t6 mask","let t6 := t6","Avx2.roundX16","index not masked: gather out of bounds","AVX2 SM4"),
(A,"loopX8 rk 0 32 (load8 inp 0)","loopX8 rk 0 31 (load8 inp 0)","Avx2.computeX8","31 rounds","AVX2 SM4"),
(A,"(load8 inp 0) (load8 inp 1)","(load8 inp 0) (load8 inp 0)","Avx2.computeX16","first eight blocks twice","AVX2 SM4"),
(A,"storeu (pack0 x3 x2 x1 x0) ++ storeu (pack1 x3 x2 x1 x0)","storeu (pack1 x3 x2 x1 x0) ++ storeu (pack0 x3 x2 x1 x0)","Avx2.store8","two stores swapped","AVX2 SM4"),
(A,"blocks rk (inp.drop 256) (n - 16)","blocks rk (inp.drop 128) (n - 16)","Avx2.blocks","input pointer advanced by 128","AVX2 SM4"),
(A,"loopX16 rk (i + 1) n p.1 p.2","loopX16 rk (i + 1) n p.2 p.1","Avx2.loopX16","halves swapped every round","AVX2 SM4"),
(R,"| none => retryLoop hw retries (i + 1)","| none => (none, i + 1)","Rng.retry","no retries","hardware generator fills the buffer when one of the tries succeeds"),
(R,"| (none, j) => .throw m j\n  else .ok m i\ntermination_by len\ndecreasing_by omega\n\nend hardware","| (none, j) => .ok m j\n  else .ok m i\ntermination_by len\ndecreasing_by omega\n\nend hardware","Rng.gen","failure in the tail ignored","gen reports failure"),
(R,"tailBytes n (v >>> 8)","tailBytes n v","Rng.tailBytes","tail repeats one byte","gen writes the bytes of the answers"),
(R,"(wrm m p (wordBytes v)) (p + w / 8) (len - w / 8) j","(wrm m p (wordBytes v)) p (len - w / 8) j","Rng.gen","output pointer not advanced","gen fills the buffer"),
(R,"| none => .throw m (i + 1)\n  else if len ≠ 0 then","| none => .ok m (i + 1)\n  else if len ≠ 0 then","Rng.osGen","failure of a system call ignored","gen reports failure"),
(R,"stdGen dev (wrm m p [v.setWidth 8]) (p + 1) len (i + 1)","stdGen dev (wrm m p [v.setWidth 8]) (p + 1) len i","Rng.stdGen","the same answer used for every byte","gen writes the answers"),
(R,"let (bs, s'') := cstdGen L len s'","let (bs, s'') := cstdGen L len s","Rng.cstdGen","library state not advanced","CstdRng"),
(D,"if i % 8 = 7 then [Tok.nl]","if i % 8 = 0 then [Tok.nl]","Dump.bodyToks","line break after the first byte of a row","asn1_dump"),
(D,"(if n % 8 ≠ 0 then [Tok.nl] else [])) 0","[]) 0","Dump.prim","last line not ended","asn1_dump"),
(D,"dump buf f t.value t.length (depth + 1)","dump buf f t.value t.length depth","Dump.dump","nested elements not indented","asn1_dump"),
(D,"if v + n ≤ buf.length then","if n ≤ buf.length then","Dump.prim","contents beyond the buffer printed","asn1_dump out-of-bounds"),
(D,"(if rest.length ≠ 0 then ['\\n'] else [])","['\\n']","Dump.lines","line break after the last full line","memdump"),
(D,"List.replicate (lc - (items fmt sep data).length) ' '","List.replicate lc ' '","Dump.lines","padding not reduced","memdump"),
(D,"32 ≤ b.toNat && b.toNat < 127","32 ≤ b.toNat && b.toNat ≤ 127","Dump.isprint","DEL printed","memdump"),
(E,"def load32be (p0 p1 p2 p3 : Byte) : W32 := bswap32 (host32 p0 p1 p2 p3)","def load32be (p0 p1 p2 p3 : Byte) : W32 := host32 p0 p1 p2 p3","EndianMovbe.load32be","byte swap missing","MOVBE accessors"),
(E,"def store64be (n : W64) : List Byte := mem64 (bswap64 n)","def store64be (n : W64) : List Byte := mem64 n","EndianMovbe.store64be","byte swap missing","MOVBE accessors"),
(E,"def store16le (n : BitVec 16) : List Byte := mem16 n","def store16le (n : BitVec 16) : List Byte := mem16 (bswap16 n)","EndianMovbe.store16le","byte swap in the little-endian store","MOVBE accessors"),
]
