G='Model/Ghash.lean'; M='Model/Gcm.lean'; T='Model/GhashTables.lean'
MUTS=[
(G,"let lo := (m.1 <<< 63) ||| (m.2 >>> 1)\n    let hi := m.1 >>> 1\n    if m.2 &&& 1","let lo := (m.1 <<< 63) ||| (m.2 >>> 1)\n    let hi := m.1 >>> 1\n    if m.1 &&& 1","lutStep","reduction decided by the wrong word","C06"),
(G,"T.set (rev i) (hi ^^^ (0b11100001#64 <<< 56), lo)","T.set (rev i) (hi ^^^ (0b11100001#64 <<< 48), lo)","lutStep","reduction constant at the wrong byte","C06"),
(G,"(List.range' 2 254).foldl lutStep T","(List.range' 2 253).foldl lutStep T","lutTable","last table entry missing","C06"),
(G,"((if 1 - s / 8 = 0 then X.1 else X.2) >>> (8 * (s % 8))) &&& 0xFF","((if 1 - s / 8 = 0 then X.2 else X.1) >>> (8 * (s % 8))) &&& 0xFF","xByte","words swapped","C06"),
(G,"let R1 := (R.1 <<< 56) ||| (R.2 >>> 8)","let R1 := (R.1 <<< 56) ^^^ (R.2 >>> 7)","gmulRound","shift by 7","C06"),
(G,"(reduceTable.getD rem.toNat 0).setWidth 64 <<< 48","(reduceTable.getD rem.toNat 0).setWidth 64 <<< 40","gmulRound","reduction shifted","C06"),
(G,"[1, 2, 3, 4, 5, 6, 7, 8, 9, 10, 11, 12, 13, 14, 15].foldl (gmulRound T X) R","[1, 2, 3, 4, 5, 6, 7, 8, 9, 10, 11, 12, 13, 14].foldl (gmulRound T X) R","gmulBlock","last byte skipped","C06"),
(G,"let X : Pair := (state.1 ^^^ memLoad64BE inp, state.2 ^^^ memLoad64BE (inp.drop 8))\n  let R","let X : Pair := (memLoad64BE inp, memLoad64BE (inp.drop 8))\n  let R","gmulBlock","previous state not mixed in","C06"),
(G,"let Vh := (0xE100000000000000#64 &&& mask) ^^^ (V.1 >>> 1)","let Vh := (V.1 >>> 1)","Common.bitStep","no reduction","C06 backends"),
(G,"let X := X <<< 1\n","let X := X >>> 1\n","Common.bitStep","bits consumed from the wrong end","C06 backends"),
(G,"| inp, n + 1 => updateBlocks ⟨c.T, gmulBlock c.T c.state inp⟩ (inp.drop 16) n","| inp, n + 1 => updateBlocks ⟨c.T, gmulBlock c.T c.state inp⟩ (inp.drop 8) n","updateBlocks","input advanced by 8","C06"),
(M,"inp.take 12 ++ memStore32BE (memLoad32BE b0 b1 b2 b3 + 1)","inp.take 12 ++ memStore32BE (memLoad32BE b3 b2 b1 b0 + 1)","gctrInc","little-endian counter","C12"),
(M,"if iv.length = 12 then .ok (iv ++ [0, 0, 0, 1], hash)","if iv.length = 12 then .ok (iv ++ [0, 0, 0, 0], hash)","gctrInit","counter starts at 0","C13"),
(M,"if iv.length = 12 then .ok (iv ++ [0, 0, 0, 1], hash)","if iv.length ≤ 12 then .ok ((iv ++ zeros (12 - iv.length)) ++ [0, 0, 0, 1], hash)","gctrInit","short IVs zero padded","C13"),
(M,"(lenBlock 0 (iv.length * 8))","(lenBlock (iv.length * 8) 0)","gctrInit","IV length in the wrong half","C13"),
(M,"let r ← hashFinal 16 Ghash.impl hash []\n    .ok (r.2, Ghash.reset r.1)","let r ← hashFinal 16 Ghash.impl hash []\n    .ok (r.2, r.1)","gctrInit","hash not reset after deriving J0","C13"),
(M,"counter := gctrInc r.1, hash := hash, aadLen := aad.length,\n                            ctLen := 0, tag := zeros 16","counter := r.1, hash := hash, aadLen := aad.length,\n                            ctLen := 0, tag := zeros 16","encInit","counter not incremented","C13"),
(M,"aadLen := aad.length,\n                            ctLen := 0, tag := zeros 16","aadLen := aad.length,\n                            tag := zeros 16","encInit","ct_len_ not cleared","C13/C16"),
(M,"if nxt ≥ 2 ^ 64 ∨ nxt > maxLen then .throw\n  else do\n    let hash ← hashUpdate 16 Ghash.impl s.hash (rdm r.2 o outl)","if nxt ≥ 2 ^ 64 then .throw\n  else do\n    let hash ← hashUpdate 16 Ghash.impl s.hash (rdm r.2 o outl)","encUpd","length limit dropped","C13"),
(M,"let hash ← hashUpdate 16 Ghash.impl s.hash (rdm r.2 o outl)","let hash ← hashUpdate 16 Ghash.impl s.hash (src.read m outl)","encUpd","plaintext hashed instead of ciphertext","C13"),
(M,"let hash ← hashUpdate 16 Ghash.impl s.hash (rdm r.2 o inp.length)","let hash ← hashUpdate 16 Ghash.impl s.hash inp","encFin","plaintext tail hashed","C13"),
(M,"let hash ← hashUpdate 16 Ghash.impl s.hash (lenBlock (s.aadLen * 8) (s.ctLen * 8))","let hash ← hashUpdate 16 Ghash.impl s.hash (lenBlock (s.ctLen * 8) (s.aadLen * 8))","encFin","lengths swapped","C13"),
(M,"let hash ← hashUpdate 16 Ghash.impl s.hash (lenBlock (s.aadLen * 8) (s.ctLen * 8))","let hash ← hashUpdate 16 Ghash.impl s.hash (lenBlock s.aadLen s.ctLen)","encFin","byte instead of bit lengths","C13"),
(M,"tag := xorBytes r.2 (C.E s.counter0)","tag := xorBytes r.2 (C.E s.counter)","encFin","tag masked with the current counter","C13"),
(M,"let hash ← hashUpdate 16 Ghash.impl s.hash (src.read m (n * 16))\n      let r ← (gctrImpl C).upd s.counter m src o n\n","let r ← (gctrImpl C).upd s.counter m src o n\n      let hash ← hashUpdate 16 Ghash.impl s.hash (src.read r.2 (n * 16))\n","decUpd","hash after decryption (wrong in place)","C14"),
(M,"(s.stat.take ((16 - inp.length % 16) % 16))","(s.stat.take (16 - inp.length))","decFin","equivalent for inl in 1..15 (control: may survive)","none"),
(M,"if tag ≠ s.tag then .throw","if tag.take 12 ≠ s.tag.take 12 then .throw","decFin","only 12 tag bytes compared","C14"),
(M,"if tag ≠ s.tag then .throw\n  else .ok ({ s with hash := r.1, stat := t }, m)","if tag ≠ s.tag then .throw\n  else .ok ({ s with hash := r.1 }, m)","decFin","static t not overwritten (bug repaired)","C14 violation no longer true"),
(M,"let nxt := s.ctLen + n * 16\n    if nxt ≥ 2 ^ 64 then .throw","let nxt := s.ctLen + n\n    if nxt ≥ 2 ^ 64 then .throw","decUpd","blocks counted instead of bytes","C14"),
]
