F='Model/Aes.lean'
MUTS=[
(F,"else if nk > 6 ∧ i % nk = 4 then","else if nk > 4 ∧ i % nk = 4 then","keyWord","extra SubWord also for AES-192","C20"),
(F,"rcon.getD (i / nk - 1) 0","rcon.getD (i / nk) 0","keyWord","round constant index off by one","C20"),
(F,"w.getD (i - nk) 0 ^^^ tmp","w.getD (i - 4) 0 ^^^ tmp","keyWord","always xors the word four back","C20"),
(F,"10 + (bits - 128) / 32","10 + (bits - 128) / 64","nrOf","AES-192 runs 11 rounds","C20"),
(F,"(quad tmp (4 * (nr - i))).map invMixcol","(quad tmp (4 * (nr - i)))","decKeyInit","inverse MixColumns of the round keys dropped","C19/C20"),
(F,"quad tmp (4 * nr) ++ ((List.range' 1 (nr - 1))","quad tmp (4 * nr) ++ ((List.range' 1 (nr - 2))","decKeyInit","one middle round key missing","C19/C20"),
(F,"at8 td0 (sb sbox (si >>> 24)) ^^^ at8 td1 (sb sbox (si >>> 16))","at8 td0 (sb sbox (si >>> 16)) ^^^ at8 td1 (sb sbox (si >>> 24))","invMixcol","two bytes swapped","C19/C20"),
(F,"(t s0 s3 s2 s1 ^^^ rk.getD (4 * i) 0, t s1 s0 s3 s2 ^^^ rk.getD (4 * i + 1) 0,\n    t s2 s1 s0 s3 ^^^ rk.getD (4 * i + 2) 0, t s3 s2 s1 s0 ^^^ rk.getD (4 * i + 3) 0)\n\n/-- `aes_dec_last`","(t s0 s1 s2 s3 ^^^ rk.getD (4 * i) 0, t s1 s2 s3 s0 ^^^ rk.getD (4 * i + 1) 0,\n    t s2 s3 s0 s1 ^^^ rk.getD (4 * i + 2) 0, t s3 s0 s1 s2 ^^^ rk.getD (4 * i + 3) 0)\n\n/-- `aes_dec_last`","decRound","decryption uses the encryption row shift","C19/C20"),
(F,"sb sbox (a >>> 24) <<< 24 ||| sb sbox (b >>> 16) <<< 16 ||| sb sbox (c >>> 8) <<< 8","sb sbox (a >>> 24) <<< 24 ||| sb sbox (b >>> 16) <<< 16 ||| sb sbox (c >>> 16) <<< 8","encLast","wrong byte in the last round","C20"),
(F,"store (encLast rk ((List.range' 1 (nr - 1)).foldl (encRound rk) (load rk inp)) nr)","store (encLast rk ((List.range' 1 nr).foldl (encRound rk) (load rk inp)) nr)","encBlock","one table round too many","C20"),
(F,"rk.getD 2 0 ^^^ ld inp 8, rk.getD 3 0 ^^^ ld inp 12","rk.getD 2 0 ^^^ ld inp 8, rk.getD 2 0 ^^^ ld inp 12","load","whitening key word repeated","C20"),
(F,"decBlock rk (inp.take 16) bits ++ decBlocks rk bits (inp.drop 16) n","decBlock rk (inp.take 16) bits ++ decBlocks rk bits inp n","decBlocks","input pointer not advanced","C20"),
(F,"sb invSbox (a >>> 24) <<< 24","sb sbox (a >>> 24) <<< 24","decLast","forward S-box in the last decryption round","C19/C20"),
(F,"D := fun x => decBlock (decKeyInit key bits) x bits","D := fun x => decBlock (encKeyInit key bits) x bits","cipher","decryptor keyed with the encryption schedule","C09/C10/C19"),
]
