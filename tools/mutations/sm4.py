F='Model/Sm4.lean'
MUTS=[
(F,"rotl tmp 13 ^^^ rotl tmp 23","rotl tmp 13 ^^^ rotl tmp 24","keyRound","rotation 23 replaced by 24 in the key schedule","C18"),
(F,"s.pos + step⟩","s.pos + 1⟩","keyRound","decryption schedule written forwards","C17/C18"),
(F,"if enc then 0 else 31⟩","if enc then 0 else 30⟩","keyInit","decryption schedule starts at 30","C17/C18"),
(F,"(List.range 32).foldl (keyRound","(List.range 31).foldl (keyRound","keyInit","31 rounds of key schedule","C18"),
(F,"let X0 := X0 ^^^ at8 t1 (tmp >>> 16)\n  let X0 := X0 ^^^ at8 t2 (tmp >>> 8)","let X0 := X0 ^^^ at8 t2 (tmp >>> 16)\n  let X0 := X0 ^^^ at8 t1 (tmp >>> 8)","round","tables T1 and T2 swapped","C18"),
(F,"rotl tmp 2 ^^^ rotl tmp 10 ^^^ rotl tmp 18 ^^^ rotl tmp 24","rotl tmp 2 ^^^ rotl tmp 10 ^^^ rotl tmp 18 ^^^ rotl tmp 22","Common.round","rotation 24 replaced by 22 in the reference backend","C18"),
(F,"let x3 := rnd x3 x0 x1 x2 (rk.getD (i + 3) 0)","let x3 := rnd x3 x0 x1 x2 (rk.getD (i + 2) 0)","rounds4","round key i+2 used twice","C18"),
(F,"memStore32BE x.2.2.2 ++ memStore32BE x.2.2.1 ++ memStore32BE x.2.1 ++ memStore32BE x.1","memStore32BE x.1 ++ memStore32BE x.2.1 ++ memStore32BE x.2.2.1 ++ memStore32BE x.2.2.2","computeBlock","reverse transform dropped","C17/C18"),
(F,"x4Group x 3 0 1 2 (rk.getD (i + 3) 0)","x4Group x 3 1 0 2 (rk.getD (i + 2) 0)","x4Rounds","wrong round key in the fourth batch group","C18"),
(F,"(a + 8) u2) (a + 12) u3","(a + 8) u3) (a + 12) u2","x4Group","lanes 2 and 3 swapped in the batch","C18"),
(F,"if 4 ≤ n then computeBlocksX4 rk (inp.take 64) ++ computeBlocks rk (inp.drop 64) (n - 4)","if 4 ≤ n then computeBlocksX4 rk (inp.take 64) ++ computeBlocks rk (inp.drop 48) (n - 4)","computeBlocks","input pointer advanced by 48 instead of 64","C18"),
(F,"st 11 ++ st 10 ++ st 9 ++ st 8 ++ st 15","st 11 ++ st 10 ++ st 8 ++ st 9 ++ st 15","computeBlocksX4","two output words swapped in lane 2","C18"),
(F,"((at8 S (tmp >>> 8)).setWidth 32 <<< 8) |||","((at8 S (tmp >>> 8)).setWidth 32 <<< 8) &&&","subWord","or replaced by and in the S-box word","C18"),
(F,"[0, 4, 8, 12, 16, 20, 24, 28].foldl (rounds4 rnd rk)","[0, 4, 8, 12, 16, 20, 24].foldl (rounds4 rnd rk)","computeBlock","28 rounds only","C18"),
(F,"D := block (setKey (List.replicate 32 0) key false)","D := block (setKey (List.replicate 32 0) key true)","cipher","decryptor keyed with the encryption schedule","C17/C09"),
(F,"keyInit Common.sbox Common.fk Common.ck old key enc","keyInit Common.sbox Common.ck Common.fk old key enc","Common.setKey","FK and CK swapped in the reference backend","C18"),
('Model/Sm4Tables.lean',"#[0xd6, 0x90, 0xe9","#[0xd6, 0x91, 0xe9","sbox","second S-box entry wrong","C18"),
('Model/Sm4Tables.lean',"0x4242d092, 0xa7a74dea","0x4242d093, 0xa7a74dea","t2","one bit of one T2 entry wrong","C18"),
]
