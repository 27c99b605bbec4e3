F='Model/Asn1.lean'
MUTS=[
(F,"if t.pc ≠ 0x00 ∨ t.num ≠ 1 ∨ t.length ≠ 1 then .err (-1)","if t.pc ≠ 0x00 ∨ t.num ≠ 1 ∨ t.length = 0 then .err (-1)","decBoolean","longer BOOLEAN accepted","C25 exact set of inputs"),
(F,"let b ← rd buf t.value\n    .ok (!(b == 0), n)","if p + inl ≤ t.value then .err (-1) else do\n    let b ← rd buf t.value\n    .ok (!(b == 0), n)","decBoolean","missing length check added (a repair)","C25: which inputs are read past"),
(F,"else if 1 < t.length then do\n    let v0","else if 2 < t.length then do\n    let v0","decInteger","padding of two-octet INTEGERs not examined","C25, C26"),
(F,"else if v0 = 0xff then do","else if v0 = 0xfe then do","decInteger","wrong octet for negative padding","C107 accepted set"),
(F,"if v1 &&& 0x80#8 = 0x80#8 then .err (-1) else .ok (t.value, t.length, n)","if v1 &&& 0x80#8 = 0x80#8 then .err (-1) else .ok (t.value + 1, t.length - 1, n)","decInteger","first octet of a negative number dropped","C107 accepted set"),
(F,"if t.pc ≠ 0x00 ∨ t.num ≠ 2 ∨ t.length = 0 then .err (-1)","if t.num ≠ 2 ∨ t.length = 0 then .err (-1)","decInteger","constructed INTEGER accepted","C107 accepted set"),
(F,"if t.num ≠ 3 ∨ t.length = 0 then .err (-1)","if t.pc ≠ 0x00 ∨ t.num ≠ 3 ∨ t.length = 0 then .err (-1)","decBitString","constructed BIT STRING refused (a repair)","C107 accepted set of public keys"),
(F,"if t.length = 1 ∧ v0 ≠ 0 then .err (-1)","if t.length = 1 then .err (-1)","decBitString","empty BIT STRING refused","C28"),
(F,"if t.pc ≠ 0x20 ∨ t.num ≠ num ∨ t.length = 0 then .err (-1)","if t.num ≠ num ∨ t.length = 0 then .err (-1)","decConstructed","primitive SEQUENCE accepted","C107 accepted set of signatures"),
(F,"if t.pc ≠ 0x20 ∨ t.num ≠ num ∨ t.length = 0 then .err (-1)","if t.pc ≠ 0x20 ∨ t.num ≠ num ∨ t.length = 0 ∨ p + inl < t.value + t.length then .err (-1)","decConstructed","missing length check added (a repair)","C107 violations"),
(F,"if rl ≠ 32 then .err (-1)","if 32 < rl then .err (-1)","sigDecode","short R accepted","C107 accepted set of signatures"),
(F,"let (s, sl2, _) ← orFail (decInteger buf sv sl)","let (s, sl2, _) ← orFail (decInteger buf sv inl)","sigDecode","S bounded by the whole input","C107 accepted set of signatures"),
(F,"let sv := sv + n1\n    let sl := szSub sl n1\n    let (s, sl2","let sv := sv + n1\n    let (s, sl2","sigDecode","remaining length not updated","C107 accepted set of signatures"),
(F,"else .ok (r, s, szSub inl inl')","else .ok (r, s, inl)","sigDecode","all octets reported as read","C107 number of octets read"),
(F,"if l ≠ 32 then .err (-1) else .ok (d, n)","if l ≠ 32 ∨ inl < n then .err (-1) else .ok (d, n)","privDecode","missing length check added (a repair)","C107 accepted set of private keys"),
(F,"if l ≠ 65 ∧ bits ≠ 65 * 8 then .err (-1)","if l ≠ 65 ∨ bits ≠ 65 * 8 then .err (-1)","pubDecode","both tests required (every key refused)","C107 accepted set of public keys"),
(F,"if l ≠ 65 ∧ bits ≠ 65 * 8 then .err (-1)","if l ≠ 64 ∧ bits ≠ 65 * 8 then .err (-1)","pubDecode","64 octets expected","C107 accepted set of public keys"),
(F,"def szSub (a b : Nat) : Nat := (a + 2 ^ 64 - b % 2 ^ 64) % 2 ^ 64","def szSub (a b : Nat) : Nat := a - b","szSub","difference does not wrap","C107 accepted set of signatures"),
(F,"if xl ≠ 32 then .err (-1)","if xl = 0 then .err (-1)","cipherDecode","length of X not checked","C107 accepted set of ciphertexts"),
(F,"let sv := sv + n2\n      let sl := szSub sl n2","let sv := sv + n1\n      let sl := szSub sl n2","cipherDecode","wrong length skipped after Y","C107 accepted set of ciphertexts"),
(F,"let sv := sv + n3\n      let sl := szSub sl n3","let sv := sv + n3","cipherDecode","remaining length not updated after the hash","C107 accepted set of ciphertexts"),
(F,".ok (x, y, (h, hl), (c, cl), szSub inl inl')",".ok (x, y, (c, cl), (h, hl), szSub inl inl')","cipherDecode","hash and ciphertext swapped","C107 accepted set of ciphertexts"),
(F,"if t.num ≠ 4 ∨ t.length = 0 then .err (-1)","if t.num ≠ 4 then .err (-1)","decOctetString","empty OCTET STRING accepted","C107 accepted set of ciphertexts"),
(F,"p + 1 + n⟩, (1 + n + len) % 2 ^ 64)","p + 1 + n⟩, 1 + n + len)","decTlv","number of octets read does not wrap","C107 ciphertext violation"),
]
