F='Model/Asn1.lean'
MUTS=[
(F,"if n < 0x80#64 then [n.setWidth 8]","if n ≤ 0x80#64 then [n.setWidth 8]","encLength","short form used for 128","C23"),
(F,"(0x80#8 ||| BitVec.ofNat 8 tmp.length) :: tmp.reverse","(0x80#8 ||| BitVec.ofNat 8 tmp.length) :: tmp","encLength","octets not reversed","C23"),
(F,"let tmp := lengthTmp 8 n\n","let tmp := lengthTmp 8 n ++ [0]\n","encLength","non-minimal: extra zero octet","C23"),
(F,"if b = 0x80#8 then .err (-2)","if b = 0x81#8 then .err (-2)","decLength","wrong indefinite-form test","C23"),
(F,"if 8 < k then .err (-2)","if 9 < k then .err (-2)","decLength","nine length octets accepted","C23"),
(F,"else if inl < 1 + k then .err (-1)","else if inl < k then .err (-1)","decLength","truncation off by one","C23"),
(F,"((ret <<< 8) ||| b.setWidth 64)","((ret <<< 7) ||| b.setWidth 64)","lengthLoop","shift by 7","C23"),
(F,"let k := (b &&& 0x7f#8).toNat","let k := (b &&& 0x3f#8).toNat","decLength","wrong mask","C23"),
(F,".ok (⟨c, pc, num, len, p + 1 + n⟩, (1 + n + len) % 2 ^ 64)",".ok (⟨c, pc, num, len, p + 1 + n⟩, (n + len) % 2 ^ 64)","decTlv","read_num misses the identifier","C23, C27"),
(F,"let (len, n) ← decLength buf (p + 1) (inl - 1)","let (len, n) ← decLength buf (p + 1) inl","decTlv","inl not decremented: one octet over-read","C23, C25"),
(F,"def encIdentifier (cls pc num : Byte) : Byte := cls ||| pc ||| num","def encIdentifier (cls pc num : Byte) : Byte := cls ||| (pc >>> 1) ||| num","encIdentifier","P/C bit shifted","C24"),
(F,".ok (b &&& 0b11000000#8, b &&& 0b00100000#8, b &&& 0b00011111#8)",".ok (b &&& 0b10000000#8, b &&& 0b00100000#8, b &&& 0b00011111#8)","decIdentifier","class mask loses a bit","C24"),
(F,"if b &&& 0b00011111#8 = 0b00011111#8 then .err (-2)","if b = 0b00011111#8 then .err (-2)","decIdentifier","high tag only rejected for universal primitive","C24"),
(F,"if v1 &&& 0x80#8 = 0 then .err (-1) else .ok (t.value + 1, t.length - 1, n)","if v1 &&& 0x80#8 = 0 then .err (-1) else .ok (t.value, t.length, n)","decInteger","leading zero not stripped","C26"),
(F,"else if v0 = 0xff then do","else if v0 = 0x7f then do","decInteger","wrong sign extension test","C26, C29"),
(F,"data.getD 0 0 < 0x80#8 then data.length else (data.length + 1) % 2 ^ 64","data.getD 0 0 ≤ 0x80#8 then data.length else (data.length + 1) % 2 ^ 64","integerValueLength","boundary 0x80","C26, C59"),
(F,"(wrm m p data, outl + data.length)","(wrm m (p + 1) data, outl + data.length)","encInteger","data always shifted by one","C26"),
(F,"if t.num ≠ 4 ∨ t.length = 0 then .err (-1) else .ok (t.value, t.length, n)","if t.num ≠ 4 then .err (-1) else .ok (t.value, t.length, n)","decOctetString","empty octet string accepted","C27_octet_string (exact statement)"),
(F,"[if value then 0xFF else 0], 3)","[if value then 0x01 else 0], 3)","encBoolean","TRUE encoded as 1 (not DER)","C27"),
(F,"if t.pc ≠ 0x00 ∨ t.num ≠ 5 ∨ t.length ≠ 0 then .err (-1)","if t.pc ≠ 0x00 ∨ t.num ≠ 5 then .err (-1)","decNull","NULL with contents accepted","C27"),
(F,"def decSet := decConstructed 17","def decSet := decConstructed 16","decSet","SET decoded as SEQUENCE","C27"),
(F,"BitVec.ofNat 8 ((8 - bits % 8) % 8)","BitVec.ofNat 8 (8 - bits % 8)","encBitString","unused bits 8 instead of 0","C28"),
(F,"else if ¬ v0 ≤ 7#8 then .err (-1)","else if ¬ v0 < 7#8 then .err (-1)","decBitString","7 unused bits rejected","C28"),
(F,"  let (m, n2) := encInteger m (p + n0 + n1) S\n  .ok (m, n0 + n1 + n2)","  let (m, n2) := encInteger m (p + n0 + n1) R\n  .ok (m, n0 + n1 + n2)","sigEncode","R written twice","C29"),
(F,"if sl2 ≠ 32 then .err (-1) else .ok (r, s, szSub inl inl')","if sl2 ≠ 32 then .err (-1) else .ok (s, r, szSub inl inl')","sigDecode","R and S swapped","C29"),
(F,"def sigMaxOutl : Nat := tlvMaxOutl (integerMaxOutl 32 + integerMaxOutl 32)","def sigMaxOutl : Nat := tlvMaxOutl 32","sigMaxOutl","buffer bound too small","C29, C59"),
(F,"if l ≠ 65 ∧ bits ≠ 65 * 8 then .err (-1)","if l ≠ 65 ∧ bits ≠ 64 * 8 + 5 then .err (-1)","pubDecode","bit count compared with 517","C60"),
(F,"if l ≠ 32 then .err (-1) else .ok (d, n)","if 32 < l then .err (-1) else .ok (d, n)","privDecode","short private keys accepted","C60"),
(F,"let (m, n4) := encOctetString m (p + n0 + n1 + n2 + n3) C","let (m, n4) := encOctetString m (p + n0 + n1 + n2) C","cipherEncode","ciphertext overwrites the hash","C60"),
(F,"  if data.length = 0 then 0 else","  if data.length = 0 then 1 else","integerValueLength","empty integer gets length 1","C26"),
]
