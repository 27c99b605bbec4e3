F='Model/AsnMem.lean'
MUTS = [
 (F,"(integerValueLength (rdm m d len))","len","encIntegerM","length octets without the leading zero","C104: INTEGER encoding of data of its own"),
 (F,"if 0x80#8 ≤ (rdm m d 1).getD 0 0 then (wrm m p [0], outl + 1) else (m, outl)","if 0x80#8 < (rdm m d 1).getD 0 0 then (wrm m p [0], outl + 1) else (m, outl)","encIntegerM","boundary 0x80","C104 INTEGER"),
 (F,"if 0x80#8 ≤ (rdm m d 1).getD 0 0 then (wrm m p [0], outl + 1) else (m, outl)","if 0x80#8 ≤ (rdm m d 1).getD 0 0 then (m, outl + 1) else (m, outl)","encIntegerM","zero octet not stored","C104 INTEGER: exact condition"),
 (F,"if 0x80#8 ≤ (rdm m d 1).getD 0 0 then (wrm m p [0], outl + 1) else (m, outl)","if 0x80#8 ≤ (rdm m d 1).getD 0 0 then (wrm m (p + 1) [0], outl + 1) else (m, outl)","encIntegerM","zero octet stored one further","C104 INTEGER: exact condition"),
 (F,"if 0x80#8 ≤ (rdm m d 1).getD 0 0 then (wrm m p [0], outl + 1) else (m, outl)","if 0x80#8 ≤ (rdm m d 1).getD 0 0 then (wrm m p [0], outl) else (m, outl)","encIntegerM","outl not increased","C104 INTEGER"),
 (F,"if 0x80#8 ≤ (rdm m d 1).getD 0 0 then (wrm","if 0x80#8 ≤ (rdm m p 1).getD 0 0 then (wrm","encIntegerM","sign looked up in the output","C104 INTEGER"),
 (F,"(wrm m p (rdm m d len), outl + len)\n  else","(wrm m (p + 1) (rdm m d len), outl + len)\n  else","encIntegerM","data stored one octet further","C104 INTEGER"),
 (F,"(wrm m p (rdm m d len), outl + len)\n  else","(wrm m p (rdm m d (len - 1)), outl + len)\n  else","encIntegerM","last octet not moved","C104 INTEGER"),
 (F,"  let p := p + n\n  let outl := n\n  if len ≠ 0","  let p := p + 2\n  let outl := n\n  if len ≠ 0","encIntegerM","one length octet assumed","C104 INTEGER"),
 (F,"let (m, n) := encTl m p 0x00 0x00 3 (bitStringValueLength bits)","let (m, n) := encTl m p 0x00 0x00 3 len","encBitStringM","length without the octet of unused bits","C104 BIT STRING"),
 (F,"let m := wrm m (p + n) [BitVec.ofNat 8 ((8 - bits % 8) % 8)]\n","","encBitStringM","octet of unused bits not stored","C104 BIT STRING"),
 (F,"(wrm m (p + n + 1) (rdm m d len), n + 1 + len)","(wrm m (p + n) (rdm m d len), n + 1 + len)","encBitStringM","data stored over the octet of unused bits","C104 BIT STRING"),
 (F,"(8 - bits % 8) % 8)","(8 - bits % 8))","encBitStringM","eight unused bits","C104 BIT STRING"),
 (F,"(wrm m (p + n + 1) (rdm m d len), n + 1 + len)","(wrm m (p + n + 1) (rdm m d len), n + len)","encBitStringM","outl one short","C104 BIT STRING"),
 (F,"encTl m p 0x00 0x00 4 len","encTl m p 0x00 0x20 4 len","encOctetStringM","constructed","C104 OCTET STRING"),
 (F,"(wrm m (p + n) (rdm m d len), n + len)","(wrm m (p + n) (rdm m (d + 1) len), n + len)","encOctetStringM","data read one octet further","C104 OCTET STRING"),
 (F,"(wrm m (p + n) (rdm m d len), n + len)","(wrm m (p + n) (rdm m d len), len)","encOctetStringM","outl without the header","C104 OCTET STRING"),
 (F,"  let (m, n) := encTl m p 0x00 0x00 4 len\n  (wrm m (p + n) (rdm m d len), n + len)","  let (m', n) := encTl m p 0x00 0x00 4 len\n  (wrm m' (p + n) (rdm m d len), n + len)","encOctetStringM","data saved before the header is stored (a correction)","C104_in_place_violated"),
 (F,"encIntegerM m (p + n0) r 32","encIntegerM m (p + n0) s 32","sigEncodeM","S stored as R","C104 signature"),
 (F,"encIntegerM m (p + n0 + n1) s 32","encIntegerM m (p + n0) s 32","sigEncodeM","S stored over R","C104 signature"),
 (F,"encSequenceTl m p (a + b)","encSequenceTl m p (a + a)","sigEncodeM","length of R twice","C104 signature"),
 (F,"  .ok (m, n0 + n1 + n2)\n","  .ok (m, n0 + n1 + n1)\n","sigEncodeM","outl from R twice","C104 signature"),
 (F,"let (m, n2) := encIntegerM m (p + n0 + n1) y 32","let (m, n2) := encIntegerM m (p + n0 + n1) x 32","cipherEncodeM","x stored as y","C104 ciphertext"),
 (F,"encOctetStringM m (p + n0 + n1 + n2) h hl","encOctetStringM m (p + n0 + n1 + n2) h cl","cipherEncodeM","hash with the length of the ciphertext","C104 ciphertext"),
 (F,"  let (m, n3) := encOctetStringM m (p + n0 + n1 + n2) h hl\n  let (m, n4) := encOctetStringM m (p + n0 + n1 + n2 + n3) c cl","  let (m, n3) := encOctetStringM m (p + n0 + n1 + n2) c cl\n  let (m, n4) := encOctetStringM m (p + n0 + n1 + n2 + n3) h hl","cipherEncodeM","ciphertext before the hash","C104 ciphertext"),
 (F,"(ax + ay + ah + ac) % 2 ^ 64","(ax + ay + ah) % 2 ^ 64","cipherEncodeM","length without the ciphertext","C104 ciphertext"),
]
