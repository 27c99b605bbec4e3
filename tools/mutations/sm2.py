F='Model/Sm2.lean'
MUTS=[
(F,"  if (id.length * 8) % 2 ^ 64 > 65535 then .throw","  if (id.length * 8) % 2 ^ 64 ≥ 65535 then .throw","computeZ","boundary on ENTL","C44, C45"),
(F,"    let ENTL : List Byte := [(entl >>> 8).setWidth 8, (entl &&& 0xFF#16).setWidth 8]","    let ENTL : List Byte := [(entl &&& 0xFF#16).setWidth 8, (entl >>> 8).setWidth 8]","computeZ","ENTL little endian","C44, C45"),
(F,"    C.stream [ENTL, id, sm2CurveA, sm2CurveB, sm2CurveGx, sm2CurveGy, x, y] []","    C.stream [ENTL, id, sm2CurveA, sm2CurveB, sm2CurveGx, sm2CurveGy, y, x] []","computeZ","coordinates swapped","C45"),
(F,"    let entl := BitVec.ofNat 16 (id.length * 8)","    let entl := BitVec.ofNat 16 id.length","computeZ","ENTL in octets","C45"),
(F,"      kdfLoop Z fuel (ct + 1) allZero (inp.drop C.DS)","      kdfLoop Z fuel ct allZero (inp.drop C.DS)","kdfLoop","counter not incremented","C49"),
(F,"    let r ← kdfLoop C Z (inp.length + 1) 1 true inp []","    let r ← kdfLoop C Z (inp.length + 1) 0 true inp []","kdfXor","counter starts at 0","C49"),
(F,"      let dk ← C.stream [Z] (MemUtil.store32be ct)","      let dk ← C.stream [Z] (MemUtil.store32le ct)","kdfLoop","little-endian counter","C49"),
(F,"      let allZero := allZero && (List.replicate inp.length 0 == dk.take inp.length)","      let allZero := (List.replicate inp.length 0 == dk.take inp.length)","kdfLoop","only the last block checked for zero","C49"),
(F,"  if inp.length ≥ (C.DS * (2 ^ 32 - 1)) % 2 ^ 64 then .throw","  if inp.length > (C.DS * (2 ^ 32 - 1)) % 2 ^ 64 then .throw","kdfXor","boundary of the length limit","C49"),
(F,"    if r.2 then .ok none else .ok (some r.1)","    .ok (some r.1)","kdfXor","zero key stream not reported","C49, C46"),
(F,"  if !ecCheck T then .throw else .ok ⟨T, x, y⟩","  .ok ⟨T, x, y⟩","setPub","no curve check","C58_set_pub"),
(F,"  let d := (u256AddWord d 1).1\n  withPub","  withPub","genPriv","+1 dropped: key 0 possible","C47"),
(F,"  if u256EqualZero d ∨ u256Cmp d t ≠ 0 then .throw else withPub key","  if u256Cmp d t ≠ 0 then .throw else withPub key","setPriv","zero accepted","C58"),
(F,"  if u256EqualZero d ∨ u256Cmp d t ≠ 0 then .throw else withPub key","  if u256EqualZero d then .throw else withPub key","setPriv","upper bound not checked","C58"),
(F,"  if u256EqualZero r ∨ u256Cmp r n ≥ 0 ∨ u256EqualZero s ∨ u256Cmp s n ≥ 0 then .ok false","  if u256EqualZero r ∨ u256Cmp r n ≥ 0 ∨ u256Cmp s n ≥ 0 then .ok false","verifyBody","s = 0 not rejected","C45"),
(F,"  if u256EqualZero r ∨ u256Cmp r n ≥ 0 ∨ u256EqualZero s ∨ u256Cmp s n ≥ 0 then .ok false","  if u256EqualZero r ∨ u256Cmp r n > 0 ∨ u256EqualZero s ∨ u256Cmp s n ≥ 0 then .ok false","verifyBody","r = n not rejected","C45"),
(F,"    if mont256EqualZero fnCtx tmp then .ok false\n    else do\n      let t","    if false then .ok false\n    else do\n      let t","verifyBody","t = 0 not rejected","C45"),
(F,"      let sG ← Outcome.ofOption (jMulG sigS)","      let sG ← Outcome.ofOption (jMulG sigR)","verifyBody","r used instead of s","C45, C44"),
(F,"    let Z ← C.stream [Z.take C.DS, msg] []\n    let r","    let Z ← C.stream [msg] []\n    let r","verifyBody","Z not hashed","C45, C44"),
(F,"  if mont256EqualZero fnCtx r || mont256EqualZero fnCtx tmp then .ok none","  if mont256EqualZero fnCtx r then .ok none","signStep","r + k = n not rejected","C44"),
(F,"    let k := mont256Sub fnCtx k tmp","    let k := mont256Add fnCtx k tmp","signStep","sign error","C44"),
(F,"    if mont256EqualZero fnCtx s then .ok none\n","    if false then .ok none\n","signStep","s = 0 not rejected","C44"),
(F,"    else .ok (some (mont256ToBytes fnCtx r ++ mont256ToBytes fnCtx s))","    else .ok (some (mont256ToBytes fnCtx s ++ mont256ToBytes fnCtx r))","signStep","r and s swapped","C44"),
(F,"    | none => signLoop priv Z rest","    | none => .ok none","signLoop","no retry","C44_sign"),
(F,"    let C3 ← C.stream [x2y2.take 32, pt, (x2y2.drop 32).take 32] []\n","    let C3 ← C.stream [x2y2.take 32, C2, (x2y2.drop 32).take 32] []\n","encryptStep","C3 over the ciphertext","C46"),
(F,"    .ok (some (encPoint pc kGa ++ C3.take C.DS ++ C2))","    .ok (some (encPoint pc kGa ++ C2 ++ C3.take C.DS))","encryptStep","C1 C2 C3 layout","C46"),
(F,"  let kP ← Outcome.ofOption (jMulA kb pub.P)","  let kP ← Outcome.ofOption (jMulG kb)","encryptStep","shared secret from G","C46"),
(F,"  | .mix => toMix\n  | .compressed => toCompressed","  | .mix => toCompressed\n  | .compressed => toMix","encPoint","forms swapped","C46, C50"),
(F,"(33 + C.DS + pLen) % 2 ^ 64","(32 + C.DS + pLen) % 2 ^ 64","ciphertextLen","tag octet forgotten","C50"),
(F,"    if ct.length < c1c3 then .throw else","    if ct.length + 1 < c1c3 then .throw else","plaintextLen","bound off by one","C50"),
(F,"      | none => .throw\n      | some pt => do","      | none => .ok []\n      | some pt => do","decryptBody","zero key stream accepted","C46_decrypt"),
(F,"        if buf.take C.DS ≠ C3.take C.DS then .throw else .ok pt","        .ok pt","decryptBody","C3 not compared","C46_decrypt"),
(F,"        if buf.take C.DS ≠ C3.take C.DS then .throw else .ok pt","        if buf.take 16 ≠ C3.take 16 then .throw else .ok pt","decryptBody","only 16 octets of C3 compared","C46_decrypt"),
]
