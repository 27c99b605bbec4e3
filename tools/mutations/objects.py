K='Model/KeyObj.lean'; M='Model/Sm2Mem.lean'; T='Model/GcmThreads.lean'; P='Model/GcmPclmul.lean'
MUTS=[
(K,"  if !Sm2.ecCheck T then (o, .thrown)\n","  if !Sm2.ecCheck T then ({ o with P := T }, .thrown)\n","KeyObj.sm2SetPub","the point is stored before it is checked","C83"),
(K,"    let o := { o with y := y }\n    (o, .done)","    (o, .done)","KeyObj.sm2SetPub","y octets not stored","C83"),
(K,"if u256EqualZero d ∨ u256Cmp d t ≠ 0 then (o, .thrown) else sm2Store o key","if u256EqualZero d ∨ u256Cmp d t ≠ 0 then ({ o with priv := key }, .thrown) else sm2Store o key","KeyObj.sm2SetPriv","priv_ overwritten before the range check","C83"),
(K,"if u256EqualZero d ∨ u256Cmp d t ≠ 0 then (o, .thrown) else sm2Store o key","if u256Cmp d t ≠ 0 then (o, .thrown) else sm2Store o key","KeyObj.sm2SetPriv","zero key accepted","C83"),
(K,"    let d := (u256AddWord d 1).1\n    sm2Store","    sm2Store","KeyObj.sm2GenPriv","no + 1","C83"),
(K,"      let o := { o with pub := { o.pub with P := a } }\n","      let o := o\n","KeyObj.sm2Store","public point keeps its old value","C83"),
(K,"      let o := { o with pub := { o.pub with y := Sm2.fpToBytes a.y } }\n","      let o := { o with pub := { o.pub with y := Sm2.fpToBytes a.x } }\n","KeyObj.sm2Store","x written twice","C83"),
(K,"      let o := { o with pub := { o.pub with P := P } }\n      match Sm9.pairingP1 P with","      match Sm9.pairingP1 o.pub.P with","KeyObj.sm9Store","pairing of the old public point","C83"),
(K,"u256Cmp ks N ≥ 0 then (o, .thrown) else sm9Store","u256Cmp ks N > 0 then (o, .thrown) else sm9Store","KeyObj.sm9SetPriv","N accepted","C83"),
(K,"| some rnd => sm9Store o (Sm9.nonce rnd)","| some rnd => sm9Store o rnd","KeyObj.sm9GenPriv","no reduction","C83"),
(K,"    let o := { o with P := T }\n    match Sm9.pairingP1 T with\n    | none => (o, .ub)\n    | some e => ({ o with e := e }, .done)","    let o := { o with P := T }\n    (o, .done)","KeyObj.sm9SetPub","pairing not updated","C83"),
(K,"    let p := sm9SetPub o.pub pubX pubY\n    ({ o with pub := p.1 }, p.2)","    let p := sm9SetPub o.pub pubX pubY\n    ({ o with pub := p.1 }, .done)","KeyObj.sm9SetSignPriv","exception of set_pub swallowed","C83"),
(K,"    (p.1, r.2 :: p.2)","    (p.1, p.2 ++ [r.2])","KeyObj.run","results in reverse order","C83"),
(M,"    if inl ≥ C.DS then\n","    if inl > C.DS then\n","Sm2.kdfLoopM","a full last block goes to the tail (same octets)","(equivalent)"),
(M,"let m := wrm m out (xorBytes (rdm m inp C.DS) dk)\n","let m := wrm m inp (xorBytes (rdm m inp C.DS) dk)\n","Sm2.kdfLoopM","writes over the input","C84"),
(M,"kdfLoopM Z fuel (ct + 1) allZero m (out + C.DS) (inp + C.DS) (inl - C.DS)","kdfLoopM Z fuel (ct + 1) allZero m (out + C.DS) inp (inl - C.DS)","Sm2.kdfLoopM","input pointer not advanced","C84"),
(M,"kdfLoopM Z fuel (ct + 1) allZero m","kdfLoopM Z fuel ct allZero m","Sm2.kdfLoopM","counter not advanced","C84"),
(M,"let allZero := allZero && (List.replicate inl 0 == dk.take inl)","let allZero := (List.replicate inl 0 == dk.take inl)","Sm2.kdfLoopM","only the last block decides","C84"),
(M,"(wrm m out (xorBytes (dk.take inl) (rdm m inp inl)), .ok allZero)","(wrm m out (xorBytes dk (rdm m inp C.DS)), .ok allZero)","Sm2.kdfLoopM","whole last block written","C84"),
(M,"(m, .ok false)\n  else kdfLoopM C Z (inl + 1) 1 true m out inp inl","(m, .ok false)\n  else kdfLoopM C Z (inl + 1) 0 true m out inp inl","Sm2.kdfXorM","counter starts at 0","C84"),
(M,"if pc = .compressed then 33 else 65","if pc = .compressed then 65 else 33","Sm2.c1Len","lengths swapped","C84"),
(M,"wrm (wrm m (ct + c1Len pc) (d.take C.DS)) ct (encPoint pc kGa)","wrm (wrm m (ct + c1Len pc + 1) (d.take C.DS)) ct (encPoint pc kGa)","Sm2.encTail","digest one octet too far","C84"),
(M,"match C.stream [x2y2.take 32, rdm m pt pLen, (x2y2.drop 32).take 32] [] with","match C.stream [(x2y2.drop 32).take 32, rdm m pt pLen, x2y2.take 32] [] with","Sm2.encTail","x2 and y2 swapped","C84"),
(M,"(kdfXorM C m (ct + c1Len pc + C.DS) pt pLen x2y2)","(kdfXorM C m (ct + c1Len pc) pt pLen x2y2)","Sm2.encStore","C2 in the place of C3","C84"),
(M,"| (m, .ok none) => encryptM pub pc ct pt pLen m rest","| (m, .ok none) => (m, .ok (some pLen))","Sm2.encryptM","no retry","C84"),
(M,"| (m, .ok true) => ⟨m, none, .throw⟩","| (m, .ok true) => ⟨m, some n, .ok ()⟩","Sm2.decTail","all-zero key stream accepted","C84"),
(M,"if buf.take C.DS ≠ rdm m C3 C.DS then","if buf.take (C.DS - 1) ≠ rdm m C3 (C.DS - 1) then","Sm2.decTail","last octet of the digest not compared","C84"),
(M,"if outl ≠ C1.length then .throw","if outl > C1.length then .throw","Sm2.decPt","trailing octets of C1 accepted","C84"),
(M,"    let c1 := cLen - n - C.DS\n","    let c1 := cLen - n\n","Sm2.decryptM","C1 includes the digest","C84"),
(M,"⟨m, some n, .throw⟩ else","⟨wrm m pt (List.replicate n 0), some n, .throw⟩ else","Sm2.decTail","plaintext wiped on failure (a fix)","C84 negation C84_decrypt_release_violated"),
(T,"sh j fun h =>\n        (sh, { j with s := { j.s with ctLen := nxt, hash := h }, pc := .pad })","sh j fun h =>\n        (sh, { j with s := { j.s with hash := h }, pc := .pad })","GcmThr.step","length of the rest not counted","C86"),
(T,"(sh.t.take ((16 - j.inp.length % 16) % 16))","(zeros ((16 - j.inp.length % 16) % 16))","GcmThr.step","padding with zeros (a fix of the padding)","C86 negation"),
(T,"| .storeHi => ({ sh with t := sh.t.take 8 ++ Sm3.memStore64BE (BitVec.ofNat 64 (j.s.ctLen * 8)) }","| .storeHi => ({ sh with t := sh.t.take 8 ++ Sm3.memStore64BE (BitVec.ofNat 64 (j.s.ctLen)) }","GcmThr.step","length in octets","C86"),
(T,"| .encT => ({ sh with t := j.C.E j.s.counter0 }","| .encT => ({ sh with t := j.C.E j.s.counter }","GcmThr.step","wrong counter block","C86"),
(T,"| .xorTag => ({ sh with tag := xorBytes sh.tag sh.t }, { j with pc := .cmp })","| .xorTag => (sh, { j with pc := .cmp })","GcmThr.step","tag not masked","C86"),
(T,"pc := if sh.tag = j.s.tag then .accepted else .rejected","pc := if sh.tag.take 12 = j.s.tag.take 12 then .accepted else .rejected","GcmThr.step","only twelve octets compared","C86"),
(T,"pc := if sh.tag = j.s.tag then .accepted else .rejected","pc := .accepted","GcmThr.step","no comparison","C86"),
(T,"{ j with s := { j.s with counter := r.1 }, m := r.2, pc := .storeLo })","{ j with s := { j.s with counter := r.1 }, pc := .storeLo })","GcmThr.step","last block of plaintext not written","C86"),
(T,"if j.inp.length = 0 then (sh, { j with pc := .storeLo })","if j.inp.length = 0 then (sh, { j with pc := .hashT })","GcmThr.step","lengths not stored for whole blocks","C86"),
(T,"    updates C r.1 r.2.1 (o + r.2.2) (i + n) ns","    updates C r.1 r.2.1 o (i + n) ns","GcmThr.updates","output pointer not advanced","C86"),
(T,"  updates C (setTag h tag) m o i ns","  updates C h m o i ns","GcmThr.upTo","set_tag dropped","C86"),
(P,"    .ok (r.2, GhashPclmul.reset r.1)","    .ok (r.2, r.1)","GcmPclmul.gctrInit","hash not reset after hashing the IV","C87"),
(P,"if iv.length = 12 then .ok (iv ++ [0, 0, 0, 1], hash)","if iv.length = 12 then .ok (iv ++ [0, 0, 0, 0], hash)","GcmPclmul.gctrInit","counter starts at 0","C87"),
(P,"ctLen := 0, tag := zeros 16 }⟩","tag := zeros 16 }⟩","GcmPclmul.encInit","ctLen not cleared","C87"),
(P,"  if nxt ≥ 2 ^ 64 ∨ nxt > maxLen then .throw","  if nxt ≥ 2 ^ 64 then .throw","GcmPclmul.encUpd","no limit","C87"),
(P,"  if tag ≠ s.tag then .throw\n  else .ok ({ s with hash := r.1, stat := t }, m)","  if tag ≠ s.tag then .throw\n  else .ok ({ s with hash := r.1 }, m)","GcmPclmul.decFin","static array not overwritten (a fix)","C87_decryptor_same"),
(P,"def setTag (o : ModeObj St) (tag : List Byte) : ModeObj St := ⟨o.buf, { o.st with tag := tag }⟩","def setTag (o : ModeObj St) (tag : List Byte) : ModeObj St := ⟨[], { o.st with tag := tag }⟩","GcmPclmul.setTag","buffer dropped","C87"),
]
