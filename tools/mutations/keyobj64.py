F='Model/KeyObjX64.lean'
G='Model/GcmHistPclmul.lean'
MUTS=[
(F,"if !X64.Sm2.ecCheck T then (o, .thrown)","if !X64.Sm2.ecCheck T then ({ o with P := T }, .thrown)","X64.KeyObj.sm2SetPub","store the point before the check","C98"),
(F,"    let o := { o with y := y }\n    (o, .done)","    (o, .done)","X64.KeyObj.sm2SetPub","y_ not updated","C98"),
(F,"    let o := { o with x := x }\n    let o := { o with y := y }","    let o := { o with x := y }\n    let o := { o with y := x }","X64.KeyObj.sm2SetPub","coordinates swapped","C98"),
(F,"  let o := { o with priv := d }\n  match X64.Sm2.jMulG d with","  match X64.Sm2.jMulG d with","X64.KeyObj.sm2Store","priv_ not updated","C98"),
(F,"      let o := { o with pub := { o.pub with P := a } }\n","","X64.KeyObj.sm2Store","public point not updated","C98"),
(F,"y := X64.Sm2.fpToBytes a.y","y := X64.Sm2.fpToBytes a.x","X64.KeyObj.sm2Store","x bytes stored for y","C98"),
(F,"if X64.u256EqualZero d ∨ X64.u256Cmp d t ≠ 0 then (o, .thrown) else sm2Store o key","if X64.u256Cmp d t ≠ 0 then (o, .thrown) else sm2Store o key","X64.KeyObj.sm2SetPriv","zero accepted","C98"),
(F,"if X64.u256EqualZero d ∨ X64.u256Cmp d t ≠ 0 then (o, .thrown) else sm2Store o key","if X64.u256EqualZero d ∨ X64.u256Cmp d t ≠ 0 then ({ o with priv := key }, .thrown) else sm2Store o key","X64.KeyObj.sm2SetPriv","rejected key stored","C98"),
(F,"    let d := (X64.u256AddWord d 1).1\n    sm2Store","    sm2Store","X64.KeyObj.sm2GenPriv","+1 dropped","C98"),
(F,"  | none => (o, .thrown)\n  | some rnd =>\n    let d := X64.Sm2.bnModNSub1","  | none => ({ o with priv := [] }, .thrown)\n  | some rnd =>\n    let d := X64.Sm2.bnModNSub1","X64.KeyObj.sm2GenPriv","key cleared when the generator throws","C98"),
(F,"  let o := { o with ks := ks }\n","","X64.KeyObj.sm9Store","ks_ not updated","C98"),
(F,"      | some e => ({ o with pub := { o.pub with e := e } }, .done)","      | some _ => (o, .done)","X64.KeyObj.sm9Store","pairing value of the old key kept","C98"),
(F,"X64.u256Cmp ks N ≥ 0","X64.u256Cmp ks N > 0","X64.KeyObj.sm9SetPriv","N accepted","C98"),
(F,"    | some e => ({ o with e := e }, .done)","    | some _ => (o, .done)","X64.KeyObj.sm9SetPub","pairing value of the old key kept","C98"),
(F,"if !X64.Sm9.ec2Check T then (o, .thrown)","if false then (o, .thrown)","X64.KeyObj.sm9SetPub","check dropped","C98"),
(F,"    let o := { o with priv := T }\n    let p := sm9SetPub o.pub pubX pubY\n    ({ o with pub := p.1 }, p.2)","    let p := sm9SetPub o.pub pubX pubY\n    ({ o with pub := p.1 }, p.2)","X64.KeyObj.sm9SetSignPriv","private point not stored","C98"),
(F,"    let p := sm9SetPub o.pub pubX pubY\n    ({ o with pub := p.1 }, p.2)","    let p := sm9SetPub o.pub pubX pubY\n    (o, p.2)","X64.KeyObj.sm9SetSignPriv","public key not stored","C98"),
(F,"    let o := { o with priv := T }\n    let p := sm9SetPub o.pub pubX pubY\n    ({ o with pub := p.1 }, p.2)","    let p := sm9SetPub o.pub pubX pubY\n    (if p.2 = .done then { o with priv := T, pub := p.1 } else o, p.2)","X64.KeyObj.sm9SetSignPriv","the fix: nothing stored unless both checks pass","C98_x64_sm9_sign_priv_violated"),
(G,"  .ok ({ s with hash := r.1, stat := t }, m, decide (tag ≠ s.tag))","  .ok ({ s with hash := r.1, stat := s.stat }, m, decide (tag ≠ s.tag))","GcmPclmul.decFinX","static t left alone (the fix)","C99"),
(G,"  .ok ({ s with hash := r.1, stat := t }, m, decide (tag ≠ s.tag))","  .ok ({ s with hash := r.1, stat := t }, m, decide (tag = s.tag))","GcmPclmul.decFinX","comparison inverted","C99"),
(G,"if rej then outl else outl + h.buf.length","outl + h.buf.length","GcmPclmul.finalX","*outl advanced although rejected","C99"),
(G,"  .ok (⟨h.buf, st⟩, m, if rej","  .ok (⟨[], st⟩, m, if rej","GcmPclmul.finalX","buffer emptied (the fix)","C99"),
(G,"msgRunX upd fin last r.1 r.2.1 (o + r.2.2) (i + n) ns","msgRunX upd fin last r.1 r.2.1 (o + n) (i + n) ns","GcmPclmul.msgRunX","caller advances out by n","C99"),
(G,"encFin C s m inp o >>= fun r => .ok (r.1, r.2, false)","encFin C s m inp o >>= fun r => .ok (r.1, r.2, true)","GcmPclmul.encFinX","encryption reported as rejected","C99"),
(G,"(encFinX C) a.last h a.m a.o a.i a.ns >>= fun r =>\n      encHist PAR r.1 as","(encFinX C) a.last h a.m a.o a.i a.ns >>= fun r =>\n      encHist PAR h as","GcmPclmul.encHist","object of before the message used","C99"),
(G,"(setTag h a.tag) a.m","h a.m","GcmPclmul.decHist","tag not set","C99"),
]
