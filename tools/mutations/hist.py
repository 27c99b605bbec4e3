H='Model/ModeHist.lean'; G='Model/GcmHist.lean'
MUTS=[
(H,"  | .throw => .ok (h, m, outl, true)","  | .throw => .ok (⟨[], h.st⟩, m, outl, true)","modeFinalExc","buffer emptied when do_final throws (a fix)","C89_history_exact"),
(H,"  | .throw => .ok (h, m, outl, true)","  | .throw => .ok (h, m, outl + h.buf.length, true)","modeFinalExc","length counted although it threw","C89"),
(H,".ok (⟨h.buf, st⟩, m, outl + h.buf.length, false)",".ok (⟨[], st⟩, m, outl + h.buf.length, false)","modeFinalExc","buffer emptied by do_final (a fix)","C89 negation"),
(H,"| some n => modeFinalExc BS I h m o i n 0 >>= fun r => .ok (r.1, r.2.1, o + r.2.2.1, r.2.2.2)","| some n => modeFinalExc BS I h m o i n 0 >>= fun r => .ok (h, r.2.1, o + r.2.2.1, r.2.2.2)","msgRun","object as it was before do_final","C89"),
(H,"msgRun BS I last r.1 r.2.1 (o + r.2.2) (i + n) ns","msgRun BS I last r.1 r.2.1 (o + n) (i + n) ns","msgRun","output cursor advanced by the input length","C89"),
(H,"| .init E D iv => ⟨E, D, modeInit k.obj iv⟩","| .init E D iv => ⟨E, D, modeReset k.obj iv⟩","KeyedMode.begin","init empties the buffer (a fix)","C89 negation"),
(H,"| .reset iv => ⟨k.E, k.D, modeReset k.obj iv⟩","| .reset iv => ⟨k.E, k.D, modeInit k.obj iv⟩","KeyedMode.begin","reset keeps the buffer","C89_reset_each"),
(H,"| .init E D iv => ⟨E, D, modeInit k.obj iv⟩","| .init E D iv => ⟨E, k.D, modeInit k.obj iv⟩","KeyedMode.begin","old decryption key kept","C89"),
(H,"modeHist impl BS PAR ⟨k.E, k.D, r.1⟩ as","modeHist impl BS PAR ⟨k.E, k.D, k.obj⟩ as","modeHist","each message starts from the object before the last","C89"),
(G,"decide (tag ≠ s.tag))","decide (tag.take 12 ≠ s.tag.take 12))","Gcm.decFinX","twelve octets of the tag compared","C90"),
(G,".ok ({ s with hash := r.1, stat := t }, m, decide (tag ≠ s.tag))",".ok ({ s with hash := r.1 }, m, decide (tag ≠ s.tag))","Gcm.decFinX","static array not overwritten (a fix)","C90_decrypt_exact"),
(G,"(s.stat.take ((16 - inp.length % 16) % 16))","(List.replicate ((16 - inp.length % 16) % 16) 0)","Gcm.decFinX","zero padding (a fix)","C90_decrypt_exact"),
(G,".ok ({ s with counter := r.1, hash := hash, ctLen := nxt }, r.2)",".ok ({ s with counter := r.1, hash := hash }, r.2)","Gcm.decFinX","length of the rest not counted","C90"),
(G,"if rej then outl else outl + h.buf.length","outl + h.buf.length","Gcm.finalX","length counted although it threw","C90"),
(G,"  .ok (⟨h.buf, st⟩, m, if rej","  .ok (⟨[], st⟩, m, if rej","Gcm.finalX","buffer emptied by do_final (a fix)","C90 negations"),
(G,"encFin C s m inp o >>= fun r => .ok (r.1, r.2, false)","encFin C s m inp o >>= fun r => .ok (r.1, r.2, true)","Gcm.encFinX","reported as an exception","C90"),
(G,"encHist PAR r.1 as >>=","encHist PAR h as >>=","Gcm.encHist","each message starts from the object after init","C90_encrypt_exact"),
(G,"(decFinX C) a.last (setTag h a.tag) a.m","(decFinX C) a.last h a.m","Gcm.decHist","set_tag dropped","C90"),
(G,"(r.2.1, r.2.2.1, r.1.st.tag)","(r.2.1, r.2.2.1, h.st.tag)","Gcm.encHist","get_tag returns the tag before do_final","C90"),
('Model/Hash.lean',"def HashClass.reset {S} (C : HashClass S) (_ : HashObj S) : HashObj S := ⟨[], C.init⟩","def HashClass.reset {S} (C : HashClass S) (h : HashObj S) : HashObj S := ⟨h.buf, C.init⟩","HashClass.reset","buffer kept by reset","C88, C01, C05"),
('Model/Hash.lean',"  .ok (⟨m.K, r.1⟩, r.2)","  .ok (⟨m.K.map (· ^^^ 0x5c), r.1⟩, r.2)","HMac.final","the stored key is left xored with opad","C88"),
]
