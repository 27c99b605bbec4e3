F='Model/GcmMem.lean'
EU="    .ok { w with mem := r.2.1, enc := put w.enc k ⟨b.E, r.1⟩, log := w.log ++ [(r.2.2, false)] }"
EF="    .ok { w with mem := r.2.1, enc := put w.enc k ⟨b.E, r.1⟩, log := w.log ++ [r.2.2] }"
DU="    .ok { w with mem := r.2.1, dec := put w.dec k ⟨b.E, r.1⟩, log := w.log ++ [(r.2.2, false)] }"
DF="    .ok { w with mem := r.2.1, dec := put w.dec k ⟨b.E, r.1⟩, stat := r.1.st.stat, log := w.log ++ [r.2.2] }"
MUTS = [
 (F,"    .ok { w with enc := put w.enc k ⟨c.sched key, h⟩ }","    .ok { w with enc := put w.enc k ⟨(w.enc k).E, h⟩ }","call","encInit keeps the old key for the data","C109: SP 800-38D output"),
 (F,"    .ok { w with enc := put w.enc k ⟨c.sched key, h⟩ }","    .ok { w with enc := fun _ => ⟨c.sched key, h⟩ }","call","encInit begins a message on every encryptor","C109: as if alone"),
 (F,"    let h ← Gcm.encInit (c.sched key) (w.enc k).obj iv aad","    let h ← Gcm.encInit (c.sched key) (w.enc k).obj aad iv","call","IV and associated data swapped","C109"),
 (F,"    let h ← Gcm.decInit (c.sched key) (w.dec k).obj iv aad","    let h ← Gcm.decInit (c.sched key) (w.enc k).obj iv aad","call","decryptor begun from an encryptor's state","C109: as if alone"),
 (F,EU,EU.replace("put w.enc k ⟨b.E, r.1⟩","put w.enc 0 ⟨b.E, r.1⟩"),"call","state shared by the encryptors","C109: as if alone"),
 (F,EU,EU.replace("(r.2.2, false)","(n, false)"),"call","encUpdate reports the input length","C109: lengths"),
 (F,EU,EU.replace("mem := r.2.1, ",""),"call","encUpdate writes nothing","C109: output"),
 (F,"    let r ← finalX (encUpd C) (encFinX C) b.obj w.mem o i n 0","    let r ← finalX (encUpd C) (encFinX C) b.obj w.mem i o n 0","call","in and out swapped","C109"),
 (F,EF,EF.replace("put w.enc k ⟨b.E, r.1⟩","w.enc"),"call","encFinal does not keep the tag","C109: tags"),
 (F,"wrm w.mem p (w.enc k).obj.st.tag }","wrm w.mem p ((w.enc k).obj.st.tag.take 12) }","call","get_tag returns twelve octets","C109: tags"),
 (F,"wrm w.mem p (w.enc k).obj.st.tag }","wrm w.mem p (w.enc 0).obj.st.tag }","call","get_tag of another encryptor","C109: as if alone"),
 (F,"put w.dec k ⟨(w.dec k).E, Gcm.setTag (w.dec k).obj t⟩","fun j => ⟨(w.dec j).E, Gcm.setTag (w.dec j).obj t⟩","call","set_tag sets the tag of all decryptors","C109: as if alone"),
 (F,"    let t ← get w.mem p 16\n","    let t ← get w.mem p 15\n","call","set_tag reads fifteen octets","C109: accepts exactly"),
 (F,DU,DU.replace("put w.dec k ⟨b.E, r.1⟩","put w.dec k ⟨b.E, (w.dec k).obj⟩"),"call","decUpdate does not keep the object","C109"),
 (F,DF,DF.replace("stat := r.1.st.stat, ",""),"call","shared array not overwritten (a repair)","C109 exact behaviour, violation"),
 (F,DF,DF.replace("r.2.2] }","(r.2.2.1, false)] }"),"call","the rejection is swallowed","C109: accepts exactly"),
 (F,"(decFinX C) (view w.stat b.obj) w.mem o i n 0","(decFinX C) (view (List.replicate 16 0) b.obj) w.mem o i n 0","call","zero padding (a repair)","C109 exact behaviour, violation"),
 (F,"(decFinX C) (view w.stat b.obj) w.mem o i n 0","(decFinX C) b.obj w.mem o i n 0","call","array of the object instead of the shared one","C109 exact behaviour"),
 (F,"{ h.st with stat := stat }","{ h.st with stat := stat, tag := stat }","view","shared array overwrites the expected tag","C109"),
]
