F='Model/ModeMem.lean'
H='Model/ModeHist.lean'
M='Model/Modes.lean'
MUTS = [
 ('Model/HashMem.lean',"if j = k then a else f j","if k ≤ j then a else f j","put","assignment to all later objects","C105, C108: objects do not disturb one another"),
 (F,"  | .ecbEnc | .ecbDec => 0\n","  | .ecbEnc | .ecbDec => c.BS\n","ivLen","ECB reads an IV","C108: no call fails"),
 (F,"  | _ => c.BS\n","  | _ => c.BS - 1\n","ivLen","one octet of IV not read","C108"),
 (F,"let key ← get w.mem q (c k).keyLen","let key ← get w.mem p (c k).keyLen","call","key read from the IV","C108"),
 (F,"    let s := (c k).sched key\n    .ok { w with obj := put w.obj k ((w.obj k).begin (.init s.1 s.2 iv)) }","    let s := (c k).sched key\n    .ok { w with obj := put w.obj k ((w.obj k).begin (.init s.2 s.1 iv)) }","call","decryption schedule for encryption","C108"),
 (F,"    let s := (c k).sched key\n    .ok { w with obj := put w.obj k ((w.obj k).begin (.init s.1 s.2 iv)) }","    let s := (c k).sched key\n    .ok { w with mem := wrm w.mem q (List.replicate (c k).keyLen 0), obj := put w.obj k ((w.obj k).begin (.init s.1 s.2 iv)) }","call","the caller's key is wiped","C108: nothing else is changed"),
 (F,"    let s := (c k).sched key\n    .ok { w with obj := put w.obj k ((w.obj k).begin (.init s.1 s.2 iv)) }","    let s := (c k).sched key\n    .ok { w with obj := fun j => (w.obj j).begin (.init s.1 s.2 iv) }","call","one key for all objects","C108: objects do not disturb one another"),
 (F,".ok { w with obj := put w.obj k ((w.obj k).begin (.reset iv)) }",".ok { w with obj := fun j => (w.obj j).begin (.reset iv) }","call","all objects are reset","C108: objects do not disturb one another"),
 (F,".ok { w with obj := put w.obj k ((w.obj k).begin (.reset iv)) }",".ok { w with obj := put w.obj k ⟨(w.obj k).E, (w.obj k).D, ⟨(w.obj k).obj.buf, iv⟩⟩ }","call","reset keeps the buffered octets","C108"),
 (F,".ok ⟨r.2.1, put w.obj k ⟨a.E, a.D, r.1⟩, w.log ++ [(r.2.2, false)]⟩",".ok ⟨r.2.1, w.obj, w.log ++ [(r.2.2, false)]⟩","call","update does not keep the object","C108"),
 (F,".ok ⟨r.2.1, put w.obj k ⟨a.E, a.D, r.1⟩, w.log ++ [(r.2.2, false)]⟩",".ok ⟨r.2.1, put w.obj 0 ⟨a.E, a.D, r.1⟩, w.log ++ [(r.2.2, false)]⟩","call","state shared by the objects","C108: objects do not disturb one another"),
 (F,".ok ⟨r.2.1, put w.obj k ⟨a.E, a.D, r.1⟩, w.log ++ [(r.2.2, false)]⟩",".ok ⟨r.2.1, put w.obj k ⟨a.E, a.D, r.1⟩, w.log ++ [(n, false)]⟩","call","update reports the input length","C108: lengths"),
 (F,"a.obj w.mem o i n 0\n    .ok ⟨r.2.1, put w.obj k ⟨a.E, a.D, r.1⟩, w.log ++ [r.2.2]⟩","a.obj w.mem i o n 0\n    .ok ⟨r.2.1, put w.obj k ⟨a.E, a.D, r.1⟩, w.log ++ [r.2.2]⟩","call","in and out swapped in do_final","C108"),
 (F,"w.log ++ [r.2.2]⟩","w.log ++ [(r.2.2.1, false)]⟩","call","the exception is swallowed","C108: refused"),
 (H,"  | .throw => .ok (h, m, outl, true)","  | .throw => .ok (h, m, outl + h.buf.length, true)","modeFinalExc","length includes the refused octets","C108: lengths"),
 (H,"match I.fin h.st m h.buf (o + outl) with","match I.fin h.st m h.buf o with","modeFinalExc","last octets over the first","C108, C89"),
 (H,"  | .reset iv => ⟨k.E, k.D, modeReset k.obj iv⟩","  | .reset iv => ⟨k.D, k.E, modeReset k.obj iv⟩","KeyedMode.begin","reset turns the key round","C108, C89"),
]
