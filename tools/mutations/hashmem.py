F='Model/HashMem.lean'
MUTS = [
 (F,"if j = k then a else f j","if k ≤ j then a else f j","put","assignment to all later objects","C105: objects do not disturb one another"),
 (F,"storeWords i (wrm m d (bs.take 4)) (d + 4) (bs.drop 4)","storeWords i (wrm m d (bs.take 4)) (d + 1) (bs.drop 4)","storeWords","digest + i","C105: the digest stored"),
 (F,"storeWords i (wrm m d (bs.take 4)) (d + 4) (bs.drop 4)","storeWords i (wrm m d (bs.take 4)) (d + 4) bs","storeWords","state[0] eight times","C105: the digest stored"),
 (F,"let m ← storeWords 8 w.mem d r.2\n    .ok { w with mem := m, md","let m ← storeWords 7 w.mem d r.2\n    .ok { w with mem := m, md","final","seven words stored","C105: the digest stored"),
 (F,"    let h ← hashUpdate cls.BS cls.impl (w.md k) x\n    let r ← cls.impl.finalBlock h.st h.buf\n    let m ← storeWords 8 w.mem d r.2","    let r0 ← cls.impl.finalBlock (w.md k).st (w.md k).buf\n    let m0 ← storeWords 8 w.mem d r0.2\n    let x ← get m0 p n\n    let h ← hashUpdate cls.BS cls.impl (w.md k) x\n    let r ← cls.impl.finalBlock h.st h.buf\n    let m ← storeWords 8 w.mem d r.2","final","digest stored before the data is read","C105: digest over data"),
 (F,"md := put w.md k ⟨h.buf, r.1⟩ }","md := put w.md d ⟨h.buf, r.1⟩ }","final","another object is finished","C105: objects do not disturb one another"),
 (F,"    let x ← get w.mem p n\n    let h ← hashUpdate cls.BS cls.impl (w.md k) x","    let x ← get w.mem p (n - 1)\n    let h ← hashUpdate cls.BS cls.impl (w.md k) x","final","last octet not hashed","C105"),
 (F,"    let d ← get w.mem p n\n    let h ← hashUpdate cls.BS cls.impl (w.md k) d\n    .ok { w with md := put w.md k h }","    let d ← get w.mem p n\n    let h ← hashUpdate cls.BS cls.impl (w.md k) d\n    .ok { w with md := put w.md 0 h }","update","state shared by the objects","C105: objects do not disturb one another"),
 (F,".reset k => .ok { w with md := put w.md k (cls.reset (w.md k)) }",".reset k => .ok { w with md := fun j => cls.reset (w.md j) }","reset","all objects are reset","C105: objects do not disturb one another"),
 (F,".reset k => .ok { w with md := put w.md k (cls.reset (w.md k)) }",".reset _ => .ok w","reset","no reset","C105"),
 (F,"let h ← (w.mac k).setKey cls x\n    .ok { w with mac := put w.mac k h }","let h ← (w.mac k).setKey cls x\n    .ok { w with mac := fun _ => h }","setKey","one key for all objects","C105: objects do not disturb one another"),
 (F,"let h ← (w.mac k).setKey cls x\n    .ok { w with mac","let h ← (w.mac k).setKey cls x\n    .ok { w with mem := wrm w.mem p (List.replicate n 0), mac","setKey","the caller's key is wiped","C105: nothing else changes"),
 (F,"    let i ← hashFinal cls.BS cls.impl o.h []\n    let h := cls.reset i.1\n","    let i ← hashFinal cls.BS cls.impl o.h []\n    let m0 ← storeWords 8 w.mem d i.2\n    let h := cls.reset i.1\n","macFinal","inner digest stored to digest too (overwritten later, so nothing to see)","none, the final memory is the same: equivalent"),
 (F,"    let h := cls.reset i.1\n    let h ← hashUpdate cls.BS cls.impl h (o.K","    let h := i.1\n    let h ← hashUpdate cls.BS cls.impl h (o.K","macFinal","no reset before the outer hash","C105 MAC"),
 (F,"(o.K.map (· ^^^ 0x5c))","(o.K.map (· ^^^ 0x36))","macFinal","inner pad twice","C105 MAC"),
 (F,"    let h ← hashUpdate cls.BS cls.impl h i.2\n","","macFinal","inner digest not hashed","C105 MAC"),
 (F,"mac := put w.mac k ⟨o.K, ⟨h.buf, r.1⟩⟩ }","mac := put w.mac (k + 1) ⟨o.K, ⟨h.buf, r.1⟩⟩ }","macFinal","another object is finished","C105: objects do not disturb one another"),
 (F,"let h ← (w.mac k).update cls x\n    .ok { w with mac := put w.mac k h }","let _ ← (w.mac k).update cls x\n    .ok w","macUpdate","update lost","C105 MAC"),
 (F,"if p + n ≤ m.length then .ok (rdm m p n) else .ub","if p + n < m.length then .ok (rdm m p n) else .ub","get","last octet of the memory refused","C105: no call fails"),
]
