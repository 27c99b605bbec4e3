F='Model/Sm2Ec.lean'
MUTS=[
(F,"  let right := F.add right t\n  F.eq left right","  F.eq left right","ecACheck","x^3 term dropped","C41_check, C43"),
(F,"    let x3 := F.sub x3 beta\n    let x3 := F.sub x3 beta\n","    let x3 := F.sub x3 beta\n","ecJDbl","8*beta subtracted once only","C41_dbl"),
(F,"    let z3 := F.sub z3 delta\n","    let z3 := F.sub z3 gamma\n","ecJDbl","delta and gamma confused","C41_dbl"),
(F,"    if F.eq s1 s2 then ecJDbl F P else some (ecJInf F)","    if F.eq s1 s2 then ecJDbl F P else ecJDbl F P","ecJAdd","P + (-P) doubled","C41_add_partial"),
(F,"    if F.eq s1 s2 then ecJDbl F P else some (ecJInf F)","    some (ecJInf F)","ecJAdd","P + P not doubled","C41_add_partial"),
(F,"    let v := F.mul s1 j\n","    let v := F.mul s2 j\n","ecJAdd","s2 used for s1","C41_add_partial"),
(F,"  let y3 := F.mul P.y j\n  let y3 := F.dbl y3\n","  let y3 := F.mul P.y j\n","ecJAddA","doubling dropped","C41_add_mixed_partial, C42"),
(F,"  let z3 := F.sub z3 hh\n","","ecJAddA","HH not subtracted","C41_add_mixed_partial, C42"),
(F,"    some ⟨F.mul P.x inv2, F.mul P.y inv3⟩","    some ⟨F.mul P.x inv3, F.mul P.y inv2⟩","ecJToA","powers of 1/Z swapped","C41_convert"),
(F,"      some ⟨F.mul P.x inv2, F.mul P.y inv3, F.one⟩","      some ⟨F.mul P.x inv2, F.mul P.y inv3, P.z⟩","ecJNormal","Z not set to 1","C41_convert"),
(F,"    let t2 := F.mul Q.y zp3\n    if !F.eq t1 t2 then false else true","    let t2 := F.mul Q.y zp3\n    if !F.eq t1 t2 then true else true","ecJEqual","y not compared","C41_convert"),
(F,"      if e3i = true ∧ ei = false then some (ecJAddA F T P)","      if e3i = true ∧ ei = false then some (ecJAddA F T Pneg)","mulAStep","sign swapped","C42"),
(F,"      else if e3i = false ∧ ei = true then some (ecJAddA F T Pneg)\n","","mulAStep","negative digit dropped","C42"),
(F,"    else if c = 2 then\n      match ecJDbl F T with\n      | none => none\n      | some T => mulALoop F e e3 P Pneg 255 T","    else if c = 2 then\n      mulALoop F e e3 P Pneg 255 T","ecJMulA","carry 2 treated like carry 1","C42"),
(F,"  let e := if u256Cmp e n ≥ 0 then (u256SubBorrow e n).1 else e","  let e := if u256Cmp e n > 0 then (u256SubBorrow e n).1 else e","ecJMulA","k = n not reduced (changes intermediate points)","C42"),
(F,"  let e := if u256Cmp e n ≥ 0 then (u256SubBorrow e n).1 else e\n","","ecJMulA","scalar not reduced","C42"),
(F,"  if u256EqualZero e then some (ecJInf F)\n  else\n","","ecJMulA","zero scalar not special-cased","C42"),
(F,"      | some i => mulALoop F e e3 P Pneg (i - 1) T","      | some i => mulALoop F e e3 P Pneg i T","ecJMulA","top bit processed twice","C42"),
(F,"    if !mont256Equal fpCtx a t2 then some none else some (some t)","    some (some t)","fpSqrt","result not checked","C43_decode_compressed"),
(F,"  (if lsbOf (fpToBytes P.y) = 0 then 0x02 else 0x03) :: fpToBytes P.x","  (if lsbOf (fpToBytes P.x) = 0 then 0x02 else 0x03) :: fpToBytes P.x","toCompressed","parity of x","C43"),
(F,"  (if lsbOf (toBytes04 P) = 0 then 0x06 else 0x07) :: toBytes04 P","  (if lsbOf (toBytes04 P) = 0 then 0x07 else 0x06) :: toBytes04 P","toMix","tags swapped","C43_encode"),
(F,"    if lsbY ≠ yHat then some (some (fp.neg y)) else some (some y)","    some (some y)","recoverY","parity not fixed","C43"),
(F,"          if ecCheck R then .ok (R, 65) else .fail","          .ok (R, 65)","ecAFromBytes","no curve check","C43_decode_on_curve"),
(F,"          let yHat := if b = 0x02 then 0 else 1","          let yHat := if b = 0x02 then 1 else 0","ecAFromBytes","parity inverted","C43"),
(F,"          | some (some y) => if ecCheck ⟨x, y⟩ then .ok (⟨x, y⟩, 33) else .fail","          | some (some y) => if ecCheck ⟨x, y⟩ then .ok (⟨x, y⟩, 65) else .fail","ecAFromBytes","read count 65 for compressed","C43"),
(F,"⟨fpFromBytes (bs.take 32), fpFromBytes ((bs.drop 32).take 32)⟩","⟨fpFromBytes (bs.take 32), fpFromBytes ((bs.drop 33).take 32)⟩","fromBytes04","y read at offset 33","C43"),
(F,"def jMulG (k : List Byte) : Option J := jMulA k ⟨fpFromBytes sm2CurveGx, fpFromBytes sm2CurveGy⟩","def jMulG (k : List Byte) : Option J := jMulA k ⟨fpFromBytes sm2CurveGx, fpFromBytes sm2CurveGx⟩","jMulG","wrong base point","C42_mul_g"),
]
