E='Model/Sm9Ec.lean'
MUTS=[
(E,"  let right := F.add right t\n  F.eq left right","  F.eq left right","ecACheck0","curve check ignores x^3","C64_g1_check"),
(E,"  let d := F.sub d a\n  let d := F.sub d c\n","  let d := F.sub d a\n","ecJDbl0","a subtraction missing","C64_g1_partial"),
(E,"    let c := F.dbl c\n    let c := F.dbl c\n    let c := F.dbl c\n","    let c := F.dbl c\n    let c := F.dbl c\n","ecJDbl0","4C instead of 8C","C64_g1_partial"),
(E,"    if F.eq s1 s2 then ecJDbl0 F P else some (ecJInf F)","    if F.eq s1 s2 then some (ecJInf F) else ecJDbl0 F P","ecJAdd0","branches swapped","C64_g1_partial"),
(E,"    let x3 := F.sub x3 v\n    let x3 := F.sub x3 v\n    let y3 := F.sub v x3","    let x3 := F.sub x3 v\n    let y3 := F.sub v x3","ecJAdd0","V subtracted once","C64_g2_partial"),
(E,"      if e3i = true ∧ ei = false then some (ecJAddA F T P)\n      else if e3i = false ∧ ei = true then some (ecJAddA F T Pneg)","      if e3i = true ∧ ei = false then some (ecJAddA F T P)\n      else if e3i = false ∧ ei = true then some (ecJAddA F T P)","mulAStep0","negative digit added as positive","C57_mul_exact"),
(E,"      match ecJDbl0 F T with\n      | none => none\n      | some T => mulALoop0 F e e3 P Pneg 255 T","      mulALoop0 F e e3 P Pneg 255 T","ecJMulA0","carry 2 treated as carry 1","C57_mul_exact"),
(E,"      | some i => mulALoop0 F e e3 P Pneg (i - 1) T","      | some i => mulALoop0 F e e3 P Pneg i T","ecJMulA0","top bit processed twice","C57_mul_exact"),
(E,"  let e := if u256Cmp e n ≥ 0 then (u256SubBorrow e n).1 else e\n","","ecJMulA0","scalar not reduced","C57_mul_exact"),
(E,"  let e := if u256Cmp e n ≥ 0 then","  let e := if u256Cmp e n > 0 then","ecJMulA0","k = n not reduced","C57_mul_exact"),
(E,"    if lsbY ≠ yHat then some (some (fp.neg y)) else some (some y)","    if lsbY = yHat then some (some (fp.neg y)) else some (some y)","recoverY","parity test inverted","C65_round_trip"),
(E,"  (if lsbOf (fpToBytes P.y) = 0 then 0x02 else 0x03) :: fpToBytes P.x","  (if lsbOf (fpToBytes P.x) = 0 then 0x02 else 0x03) :: fpToBytes P.x","toCompressed","parity of x","C65_encode"),
(E,"          let R := fromBytes04 rest\n          if ecCheck R then .ok (R, 65) else .fail","          let R := fromBytes04 rest\n          .ok (R, 65)","ecAFromBytes","no curve check","C65_decode_on_curve"),
(E,"          | some (some y) => if ecCheck ⟨x, y⟩ then .ok (⟨x, y⟩, 33) else .fail","          | some (some y) => if ecCheck ⟨x, y⟩ then .ok (⟨x, y⟩, 65) else .fail","ecAFromBytes","wrong number of octets read","C65_round_trip"),
(E,"      if b = 0x04 ∨ b = 0x06 ∨ b = 0x07 then\n        if rest.length < 64 then .ub","      if b = 0x04 ∨ b = 0x06 ∨ b = 0x07 then\n        if rest.length < 64 then .fail","ecAFromBytes","truncated input rejected (the fix)","C53_decoder_violated"),
(E,"  buf.take 32 ++ fp2ToBytes P.y ++ buf.drop 96","  buf.take 64 ++ fp2ToBytes P.y ++ buf.drop 128","ec2ToBytes04","y written at offset 64 (the fix)","C54_encode"),
(E,"⟨fp2FromBytes (bs.take 64), fp2FromBytes ((bs.drop 32).take 64)⟩","⟨fp2FromBytes (bs.take 64), fp2FromBytes ((bs.drop 64).take 64)⟩","ec2FromBytes04","y read at offset 64","C54_standard_misread"),
(E,"def ec2Check (P : A2) : Bool := ecACheck0 fp2 ⟨fp.zero, fpFromBytes sm9CurveB⟩ P","def ec2Check (P : A2) : Bool := ecACheck0 fp2 ⟨fpFromBytes sm9CurveB, fp.zero⟩ P","ec2Check","b = 5 instead of 5u","C64_g2_check"),
(E,"def p2 : A2 := ⟨fp2FromBytes sm9Curve2Gx, fp2FromBytes sm9Curve2Gy⟩","def p2 : A2 := ⟨fp2FromBytes sm9Curve2Gy, fp2FromBytes sm9Curve2Gx⟩","p2","coordinates swapped","C40_sm9_base"),
]
