M="Model/Sm9.lean"
Q="Model/Sm9Pairing.lean"
MUTS=[
(M,"  let h1 := (u256AddWord h1 1).1\n  .ok (u256ToBytes h1)","  .ok (u256ToBytes h1)","hn","the final + 1 missing","C52_hash_to_range"),
(M,"haLoop C [[tag], Z1, Z2] ((40 + C.DS - 1) / C.DS) 1 []","haLoop C [[tag], Z1, Z2] ((40 + C.DS - 1) / C.DS) 0 []","hn","counter starts at 0","C52_hash_to_range"),
(M,"haLoop C [[tag], Z1, Z2]","haLoop C [[tag], Z2, Z1]","hn","arguments swapped","C52_hash_to_range"),
(M,"    haLoop chunks i (cnt + 1) (Ha ++ d)","    haLoop chunks i cnt (Ha ++ d)","haLoop","counter not advanced","C52_hash_to_range"),
(M,"u256Mod (Ha.take 40) nSub1","u256Mod (Ha.take 40) nLimbs","hn","reduction modulo N","C52_hash_to_range"),
(M,"if u256Cmp a nSub1 ≥ 0 then","if u256Cmp a nSub1 > 0 then","bnModNSub1","N-1 not reduced","C67_gen_priv"),
(M,"  let r := (u256AddWord r 1).1\n  u256ToBytes r","  u256ToBytes r","nonce","the + 1 missing","C67_gen_priv"),
(M,"  if u256EqualZero ks ∨ u256Cmp ks N ≥ 0 then .throw","  if u256EqualZero ks ∨ u256Cmp ks N > 0 then .throw","setPriv","N accepted","C67_set_priv_range"),
(M,"  if u256EqualZero ks ∨ u256Cmp ks N ≥ 0 then .throw","  if u256Cmp ks N ≥ 0 then .throw","setPriv","0 accepted","C67_set_priv_range"),
(M,"  let e ← Outcome.ofOption (pairingP1 P)\n  .ok ⟨ks, ⟨P, e⟩⟩","  let e ← Outcome.ofOption (pairingP1 p2)\n  .ok ⟨ks, ⟨P, e⟩⟩","withPub","stored pairing of the generators","C67_set_priv_partial"),
(M,"  if !ec2Check T then .throw\n  else do","  do","setPub","no curve check","C69_set_pub"),
(M,"(fp2ToBytes p.P.x, fp2ToBytes p.P.y)","(fp2ToBytes p.P.y, fp2ToBytes p.P.x)","getPub","coordinates swapped","C69_pub_round_trip"),
(M,"  if !ecCheck T then .throw\n  else do\n    let pub ← setPub pubX pubY","  do\n    let pub ← setPub pubX pubY","setSignPriv","no curve check","C69_set_sign_priv"),
(M,"    let pub ← setPub pubX pubY","    let pub ← setPub pubY pubX","setSignPriv","arguments swapped","C69_priv_partial"),
(M,"  let t1 := mont256Add fnCtx t1 ks\n","  let t1 := mont256Sub fnCtx t1 ks\n","genSignPriv","h1 - ks","C56_sign_verify_partial"),
(M,"    let t1 := mont256Mul fnCtx ks t1\n    let t2","    let t2","genSignPriv","1 / (h1 + ks)","C56_sign_verify_partial"),
(M,"  if mont256EqualZero fnCtx t1 then .throw\n  else do\n    let t1 ← Outcome.ofOption (mont256Inv","  do\n    let t1 ← Outcome.ofOption (mont256Inv","genSignPriv","zero sum not detected","C56_sign_verify_partial"),
(M,"  let h1 ← hn C id [hid] 1\n  let t1 := mont256FromBytes","  let h1 ← hn C id [hid] 2\n  let t1 := mont256FromBytes","genSignPriv","H2 instead of H1","C56_sign_verify_partial"),
(M,"  let h1 ← hn C id [hid] 1\n  let T ← Outcome.ofOption (j2MulG h1)","  let h1 ← hn C id [] 1\n  let T ← Outcome.ofOption (j2MulG h1)","verifyTail","hid left out","C68_equation_partial"),
(M,"  let T := j2AddA T pub.P\n  let P ←","  let P ←","verifyTail","public key not added","C68_equation_partial"),
(M,"  let w := fp12Mul fp w t\n","","verifyTail","g^h left out","C68_equation_partial"),
(M,"  .ok (h2 == sig.take 32)","  .ok (h2.take 31 == sig.take 31)","verifyTail","31 octets compared","C68_equation_partial"),
(M,"  .ok (h2 == sig.take 32)","  .ok true","verifyTail","comparison dropped","C68_accept"),
(M,"if size + 32 ≠ sig.length then .ok false else verifyTail","verifyTail","verifyBody","trailing octets accepted","C68_accept"),
(M,"  if sig.length < 32 then .ok false\n","  if sig.length < 31 then .ok false\n","verifyBody","31 octets accepted by the length check","C68_total"),
(M,"    | .fail => .ok false\n    | .ok (Sp, size)","    | .fail => .throw\n    | .ok (Sp, size)","verifyBody","bad point throws","C68_total"),
(M,"    | .ub => .ub\n    | .fail => .ok false","    | .ub => .ok false\n    | .fail => .ok false","verifyBody","truncated point rejected (the fix)","C68_total"),
(M,"  let r := mont256Sub fnCtx r hf\n","  let r := mont256Sub fnCtx hf r\n","signStep","h - r","C56_sign_verify_partial"),
(M,"  if mont256EqualZero fnCtx r then .ok none\n  else do","  do","signStep","l = 0 not retried","C56_sign_verify_partial"),
(M,"    .ok (some (h ++ encPoint pc S))","    .ok (some (h ++ encPoint .uncompressed S))","signStep","form ignored","C56_sign_verify_partial"),
(M,"  let h ← hn C msg (fp12ToBytes w) 2\n  let r :=","  let h ← hn C msg [] 2\n  let r :=","signStep","w not hashed","C56_sign_verify_partial"),
(M,"    | none => signLoop key msg pc rest","    | none => .ok (some [])","signLoop","retry gives up with an empty signature","C56_sign_verify_partial"),
(Q,"  let a4 ← fp2.tpl t0\n","  let a4 := fp2.dbl t0\n","gTangent","2 instead of 3","C66_pairing_partial"),
(Q,"  let t2 := fp2MulFp fp b1 P.y\n  let a1 := fp2.neg t2\n","  let t2 := fp2MulFp fp b1 P.y\n  let a1 := t2\n","gTangent","sign of the y term","C66_pairing_partial"),
(Q,"  let t0 := fp2MulFp fp t3 P.x\n  let a4 := t0\n","  let t0 := fp2MulFp fp t3 P.y\n  let a4 := t0\n","gLineA","y instead of x","C66_pairing_partial"),
(Q,"    let f0 := gLineA T nQ P\n    let f := fp12Mul fp f f0\n    some (f, j2AddA T nQ)","    let f0 := gLineA T nQ P\n    let f := fp12Mul fp f f0\n    some (f, j2AddA T Q)","millerStep","Q added instead of subtracted","C66_pairing_partial"),
(Q,"  let f := fp12Sqr fp f\n  let f0 ← gTangent T P","  let f0 ← gTangent T P","millerStep","squaring missing","C66_pairing_partial"),
(Q,"\"00100000000000000000000000000000000000010000101100020200101000020\"","\"00100000000000000000000000000000000000010000101100020200101000010\"","nafA","a digit of the loop constant","C66_pairing_partial"),
(Q,"  let qj := ecJNeg fp2 qj\n","","miller","second Frobenius image not negated","C66_pairing_partial"),
(Q,"  let T ← j2Add T qj\n","","miller","point not advanced before the last line","C66_pairing_partial"),
]
