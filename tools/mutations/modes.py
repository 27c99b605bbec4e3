M='Model/Modes.lean'
MUTS=[
(M,"let size := if BS - h.buf.length > inl then inl else BS - h.buf.length\n    let buf := h.buf ++ rdm m i size\n    if buf.length = BS","let size := if BS - h.buf.length ≥ inl then inl else BS - h.buf.length - 1\n    let buf := h.buf ++ rdm m i size\n    if buf.length = BS","modeUpdate","fills the buffer one byte short","C08, C10"),
(M,"let (h, m, o') ← modeBulk BS I st m (o + BS) (i + size) (inl - size)","let (h, m, o') ← modeBulk BS I st m o (i + size) (inl - size)","modeUpdate","output not advanced after the buffered block","C08, C10"),
(M,"let (h, m, o') ← modeBulk BS I st m (o + BS) (i + size) (inl - size)","let (h, m, o') ← modeBulk BS I st m (o + BS) i (inl - size)","modeUpdate","input not advanced after the buffered block","C08, C10"),
(M,"let (st, m) ← I.upd h.st m (.buf buf) o 1","let (st, m) ← I.upd h.st m (.ptr i) o 1","modeUpdate","encrypts the caller's bytes instead of the buffer","C08, C10"),
(M,"if inl = 0 then .ok (h, m, 0)","if inl = 0 then .ok (h, m, outl)","modeUpdate","outl not written for an empty call","C08"),
(M,".ok (⟨rdm m (i + size) (inl - size), st⟩, m, o + size)",".ok (⟨[], st⟩, m, o + size)","modeBulk","tail dropped","C08, C10"),
(M,"let n := inl / BS","let n := (inl - 1) / BS","modeBulk","last whole block kept back","C08"),
(M,"let (st, m) ← I.fin h.st m h.buf (o + outl)\n  .ok (⟨h.buf, st⟩, m, outl + h.buf.length)","let (st, m) ← I.fin h.st m h.buf o\n  .ok (⟨h.buf, st⟩, m, outl + h.buf.length)","modeFinal","final bytes written at the start","C08, C10"),
(M,"m, outl + h.buf.length)","m, outl)","modeFinal","final bytes not counted","C08"),
(M,"batches f BS PAR s m (src.adv (PAR * BS)) (o + PAR * BS) (n - PAR)","batches f BS PAR s m (src.adv (PAR * BS)) (o + BS) (n - PAR)","batches","output advanced by one block per batch","C10"),
(M,"else if n ≠ 0 then f s m src o n\n  else .ok (s, m)\ntermination_by n\n\n/-- `while (block_num) {","else .ok (s, m)\ntermination_by n\n\n/-- `while (block_num) {","batches","remaining blocks dropped","C10"),
(M,"if _h : 0 < PAR ∧ PAR ≤ n then do\n    let (s, m) ← cipherBatch f BS s m src o PAR","if _h : 0 < PAR ∧ PAR ≤ n then do\n    let (s, m) ← cipherBatch f BS s m src o 1","cipherBlocks","only the first block of a batch processed","C10 ECB"),
(M,"else if inp.length ≠ BS then .throw\n    else .ok (s, wrm m o (f inp))","else .ok (s, wrm m o (f inp))","ecbImpl","ragged final accepted","C10 ECB"),
(M,"let c := E (xorBytes (src.read m BS) iv)\n  .ok (c, wrm m o c)","let c := E (xorBytes (src.read m BS) iv)\n  .ok (iv, wrm m o c)","cbcEncStep","iv not updated","C10 CBC"),
(M,"let next := (src.adv ((k - 1) * BS)).read m BS\n  let buffer","let next := src.read m BS\n  let buffer","cbcDecBatch","next iv is the first ciphertext block","C10 CBC"),
(M,"(xorBytes (buffer.drop BS) (src.read m ((k - 1) * BS)))","(xorBytes (buffer.drop BS) ((src.adv BS).read m ((k - 1) * BS)))","cbcDecBatch","wrong previous block","C10 CBC"),
(M,"let c := xorBytes (src.read m BS) (E iv)\n  .ok (c, wrm m o c)","let c := xorBytes (src.read m BS) (E iv)\n  .ok (E iv, wrm m o c)","cfbEncStep","feeds back the key stream (OFB)","C10 CFB"),
(M,"let buffer := iv ++ src.read m ((k - 1) * BS)","let buffer := src.read m (k * BS)","cfbDecBatch","iv not shifted in","C10 CFB"),
(M,"else .ok (E iv, wrm m o (xorBytes inp (E iv)))","else .ok (E iv, wrm m o (xorBytes inp iv))","cfbFin","final block not encrypted","C10 CFB"),
(M,".ok (E iv, wrm m o (xorBytes (src.read m BS) (E iv)))",".ok (xorBytes (src.read m BS) (E iv), wrm m o (xorBytes (src.read m BS) (E iv)))","ofbStep","feeds back the ciphertext","C10 OFB"),
(M,"let (w2, t) := incWord (t >>> 32) ((inp.drop 8).take 4)","let (w2, t) := incWord 0 ((inp.drop 8).take 4)","ctrInc16","carry dropped between words","C11"),
(M,"let (w0, _) := incWord (t >>> 32) (inp.take 4)\n  w0 ++ w1\n","let (w0, _) := incWord (t >>> 31) (inp.take 4)\n  w0 ++ w1\n","ctrInc8","wrong carry shift","C11"),
(M,"(t &&& 0xFF#16).setWidth 8 :: ctrIncLoop bs (t >>> 8)","(t &&& 0xFF#16).setWidth 8 :: ctrIncLoop bs (t >>> 7)","ctrIncLoop","wrong carry shift","C11"),
(M,"def ctrIncN (inp : List Byte) : List Byte := (ctrIncLoop inp.reverse 1).reverse","def ctrIncN (inp : List Byte) : List Byte := ctrIncLoop inp 1","ctrIncN","increments from the wrong end","C11"),
(M,"let (rest, c') := ctrBlocks inc n (inc c)\n    (c ++ rest, c')","let (rest, c') := ctrBlocks inc n (inc c)\n    (inc c ++ rest, c')","ctrBlocks","first counter block skipped","C10 CTR"),
(M,".ok (c', wrm m o (xorBytes (src.read m (k * BS)) (mapBlocks E BS k cs)))",".ok (c, wrm m o (xorBytes (src.read m (k * BS)) (mapBlocks E BS k cs)))","ctrBatch","counter not stored back","C10 CTR"),
(M,"def modeReset {S} (_ : ModeObj S) (iv : S) : ModeObj S := ⟨[], iv⟩","def modeReset {S} (h : ModeObj S) (iv : S) : ModeObj S := ⟨h.buf, iv⟩","modeReset","buffer not cleared","C16"),
]
