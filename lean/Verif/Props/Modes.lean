import Verif.Proofs.Modes3
/-!
# Properties C08–C11, C15, C16: block cipher modes (ECB, CBC, CFB, OFB, CTR)

`streamRun` (Spec/StreamCaller.lean) is a caller that feeds a message in chunks `ns` with `update` and the last
chunk with `do_final`.  `C` is any keyed block cipher; `CipherOk` only asks for positive sizes and
length-preserving block functions.  `modeImpl C n` is the modelled class for mode `n`, and
`Spec.Modes.out` is the SP 800-38A definition.
-/
namespace Verif.Props
open Spec Spec.Modes

/-- A toy cipher for the examples and counterexamples: 4-byte blocks, two blocks per batch. -/
def toy (par : Nat) : BCipher := ⟨4, par, fun x => x.map (· + 3), fun x => x.map (· - 3)⟩

theorem toy_ok (par : Nat) (h : 0 < par) : CipherOk (toy par) where
  bs := by simp [toy]
  par := h
  lenE := by intro x hx; simpa [toy] using hx
  lenD := by intro x hx; simpa [toy] using hx

/-- C10 (and C08): for every cipher, mode, chunking and message, a caller that clears its length variable before
each call gets exactly the bytes SP 800-38A prescribes for the whole message, at `out`, and in total as many
output bytes as input bytes; ECB and CBC reject (throw) exactly the messages that are not whole blocks.
Nothing outside `[o, o + total)` changes (`wrm`). -/
theorem C10_modes_spec {C : BCipher} (hC : CipherOk C) (n : Name) (iv : List Byte) (hiv : iv.length = C.BS)
    (m : Mem) (o i : Nat) (ns : List Nat) (last outl : Nat) (hp : StreamPlaced (inplaceOk C n) 0 m o i ns last) :
    if wholeBlocks n = true → (ns.sum + last) % C.BS = 0 then
      ∃ h', streamRun C.BS (modeImpl C n) true ⟨[], iv⟩ m o i ns last outl =
        .ok (h', wrm m o (out C.E C.D C.BS iv n (blocks C.BS (rdm m i (ns.sum + last)))).flatten, o + (ns.sum + last))
    else streamRun C.BS (modeImpl C n) true ⟨[], iv⟩ m o i ns last outl = .throw :=
  modes_spec hC n iv hiv m o i ns last outl hp

/-- The hypotheses are met: 11 bytes as 3 + 1 + 7, separate buffers. -/
example : StreamPlaced (inplaceOk (toy 2) .ctr) 0 (List.replicate 30 7) 11 0 [3, 1] 7 := by
  refine ⟨?_, ?_, Or.inl ?_⟩ <;> simp

example : (streamRun 4 (modeImpl (toy 2) .ctr) true ⟨[], [0, 0, 0, 255]⟩ [1, 2, 3, 4, 5, 6, 0, 0, 0, 0, 0, 0, 9] 6 0 [3, 1] 2 0
    : Outcome (ModeObj (List Byte) × Mem × Nat)) =
    .ok (⟨[5, 6], [0, 0, 1, 1]⟩, [1, 2, 3, 4, 5, 6, 1 ^^^ 3, 2 ^^^ 3, 3 ^^^ 3, 4 ^^^ 2, 5 ^^^ 3, 6 ^^^ 3, 9], 12) := by
  decide +kernel

/-- C08 (partial): chunking does not matter, for callers that clear their length variable before each call.
Missing: callers that rely on `*outl` being written by every call, which the code does not do — see
`C08_outl_not_written` and `C08_stale_outl_violated`. -/
theorem C08_chunking_partial {C : BCipher} (hC : CipherOk C) (n : Name) (iv : List Byte) (hiv : iv.length = C.BS)
    (m : Mem) (o i : Nat) (ns ns' : List Nat) (last last' outl outl' : Nat)
    (htotal : ns.sum + last = ns'.sum + last') (hp : StreamPlaced (inplaceOk C n) 0 m o i ns last) :
    (∃ h h' m' e, streamRun C.BS (modeImpl C n) true ⟨[], iv⟩ m o i ns last outl = .ok (h, m', e) ∧
      streamRun C.BS (modeImpl C n) true ⟨[], iv⟩ m o i ns' last' outl' = .ok (h', m', e)) ∨
    (streamRun C.BS (modeImpl C n) true ⟨[], iv⟩ m o i ns last outl = .throw ∧
      streamRun C.BS (modeImpl C n) true ⟨[], iv⟩ m o i ns' last' outl' = .throw) := by
  have hp' : StreamPlaced (inplaceOk C n) 0 m o i ns' last' := by
    obtain ⟨a, b, c⟩ := hp
    rw [htotal] at a b c
    exact ⟨a, b, c⟩
  have h1 := modes_spec hC n iv hiv m o i ns last outl hp
  have h2 := modes_spec hC n iv hiv m o i ns' last' outl' hp'
  rw [← htotal] at h2
  by_cases hc : wholeBlocks n = true → (ns.sum + last) % C.BS = 0
  · rw [if_pos hc] at h1 h2
    obtain ⟨h, e1⟩ := h1
    obtain ⟨h', e2⟩ := h2
    exact Or.inl ⟨h, h', _, _, e1, e2⟩
  · rw [if_neg hc] at h1 h2
    exact Or.inr ⟨h1, h2⟩

/-- C08 (partial): a caller that never clears its length variable is also right if all chunks but the last are
whole blocks. -/
theorem C08_whole_block_chunks_partial {C : BCipher} (hC : CipherOk C) (n : Name) (iv : List Byte)
    (hiv : iv.length = C.BS) (m : Mem) (o i : Nat) (ns : List Nat) (last outl : Nat)
    (hns : ∀ k ∈ ns, k % C.BS = 0) (hp : StreamPlaced (inplaceOk C n) 0 m o i ns last)
    (hw : wholeBlocks n = true → (ns.sum + last) % C.BS = 0) :
    ∃ h', streamRun C.BS (modeImpl C n) false ⟨[], iv⟩ m o i ns last outl =
      .ok (h', wrm m o (out C.E C.D C.BS iv n (blocks C.BS (rdm m i (ns.sum + last)))).flatten, o + (ns.sum + last)) := by
  have h1 := modes_spec hC n iv hiv m o i ns last outl hp
  rw [if_pos hw] at h1
  rw [stream_nozero _ last ns iv m o i outl outl hns]
  exact h1

/-- C08, negation, for every mode and every cipher: a call that leaves a non-empty buffer non-full writes
nothing to `*outl` (the variable keeps whatever the caller had in it). -/
theorem C08_outl_not_written {C : BCipher} (n : Name) (h : ModeObj (List Byte)) (m : Mem) (o i inl outl : Nat)
    (h0 : inl ≠ 0) (hb : h.buf ≠ []) (hfit : h.buf.length + inl < C.BS) (hi : i + inl ≤ m.length) :
    modeUpdate C.BS (modeImpl C n) h m o i inl outl = .ok (⟨h.buf ++ rdm m i inl, h.st⟩, m, outl) := by
  unfold modeUpdate
  have hb' : h.buf.length ≠ 0 := fun e => hb (List.length_eq_zero_iff.mp e)
  rw [if_neg h0, if_neg hb']
  simp only [if_pos (show C.BS - h.buf.length > inl by omega)]
  rw [if_neg (by rw [List.length_append, rdm_len hi]; omega)]

/-- C08, negation: chunks 5, 1, 2 with the same length variable: the last bytes are written 4 bytes too far
and the reported total is 12 instead of 8. -/
theorem C08_stale_outl_violated :
    ∃ (C : BCipher) (m : Mem), CipherOk C ∧
      (∃ h m' , streamRun C.BS (modeImpl C .ctr) false ⟨[], [0, 0, 0, 0]⟩ m 8 0 [5, 1] 2 0 = .ok (h, m', 20) ∧
        rdm m' 8 8 ≠ (out C.E C.D C.BS [0, 0, 0, 0] .ctr (blocks C.BS (rdm m 0 8))).flatten) := by
  refine ⟨toy 2, List.replicate 8 7 ++ List.replicate 20 0, toy_ok 2 (by decide), ⟨[], [0, 0, 0, 2]⟩,
    [7, 7, 7, 7, 7, 7, 7, 7, 4, 4, 4, 4, 0, 0, 0, 0, 4, 4, 4, 3, 0, 0, 0, 0, 0, 0, 0, 0], by decide +kernel, ?_⟩
  rw [blocks_eq (by decide)]
  decide +kernel

/-- C09: decrypting what was encrypted gives the message back, for every cipher with `D ∘ E = id` on blocks,
every mode and its inverse, every chunking of both runs, and every message (whole blocks for ECB/CBC). -/
theorem C09_round_trip {C : BCipher} (hC : CipherOk C) (hDE : ∀ x, x.length = C.BS → C.D (C.E x) = x)
    (e d : Name) (hed : inverse e d) (iv : List Byte) (hiv : iv.length = C.BS)
    (m : Mem) (i o o2 : Nat) (ns ns2 : List Nat) (last last2 outl outl2 : Nat)
    (htotal : ns2.sum + last2 = ns.sum + last)
    (hw : wholeBlocks e = true → (ns.sum + last) % C.BS = 0)
    (hp : StreamPlaced (inplaceOk C e) 0 m o i ns last)
    (hp2 : StreamPlaced (inplaceOk C d) 0 m o2 o ns2 last2) :
    ∃ h1 m1 h2 m2, streamRun C.BS (modeImpl C e) true ⟨[], iv⟩ m o i ns last outl = .ok (h1, m1, o + (ns.sum + last)) ∧
      streamRun C.BS (modeImpl C d) true ⟨[], iv⟩ m1 o2 o ns2 last2 outl2 = .ok (h2, m2, o2 + (ns.sum + last)) ∧
      rdm m2 o2 (ns.sum + last) = rdm m i (ns.sum + last) := by
  have h1 := modes_spec hC e iv hiv m o i ns last outl hp
  rw [if_pos hw] at h1
  obtain ⟨h1, e1⟩ := h1
  have hX : (rdm m i (ns.sum + last)).length = ns.sum + last := rdm_len hp.1
  generalize hXe : rdm m i (ns.sum + last) = X at hX e1
  have hsh := blocks_shaped hC.bs X
  obtain ⟨hl, hinv⟩ := mode_inverse hC hDE e d hed iv hiv (blocks C.BS X) hsh
    (fun hwe => blocks_whole hC.bs (by rw [hX]; exact hw hwe))
  have hlen : (out C.E C.D C.BS iv e (blocks C.BS X)).flatten.length = ns.sum + last := by
    rw [List.length_flatten, hl, ← List.length_flatten, flatten_blocks hC.bs, hX]
  obtain ⟨q1, q2, q3⟩ := hp2
  have hlm := hp.2.1
  rw [Nat.zero_add] at hlm
  have hml : (wrm m o (out C.E C.D C.BS iv e (blocks C.BS X)).flatten).length = m.length := wrm_len (by omega)
  have h2 := modes_spec hC d iv hiv (wrm m o (out C.E C.D C.BS iv e (blocks C.BS X)).flatten) o2 o ns2 last2 outl2
    ⟨by rw [hml]; exact q1, by rw [hml]; exact q2, q3⟩
  have hwd : wholeBlocks d = true → (ns2.sum + last2) % C.BS = 0 := by
    rw [htotal]
    intro hd
    apply hw
    cases e <;> cases d <;> simp_all [inverse, wholeBlocks]
  rw [if_pos hwd] at h2
  obtain ⟨h2, e2⟩ := h2
  refine ⟨h1, _, h2, _, e1, by rw [← htotal]; exact e2, ?_⟩
  have hrd : rdm (wrm m o (out C.E C.D C.BS iv e (blocks C.BS X)).flatten) o (ns2.sum + last2) =
      (out C.E C.D C.BS iv e (blocks C.BS X)).flatten := by
    rw [htotal, ← hlen]; exact rdm_wrm_same (by omega)
  rw [hrd, blocks_flatten hC.bs _ (shaped_of_lengths _ _ hl.symm hsh), hinv, flatten_blocks hC.bs, ← hX]
  exact rdm_wrm_same (by rw [hml]; omega)

/-- The toy cipher meets the hypothesis `D ∘ E = id`. -/
example : ∀ x : List Byte, x.length = (toy 2).BS → (toy 2).D ((toy 2).E x) = x := by
  intro x _
  simp only [toy, List.map_map]
  conv_rhs => rw [← List.map_id x]
  congr 1
  funext b
  simp only [Function.comp, id]
  rw [BitVec.add_sub_cancel]

/-- C11: the counter increment is addition of one to the big-endian integer modulo `2^(8·BLOCK_SIZE)`, for
every block size (all three code paths) and every counter value. -/
theorem C11_ctr_inc (BS : Nat) (c : List Byte) (hc : c.length = BS) :
    (ctrInc BS c).length = BS ∧ beVal (ctrInc BS c) = (beVal c + 1) % 256 ^ BS := by
  rw [ctrInc_spec BS c hc]
  exact ⟨toBE_len _ _, by rw [beVal_toBE, Nat.mod_mod]⟩

example : ctrInc 16 (List.replicate 16 255) = List.replicate 16 0 := by decide +kernel
example : ctrInc 8 [0, 0, 0, 0, 255, 255, 255, 255] = [0, 0, 0, 1, 0, 0, 0, 0] := by decide +kernel
example : ctrInc 3 [1, 255, 255] = [2, 0, 0] := by decide +kernel

/-- C11 for blocks: after any number of increments no carry is lost. -/
theorem C11_ctr_inc_iterate (BS : Nat) (iv : List Byte) (hiv : iv.length = BS) (j : Nat) :
    (ctrInc BS)^[j] iv = toBE BS ((beVal iv + j) % 256 ^ BS) := by
  induction j with
  | zero => exact (ctrBlock_zero hiv).symm
  | succ j ih => rw [Function.iterate_succ_apply', ih]; exact ctrBlock_succ BS iv j

/-- C15 (partial): in-place operation.  A caller whose output cursor equals its input cursor at the start gets the
SP 800-38A result in place, for every chunking — for every mode except CBC decryption with a cipher that
processes more than one block at a time (SM4 in the default build), and for callers that advance the output
cursor by `*outl` only (so that it trails by the buffered bytes). -/
theorem C15_in_place_partial {C : BCipher} (hC : CipherOk C) (n : Name) (hn : n ≠ .cbcDec ∨ C.PAR = 1)
    (iv : List Byte) (hiv : iv.length = C.BS) (m : Mem) (p : Nat) (ns : List Nat) (last outl : Nat)
    (hm : p + (ns.sum + last) ≤ m.length) (hw : wholeBlocks n = true → (ns.sum + last) % C.BS = 0) :
    ∃ h', streamRun C.BS (modeImpl C n) true ⟨[], iv⟩ m p p ns last outl =
      .ok (h', wrm m p (out C.E C.D C.BS iv n (blocks C.BS (rdm m p (ns.sum + last)))).flatten, p + (ns.sum + last)) := by
  have h1 := modes_spec hC n iv hiv m p p ns last outl
    ⟨hm, by omega, Or.inr (Or.inr ⟨decide_eq_true hn, rfl⟩)⟩
  rw [if_pos hw] at h1
  exact h1

/-- C15, negation: CBC decryption in place of two blocks with a two-block cipher gives a wrong second block. -/
theorem C15_cbc_dec_in_place_violated :
    ∃ (C : BCipher) (m : Mem), CipherOk C ∧ C.PAR = 2 ∧
      ∃ h m', modeFinal C.BS (modeImpl C .cbcDec) ⟨[], [1, 2, 3, 4]⟩ m 0 0 8 0 = .ok (h, m', 8) ∧
        m' ≠ (out C.E C.D C.BS [1, 2, 3, 4] .cbcDec (blocks C.BS m)).flatten := by
  refine ⟨toy 2, [10, 20, 30, 40, 50, 60, 70, 80], toy_ok 2 (by decide), rfl, ⟨[], [50, 60, 70, 80]⟩,
    [10 - 3 ^^^ 1, 20 - 3 ^^^ 2, 30 - 3 ^^^ 3, 40 - 3 ^^^ 4, 50 - 3 ^^^ (10 - 3 ^^^ 1), 60 - 3 ^^^ (20 - 3 ^^^ 2),
      70 - 3 ^^^ (30 - 3 ^^^ 3), 80 - 3 ^^^ (40 - 3 ^^^ 4)], ?_, ?_⟩
  · decide +kernel
  · rw [blocks_eq (by decide)]
    decide +kernel

/-- C15, negation: passing `out == in` to a call while bytes are buffered overwrites input that has not been
read yet (CTR; 1 byte, then 7 bytes in place). -/
theorem C15_buffered_in_place_violated :
    ∃ (C : BCipher) (m : Mem), CipherOk C ∧
      ∃ h1 h2 m2, modeUpdate C.BS (modeImpl C .ctr) ⟨[], [0, 0, 0, 0]⟩ m 0 0 1 0 = .ok (h1, m, 0) ∧
        modeUpdate C.BS (modeImpl C .ctr) h1 m 1 1 7 0 = .ok (h2, m2, 8) ∧
        rdm m2 1 8 ≠ (out C.E C.D C.BS [0, 0, 0, 0] .ctr (blocks C.BS (rdm m 0 8))).flatten := by
  refine ⟨toy 1, [1, 2, 3, 4, 5, 6, 7, 8, 9, 10], toy_ok 1 (by decide), ⟨[1], [0, 0, 0, 0]⟩,
    ⟨[], [0, 0, 0, 2]⟩, [1, 2, 1, 0, 7, 4, 5, 4, 12, 10], by decide +kernel, by decide +kernel, ?_⟩
  rw [blocks_eq (by decide)]
  decide +kernel

/-- C16: `reset(iv)` gives an object that behaves like a new one, whatever was processed before. -/
theorem C16_reset {S} (h : ModeObj S) (iv : S) : modeReset h iv = modeInit ⟨[], h.st⟩ iv := rfl

/-- C16 (partial): `init` gives a fresh object exactly when nothing is buffered. -/
theorem C16_init_fresh_iff_partial {S} (h : ModeObj S) (iv : S) : modeInit h iv = ⟨[], iv⟩ ↔ h.buf = [] := by
  unfold modeInit
  constructor
  · intro e; exact (ModeObj.mk.injEq ..).mp e |>.1
  · intro e; rw [e]

/-- C16, negation: after a message whose length is not a multiple of the block size, `do_final` leaves the tail in
the buffer, `init` keeps it, and the next message comes out wrong (and longer). -/
theorem C16_init_after_final_violated :
    ∃ (C : BCipher) (m : Mem), CipherOk C ∧
      ∃ h1 m1 h2 m2, modeFinal C.BS (modeImpl C .ctr) ⟨[], [0, 0, 0, 0]⟩ m 8 0 1 0 = .ok (h1, m1, 1) ∧
        modeFinal C.BS (modeImpl C .ctr) (modeInit h1 [0, 0, 0, 0]) m1 8 1 4 0 = .ok (h2, m2, 5) ∧
        rdm m2 8 4 ≠ (out C.E C.D C.BS [0, 0, 0, 0] .ctr (blocks C.BS (rdm m 1 4))).flatten := by
  refine ⟨toy 1, [1, 2, 3, 4, 5, 6, 7, 8, 9, 10, 11, 12, 13, 14, 15, 16], toy_ok 1 (by decide),
    ⟨[1], [0, 0, 0, 1]⟩, [1, 2, 3, 4, 5, 6, 7, 8, 2, 10, 11, 12, 13, 14, 15, 16], ⟨[5], [0, 0, 0, 2]⟩,
    [1, 2, 3, 4, 5, 6, 7, 8, 2, 1, 0, 7, 6, 14, 15, 16], by decide +kernel, by decide +kernel, ?_⟩
  rw [blocks_eq (by decide)]
  decide +kernel

end Verif.Props
