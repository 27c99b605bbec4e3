import Verif.Proofs.Gcm
import Verif.Proofs.Modes3
/-!
# Properties C06, C12–C14, C16 (GCM): GHASH and Galois/Counter Mode

Specifications: `Verif.Spec.GF128` (the field) and `Verif.Spec.Gcm` (SP 800-38D).
`fresh junk stat` is a newly constructed object in a process whose function-local `static t[16]` of
`GcmDecryptor::final_block` currently holds `stat` (initially zeros).
-/
namespace Verif.Props
open Verif Verif.Spec Verif.Spec.Modes Verif.Spec.Gcm Verif.Gcm Verif.Ghash

/-! ## C06 -/

theorem pair_inj (p q : Pair) (h : pp p = pp q) : p = q := by
  have e : Sm3.memStore64BE p.1 ++ Sm3.memStore64BE p.2 = Sm3.memStore64BE q.1 ++ Sm3.memStore64BE q.2 :=
    ofBytes_inj _ _ rfl rfl (by rw [pp_store, pp_store, h])
  have e2 := List.append_inj e rfl
  have st : ∀ a b : W64, Sm3.memStore64BE a = Sm3.memStore64BE b → a = b := by
    intro a b hab
    rw [Sm3.store64_eq, Sm3.store64_eq] at hab
    have := congrArg beVal hab
    rw [beVal_toBE, beVal_toBE] at this
    have ha := a.isLt; have hb := b.isLt
    apply BitVec.eq_of_toNat_eq
    omega
  exact Prod.ext (st _ _ e2.1) (st _ _ e2.2)

/-- C06, in the field: after any sequence of blocks the table-driven state, read as a polynomial, is
`Y_i = (Y_{i-1} + X_i)·H` in `GF(2)[x]/(x^128+x^7+x^2+x+1)`, from any state. -/
theorem C06_ghash_field (H : List Byte) (hH : H.length = 16) (bl : List (List Byte)) (hl : ∀ b ∈ bl, b.length = 16)
    (st : Pair) :
    GF128.ofBytes (digest (updateBlocks ⟨lutTable H, st⟩ bl.flatten bl.length)) =
      bl.foldl (fun y b => (y + GF128.ofBytes b) * GF128.ofBytes H)
        (GF128.ofBytes (Sm3.memStore64BE st.1 ++ Sm3.memStore64BE st.2)) := by
  have := updateBlocks_spec H hH bl [] st hl
  rw [List.append_nil] at this
  rw [digest, pp_store, pp_store, this.2]

/-- C06: the lut256 backend and the bitwise reference backend reach the same state on every input. -/
theorem C06_backends_agree (H : List Byte) (hH : H.length = 16) (bl : List (List Byte))
    (hl : ∀ b ∈ bl, b.length = 16) (st : Pair) :
    (updateBlocks ⟨lutTable H, st⟩ bl.flatten bl.length).state =
      Common.updateBlocks (Common.initH H) st bl.flatten bl.length := by
  apply pair_inj
  have h1 := updateBlocks_spec H hH bl [] st hl
  have h2 := common_updateBlocks_spec H hH bl [] st hl
  rw [List.append_nil] at h1 h2
  rw [h1.2, h2]

/-- A caller that feeds whole blocks to a keyed GHASH object and asks for the digest. -/
def ghashStream (H : List Byte) (chunks : List (List Byte)) (h : HashObj Ctx) : Outcome (List Byte) := do
  let h ← chunks.foldlM (fun h c => hashUpdate 16 Ghash.impl h c) (Ghash.setKey h H)
  let r ← hashFinal 16 Ghash.impl h []
  .ok r.2

/-- C06, at the API: the digest of whole-block updates is SP 800-38D's GHASH of their concatenation. -/
theorem C06_ghash_object (H : List Byte) (hH : H.length = 16) (chunks : List (List Byte))
    (hc : ∀ c ∈ chunks, c.length % 16 = 0) (h : HashObj Ctx) (hb : h.buf = []) :
    ghashStream H chunks h = .ok (Spec.Gcm.ghash H chunks.flatten) := by
  have gen : ∀ (chunks : List (List Byte)) (c : Ctx), (∀ c ∈ chunks, c.length % 16 = 0) →
      chunks.foldlM (fun h c => hashUpdate 16 Ghash.impl h c) (⟨[], c⟩ : HashObj Ctx) =
        .ok ⟨[], (chunks.flatMap (blocks 16)).foldl absorbB c⟩ := by
    intro chunks
    induction chunks with
    | nil => intro c _; rfl
    | cons X Xs ih =>
      intro c hx
      rw [List.foldlM_cons, hash_whole X (hx X (by simp)), Outcome.ok_bind, ih _ (fun Y hY => hx Y (by simp [hY])),
        List.flatMap_cons, List.foldl_append]
  unfold ghashStream
  rw [show Ghash.setKey h H = ⟨[], ghashInit H⟩ by rw [setKey, hb], gen chunks _ hc, Outcome.ok_bind, hash_final,
    Outcome.ok_bind]
  exact congrArg _ (ghash_parts H hH chunks hc)

/-- Known answer (GCM specification, test case 2: H, then GHASH of one ciphertext block and the lengths). -/
example : ghashStream
    [0x66, 0xe9, 0x4b, 0xd4, 0xef, 0x8a, 0x2c, 0x3b, 0x88, 0x4c, 0xfa, 0x59, 0xca, 0x34, 0x2b, 0x2e]
    [[0x03, 0x88, 0xda, 0xce, 0x60, 0xb6, 0xa3, 0x92, 0xf3, 0x28, 0xc2, 0xb9, 0x71, 0xb2, 0xfe, 0x78],
     [0, 0, 0, 0, 0, 0, 0, 0, 0, 0, 0, 0, 0, 0, 0, 0x80]] ⟨[], ⟨[], (0, 0)⟩⟩ =
    .ok [0xf3, 0x8c, 0xbb, 0x1a, 0xd6, 0x92, 0x23, 0xdc, 0xc3, 0x45, 0x7a, 0xe5, 0xb6, 0xb0, 0xf8, 0x85] := by
  decide +kernel

/-! ## C12 -/

/-- C12: the increment adds one modulo `2^32` to the last four bytes, read big-endian, and keeps the first twelve. -/
theorem C12_gctr_inc (b : List Byte) (h : b.length = 16) :
    (gctrInc b).length = 16 ∧ (gctrInc b).take 12 = b.take 12 ∧
      beVal ((gctrInc b).drop 12) = (beVal (b.drop 12) + 1) % 2 ^ 32 := by
  rw [gctrInc_eq b h]
  refine ⟨inc32_len b h, ?_, ?_⟩
  · unfold inc32
    rw [List.take_append_of_le_length (by rw [List.length_take]; omega), List.take_take]; rfl
  · unfold inc32
    rw [List.drop_append_of_le_length (by rw [List.length_take]; omega), List.drop_eq_nil_of_le (by simp),
      List.nil_append, beVal_toBE]
    omega

/-- C12 iterated: the counters used for a message of `n` blocks are distinct as long as `n ≤ 2^32`. -/
theorem C12_counters_distinct (b : List Byte) (h : b.length = 16) (j k : Nat) (hj : j < k) (hk : k < 2 ^ 32) :
    gctrInc^[j] b ≠ gctrInc^[k] b := by
  have it : ∀ n, (gctrInc^[n] b).length = 16 ∧ beVal ((gctrInc^[n] b).drop 12) = (beVal (b.drop 12) + n) % 2 ^ 32 := by
    intro n
    induction n with
    | zero =>
      refine ⟨h, ?_⟩
      have := beVal_lt (b.drop 12)
      rw [List.length_drop, h] at this
      show beVal (b.drop 12) = _
      omega
    | succ n ih =>
      rw [Function.iterate_succ_apply']
      have := C12_gctr_inc _ ih.1
      refine ⟨this.1, ?_⟩
      rw [this.2.2, ih.2]
      omega
  intro e
  have h1 := (it j).2
  have h2 := (it k).2
  rw [e, h2] at h1
  omega

example : gctrInc [1, 2, 3, 4, 5, 6, 7, 8, 9, 10, 11, 12, 0xff, 0xff, 0xff, 0xff] =
    [1, 2, 3, 4, 5, 6, 7, 8, 9, 10, 11, 12, 0, 0, 0, 0] := by decide

/-! ## C13 -/

/-- C13: for every 16-byte block cipher, key, IV (any length), AAD, plaintext, chunking and placement of the
buffers (also in place), encryption writes SP 800-38D's ciphertext and `get_tag` returns SP 800-38D's tag; an
exception is thrown exactly when the AAD or the plaintext is longer than `(2^64-1)/8` bytes. -/
theorem C13_gcm_encrypt {C : BCipher} (hBS : C.BS = 16) (hP : 0 < C.PAR) (hE : LenOk 16 C.E) (junk : St)
    (stat iv aad : List Byte) (m : Mem) (o i : Nat) (ns : List Nat) (last outl : Nat)
    (hp : StreamPlaced true 0 m o i ns last) :
    let run := encInit C.E (fresh junk stat) iv aad >>= fun h => streamRun 16 (encImpl C) true h m o i ns last outl
    let ct := ciphertext C.E iv (rdm m i (ns.sum + last))
    if aad.length ≤ (2 ^ 64 - 1) / 8 ∧ ns.sum + last ≤ (2 ^ 64 - 1) / 8 then
      ∃ h', run = .ok (h', wrm m o ct, o + (ns.sum + last)) ∧ h'.st.tag = Spec.Gcm.tag C.E iv aad ct
    else run = .throw := by
  intro run ct
  rw [show (2 ^ 64 - 1) / 8 = maxLen from rfl]
  by_cases ha : aad.length ≤ maxLen
  · have e : run = streamRun 16 (encImpl C) true ⟨[], initSt C.E (fresh junk stat).st iv aad (zeros 16)⟩ m o i ns last outl := by
      show (_ >>= _) = _
      rw [encInit_spec hE _ rfl iv aad ha, Outcome.ok_bind]; rfl
    rw [e]
    have := enc_spec hBS hP hE (fresh junk stat).st iv aad (zeros 16) m o i ns last outl hp
    dsimp only at this
    by_cases h2 : ns.sum + last ≤ maxLen
    · rw [if_pos h2] at this
      rw [if_pos (show aad.length ≤ maxLen ∧ ns.sum + last ≤ maxLen from ⟨ha, h2⟩)]
      obtain ⟨h', h3, h4, _⟩ := this
      exact ⟨h', h3, h4⟩
    · rw [if_neg h2] at this
      rw [if_neg (show ¬ (aad.length ≤ maxLen ∧ ns.sum + last ≤ maxLen) from fun h => h2 h.2)]
      exact this
  · rw [if_neg (show ¬ (aad.length ≤ maxLen ∧ ns.sum + last ≤ maxLen) from fun h => ha h.1)]
    show (_ >>= _) = _
    unfold encInit
    rw [if_pos (by omega)]; rfl

/-- A toy 16-byte cipher, two blocks per batch. -/
def toy16 : BCipher := ⟨16, 2, fun x => x.map (· + 3), fun x => x.map (· - 3)⟩

theorem toy16_len : LenOk 16 toy16.E := by intro x hx; simpa [toy16] using hx

def junk0 : St := ⟨[], [], ⟨[], ⟨[], (0, 0)⟩⟩, 0, 0, [], []⟩

/-- A two-chunk, 37-byte message meets the hypotheses of C13 (and 17 bytes of it are processed by `update`). -/
example : StreamPlaced true 0 (List.replicate 37 7) 0 0 [20] 17 := by
  refine ⟨?_, ?_, Or.inr (Or.inr ⟨rfl, rfl⟩)⟩ <;> simp

/-- Finding: the limit of SP 800-38D (`2^36 - 32` bytes of plaintext, beyond which the counter repeats) is not
enforced: key stream blocks `2^32` apart are equal. -/
theorem C13_counter_repeats (b : List Byte) (h : b.length = 16) : inc32^[2 ^ 32] b = b := by
  have it : ∀ n, (inc32^[n] b).length = 16 ∧ (inc32^[n] b).take 12 = b.take 12 ∧
      beVal ((inc32^[n] b).drop 12) = (beVal (b.drop 12) + n) % 2 ^ 32 := by
    intro n
    induction n with
    | zero =>
      refine ⟨h, rfl, ?_⟩
      have := beVal_lt (b.drop 12)
      rw [List.length_drop, h] at this
      show beVal (b.drop 12) = _
      omega
    | succ n ih =>
      rw [Function.iterate_succ_apply']
      have := C12_gctr_inc _ ih.1
      rw [gctrInc_eq _ ih.1] at this
      refine ⟨this.1, this.2.1.trans ih.2.1, ?_⟩
      rw [this.2.2, ih.2.2]
      omega
  obtain ⟨h1, h2, h3⟩ := it (2 ^ 32)
  rw [Nat.add_mod_right] at h3
  have hlt := beVal_lt (b.drop 12)
  rw [List.length_drop, h] at hlt
  rw [Nat.mod_eq_of_lt (by omega)] at h3
  generalize inc32^[2 ^ 32] b = c at *
  rw [← List.take_append_drop 12 c, ← List.take_append_drop 12 b, h2]
  exact congrArg _ (beVal_inj _ _ (by rw [List.length_drop, List.length_drop, h1, h]) h3)

/-! ## C14 -/

/-- A decryption run on a new object: `init`, `set_tag`, updates, `do_final`. -/
def gcmDecrypt (C : BCipher) (junk : St) (stat iv aad t : List Byte) (m : Mem) (o i : Nat) (ns : List Nat)
    (last outl : Nat) : Outcome (ModeObj St × Mem × Nat) :=
  decInit C.E (fresh junk stat) iv aad >>= fun h => streamRun 16 (decImpl C) true (setTag h t) m o i ns last outl

theorem gcmDecrypt_eq {C : BCipher} (hE : LenOk 16 C.E) (junk : St) (stat iv aad t : List Byte) (m : Mem) (o i : Nat)
    (ns : List Nat) (last outl : Nat) (ha : aad.length ≤ (2 ^ 64 - 1) / 8) :
    gcmDecrypt C junk stat iv aad t m o i ns last outl =
      streamRun 16 (decImpl C) true ⟨[], initSt C.E (fresh junk stat).st iv aad t⟩ m o i ns last outl := by
  unfold gcmDecrypt
  rw [decInit_spec hE _ rfl iv aad ha, Outcome.ok_bind]
  rfl

/-- C14 (partial): in a process that has not yet completed a GCM decryption with this cipher (`stat` zero), or for
ciphertexts that are whole blocks, `do_final` returns normally if and only if the tag is right, and then the
output is the plaintext.  Missing: ragged ciphertexts after an earlier decryption, where the claim is false
(`C14_second_decryption_violated`). -/
theorem C14_gcm_decrypt_partial {C : BCipher} (hBS : C.BS = 16) (hP : 0 < C.PAR) (hE : LenOk 16 C.E) (junk : St)
    (stat iv aad t : List Byte) (m : Mem) (o i : Nat) (ns : List Nat) (last outl : Nat)
    (hp : StreamPlaced true 0 m o i ns last) (hs : stat.length = 16)
    (hstat : stat = List.replicate 16 0 ∨ (ns.sum + last) % 16 = 0)
    (ha : aad.length ≤ (2 ^ 64 - 1) / 8) (hlen : ns.sum + last < 2 ^ 64) :
    let ct := rdm m i (ns.sum + last)
    (∀ pt, Spec.Gcm.decrypt C.E iv aad ct t = some pt →
      ∃ h', gcmDecrypt C junk stat iv aad t m o i ns last outl = .ok (h', wrm m o pt, o + (ns.sum + last))) ∧
    (Spec.Gcm.decrypt C.E iv aad ct t = none → gcmDecrypt C junk stat iv aad t m o i ns last outl = .throw) := by
  intro ct
  rw [gcmDecrypt_eq hE _ _ _ _ _ _ _ _ _ _ _ ha]
  have := dec_spec hBS hP hE (fresh junk stat).st hs iv aad t m o i ns last outl hp hlen
  dsimp only at this
  have hct : rdm m i (ns.sum + last) = ct := rfl
  have hcl : ct.length = ns.sum + last := rdm_len hp.1
  clear_value ct
  have hpad : ct ++ (fresh junk stat).st.stat.take ((16 - ct.length % 16) % 16) = pad16 ct := by
    unfold pad16
    refine congrArg (ct ++ ·) ?_
    have e : (fresh junk stat).st.stat = stat := rfl
    rw [e]
    rcases hstat with rfl | h
    · rw [List.take_replicate, Nat.min_eq_left (by omega)]
    · rw [hcl, h]; rfl
  rw [hct, hpad] at this
  unfold Spec.Gcm.decrypt Spec.Gcm.tag
  by_cases ht : xorB (ghash (hashKey C.E) (pad16 aad ++ pad16 ct ++ len64 (8 * aad.length) ++ len64 (8 * ct.length)))
      (C.E (J0 C.E iv)) = t
  · rw [if_pos ht] at this ⊢
    obtain ⟨h', h1, _⟩ := this
    refine ⟨?_, by simp⟩
    intro pt hpt
    rw [← Option.some.inj hpt]
    exact ⟨h', h1⟩
  · rw [if_neg ht] at this ⊢
    exact ⟨by simp, fun _ => this⟩

/-- C14, the exact decision for every history: the tag compared with is the one computed over the ciphertext
padded with the bytes the *previous* decryption in the process left in `static t`; and every accepting
decryption leaves `E(J0)` there. -/
theorem C14_gcm_decrypt_exact {C : BCipher} (hBS : C.BS = 16) (hP : 0 < C.PAR) (hE : LenOk 16 C.E) (junk : St)
    (stat iv aad t : List Byte) (m : Mem) (o i : Nat) (ns : List Nat) (last outl : Nat)
    (hp : StreamPlaced true 0 m o i ns last) (hs : stat.length = 16)
    (ha : aad.length ≤ (2 ^ 64 - 1) / 8) (hlen : ns.sum + last < 2 ^ 64) :
    let ct := rdm m i (ns.sum + last)
    let padded := ct ++ stat.take ((16 - ct.length % 16) % 16)
    if xorB (ghash (hashKey C.E) (pad16 aad ++ padded ++ len64 (8 * aad.length) ++ len64 (8 * ct.length)))
        (C.E (J0 C.E iv)) = t then
      ∃ h', gcmDecrypt C junk stat iv aad t m o i ns last outl =
        .ok (h', wrm m o (ciphertext C.E iv ct), o + (ns.sum + last)) ∧ h'.st.stat = C.E (J0 C.E iv)
    else gcmDecrypt C junk stat iv aad t m o i ns last outl = .throw := by
  intro ct padded
  rw [gcmDecrypt_eq hE _ _ _ _ _ _ _ _ _ _ _ ha]
  have := dec_spec hBS hP hE (fresh junk stat).st hs iv aad t m o i ns last outl hp hlen
  dsimp only at this
  have e : (fresh junk stat).st.stat = stat := rfl
  rw [e] at this
  split_ifs at this ⊢ with h
  · obtain ⟨h', h1, h2, _⟩ := this
    exact ⟨h', h1, h2⟩
  · exact this

/-- xor with the key stream twice. -/
theorem gctr_gctr {E : List Byte → List Byte} (hE : LenOk 16 E) (c : List Byte) (hc : c.length = 16) (X : List Byte) :
    gctr E c (gctr E c X) = X := by
  have hx : ∀ a b : List Byte, a.length ≤ b.length → xorB (xorB a b) b = a := by
    intro a
    induction a with
    | nil => intro b _; rfl
    | cons x xs ih =>
      intro b hb
      match b, hb with
      | y :: ys, hb =>
        show (x ^^^ y ^^^ y) :: xorB (xorB xs ys) ys = _
        rw [ih ys (by simpa using hb), BitVec.xor_assoc, BitVec.xor_self, BitVec.xor_zero]
  obtain ⟨bl, r, hl, hr, rfl, hu1, hu2⟩ := split16 X
  clear hu1 hu2
  have hk := hE _ (incN_len bl.length c hc)
  rw [gctr_split E c bl r hl hr, gctr_split E c _ _ (gctrBlocks_len hE c hc bl hl) (by rw [xorB_len (by omega)]; exact hr)]
  rw [gctrBlocks_count, hx r _ (by omega)]
  congr 1
  clear hr hk
  induction bl generalizing c with
  | nil => rfl
  | cons b bs ih =>
    have hb := hl b (by simp)
    have hc2 := hE c hc
    simp only [gctrBlocks, List.flatten_cons]
    rw [hx b _ (by omega), ih (inc32 c) (inc32_len c hc) (fun x hx => hl x (by simp [hx]))]

/-- C14, round trip (partial, same restriction): what the encryptor produces, with any chunking, is accepted by a
decryptor with any other chunking, which restores the plaintext. -/
theorem C14_round_trip_partial {C : BCipher} (hBS : C.BS = 16) (hP : 0 < C.PAR) (hE : LenOk 16 C.E)
    (junk junk' : St) (stat stat' iv aad : List Byte) (m m' : Mem) (o i o' i' : Nat) (ns ns' : List Nat)
    (last last' outl outl' : Nat)
    (hp : StreamPlaced true 0 m o i ns last) (hp' : StreamPlaced true 0 m' o' i' ns' last')
    (hs : stat'.length = 16) (hstat : stat' = List.replicate 16 0 ∨ (ns.sum + last) % 16 = 0)
    (ha : aad.length ≤ (2 ^ 64 - 1) / 8) (hlen : ns.sum + last ≤ (2 ^ 64 - 1) / 8)
    (hn : ns'.sum + last' = ns.sum + last) :
    ∃ h1 m1, (encInit C.E (fresh junk stat) iv aad >>= fun h => streamRun 16 (encImpl C) true h m o i ns last outl) =
        .ok (h1, m1, o + (ns.sum + last)) ∧
      (rdm m' i' (ns.sum + last) = rdm m1 o (ns.sum + last) →
        ∃ h2 m2, gcmDecrypt C junk' stat' iv aad h1.st.tag m' o' i' ns' last' outl' =
            .ok (h2, m2, o' + (ns.sum + last)) ∧
          rdm m2 o' (ns.sum + last) = rdm m i (ns.sum + last)) := by
  have he := C13_gcm_encrypt hBS hP hE junk stat iv aad m o i ns last outl hp
  dsimp only at he
  rw [if_pos ⟨ha, hlen⟩] at he
  obtain ⟨h1, hr, ht⟩ := he
  refine ⟨h1, wrm m o (ciphertext C.E iv (rdm m i (ns.sum + last))), hr, ?_⟩
  intro hcopy
  have hptl : (rdm m i (ns.sum + last)).length = ns.sum + last := rdm_len hp.1
  have hj : (inc32 (J0 C.E iv)).length = 16 := inc32_len _ (J0_len iv)
  have glen : ∀ X : List Byte, (ciphertext C.E iv X).length = X.length := by
    intro X
    obtain ⟨bl, r, hl, hr, rfl, _, _⟩ := split16 X
    have hk := hE _ (incN_len bl.length _ hj)
    unfold ciphertext
    rw [gctr_split C.E _ bl r hl hr, List.length_append, xorB_flat_len hE _ hj bl hl, xorB_len (by omega),
      List.length_append, flat_len hl]
  have hctl := (glen (rdm m i (ns.sum + last))).trans hptl
  have hrd : rdm (wrm m o (ciphertext C.E iv (rdm m i (ns.sum + last)))) o (ns.sum + last) =
      ciphertext C.E iv (rdm m i (ns.sum + last)) := by
    have h3 := rdm_wrm_same (m := m) (o := o) (bs := ciphertext C.E iv (rdm m i (ns.sum + last)))
      (by rw [hctl]; have := hp.2.1; omega)
    rwa [hctl] at h3
  rw [hrd] at hcopy
  have hd := C14_gcm_decrypt_partial hBS hP hE junk' stat' iv aad h1.st.tag m' o' i' ns' last' outl' hp' hs
    (by rw [hn]; exact hstat) ha (by rw [hn]; omega)
  dsimp only at hd
  rw [hn, hcopy] at hd
  obtain ⟨h2, hd⟩ := hd.1 _ (by unfold Spec.Gcm.decrypt; exact if_pos ht.symm)
  refine ⟨h2, _, hd, ?_⟩
  have hback : ciphertext C.E iv (ciphertext C.E iv (rdm m i (ns.sum + last))) = rdm m i (ns.sum + last) :=
    gctr_gctr hE _ hj _
  rw [hback]
  have h3 := rdm_wrm_same (m := m') (o := o') (bs := rdm m i (ns.sum + last))
    (by rw [hptl]; have := hp'.2.1; omega)
  rwa [hptl] at h3

/-- Tags used below: the right tag of ciphertext `[5]` under the toy cipher, and the tag of the same ciphertext
"padded" with the bytes left by a previous decryption. -/
def goodTag : List Byte := [13, 190, 213, 158, 107, 229, 208, 94, 127, 145, 164, 42, 31, 145, 164, 45]
def badTag : List Byte := [52, 211, 216, 42, 74, 109, 205, 234, 94, 25, 185, 158, 62, 25, 185, 153]

/-- The outcome of a decryption reduced to what can be compared: the memory and `static t`. -/
def view : Outcome (ModeObj St × Mem × Nat) → Option (Mem × List Byte)
  | .ok r => some (r.2.1, r.1.st.stat)
  | _ => none

/-- C14, negation: the same authentic one-byte ciphertext is accepted by the first decryption in the process and
rejected by the second one (with a new object, from the bytes the first one left in `static t`), which instead
accepts a tag that is wrong. -/
theorem C14_second_decryption_violated :
    Spec.Gcm.decrypt toy16.E (List.replicate 12 0) [9] [5] goodTag = some [6] ∧
    Spec.Gcm.decrypt toy16.E (List.replicate 12 0) [9] [5] badTag = none ∧
    ∃ left, view (gcmDecrypt toy16 junk0 (List.replicate 16 0) (List.replicate 12 0) [9] goodTag [5, 0] 1 0 [] 1 0) =
        some ([5, 6], left) ∧
      gcmDecrypt toy16 junk0 left (List.replicate 12 0) [9] goodTag [5, 0] 1 0 [] 1 0 = .throw ∧
      view (gcmDecrypt toy16 junk0 left (List.replicate 12 0) [9] badTag [5, 0] 1 0 [] 1 0) = some ([5, 6], left) := by
  have hl : LenOk 16 toy16.E := toy16_len
  have hp : StreamPlaced true 0 ([5, 0] : Mem) 1 0 [] 1 := by
    refine ⟨?_, ?_, Or.inl ?_⟩ <;> simp
  refine ⟨by decide +kernel, by decide +kernel, toy16.E (J0 toy16.E (List.replicate 12 0)), by decide +kernel, ?_,
    by decide +kernel⟩
  have := C14_gcm_decrypt_exact (C := toy16) rfl (by decide) hl junk0 (toy16.E (J0 toy16.E (List.replicate 12 0)))
    (List.replicate 12 0) [9] goodTag [5, 0] 1 0 [] 1 0 hp (by decide +kernel) (by decide) (by decide)
  dsimp only at this
  rw [if_neg (by decide +kernel)] at this
  exact this

/-! ## C16 for GCM -/

/-- C16 (partial): `init` on an object with empty buffers — e.g. after a message that was a whole number of blocks —
behaves as on a new object, and after the run the buffer holds the ragged rest of the message. -/
theorem C16_gcm_reinit_partial {C : BCipher} (hBS : C.BS = 16) (hP : 0 < C.PAR) (hE : LenOk 16 C.E) (h0 : ModeObj St)
    (hb : h0.buf = []) (hh : h0.st.hash.buf = []) (iv aad : List Byte) (m : Mem) (o i : Nat) (ns : List Nat)
    (last outl : Nat) (hp : StreamPlaced true 0 m o i ns last)
    (ha : aad.length ≤ (2 ^ 64 - 1) / 8) (hlen : ns.sum + last ≤ (2 ^ 64 - 1) / 8) :
    let ct := ciphertext C.E iv (rdm m i (ns.sum + last))
    ∃ h', (encInit C.E h0 iv aad >>= fun h => streamRun 16 (encImpl C) true h m o i ns last outl) =
        .ok (h', wrm m o ct, o + (ns.sum + last)) ∧ h'.st.tag = Spec.Gcm.tag C.E iv aad ct ∧
      h'.st.hash.buf = [] ∧ (h'.buf = [] ↔ (ns.sum + last) % 16 = 0) := by
  intro ct
  rw [encInit_spec hE h0 hh iv aad ha, Outcome.ok_bind, hb]
  have := enc_spec hBS hP hE h0.st iv aad (zeros 16) m o i ns last outl hp
  dsimp only at this
  rw [if_pos (show ns.sum + last ≤ maxLen from hlen)] at this
  obtain ⟨h', h1, h2, h3, h4, _⟩ := this
  refine ⟨h', h1, h2, h3, ?_⟩
  have hptl : (rdm m i (ns.sum + last)).length = ns.sum + last := rdm_len hp.1
  rw [h4, hptl, List.drop_eq_nil_iff, hptl]
  omega

/-- C16, negation for GCM: after a one-byte message the object cannot be used again — `init` keeps the byte (the
class has no `reset`), so the next one-byte message comes out two bytes long. -/
theorem C16_gcm_reinit_violated :
    let msg1 := encInit toy16.E (fresh junk0 (zeros 16)) (zeros 12) [] >>= fun h =>
      streamRun 16 (encImpl toy16) true h [5, 0, 0] 1 0 [] 1 0
    let msg2 := msg1 >>= fun r => encInit toy16.E r.1 (zeros 12) [] >>= fun h =>
      streamRun 16 (encImpl toy16) true h [5, 0, 0] 1 0 [] 1 0
    (view msg1).map (·.1) = some [5, 6, 0] ∧ (view msg2).map (·.1) = some [5, 6, 6] := by
  decide +kernel

end Verif.Props
