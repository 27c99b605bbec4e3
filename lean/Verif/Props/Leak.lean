import Verif.Proofs.Leak
import Verif.Proofs.GcmForge
import Verif.Props.Modes
import Verif.Props.Gcm
import Verif.Props.Sm4
import Verif.Props.Aes
/-!
# C94: what equal blocks reveal

`Gives C n iv X Y`: a caller of the streaming interface of mode `n` (any chunks, any placement of the buffers the mode
allows) that passes in `X` finds `Y` at its output pointer.  `GcmGives` is the same for GCM encryption, with the tag.
`blockAt`, `before` and `mask` (Spec/Leak.lean) name parts of these strings.  Every theorem is about two such messages, which
may be one and the same.
-/
namespace Verif.Props
open Verif Verif.Spec Verif.Spec.Modes Verif.Spec.Gcm Verif.Spec.Leak Verif.Gcm Verif.Leak

/-- Streaming `X` through a new object of mode `n` gives `Y`. -/
def Gives (C : BCipher) (n : Name) (iv X Y : List Byte) : Prop :=
  ∃ (m : Mem) (o i : Nat) (ns : List Nat) (last outl : Nat) (h' : ModeObj (List Byte)) (m' : Mem),
    StreamPlaced (inplaceOk C n) 0 m o i ns last ∧ X = rdm m i (ns.sum + last) ∧
    streamRun C.BS (modeImpl C n) true ⟨[], iv⟩ m o i ns last outl = .ok (h', m', o + (ns.sum + last)) ∧
    Y = rdm m' o (ns.sum + last)

/-- Streaming `X` through a new GCM encryptor gives `Y`, and `get_tag` then returns `t`. -/
def GcmGives (C : BCipher) (iv aad X Y t : List Byte) : Prop :=
  ∃ (junk : St) (stat : List Byte) (m : Mem) (o i : Nat) (ns : List Nat) (last outl : Nat) (h' : ModeObj St) (m' : Mem),
    StreamPlaced true 0 m o i ns last ∧ X = rdm m i (ns.sum + last) ∧
    (encInit C.E (fresh junk stat) iv aad >>= fun h => streamRun 16 (encImpl C) true h m o i ns last outl) =
      .ok (h', m', o + (ns.sum + last)) ∧
    Y = rdm m' o (ns.sum + last) ∧ t = h'.st.tag

/-- Every message is given something by every mode that takes its length. -/
theorem C94_gives_something {C : BCipher} (hC : CipherOk C) (n : Name) (iv X : List Byte) (hiv : iv.length = C.BS)
    (hw : wholeBlocks n = true → X.length % C.BS = 0) : ∃ Y, Gives C n iv X Y := by
  have hp : StreamPlaced (inplaceOk C n) 0 (X ++ X) X.length 0 [] X.length := by
    refine ⟨?_, ?_, Or.inl ?_⟩ <;> simp
  have h := C10_modes_spec hC n iv hiv (X ++ X) X.length 0 [] X.length 0 hp
  have e : ([] : List Nat).sum + X.length = X.length := by simp
  rw [e, if_pos hw] at h
  obtain ⟨h', h⟩ := h
  exact ⟨_, X ++ X, X.length, 0, [], X.length, 0, h', _, hp, by simp [rdm], by rw [e]; exact h, rfl⟩

/-- What is given is what SP 800-38A prescribes. -/
theorem gives_out {C : BCipher} (hC : CipherOk C) {n : Name} {iv X Y : List Byte} (hiv : iv.length = C.BS)
    (hl : (wholeBlocks n = true → X.length % C.BS = 0) →
      (out C.E C.D C.BS iv n (blocks C.BS X)).map List.length = (blocks C.BS X).map List.length)
    (h : Gives C n iv X Y) :
    Y.length = X.length ∧ blocks C.BS Y = out C.E C.D C.BS iv n (blocks C.BS X) := by
  obtain ⟨m, o, i, ns, last, outl, h', m', hp, hX, hr, hY⟩ := h
  have h1 := C10_modes_spec hC n iv hiv m o i ns last outl hp
  have hXl : X.length = ns.sum + last := by rw [hX]; exact rdm_len hp.1
  rw [← hX] at h1
  split_ifs at h1 with hw
  · obtain ⟨h2, h1⟩ := h1
    rw [hr] at h1
    have hm : m' = wrm m o (out C.E C.D C.BS iv n (blocks C.BS X)).flatten := by
      have := Outcome.ok.inj h1
      exact (Prod.mk.inj (Prod.mk.inj this).2).1
    obtain ⟨f1, f2⟩ := flat_blocks hC.bs (hl (by rw [hXl]; exact hw))
    have hY2 : Y = (out C.E C.D C.BS iv n (blocks C.BS X)).flatten := by
      rw [hY, hm, ← hXl, ← f2]
      exact rdm_wrm_same (by have := hp.2.1; omega)
    rw [hY2]
    exact ⟨f2, f1⟩
  · rw [hr] at h1
    cases h1

/-- ECB and CBC give something to whole blocks only. -/
theorem gives_whole {C : BCipher} (hC : CipherOk C) {n : Name} {iv X Y : List Byte} (hiv : iv.length = C.BS)
    (hn : wholeBlocks n = true) (h : Gives C n iv X Y) : X.length % C.BS = 0 := by
  obtain ⟨m, o, i, ns, last, outl, h', m', hp, hX, hr, hY⟩ := h
  have h1 := C10_modes_spec hC n iv hiv m o i ns last outl hp
  have hXl : X.length = ns.sum + last := by rw [hX]; exact rdm_len hp.1
  rw [hXl]
  by_contra hc
  rw [if_neg (fun hw => hc (hw hn)), hr] at h1
  cases h1

theorem ecb_block {C : BCipher} (hC : CipherOk C) {iv X Y : List Byte} (hiv : iv.length = C.BS)
    (h : Gives C .ecbEnc iv X Y) {j : Nat} (hj : j < X.length / C.BS) :
    blockAt C.BS Y j = C.E (blockAt C.BS X j) := by
  have hw := gives_whole hC hiv rfl h
  obtain ⟨l, e⟩ := gives_out hC hiv (fun _ => by
    show (ecb C.E (blocks C.BS X)).map List.length = _
    unfold ecb
    rw [List.map_map]
    apply List.map_congr_left
    intro x hx
    have := blocks_whole hC.bs hw x hx
    show (C.E x).length = _
    rw [hC.lenE x this, this]) h
  have h1 := ecb_at (E := C.E) _ _ _ (blocks_at hC.bs hj)
  rw [show ecb C.E (blocks C.BS X) = blocks C.BS Y from e.symm, blocks_at hC.bs (by rw [l]; exact hj)] at h1
  exact Option.some.inj h1

/-- C94, ECB: two ciphertext blocks under one key are equal exactly when the plaintext blocks are. -/
theorem C94_ecb {C : BCipher} (hC : CipherOk C) (hi : InjOn C.BS C.E) {iv iv' X X' Y Y' : List Byte}
    (hiv : iv.length = C.BS) (hiv' : iv'.length = C.BS)
    (h : Gives C .ecbEnc iv X Y) (h' : Gives C .ecbEnc iv' X' Y')
    {j k : Nat} (hj : j < X.length / C.BS) (hk : k < X'.length / C.BS) :
    blockAt C.BS Y j = blockAt C.BS Y' k ↔ blockAt C.BS X j = blockAt C.BS X' k := by
  rw [ecb_block hC hiv h hj, ecb_block hC hiv' h' hk]
  exact ⟨hi _ _ (blockAt_len hC.bs hj) (blockAt_len hC.bs hk), fun e => by rw [e]⟩

theorem cbc_block {C : BCipher} (hC : CipherOk C) {iv X Y : List Byte} (hiv : iv.length = C.BS)
    (h : Gives C .cbcEnc iv X Y) {j : Nat} (hj : j < X.length / C.BS) :
    Y.length = X.length ∧ blockAt C.BS Y j = C.E (xorB (blockAt C.BS X j) (before C.BS iv Y j)) := by
  have hw := gives_whole hC hiv rfl h
  obtain ⟨l, e⟩ := gives_out (n := .cbcEnc) (X := X) hC hiv (fun _ => cbc_lens hC.lenE _ iv hiv (blocks_whole hC.bs hw)) h
  have hj' : j < Y.length / C.BS := by rw [l]; exact hj
  have h2 := prev_at hC.bs iv hj'
  rw [e] at h2
  have h1 := cbc_at _ _ _ _ _ (blocks_at hC.bs hj) h2
  rw [show cbcEnc C.E iv (blocks C.BS X) = blocks C.BS Y from e.symm, blocks_at hC.bs hj'] at h1
  exact ⟨l, Option.some.inj h1⟩

/-- C94, CBC: two ciphertext blocks under one key are equal exactly when the plaintext blocks differ by what the preceding
ciphertext blocks (for the first block: the IV) differ by. -/
theorem C94_cbc {C : BCipher} (hC : CipherOk C) (hi : InjOn C.BS C.E) {iv iv' X X' Y Y' : List Byte}
    (hiv : iv.length = C.BS) (hiv' : iv'.length = C.BS)
    (h : Gives C .cbcEnc iv X Y) (h' : Gives C .cbcEnc iv' X' Y')
    {j k : Nat} (hj : j < X.length / C.BS) (hk : k < X'.length / C.BS) :
    blockAt C.BS Y j = blockAt C.BS Y' k ↔
      xorB (blockAt C.BS X j) (before C.BS iv Y j) = xorB (blockAt C.BS X' k) (before C.BS iv' Y' k) := by
  obtain ⟨l, e⟩ := cbc_block hC hiv h hj
  obtain ⟨l', e'⟩ := cbc_block hC hiv' h' hk
  have b1 := blockAt_len hC.bs hj
  have b2 := blockAt_len hC.bs hk
  have p1 := before_len hC.bs hiv (l := Y) (j := j) (by rw [l]; exact hj)
  have p2 := before_len hC.bs hiv' (l := Y') (j := k) (by rw [l']; exact hk)
  rw [e, e']
  exact ⟨hi _ _ (by rw [xorB_len (by omega), b1]) (by rw [xorB_len (by omega), b2]), fun e => by rw [e]⟩

theorem shaped_le' {b : Nat} (hb : 0 < b) (l : List Byte) : ∀ x ∈ blocks b l, x.length ≤ b :=
  shaped_le _ (blocks_shaped hb l)

/-- The mask of a block whose ciphertext is the plaintext xor `e`. -/
theorem mask_of {b : Nat} (hb : 0 < b) {X Y e : List Byte} {j : Nat} (hj : j < X.length / b) (he : e.length = b)
    (h : blockAt b Y j = xorB (blockAt b X j) e) : mask b X Y j = e := by
  unfold mask
  rw [h, xorB_self_left (by rw [blockAt_len hb hj, he])]

theorem cfb_block {C : BCipher} (hC : CipherOk C) {iv X Y : List Byte} (hiv : iv.length = C.BS)
    (h : Gives C .cfbEnc iv X Y) {j : Nat} (hj : j < X.length / C.BS) :
    Y.length = X.length ∧ mask C.BS X Y j = C.E (before C.BS iv Y j) := by
  obtain ⟨l, e⟩ := gives_out (n := .cfbEnc) (X := X) hC hiv (fun _ => cfb_lens hC.lenE _ iv hiv (blocks_shaped hC.bs X)) h
  have hj' : j < Y.length / C.BS := by rw [l]; exact hj
  have h2 := prev_at hC.bs iv hj'
  rw [e] at h2
  have h1 := cfb_at _ _ _ _ _ (blocks_at hC.bs hj) h2
  rw [show cfbEnc C.E iv (blocks C.BS X) = blocks C.BS Y from e.symm, blocks_at hC.bs hj'] at h1
  exact ⟨l, mask_of hC.bs hj (hC.lenE _ (before_len hC.bs hiv hj')) (Option.some.inj h1)⟩

/-- C94, CFB: two blocks under one key are hidden by the same mask exactly when the preceding ciphertext blocks (for the
first block: the IVs) are equal. -/
theorem C94_cfb {C : BCipher} (hC : CipherOk C) (hi : InjOn C.BS C.E) {iv iv' X X' Y Y' : List Byte}
    (hiv : iv.length = C.BS) (hiv' : iv'.length = C.BS)
    (h : Gives C .cfbEnc iv X Y) (h' : Gives C .cfbEnc iv' X' Y')
    {j k : Nat} (hj : j < X.length / C.BS) (hk : k < X'.length / C.BS) :
    mask C.BS X Y j = mask C.BS X' Y' k ↔ before C.BS iv Y j = before C.BS iv' Y' k := by
  obtain ⟨l, e⟩ := cfb_block hC hiv h hj
  obtain ⟨l', e'⟩ := cfb_block hC hiv' h' hk
  rw [e, e']
  exact ⟨hi _ _ (before_len hC.bs hiv (by rw [l]; exact hj)) (before_len hC.bs hiv' (by rw [l']; exact hk)),
    fun e => by rw [e]⟩

theorem ofb_block {C : BCipher} (hC : CipherOk C) {iv X Y : List Byte} (hiv : iv.length = C.BS)
    (h : Gives C .ofb iv X Y) {j : Nat} (hj : j < X.length / C.BS) :
    mask C.BS X Y j = C.E^[j + 1] iv := by
  obtain ⟨l, e⟩ := gives_out (n := .ofb) (X := X) hC hiv (fun _ => ofb_lens hC.lenE _ iv hiv (shaped_le' hC.bs X)) h
  have h1 := ofb_at (E := C.E) _ iv _ _ (blocks_at hC.bs hj)
  rw [show ofb C.E iv (blocks C.BS X) = blocks C.BS Y from e.symm, blocks_at hC.bs (by rw [l]; exact hj)] at h1
  exact mask_of hC.bs hj (iter_len hC.lenE hiv _) (Option.some.inj h1)

/-- C94, OFB: two blocks under one key are hidden by the same mask exactly when one IV is reached from the other by
encrypting it as many times as the blocks are apart. -/
theorem C94_ofb {C : BCipher} (hC : CipherOk C) (hi : InjOn C.BS C.E) {iv iv' X X' Y Y' : List Byte}
    (hiv : iv.length = C.BS) (hiv' : iv'.length = C.BS)
    (h : Gives C .ofb iv X Y) (h' : Gives C .ofb iv' X' Y')
    {j k : Nat} (hj : j < X.length / C.BS) (hk : k < X'.length / C.BS) (hjk : j ≤ k) :
    mask C.BS X Y j = mask C.BS X' Y' k ↔ iv = C.E^[k - j] iv' := by
  rw [ofb_block hC hiv h hj, ofb_block hC hiv' h' hk]
  have e : k + 1 = (j + 1) + (k - j) := by omega
  rw [e, Function.iterate_add_apply C.E (j + 1) (k - j)]
  exact ⟨iter_inj hC.lenE hi hiv (iter_len hC.lenE hiv' _) _, fun e => by rw [← e]⟩

theorem ctr_block {C : BCipher} (hC : CipherOk C) {iv X Y : List Byte} (hiv : iv.length = C.BS)
    (h : Gives C .ctr iv X Y) {j : Nat} (hj : j < X.length / C.BS) :
    mask C.BS X Y j = C.E (ctrBlock C.BS iv j) := by
  obtain ⟨l, e⟩ := gives_out (n := .ctr) (X := X) hC hiv (fun _ => ctr_lens hC.lenE iv _ 0 (shaped_le' hC.bs X)) h
  have h1 := ctr_at (E := C.E) (b := C.BS) _ iv 0 _ _ (blocks_at hC.bs hj)
  rw [show ctr C.E C.BS iv 0 (blocks C.BS X) = blocks C.BS Y from e.symm, blocks_at hC.bs (by rw [l]; exact hj),
    Nat.zero_add] at h1
  exact mask_of hC.bs hj (hC.lenE _ (toBE_len _ _)) (Option.some.inj h1)

/-- C94, CTR: two blocks under one key are hidden by the same mask exactly when the IVs, read as big-endian integers, plus
the block numbers agree modulo `2^(8 BS)`.  So the masks of a message of up to `2^(8 BS)` blocks are all different, and so
are those of two messages whose counter ranges do not meet. -/
theorem C94_ctr {C : BCipher} (hC : CipherOk C) (hi : InjOn C.BS C.E) {iv iv' X X' Y Y' : List Byte}
    (hiv : iv.length = C.BS) (hiv' : iv'.length = C.BS)
    (h : Gives C .ctr iv X Y) (h' : Gives C .ctr iv' X' Y')
    {j k : Nat} (hj : j < X.length / C.BS) (hk : k < X'.length / C.BS) :
    mask C.BS X Y j = mask C.BS X' Y' k ↔ (beVal iv + j) % 256 ^ C.BS = (beVal iv' + k) % 256 ^ C.BS := by
  rw [ctr_block hC hiv h hj, ctr_block hC hiv' h' hk, ← ctrBlock_eq]
  exact ⟨hi _ _ (toBE_len _ _) (toBE_len _ _), fun e => by rw [e]⟩

/-! ## GCM -/

theorem gcm_gives {C : BCipher} (hBS : C.BS = 16) (hP : 0 < C.PAR) (hE : LenOk 16 C.E) {iv aad X Y t : List Byte}
    (h : GcmGives C iv aad X Y t) :
    Y.length = X.length ∧ Y = ciphertext C.E iv X ∧ t = Spec.Gcm.tag C.E iv aad Y ∧ aad.length ≤ (2 ^ 64 - 1) / 8 ∧
      X.length ≤ (2 ^ 64 - 1) / 8 := by
  obtain ⟨junk, stat, m, o, i, ns, last, outl, h', m', hp, hX, hr, hY, ht⟩ := h
  have h1 := C13_gcm_encrypt hBS hP hE junk stat iv aad m o i ns last outl hp
  have hXl : X.length = ns.sum + last := by rw [hX]; exact rdm_len hp.1
  dsimp only at h1
  rw [← hX] at h1
  split_ifs at h1 with hc
  · obtain ⟨h2, h1, h3⟩ := h1
    rw [hr] at h1
    have hh := Outcome.ok.inj h1
    have hh2 : h' = h2 := (Prod.mk.inj hh).1
    have hm : m' = wrm m o (ciphertext C.E iv X) := (Prod.mk.inj (Prod.mk.inj hh).2).1
    have hj : (inc32 (J0 C.E iv)).length = 16 := inc32_len _ (J0_len iv)
    have f2 : (ciphertext C.E iv X).length = X.length :=
      (flat_blocks (by decide) (gctr_lens hE (blocks 16 X) _ hj (shaped_le' (by decide) X))).2
    have hY2 : Y = ciphertext C.E iv X := by
      rw [hY, hm, ← hXl, ← f2]
      exact rdm_wrm_same (by have := hp.2.1; omega)
    refine ⟨by rw [hY2, f2], hY2, ?_, hc.1, by rw [hXl]; exact hc.2⟩
    rw [ht, hh2, h3, hY2]
  · rw [hr] at h1
    cases h1

theorem gcm_block {C : BCipher} (hBS : C.BS = 16) (hP : 0 < C.PAR) (hE : LenOk 16 C.E) {iv aad X Y t : List Byte}
    (h : GcmGives C iv aad X Y t) {j : Nat} (hj : j < X.length / 16) :
    mask 16 X Y j = C.E (inc32^[j + 1] (J0 C.E iv)) := by
  obtain ⟨l, e, _⟩ := gcm_gives hBS hP hE h
  have hc : (inc32 (J0 C.E iv)).length = 16 := inc32_len _ (J0_len iv)
  obtain ⟨f1, _⟩ := flat_blocks (b := 16) (by decide)
    (gctr_lens hE (blocks 16 X) (inc32 (J0 C.E iv)) hc (shaped_le' (by decide) X))
  have h1 := gctr_at (E := C.E) _ (inc32 (J0 C.E iv)) _ _ (blocks_at (by decide) hj)
  rw [← f1, show (gctrBlocks C.E (inc32 (J0 C.E iv)) (blocks 16 X)).flatten = Y from e.symm,
    blocks_at (by decide) (by rw [l]; exact hj)] at h1
  rw [mask_of (by decide) hj (hE _ (inc32_iter _ hc j).1) (Option.some.inj h1)]
  rfl

/-- C94, GCM: two blocks of messages encrypted under one key with 12-byte IVs are hidden by the same mask exactly when the
IVs are equal and the block numbers agree modulo `2^32`.  So the masks of all blocks of all messages with different IVs, each
of at most `2^32` blocks, are different; and in a longer message, which the library does not refuse, they repeat. -/
theorem C94_gcm {C : BCipher} (hBS : C.BS = 16) (hP : 0 < C.PAR) (hE : LenOk 16 C.E) (hi : InjOn 16 C.E)
    {iv iv' aad aad' X X' Y Y' t t' : List Byte} (hiv : iv.length = 12) (hiv' : iv'.length = 12)
    (h : GcmGives C iv aad X Y t) (h' : GcmGives C iv' aad' X' Y' t')
    {j k : Nat} (hj : j < X.length / 16) (hk : k < X'.length / 16) :
    mask 16 X Y j = mask 16 X' Y' k ↔ iv = iv' ∧ j % 2 ^ 32 = k % 2 ^ 32 := by
  rw [gcm_block hBS hP hE h hj, gcm_block hBS hP hE h' hk]
  have c := gcm_counter (E := C.E) hiv hiv' (j + 1) (k + 1)
  have e : (j + 1) % 2 ^ 32 = (k + 1) % 2 ^ 32 ↔ j % 2 ^ 32 = k % 2 ^ 32 := by omega
  rw [e] at c
  rw [← c]
  exact ⟨hi _ _ (inc32_iter _ (J0_len _) _).1 (inc32_iter _ (J0_len _) _).1, fun e => by rw [e]⟩

/-- C94, GCM tags: the same ciphertext and AAD produced under two 12-byte IVs have the same tag only if the IVs are the
same. -/
theorem C94_gcm_tag {C : BCipher} (hBS : C.BS = 16) (hP : 0 < C.PAR) (hE : LenOk 16 C.E) (hi : InjOn 16 C.E)
    {iv iv' aad X X' Y t t' : List Byte} (hiv : iv.length = 12) (hiv' : iv'.length = 12)
    (h : GcmGives C iv aad X Y t) (h' : GcmGives C iv' aad X' Y t') : t = t' ↔ iv = iv' := by
  obtain ⟨_, _, e, _⟩ := gcm_gives hBS hP hE h
  obtain ⟨_, _, e', _⟩ := gcm_gives hBS hP hE h'
  rw [e, e']
  unfold Spec.Gcm.tag
  have hg : ∀ d, (ghash (hashKey C.E) d).length = 16 := fun d => toBE_len _ _
  have c := (gcm_counter (E := C.E) hiv hiv' 0 0).1
  constructor
  · intro h1
    have h2 := xorB_left_cancel (by rw [hE _ (J0_len _), hg]) (by rw [hE _ (J0_len _), hg]) h1
    exact (c (hi _ _ (J0_len _) (J0_len _) h2)).1
  · rintro rfl; rfl

/-- C94, GCM with an IV used twice: whoever sees two different messages (ciphertext or AAD) with their tags under one key and
one IV of any length, and knows nothing else about the cipher, is left with at most as many of the `2^128` hash keys as the
longer message has blocks. -/
theorem C94_gcm_iv_reuse {iv aad aad' Y Y' t t' : List Byte} (ha : aad.length ≤ (2 ^ 64 - 1) / 8)
    (hY : Y.length ≤ (2 ^ 64 - 1) / 8) (ha' : aad'.length ≤ (2 ^ 64 - 1) / 8) (hY' : Y'.length ≤ (2 ^ 64 - 1) / 8)
    (hne : (aad', Y') ≠ (aad, Y)) :
    let keys := {H : List Byte | ∃ C : BCipher, C.BS = 16 ∧ 0 < C.PAR ∧ LenOk 16 C.E ∧ C.E (List.replicate 16 0) = H ∧
      ∃ X X', GcmGives C iv aad X Y t ∧ GcmGives C iv aad' X' Y' t'}
    keys.Finite ∧ keys.ncard ≤ max (nblocks aad' Y') (nblocks aad Y) := by
  intro keys
  obtain ⟨hf, hc⟩ := reuse_card iv aad Y aad' Y' t t' (by omega) (by omega) (by omega) (by omega) hne
  have hsub : keys ⊆ {H : List Byte | H.length = 16 ∧ ∃ E, LenOk 16 E ∧ hashKey E = H ∧ Spec.Gcm.tag E iv aad Y = t ∧
      Spec.Gcm.tag E iv aad' Y' = t'} := by
    rintro H ⟨C, h1, h2, h3, h4, X, X', h5, h6⟩
    refine ⟨by rw [← h4]; exact h3 _ (List.length_replicate ..), C.E, h3, h4, ?_, ?_⟩
    · exact (gcm_gives h1 h2 h3 h5).2.2.1.symm
    · exact (gcm_gives h1 h2 h3 h6).2.2.1.symm
  exact ⟨hf.subset hsub, (Set.ncard_le_ncard hsub hf).trans hc⟩

/-- C94, GCM decryption: a genuine message presented to a new decryptor with another 12-byte IV, everything else unchanged,
is always rejected (in a process that has not yet finished a decryption, or for messages of whole blocks; see C14). -/
theorem C94_gcm_wrong_iv {C : BCipher} (hBS : C.BS = 16) (hP : 0 < C.PAR) (hE : LenOk 16 C.E) (hi : InjOn 16 C.E)
    {iv iv' aad X Y t : List Byte} (hiv : iv.length = 12) (hiv' : iv'.length = 12) (hne : iv ≠ iv')
    (h : GcmGives C iv aad X Y t) (junk : St) (stat : List Byte) (m : Mem) (o i : Nat) (ns : List Nat) (last outl : Nat)
    (hp : StreamPlaced true 0 m o i ns last) (hs : stat.length = 16) (hY : Y = rdm m i (ns.sum + last))
    (hstat : stat = List.replicate 16 0 ∨ Y.length % 16 = 0) :
    gcmDecrypt C junk stat iv' aad t m o i ns last outl = .throw := by
  obtain ⟨l, _, e, ha, hx⟩ := gcm_gives hBS hP hE h
  have hYl : Y.length = ns.sum + last := by rw [hY]; exact rdm_len hp.1
  have hd := C14_gcm_decrypt_partial hBS hP hE junk stat iv' aad t m o i ns last outl hp hs
    (by rw [← hYl]; exact hstat) ha (by omega)
  dsimp only at hd
  rw [← hY] at hd
  apply hd.2
  unfold Spec.Gcm.decrypt
  apply if_neg
  intro h1
  rw [e] at h1
  unfold Spec.Gcm.tag at h1
  have hg : ∀ d, (ghash (hashKey C.E) d).length = 16 := fun d => toBE_len _ _
  have h2 := xorB_left_cancel (by rw [hE _ (J0_len _), hg]) (by rw [hE _ (J0_len _), hg]) h1
  exact hne ((gcm_counter (E := C.E) hiv' hiv 0 0).1 (hi _ _ (J0_len _) (J0_len _) h2)).1.symm

/-! ## The library's ciphers -/

/-- SM4 with any key meets the hypotheses. -/
theorem C94_sm4 (key : List Byte) (hk : key.length = 16) : CipherOk (Sm4.cipher key) ∧ InjOn 16 (Sm4.cipher key).E := by
  refine ⟨Sm4.cipher_ok key, fun x y hx hy h => ?_⟩
  have hr : (List.replicate 32 (0 : W32)).length = 32 := rfl
  have e1 := (C17_sm4_inverse _ _ hr hr key x hk hx).1
  have e2 := (C17_sm4_inverse _ _ hr hr key y hk hy).1
  rw [← e1, ← e2]
  exact congrArg _ h

/-- AES-128, AES-192 and AES-256 with any key meet the hypotheses. -/
theorem C94_aes (bits : Nat) (hb : AesBits bits) (key : List Byte) (hk : 8 * key.length = bits) :
    CipherOk (Aes.cipher bits key) ∧ InjOn 16 (Aes.cipher bits key).E := by
  refine ⟨Aes.cipher_ok bits key, fun x y hx hy h => ?_⟩
  have e1 := (C19_aes_inverse bits hb key x hk hx).1
  have e2 := (C19_aes_inverse bits hb key y hk hy).1
  rw [← e1, ← e2]
  exact congrArg (fun z => Aes.decBlock (Aes.decKeyInit key bits) z bits) h

/-- SM4-CTR spelled out: within one message of up to `2^128` blocks, equal plaintext blocks at different places never give
equal ciphertext blocks. -/
theorem C94_sm4_ctr (key : List Byte) (hk : key.length = 16) {iv X Y : List Byte} (hiv : iv.length = 16)
    (h : Gives (Sm4.cipher key) .ctr iv X Y) (hl : X.length ≤ 2 ^ 128 * 16) {j k : Nat} (hj : j < X.length / 16)
    (hk' : k < X.length / 16) (hjk : j ≠ k) (hX : blockAt 16 X j = blockAt 16 X k) : blockAt 16 Y j ≠ blockAt 16 Y k := by
  intro hY
  have c := C94_ctr (C94_sm4 key hk).1 (C94_sm4 key hk).2 hiv hiv h h (j := j) (k := k) hj hk'
  have hm : mask 16 X Y j = mask 16 X Y k := by unfold mask; rw [hX, hY]
  have c := c.1 hm
  have e : 256 ^ (Sm4.cipher key).BS = 2 ^ 128 := by show 256 ^ 16 = _; norm_num
  rw [e] at c
  have : X.length / 16 ≤ 2 ^ 128 := by omega
  generalize beVal iv = v at c
  apply hjk
  generalize X.length / 16 = n at *
  have hM : j ≡ k [MOD 2 ^ 128] := Nat.ModEq.add_left_cancel' v c
  unfold Nat.ModEq at hM
  rwa [Nat.mod_eq_of_lt (by omega), Nat.mod_eq_of_lt (by omega)] at hM

/-- The hypotheses can be met: the toy cipher is injective, and both strings exist. -/
example : InjOn 4 (toy 2).E := by
  intro x y _ _ h
  have := congrArg (List.map (· - (3 : Byte))) h
  simp only [toy, List.map_map] at this
  have e : ((fun x : Byte => x - 3) ∘ fun x => x + 3) = id := by funext a; simp
  rwa [e, List.map_id, List.map_id] at this

example : ∃ Y, Gives (Sm4.cipher (List.replicate 16 7)) .ctr (List.replicate 16 1) (List.replicate 40 5) Y :=
  C94_gives_something (C94_sm4 _ rfl).1 _ _ _ rfl (by decide)

example : blockAt 4 (List.replicate 40 5) 3 = blockAt 4 (List.replicate 40 5) 7 := by decide

example : ∃ Y t, GcmGives toy16 (List.replicate 12 0) [9] [5, 6, 7] Y t := by
  have hp : StreamPlaced true 0 ([5, 6, 7, 0, 0, 0] : Mem) 3 0 [2] 1 := by
    refine ⟨?_, ?_, Or.inl ?_⟩ <;> simp
  have h := C13_gcm_encrypt (C := toy16) rfl (by decide) toy16_len junk0 [] (List.replicate 12 0) [9] _ 3 0 [2] 1 0 hp
  dsimp only at h
  rw [if_pos (by decide)] at h
  obtain ⟨h', h1, _⟩ := h
  exact ⟨_, _, junk0, [], _, 3, 0, [2], 1, 0, h', _, hp, rfl, h1, rfl, rfl⟩

/-- Two messages under one IV, with different AAD: the hash key of the toy cipher is among the few that are left. -/
example : ∃ Y t Y' t', (([8] : List Byte), Y') ≠ ([9], Y) ∧ GcmGives toy16 (List.replicate 12 0) [9] [5, 6, 7] Y t ∧
    GcmGives toy16 (List.replicate 12 0) [8] [5, 6, 7] Y' t' := by
  have hp : StreamPlaced true 0 ([5, 6, 7, 0, 0, 0] : Mem) 3 0 [2] 1 := by
    refine ⟨?_, ?_, Or.inl ?_⟩ <;> simp
  have h := C13_gcm_encrypt (C := toy16) rfl (by decide) toy16_len junk0 [] (List.replicate 12 0) [9] _ 3 0 [2] 1 0 hp
  have g := C13_gcm_encrypt (C := toy16) rfl (by decide) toy16_len junk0 [] (List.replicate 12 0) [8] _ 3 0 [2] 1 0 hp
  dsimp only at h g
  rw [if_pos (by decide)] at h g
  obtain ⟨h', h1, _⟩ := h
  obtain ⟨g', g1, _⟩ := g
  exact ⟨_, _, _, _, fun e => absurd (Prod.mk.inj e).1 (by decide), ⟨junk0, [], _, 3, 0, [2], 1, 0, h', _, hp, rfl, h1, rfl, rfl⟩,
    ⟨junk0, [], _, 3, 0, [2], 1, 0, g', _, hp, rfl, g1, rfl, rfl⟩⟩

end Verif.Props
