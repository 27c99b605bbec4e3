import Verif.Proofs.Sm4
import Verif.Proofs.Congr
import Verif.Props.Modes
import Verif.Props.Gcm
/-!
# Properties C17, C18: SM4

`Spec.SM4` (Spec/Sm4.lean) is GB/T 32907-2016, with the S-box given algebraically.  `Sm4.setKey` is the modelled
key schedule of the default backend (`enc` selects the direction, `old` is the previous content of the context),
`Sm4.block` the modelled block function, `Sm4.computeBlocks` the modelled n-block function, and `Sm4.Common` the
reference backend.
-/
namespace Verif.Props
open Spec Spec.Modes

/-- C18: for every key and block, whatever the context held before, the default backend computes GB/T 32907
encryption and decryption. -/
theorem C18_sm4_spec (old : List W32) (hold : old.length = 32) (key x : List Byte) (hk : key.length = 16)
    (hx : x.length = 16) :
    Sm4.block (Sm4.setKey old key true) x = SM4.encrypt key x ∧
    Sm4.block (Sm4.setKey old key false) x = SM4.decrypt key x := by
  unfold Sm4.block SM4.encrypt SM4.decrypt
  rw [Sm4.setKey_eq old hold key hk, Sm4.setKey_eq old hold key hk]
  exact ⟨Sm4.computeBlock_eq _ Sm4.round_eq _ (Sm4.roundKeys_len key) x hx,
    Sm4.computeBlock_eq _ Sm4.round_eq _ (by simp [Sm4.roundKeys_len]) x hx⟩

/-- The standard's example A.1. -/
def sm4Key : List Byte := [0x01, 0x23, 0x45, 0x67, 0x89, 0xab, 0xcd, 0xef, 0xfe, 0xdc, 0xba, 0x98, 0x76, 0x54, 0x32, 0x10]

example : SM4.encrypt sm4Key sm4Key = [0x68, 0x1e, 0xdf, 0x34, 0xd2, 0x06, 0x96, 0x5e, 0x86, 0xb3, 0xe9, 0x4f, 0x53,
    0x6e, 0x42, 0x46] := by decide +kernel

example : Sm4.block (Sm4.setKey (List.replicate 32 5) sm4Key true) sm4Key =
    [0x68, 0x1e, 0xdf, 0x34, 0xd2, 0x06, 0x96, 0x5e, 0x86, 0xb3, 0xe9, 0x4f, 0x53, 0x6e, 0x42, 0x46] := by
  decide +kernel

/-- C18: the n-block entry point (4 blocks at a time, then single blocks) is the single-block function on each
block, for every number of blocks, any round keys, any data. -/
theorem C18_sm4_blocks (rk : List W32) (bs : List (List Byte)) (h : ∀ b ∈ bs, b.length = 16) :
    Sm4.computeBlocks rk bs.flatten bs.length = (bs.map (Sm4.block rk)).flatten := by
  rw [Sm4.computeBlocks_eq]
  show mapBlocks (Sm4.computeBlock Sm4.round rk) 16 bs.length bs.flatten = _
  induction bs with
  | nil => rfl
  | cons b bs ih =>
    have hb := h b (by simp)
    simp only [List.length_cons, mapBlocks, List.flatten_cons, List.map_cons]
    rw [List.take_left' hb, List.drop_left' hb, ih (fun x hx => h x (by simp [hx]))]
    rfl

/-- Six blocks: one batch and two single blocks. -/
example : ∀ b ∈ List.replicate 6 sm4Key, b.length = 16 := by decide

/-- C18: the n-block entry point is GB/T 32907 on each block. -/
theorem C18_sm4_blocks_spec (old : List W32) (hold : old.length = 32) (key : List Byte) (hk : key.length = 16)
    (bs : List (List Byte)) (h : ∀ b ∈ bs, b.length = 16) :
    Sm4.computeBlocks (Sm4.setKey old key true) bs.flatten bs.length = (bs.map (SM4.encrypt key)).flatten ∧
    Sm4.computeBlocks (Sm4.setKey old key false) bs.flatten bs.length = (bs.map (SM4.decrypt key)).flatten := by
  rw [C18_sm4_blocks _ _ h, C18_sm4_blocks _ _ h]
  exact ⟨congrArg _ (List.map_congr_left fun b hb => (C18_sm4_spec old hold key b hk (h b hb)).1),
    congrArg _ (List.map_congr_left fun b hb => (C18_sm4_spec old hold key b hk (h b hb)).2)⟩

/-- C18: the two backends agree on every key and block (and whatever the contexts held before). -/
theorem C18_backends_agree (old : List W32) (key x : List Byte) (enc : Bool) :
    Sm4.Common.setKey old key enc = Sm4.setKey old key enc ∧
    ∀ rk, Sm4.Common.block rk x = Sm4.block rk x := by
  refine ⟨Sm4.common_setKey old key enc, fun rk => ?_⟩
  unfold Sm4.Common.block Sm4.block
  rw [show Sm4.Common.round = Sm4.round from by funext a b c d e; exact Sm4.common_round a b c d e]

/-- C18: the n-block loop of the reference backend. -/
theorem C18_common_blocks (rk : List W32) (bs : List (List Byte)) (h : ∀ b ∈ bs, b.length = 16) :
    Sm4.singleBlocks Sm4.Common.round rk bs.flatten bs.length = (bs.map (Sm4.Common.block rk)).flatten := by
  rw [Sm4.singleBlocks_eq]
  induction bs with
  | nil => rfl
  | cons b bs ih =>
    have hb := h b (by simp)
    simp only [List.length_cons, mapBlocks, List.flatten_cons, List.map_cons]
    rw [List.take_left' hb, List.drop_left' hb, ih (fun x hx => h x (by simp [hx]))]
    rfl

/-- C17: decryption inverts encryption and encryption inverts decryption, for every key, every block, and whatever
the two contexts held before. -/
theorem C17_sm4_inverse (old old' : List W32) (hold : old.length = 32) (hold' : old'.length = 32) (key x : List Byte)
    (hk : key.length = 16) (hx : x.length = 16) :
    Sm4.block (Sm4.setKey old' key false) (Sm4.block (Sm4.setKey old key true) x) = x ∧
    Sm4.block (Sm4.setKey old key true) (Sm4.block (Sm4.setKey old' key false) x) = x := by
  have h1 := C18_sm4_spec old hold key x hk hx
  have h2 := C18_sm4_spec old' hold' key x hk hx
  rw [h1.1, h2.2]
  have l1 : (SM4.encrypt key x).length = 16 := Sm4.toBlock_len _
  have l2 : (SM4.decrypt key x).length = 16 := Sm4.toBlock_len _
  rw [(C18_sm4_spec old' hold' key _ hk l1).2, (C18_sm4_spec old hold key _ hk l2).1]
  unfold SM4.encrypt SM4.decrypt
  rw [Sm4.ofBlock_toBlock, Sm4.crypt_crypt, Sm4.ofBlock_toBlock]
  have := Sm4.crypt_crypt (SM4.roundKeys key).reverse (SM4.ofBlock x)
  rw [List.reverse_reverse] at this
  rw [this, Sm4.toBlock_ofBlock x hx]
  exact ⟨rfl, rfl⟩

example : (List.replicate 32 (7 : W32)).length = 32 ∧ sm4Key.length = 16 := by decide

/-- C17 for the reference backend. -/
theorem C17_common_inverse (old old' : List W32) (hold : old.length = 32) (hold' : old'.length = 32)
    (key x : List Byte) (hk : key.length = 16) (hx : x.length = 16) :
    Sm4.Common.block (Sm4.Common.setKey old' key false) (Sm4.Common.block (Sm4.Common.setKey old key true) x) = x ∧
    Sm4.Common.block (Sm4.Common.setKey old key true) (Sm4.Common.block (Sm4.Common.setKey old' key false) x) = x := by
  rw [(C18_backends_agree old key x true).1, (C18_backends_agree old' key x false).1,
    (C18_backends_agree old key x true).2, (C18_backends_agree old key x true).2,
    (C18_backends_agree old key _ true).2, (C18_backends_agree old key _ true).2]
  exact C17_sm4_inverse old old' hold hold' key x hk hx

/-! ## The modes over SM4 -/

theorem sm4_agreeE (key : List Byte) (hk : key.length = 16) : Agree 16 (Sm4.cipher key).E (SM4.encrypt key) :=
  fun x hx => (C18_sm4_spec _ (by simp) key x hk hx).1

theorem sm4_agreeD (key : List Byte) (hk : key.length = 16) : Agree 16 (Sm4.cipher key).D (SM4.decrypt key) :=
  fun x hx => (C18_sm4_spec _ (by simp) key x hk hx).2

/-- C10 for SM4: `SM4CbcEncryptor` and the other mode classes compute SP 800-38A over GB/T 32907 SM4. -/
theorem C10_sm4_modes (key : List Byte) (hk : key.length = 16) (n : Name) (iv : List Byte) (hiv : iv.length = 16)
    (m : Mem) (o i : Nat) (ns : List Nat) (last outl : Nat)
    (hp : StreamPlaced (inplaceOk (Sm4.cipher key) n) 0 m o i ns last)
    (hw : wholeBlocks n = true → (ns.sum + last) % 16 = 0) :
    ∃ h', streamRun 16 (modeImpl (Sm4.cipher key) n) true ⟨[], iv⟩ m o i ns last outl =
      .ok (h', wrm m o (out (SM4.encrypt key) (SM4.decrypt key) 16 iv n (blocks 16 (rdm m i (ns.sum + last)))).flatten,
        o + (ns.sum + last)) := by
  have h := C10_modes_spec (Sm4.cipher_ok key) n iv hiv m o i ns last outl hp
  rw [if_pos (show wholeBlocks n = true → (ns.sum + last) % (Sm4.cipher key).BS = 0 from hw)] at h
  have hlen : (rdm m i (ns.sum + last)).length = ns.sum + last := rdm_len hp.1
  have e := out_congr (b := 16) (by decide) (sm4_agreeE key hk) (sm4_agreeD key hk) (Sm4.cipher_ok key).lenE n iv hiv
    (blocks 16 (rdm m i (ns.sum + last))) (blocks_shaped (by decide) _)
    (fun hn => blocks_whole (by decide) (by rw [hlen]; exact hw hn))
  rw [← e]
  exact h

/-- C09 for SM4: decryption gives the message back in every mode. -/
theorem C09_sm4_round_trip (key : List Byte) (hk : key.length = 16) (e d : Name) (hed : inverse e d) (iv : List Byte)
    (hiv : iv.length = 16) (m : Mem) (i o o2 : Nat) (ns ns2 : List Nat) (last last2 outl outl2 : Nat)
    (htotal : ns2.sum + last2 = ns.sum + last) (hw : wholeBlocks e = true → (ns.sum + last) % 16 = 0)
    (hp : StreamPlaced (inplaceOk (Sm4.cipher key) e) 0 m o i ns last)
    (hp2 : StreamPlaced (inplaceOk (Sm4.cipher key) d) 0 m o2 o ns2 last2) :
    ∃ h1 m1 h2 m2,
      streamRun 16 (modeImpl (Sm4.cipher key) e) true ⟨[], iv⟩ m o i ns last outl = .ok (h1, m1, o + (ns.sum + last)) ∧
      streamRun 16 (modeImpl (Sm4.cipher key) d) true ⟨[], iv⟩ m1 o2 o ns2 last2 outl2 =
        .ok (h2, m2, o2 + (ns.sum + last)) ∧
      rdm m2 o2 (ns.sum + last) = rdm m i (ns.sum + last) :=
  C09_round_trip (Sm4.cipher_ok key)
    (fun x hx => (C17_sm4_inverse _ _ (by simp) (by simp) key x hk hx).1) e d hed iv hiv m i o o2 ns ns2 last last2
    outl outl2 htotal hw hp hp2

/-- C13 for SM4-GCM. -/
theorem C13_sm4_gcm (key : List Byte) (hk : key.length = 16) (junk : Gcm.St) (stat iv aad : List Byte) (m : Mem)
    (o i : Nat) (ns : List Nat) (last outl : Nat) (hp : StreamPlaced true 0 m o i ns last)
    (ha : aad.length ≤ (2 ^ 64 - 1) / 8) (hl : ns.sum + last ≤ (2 ^ 64 - 1) / 8) :
    let ct := Spec.Gcm.ciphertext (SM4.encrypt key) iv (rdm m i (ns.sum + last))
    ∃ h', (Gcm.encInit (Sm4.cipher key).E (Gcm.fresh junk stat) iv aad >>= fun h =>
        streamRun 16 (Gcm.encImpl (Sm4.cipher key)) true h m o i ns last outl) =
          .ok (h', wrm m o ct, o + (ns.sum + last)) ∧
      h'.st.tag = Spec.Gcm.tag (SM4.encrypt key) iv aad ct := by
  have h := C13_gcm_encrypt (C := Sm4.cipher key) rfl (Sm4.cipher_ok key).par (Sm4.cipher_ok key).lenE junk stat iv aad
    m o i ns last outl hp
  dsimp only at h
  rw [if_pos ⟨ha, hl⟩, Gcm.ciphertext_congr (sm4_agreeE key hk), Gcm.tag_congr (sm4_agreeE key hk)] at h
  exact h

/-- C14 for SM4-GCM (partial in the same way as `C14_gcm_decrypt_partial`). -/
theorem C14_sm4_gcm_partial (key : List Byte) (hk : key.length = 16) (junk : Gcm.St)
    (stat iv aad t : List Byte) (m : Mem) (o i : Nat) (ns : List Nat) (last outl : Nat)
    (hp : StreamPlaced true 0 m o i ns last) (hs : stat.length = 16)
    (hstat : stat = List.replicate 16 0 ∨ (ns.sum + last) % 16 = 0)
    (ha : aad.length ≤ (2 ^ 64 - 1) / 8) (hlen : ns.sum + last < 2 ^ 64) :
    let ct := rdm m i (ns.sum + last)
    (∀ pt, Spec.Gcm.decrypt (SM4.encrypt key) iv aad ct t = some pt →
      ∃ h', gcmDecrypt (Sm4.cipher key) junk stat iv aad t m o i ns last outl =
        .ok (h', wrm m o pt, o + (ns.sum + last))) ∧
    (Spec.Gcm.decrypt (SM4.encrypt key) iv aad ct t = none →
      gcmDecrypt (Sm4.cipher key) junk stat iv aad t m o i ns last outl = .throw) := by
  have h := C14_gcm_decrypt_partial (C := Sm4.cipher key) rfl (Sm4.cipher_ok key).par (Sm4.cipher_ok key).lenE junk
    stat iv aad t m o i ns last outl hp hs hstat ha hlen
  dsimp only at h
  rw [Gcm.decrypt_congr (sm4_agreeE key hk)] at h
  exact h

/-- C15 for SM4 (`PARALLEL_NUM = 4`): in-place CBC decryption is wrong for some key and message. -/
example : (Sm4.cipher sm4Key).PAR = 4 ∧ inplaceOk (Sm4.cipher sm4Key) .cbcDec = false := by decide +kernel

end Verif.Props
