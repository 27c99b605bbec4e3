import Verif.Proofs.Sm4Avx2
import Verif.Props.Sm4

/-!
Property C73: the AVX2 build of SM4 is SM4.
-/

namespace Verif.Props

open Verif Verif.Spec Verif.Spec.Modes

/-- C73: the n-block entry point of the AVX2 build (16 blocks at a time, then 8, then 4, then 1) is the single-block
function on each block, for every number of blocks, any round keys and any data; no table is read out of bounds. -/
theorem C73_avx2_blocks (rk : List W32) (bs : List (List Byte)) (h : ∀ b ∈ bs, b.length = 16) :
    Sm4.Avx2.blocks rk bs.flatten bs.length = .ok (bs.map (Sm4.block rk)).flatten := by
  rw [Sm4.Avx2.blocks_eq, ← Sm4.computeBlocks_eq, C18_sm4_blocks rk bs h]

/-- C73: whatever the buffer, the AVX2 build and the portable build write the same bytes. -/
theorem C73_avx2_same_as_portable (rk : List W32) (inp : List Byte) (n : Nat) :
    Sm4.Avx2.blocks rk inp n = .ok (Sm4.computeBlocks rk inp n) := by
  rw [Sm4.Avx2.blocks_eq, ← Sm4.computeBlocks_eq]

/-- C73: with the keys of `set_key`, the n-block entry point is GB/T 32907 on each block. -/
theorem C73_avx2_spec (old : List W32) (hold : old.length = 32) (key : List Byte) (hk : key.length = 16)
    (bs : List (List Byte)) (h : ∀ b ∈ bs, b.length = 16) :
    Sm4.Avx2.blocks (Sm4.setKey old key true) bs.flatten bs.length = .ok (bs.map (SM4.encrypt key)).flatten ∧
    Sm4.Avx2.blocks (Sm4.setKey old key false) bs.flatten bs.length = .ok (bs.map (SM4.decrypt key)).flatten := by
  obtain ⟨h1, h2⟩ := C18_sm4_blocks_spec old hold key hk bs h
  rw [C73_avx2_same_as_portable, C73_avx2_same_as_portable, h1, h2]
  exact ⟨rfl, rfl⟩

/-- 31 blocks: one batch of sixteen, one of eight, one of four, three single blocks. -/
example : (∀ b ∈ List.replicate 31 sm4Key, b.length = 16) ∧ (List.replicate 32 (0 : W32)).length = 32 ∧
    sm4Key.length = 16 := by decide

/-- The instruction-level model of a batch evaluates to the published value in every lane. -/
example : Sm4.Avx2.computeX8 (Sm4.setKey (List.replicate 32 0) sm4Key true) (List.replicate 8 sm4Key).flatten =
    .ok (List.replicate 8 [0x68, 0x1e, 0xdf, 0x34, 0xd2, 0x06, 0x96, 0x5e, 0x86, 0xb3, 0xe9, 0x4f, 0x53, 0x6e, 0x42,
      0x46]).flatten := by decide +kernel

/-- C73: the mode classes of this build, whose batches have sixteen blocks, compute SP 800-38A over GB/T 32907 SM4. -/
theorem C73_avx2_modes (key : List Byte) (hk : key.length = 16) (n : Name) (iv : List Byte) (hiv : iv.length = 16)
    (m : Mem) (o i : Nat) (ns : List Nat) (last outl : Nat)
    (hp : StreamPlaced (inplaceOk (Sm4.Avx2.cipher key) n) 0 m o i ns last)
    (hw : wholeBlocks n = true → (ns.sum + last) % 16 = 0) :
    ∃ h', streamRun 16 (modeImpl (Sm4.Avx2.cipher key) n) true ⟨[], iv⟩ m o i ns last outl =
      .ok (h', wrm m o (out (SM4.encrypt key) (SM4.decrypt key) 16 iv n (blocks 16 (rdm m i (ns.sum + last)))).flatten,
        o + (ns.sum + last)) := by
  have h := C10_modes_spec (Sm4.Avx2.cipher_ok key) n iv hiv m o i ns last outl hp
  rw [if_pos (show wholeBlocks n = true → (ns.sum + last) % (Sm4.Avx2.cipher key).BS = 0 from hw)] at h
  have hlen : (rdm m i (ns.sum + last)).length = ns.sum + last := rdm_len hp.1
  have e := out_congr (b := 16) (by decide) (sm4_agreeE key hk) (sm4_agreeD key hk) (Sm4.cipher_ok key).lenE n iv hiv
    (blocks 16 (rdm m i (ns.sum + last))) (blocks_shaped (by decide) _)
    (fun hn => blocks_whole (by decide) (by rw [hlen]; exact hw hn))
  rw [← e]
  exact h

/-- C73: GCM encryption over this build is SP 800-38D over GB/T 32907 SM4. -/
theorem C73_avx2_gcm (key : List Byte) (hk : key.length = 16) (junk : Gcm.St) (stat iv aad : List Byte) (m : Mem)
    (o i : Nat) (ns : List Nat) (last outl : Nat) (hp : StreamPlaced true 0 m o i ns last)
    (ha : aad.length ≤ (2 ^ 64 - 1) / 8) (hl : ns.sum + last ≤ (2 ^ 64 - 1) / 8) :
    let ct := Spec.Gcm.ciphertext (SM4.encrypt key) iv (rdm m i (ns.sum + last))
    ∃ h', (Gcm.encInit (Sm4.Avx2.cipher key).E (Gcm.fresh junk stat) iv aad >>= fun h =>
        streamRun 16 (Gcm.encImpl (Sm4.Avx2.cipher key)) true h m o i ns last outl) =
          .ok (h', wrm m o ct, o + (ns.sum + last)) ∧
      h'.st.tag = Spec.Gcm.tag (SM4.encrypt key) iv aad ct := by
  have h := C13_gcm_encrypt (C := Sm4.Avx2.cipher key) rfl (Sm4.Avx2.cipher_ok key).par (Sm4.Avx2.cipher_ok key).lenE
    junk stat iv aad m o i ns last outl hp
  dsimp only at h
  rw [if_pos ⟨ha, hl⟩, show (Sm4.Avx2.cipher key).E = (Sm4.cipher key).E from rfl,
    Gcm.ciphertext_congr (sm4_agreeE key hk), Gcm.tag_congr (sm4_agreeE key hk)] at h
  exact h

/-- Three calls and a last one over a memory of 700 bytes meet the placement hypothesis. -/
example : StreamPlaced (inplaceOk (Sm4.Avx2.cipher sm4Key) .cbcEnc) 0 (List.replicate 700 7) 350 0 [300, 17, 3] 0 := by
  exact ⟨by rw [List.length_replicate]; decide, by rw [List.length_replicate]; decide, Or.inl (by decide)⟩

end Verif.Props
