import Verif.Proofs.Aes
import Verif.Proofs.Congr
import Verif.Props.Modes
import Verif.Props.Gcm
/-!
# Properties C19, C20: AES-128, AES-192, AES-256

`Spec.AES` (Spec/Aes.lean) is FIPS 197, with the S-boxes given algebraically.  `Aes.encKeyInit`, `Aes.decKeyInit`,
`Aes.encBlock`, `Aes.decBlock`, `Aes.encBlocks` and `Aes.decBlocks` are the modelled functions of the default
(look-up table) backend; `bits` is their last argument.
-/
namespace Verif.Props
open Spec Spec.Modes

/-- The three supported key sizes, in bits. -/
def AesBits (bits : Nat) : Prop := bits = 128 ∨ bits = 192 ∨ bits = 256

theorem AesBits.nk {bits : Nat} (h : AesBits bits) : Aes.Nk (bits / 32) ∧ 32 * (bits / 32) = bits := by
  rcases h with rfl | rfl | rfl
  · exact ⟨.inl rfl, rfl⟩
  · exact ⟨.inr (.inl rfl), rfl⟩
  · exact ⟨.inr (.inr rfl), rfl⟩

/-- C20: for every key of each size and every block, the code computes FIPS 197 encryption and decryption. -/
theorem C20_aes_spec (bits : Nat) (hb : AesBits bits) (key x : List Byte) (hk : 8 * key.length = bits)
    (_hx : x.length = 16) :
    Aes.encBlock (Aes.encKeyInit key bits) x bits = AES.encrypt (bits / 32) key x ∧
    Aes.decBlock (Aes.decKeyInit key bits) x bits = AES.decrypt (bits / 32) key x := by
  obtain ⟨h1, h2⟩ := hb.nk
  have e := Aes.enc_block_eq (bits / 32) h1 key x (by omega)
  have d := Aes.dec_block_eq (bits / 32) h1 key x (by omega)
  rw [h2] at e d
  exact ⟨e, d⟩

/-- FIPS 197 appendix C: keys `00 01 .. `, plaintext `00 11 .. ff`. -/
def aesKey (n : Nat) : List Byte := (List.range n).map (BitVec.ofNat 8 ·)
def aesPlain : List Byte := (List.range 16).map (BitVec.ofNat 8 <| 17 * ·)

example : AesBits 192 ∧ 8 * (aesKey 24).length = 192 ∧ aesPlain.length = 16 := ⟨.inr (.inl rfl), by decide, by decide⟩

example : AES.encrypt 4 (aesKey 16) aesPlain = [0x69, 0xc4, 0xe0, 0xd8, 0x6a, 0x7b, 0x04, 0x30, 0xd8, 0xcd, 0xb7, 0x80,
    0x70, 0xb4, 0xc5, 0x5a] := by decide +kernel

example : AES.encrypt 6 (aesKey 24) aesPlain = [0xdd, 0xa9, 0x7c, 0xa4, 0x86, 0x4c, 0xdf, 0xe0, 0x6e, 0xaf, 0x70, 0xa0,
    0xec, 0x0d, 0x71, 0x91] := by decide +kernel

example : AES.encrypt 8 (aesKey 32) aesPlain = [0x8e, 0xa2, 0xb7, 0xca, 0x51, 0x67, 0x45, 0xbf, 0xea, 0xfc, 0x49, 0x90,
    0x4b, 0x49, 0x60, 0x89] := by decide +kernel

/-- C20: the n-block entry points are FIPS 197 on each block, for every number of blocks. -/
theorem C20_aes_blocks (bits : Nat) (hb : AesBits bits) (key : List Byte) (hk : 8 * key.length = bits)
    (bs : List (List Byte)) (h : ∀ b ∈ bs, b.length = 16) :
    Aes.encBlocks (Aes.encKeyInit key bits) bits bs.flatten bs.length = (bs.map (AES.encrypt (bits / 32) key)).flatten ∧
    Aes.decBlocks (Aes.decKeyInit key bits) bits bs.flatten bs.length = (bs.map (AES.decrypt (bits / 32) key)).flatten := by
  rw [Aes.encBlocks_eq, Aes.decBlocks_eq]
  induction bs with
  | nil => exact ⟨rfl, rfl⟩
  | cons b bs ih =>
    have hb' := h b (by simp)
    have hih := ih (fun x hx => h x (by simp [hx]))
    have hs := C20_aes_spec bits hb key b hk hb'
    simp only [List.length_cons, mapBlocks, List.flatten_cons, List.map_cons]
    rw [List.take_left' hb', List.drop_left' hb', hih.1, hih.2, hs.1, hs.2]
    exact ⟨rfl, rfl⟩

example : ∀ b ∈ List.replicate 3 aesPlain, b.length = 16 := by decide

/-- C19: decryption inverts encryption and encryption inverts decryption, for every key of each size and every
block. -/
theorem C19_aes_inverse (bits : Nat) (hb : AesBits bits) (key x : List Byte) (hk : 8 * key.length = bits)
    (hx : x.length = 16) :
    Aes.decBlock (Aes.decKeyInit key bits) (Aes.encBlock (Aes.encKeyInit key bits) x bits) bits = x ∧
    Aes.encBlock (Aes.encKeyInit key bits) (Aes.decBlock (Aes.decKeyInit key bits) x bits) bits = x := by
  have h : ∀ y : List Byte, y.length = 16 →
      Aes.decBlock (Aes.decKeyInit key bits) (Aes.encBlock (Aes.encKeyInit key bits) y bits) bits = y := by
    intro y hy
    rw [(C20_aes_spec bits hb key y hk hy).1, (C20_aes_spec bits hb key (AES.encrypt (bits / 32) key y) hk rfl).2]
    exact Aes.inv_cipher _ _ y hy
  exact ⟨h x hx, Aes.right_inverse 16 (fun x => Aes.encBlock (Aes.encKeyInit key bits) x bits)
    (fun x => Aes.decBlock (Aes.decKeyInit key bits) x bits) (fun _ _ => rfl) h x hx⟩

/-- The standard itself: InvCipher inverts Cipher. -/
theorem C19_fips_inverse (nk : Nat) (key x : List Byte) (hx : x.length = 16) :
    AES.decrypt nk key (AES.encrypt nk key x) = x := Aes.inv_cipher _ _ x hx

/-! ## The modes over AES -/

theorem aes_agreeE (bits : Nat) (hb : AesBits bits) (key : List Byte) (hk : 8 * key.length = bits) :
    Agree 16 (Aes.cipher bits key).E (AES.encrypt (bits / 32) key) :=
  fun x hx => (C20_aes_spec bits hb key x hk hx).1

theorem aes_agreeD (bits : Nat) (hb : AesBits bits) (key : List Byte) (hk : 8 * key.length = bits) :
    Agree 16 (Aes.cipher bits key).D (AES.decrypt (bits / 32) key) :=
  fun x hx => (C20_aes_spec bits hb key x hk hx).2

/-- C10 for AES: the mode classes compute SP 800-38A over FIPS 197 AES. -/
theorem C10_aes_modes (bits : Nat) (hb : AesBits bits) (key : List Byte) (hk : 8 * key.length = bits) (n : Name)
    (iv : List Byte) (hiv : iv.length = 16)
    (m : Mem) (o i : Nat) (ns : List Nat) (last outl : Nat)
    (hp : StreamPlaced (inplaceOk (Aes.cipher bits key) n) 0 m o i ns last)
    (hw : wholeBlocks n = true → (ns.sum + last) % 16 = 0) :
    ∃ h', streamRun 16 (modeImpl (Aes.cipher bits key) n) true ⟨[], iv⟩ m o i ns last outl =
      .ok (h', wrm m o (out (AES.encrypt (bits / 32) key) (AES.decrypt (bits / 32) key) 16 iv n
        (blocks 16 (rdm m i (ns.sum + last)))).flatten, o + (ns.sum + last)) := by
  have h := C10_modes_spec (Aes.cipher_ok bits key) n iv hiv m o i ns last outl hp
  rw [if_pos (show wholeBlocks n = true → (ns.sum + last) % (Aes.cipher bits key).BS = 0 from hw)] at h
  have hlen : (rdm m i (ns.sum + last)).length = ns.sum + last := rdm_len hp.1
  have e := out_congr (b := 16) (by decide) (aes_agreeE bits hb key hk) (aes_agreeD bits hb key hk)
    (Aes.cipher_ok bits key).lenE n iv hiv
    (blocks 16 (rdm m i (ns.sum + last))) (blocks_shaped (by decide) _)
    (fun hn => blocks_whole (by decide) (by rw [hlen]; exact hw hn))
  rw [← e]
  exact h

/-- C09 for AES: decryption gives the message back in every mode. -/
theorem C09_aes_round_trip (bits : Nat) (hb : AesBits bits) (key : List Byte) (hk : 8 * key.length = bits)
    (e d : Name) (hed : inverse e d) (iv : List Byte)
    (hiv : iv.length = 16) (m : Mem) (i o o2 : Nat) (ns ns2 : List Nat) (last last2 outl outl2 : Nat)
    (htotal : ns2.sum + last2 = ns.sum + last) (hw : wholeBlocks e = true → (ns.sum + last) % 16 = 0)
    (hp : StreamPlaced (inplaceOk (Aes.cipher bits key) e) 0 m o i ns last)
    (hp2 : StreamPlaced (inplaceOk (Aes.cipher bits key) d) 0 m o2 o ns2 last2) :
    ∃ h1 m1 h2 m2,
      streamRun 16 (modeImpl (Aes.cipher bits key) e) true ⟨[], iv⟩ m o i ns last outl =
        .ok (h1, m1, o + (ns.sum + last)) ∧
      streamRun 16 (modeImpl (Aes.cipher bits key) d) true ⟨[], iv⟩ m1 o2 o ns2 last2 outl2 =
        .ok (h2, m2, o2 + (ns.sum + last)) ∧
      rdm m2 o2 (ns.sum + last) = rdm m i (ns.sum + last) :=
  C09_round_trip (Aes.cipher_ok bits key) (fun x hx => (C19_aes_inverse bits hb key x hk hx).1) e d hed iv hiv m i o
    o2 ns ns2 last last2 outl outl2 htotal hw hp hp2

/-- C13 for AES-GCM. -/
theorem C13_aes_gcm (bits : Nat) (hb : AesBits bits) (key : List Byte) (hk : 8 * key.length = bits) (junk : Gcm.St)
    (stat iv aad : List Byte) (m : Mem)
    (o i : Nat) (ns : List Nat) (last outl : Nat) (hp : StreamPlaced true 0 m o i ns last)
    (ha : aad.length ≤ (2 ^ 64 - 1) / 8) (hl : ns.sum + last ≤ (2 ^ 64 - 1) / 8) :
    let ct := Spec.Gcm.ciphertext (AES.encrypt (bits / 32) key) iv (rdm m i (ns.sum + last))
    ∃ h', (Gcm.encInit (Aes.cipher bits key).E (Gcm.fresh junk stat) iv aad >>= fun h =>
        streamRun 16 (Gcm.encImpl (Aes.cipher bits key)) true h m o i ns last outl) =
          .ok (h', wrm m o ct, o + (ns.sum + last)) ∧
      h'.st.tag = Spec.Gcm.tag (AES.encrypt (bits / 32) key) iv aad ct := by
  have h := C13_gcm_encrypt (C := Aes.cipher bits key) rfl (Aes.cipher_ok bits key).par (Aes.cipher_ok bits key).lenE
    junk stat iv aad m o i ns last outl hp
  dsimp only at h
  rw [if_pos ⟨ha, hl⟩, Gcm.ciphertext_congr (aes_agreeE bits hb key hk),
    Gcm.tag_congr (aes_agreeE bits hb key hk)] at h
  exact h

/-- C14 for AES-GCM (partial in the same way as `C14_gcm_decrypt_partial`). -/
theorem C14_aes_gcm_partial (bits : Nat) (hb : AesBits bits) (key : List Byte) (hk : 8 * key.length = bits)
    (junk : Gcm.St) (stat iv aad t : List Byte) (m : Mem) (o i : Nat) (ns : List Nat) (last outl : Nat)
    (hp : StreamPlaced true 0 m o i ns last) (hs : stat.length = 16)
    (hstat : stat = List.replicate 16 0 ∨ (ns.sum + last) % 16 = 0)
    (ha : aad.length ≤ (2 ^ 64 - 1) / 8) (hlen : ns.sum + last < 2 ^ 64) :
    let ct := rdm m i (ns.sum + last)
    (∀ pt, Spec.Gcm.decrypt (AES.encrypt (bits / 32) key) iv aad ct t = some pt →
      ∃ h', gcmDecrypt (Aes.cipher bits key) junk stat iv aad t m o i ns last outl =
        .ok (h', wrm m o pt, o + (ns.sum + last))) ∧
    (Spec.Gcm.decrypt (AES.encrypt (bits / 32) key) iv aad ct t = none →
      gcmDecrypt (Aes.cipher bits key) junk stat iv aad t m o i ns last outl = .throw) := by
  have h := C14_gcm_decrypt_partial (C := Aes.cipher bits key) rfl (Aes.cipher_ok bits key).par
    (Aes.cipher_ok bits key).lenE junk stat iv aad t m o i ns last outl hp hs hstat ha hlen
  dsimp only at h
  rw [Gcm.decrypt_congr (aes_agreeE bits hb key hk)] at h
  exact h

/-- C15 for AES (`PARALLEL_NUM = 1`): every mode may be used in place. -/
theorem C15_aes_inplace (bits : Nat) (key : List Byte) (n : Name) : inplaceOk (Aes.cipher bits key) n = true := by
  cases n <;> rfl

end Verif.Props
