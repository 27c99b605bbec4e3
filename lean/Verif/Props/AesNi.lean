import Verif.Proofs.AesNi
import Verif.Props.Aes
/-!
# Property C71: the AES-NI backend

`AesNi.encKeyInit bits p` and `AesNi.decKeyInit bits p` set a key of `bits` bits from an address at which exactly the
bytes `p` may be read; a wider read is `Outcome.ub`.  `Spec.AES` is FIPS 197.
-/
namespace Verif.Props
open Spec Spec.Modes

/-- The key sits in memory followed by `rest`; a 192-bit key has at least eight readable bytes after it. -/
def AesniKey (bits : Nat) (key rest : List Byte) : Prop :=
  AesBits bits ∧ 8 * key.length = bits ∧ (bits = 192 → 8 ≤ rest.length)

/-- What setting a key must achieve: the contexts `ek` and `dk` encrypt and decrypt by FIPS 197. -/
def AesniReady (bits : Nat) (key : List Byte) (ek dk : List AesNi.M128) : Prop :=
  ∀ x : List Byte, x.length = 16 →
    AesNi.encBlock bits ek x = AES.encrypt (bits / 32) key x ∧ AesNi.decBlock bits dk x = AES.decrypt (bits / 32) key x

/-- C71: for every key with enough readable bytes after it, setting the key succeeds and the instructions compute FIPS
197 on every block.  What is missing: a 192-bit key with fewer than eight readable bytes after it
(`C71_aesni_192_violated`). -/
theorem C71_aesni_spec_partial (bits : Nat) (key rest : List Byte) (h : AesniKey bits key rest) :
    ∃ ek dk, AesNi.encKeyInit bits (key ++ rest) = .ok ek ∧ AesNi.decKeyInit bits (key ++ rest) = .ok dk ∧
      AesniReady bits key ek dk := by
  obtain ⟨hb, hk, hr⟩ := h
  have fin : ∀ nk rk, AesNi.nr bits = nk + 6 → bits / 32 = nk → AesNi.expand bits (key ++ rest) = .ok rk →
      AesNi.RkOk nk key rk → ∃ ek dk, AesNi.encKeyInit bits (key ++ rest) = .ok ek ∧
        AesNi.decKeyInit bits (key ++ rest) = .ok dk ∧ AesniReady bits key ek dk := by
    intro nk rk hn h32 he hrk
    refine ⟨_, _, by rw [AesNi.encKeyInit, he]; rfl, by rw [AesNi.decKeyInit, he]; rfl, ?_⟩
    intro x hx
    rw [h32]
    exact ⟨AesNi.enc_ok bits nk hn key x rk hrk hx, AesNi.dec_ok bits nk hn key x rk hrk hx⟩
  rcases hb with rfl | rfl | rfl
  · obtain ⟨rk, h1, h2⟩ := AesNi.expand128_ok key rest (by omega)
    exact fin 4 rk rfl rfl h1 h2
  · obtain ⟨rk, h1, h2⟩ := AesNi.expand192_ok key rest (by omega) (hr rfl)
    exact fin 6 rk rfl rfl h1 h2
  · obtain ⟨rk, h1, h2⟩ := AesNi.expand256_ok key rest (by omega)
    exact fin 8 rk rfl rfl h1 h2

example : AesniKey 192 (aesKey 24) (List.replicate 8 0xAA) := ⟨.inr (.inl rfl), by decide, by decide⟩

example : AesniKey 256 (aesKey 32) [] := ⟨.inr (.inr rfl), by decide, by decide⟩

/-- Contexts as the later theorems assume them exist. -/
example : ∃ ek dk, AesniReady 192 (aesKey 24) ek dk :=
  let ⟨ek, dk, _, _, h⟩ := C71_aesni_spec_partial 192 (aesKey 24) (List.replicate 8 0xAA)
    ⟨.inr (.inl rfl), by decide, by decide⟩
  ⟨ek, dk, h⟩

/-- C71, 128 and 256 bits: no byte outside the key is needed. -/
theorem C71_aesni_exact (bits : Nat) (hb : bits = 128 ∨ bits = 256) (key : List Byte) (hk : 8 * key.length = bits) :
    ∃ ek dk, AesNi.encKeyInit bits key = .ok ek ∧ AesNi.decKeyInit bits key = .ok dk ∧ AesniReady bits key ek dk := by
  have h := C71_aesni_spec_partial bits key [] ⟨by unfold AesBits; omega, hk, by omega⟩
  rwa [List.append_nil] at h

/-- C71 fails at 192 bits: for every 24-byte key that ends at the end of readable memory (or has fewer than eight bytes
after it), setting the key reads past what may be read. -/
theorem C71_aesni_192_violated (key rest : List Byte) (hk : key.length = 24) (hr : rest.length < 8) :
    AesNi.encKeyInit 192 (key ++ rest) = .ub ∧ AesNi.decKeyInit 192 (key ++ rest) = .ub := by
  have e : AesNi.expand192 (key ++ rest) = .ub := by
    unfold AesNi.expand192
    rw [AesNi.loadu_ok _ (by simp [hk]; omega)]
    have : AesNi.loadu ((key ++ rest).drop 16) = .ub := if_neg (by simp [hk]; omega)
    show (AesNi.loadu ((key ++ rest).drop 16) >>= _) = _
    rw [this]; rfl
  constructor
  · show (AesNi.expand192 (key ++ rest) >>= _) = _
    rw [e]; rfl
  · show (AesNi.expand192 (key ++ rest) >>= _) = _
    rw [e]; rfl

example : AesNi.encKeyInit 192 (aesKey 24) = .ub := (C71_aesni_192_violated (aesKey 24) [] (by decide) (by decide)).1

/-- C71: the bytes after a 192-bit key, although read, never influence what the contexts compute. -/
theorem C71_aesni_rest_ignored (key rest rest' : List Byte) (bits : Nat) (h : AesniKey bits key rest)
    (h' : AesniKey bits key rest') (ek ek' dk dk' : List AesNi.M128)
    (e1 : AesNi.encKeyInit bits (key ++ rest) = .ok ek) (e2 : AesNi.encKeyInit bits (key ++ rest') = .ok ek')
    (d1 : AesNi.decKeyInit bits (key ++ rest) = .ok dk) (d2 : AesNi.decKeyInit bits (key ++ rest') = .ok dk')
    (x : List Byte) (hx : x.length = 16) :
    AesNi.encBlock bits ek x = AesNi.encBlock bits ek' x ∧ AesNi.decBlock bits dk x = AesNi.decBlock bits dk' x := by
  obtain ⟨a, b, ha, hb, hr⟩ := C71_aesni_spec_partial bits key rest h
  obtain ⟨a', b', ha', hb', hr'⟩ := C71_aesni_spec_partial bits key rest' h'
  rw [ha] at e1; rw [hb] at d1; rw [ha'] at e2; rw [hb'] at d2
  cases e1; cases e2; cases d1; cases d2
  rw [(hr x hx).1, (hr x hx).2, (hr' x hx).1, (hr' x hx).2]
  exact ⟨rfl, rfl⟩

/-- C71: both backends produce the same bytes, so a message encrypted on a CPU with the instructions can be decrypted
on one without and the other way round. -/
theorem C71_aesni_same_as_lut (bits : Nat) (key rest : List Byte) (h : AesniKey bits key rest) :
    ∃ ek dk, AesNi.encKeyInit bits (key ++ rest) = .ok ek ∧ AesNi.decKeyInit bits (key ++ rest) = .ok dk ∧
      ∀ x : List Byte, x.length = 16 →
        AesNi.encBlock bits ek x = Aes.encBlock (Aes.encKeyInit key bits) x bits ∧
        AesNi.decBlock bits dk x = Aes.decBlock (Aes.decKeyInit key bits) x bits := by
  obtain ⟨ek, dk, h1, h2, hr⟩ := C71_aesni_spec_partial bits key rest h
  refine ⟨ek, dk, h1, h2, fun x hx => ?_⟩
  have s := C20_aes_spec bits h.1 key x h.2.1 hx
  exact ⟨(hr x hx).1.trans s.1.symm, (hr x hx).2.trans s.2.symm⟩

/-- C71: the n-block entry points are FIPS 197 on each block, for every number of blocks. -/
theorem C71_aesni_blocks (bits : Nat) (key : List Byte) (ek dk : List AesNi.M128) (hr : AesniReady bits key ek dk)
    (bs : List (List Byte)) (h : ∀ b ∈ bs, b.length = 16) :
    AesNi.encBlocks bits ek bs.flatten bs.length = (bs.map (AES.encrypt (bits / 32) key)).flatten ∧
    AesNi.decBlocks bits dk bs.flatten bs.length = (bs.map (AES.decrypt (bits / 32) key)).flatten := by
  rw [AesNi.encBlocks_eq, AesNi.decBlocks_eq]
  induction bs with
  | nil => exact ⟨rfl, rfl⟩
  | cons b bs ih =>
    have hb' := h b (by simp)
    have hih := ih (fun x hx => h x (by simp [hx]))
    have hs := hr b hb'
    simp only [List.length_cons, mapBlocks, List.flatten_cons, List.map_cons]
    rw [List.take_left' hb', List.drop_left' hb', hih.1, hih.2, hs.1, hs.2]
    exact ⟨rfl, rfl⟩

/-- C71: decryption inverts encryption and encryption inverts decryption. -/
theorem C71_aesni_inverse (bits : Nat) (key : List Byte) (ek dk : List AesNi.M128) (hr : AesniReady bits key ek dk)
    (x : List Byte) (hx : x.length = 16) :
    AesNi.decBlock bits dk (AesNi.encBlock bits ek x) = x ∧ AesNi.encBlock bits ek (AesNi.decBlock bits dk x) = x := by
  have hE : ∀ y : List Byte, y.length = 16 → (AesNi.encBlock bits ek y).length = 16 := by
    intro y hy; rw [(hr y hy).1]; rfl
  have h : ∀ y : List Byte, y.length = 16 → AesNi.decBlock bits dk (AesNi.encBlock bits ek y) = y := by
    intro y hy
    rw [(hr y hy).1, (hr (AES.encrypt (bits / 32) key y) rfl).2]
    exact Aes.inv_cipher _ _ y hy
  exact ⟨h x hx, Aes.right_inverse 16 _ _ hE h x hx⟩

theorem aesni_cipher_ok (bits : Nat) (key : List Byte) (ek dk : List AesNi.M128) (hr : AesniReady bits key ek dk) :
    CipherOk (AesNi.cipher bits ek dk) where
  bs := Nat.succ_pos _
  par := Nat.succ_pos _
  lenE := fun x hx => by
    show (AesNi.encBlock bits ek x).length = 16
    rw [(hr x hx).1]; rfl
  lenD := fun x hx => by
    show (AesNi.decBlock bits dk x).length = 16
    rw [(hr x hx).2]; rfl

/-- C71: the mode classes over this backend compute SP 800-38A over FIPS 197 AES. -/
theorem C71_aesni_modes (bits : Nat) (key : List Byte) (ek dk : List AesNi.M128) (hr : AesniReady bits key ek dk)
    (n : Name) (iv : List Byte) (hiv : iv.length = 16)
    (m : Mem) (o i : Nat) (ns : List Nat) (last outl : Nat)
    (hp : StreamPlaced (inplaceOk (AesNi.cipher bits ek dk) n) 0 m o i ns last)
    (hw : wholeBlocks n = true → (ns.sum + last) % 16 = 0) :
    ∃ h', streamRun 16 (modeImpl (AesNi.cipher bits ek dk) n) true ⟨[], iv⟩ m o i ns last outl =
      .ok (h', wrm m o (out (AES.encrypt (bits / 32) key) (AES.decrypt (bits / 32) key) 16 iv n
        (blocks 16 (rdm m i (ns.sum + last)))).flatten, o + (ns.sum + last)) := by
  have ok := aesni_cipher_ok bits key ek dk hr
  have h := C10_modes_spec ok n iv hiv m o i ns last outl hp
  rw [if_pos (show wholeBlocks n = true → (ns.sum + last) % (AesNi.cipher bits ek dk).BS = 0 from hw)] at h
  have hlen : (rdm m i (ns.sum + last)).length = ns.sum + last := rdm_len hp.1
  have e := out_congr (b := 16) (E := (AesNi.cipher bits ek dk).E) (D := (AesNi.cipher bits ek dk).D) (by decide)
    (fun x hx => (hr x hx).1) (fun x hx => (hr x hx).2)
    ok.lenE n iv hiv
    (blocks 16 (rdm m i (ns.sum + last))) (blocks_shaped (by decide) _)
    (fun hn => blocks_whole (by decide) (by rw [hlen]; exact hw hn))
  rw [← e]
  exact h

/-- C71: GCM encryption over this backend is SP 800-38D over FIPS 197 AES. -/
theorem C71_aesni_gcm (bits : Nat) (key : List Byte) (ek dk : List AesNi.M128) (hr : AesniReady bits key ek dk)
    (junk : Gcm.St) (stat iv aad : List Byte) (m : Mem)
    (o i : Nat) (ns : List Nat) (last outl : Nat) (hp : StreamPlaced true 0 m o i ns last)
    (ha : aad.length ≤ (2 ^ 64 - 1) / 8) (hl : ns.sum + last ≤ (2 ^ 64 - 1) / 8) :
    let ct := Spec.Gcm.ciphertext (AES.encrypt (bits / 32) key) iv (rdm m i (ns.sum + last))
    ∃ h', (Gcm.encInit (AesNi.cipher bits ek dk).E (Gcm.fresh junk stat) iv aad >>= fun h =>
        streamRun 16 (Gcm.encImpl (AesNi.cipher bits ek dk)) true h m o i ns last outl) =
          .ok (h', wrm m o ct, o + (ns.sum + last)) ∧
      h'.st.tag = Spec.Gcm.tag (AES.encrypt (bits / 32) key) iv aad ct := by
  have ok := aesni_cipher_ok bits key ek dk hr
  have h := C13_gcm_encrypt (C := AesNi.cipher bits ek dk) rfl ok.par ok.lenE
    junk stat iv aad m o i ns last outl hp
  have ag : Agree 16 (AesNi.cipher bits ek dk).E (AES.encrypt (bits / 32) key) := fun x hx => (hr x hx).1
  dsimp only at h
  rw [if_pos ⟨ha, hl⟩, Gcm.ciphertext_congr ag, Gcm.tag_congr ag] at h
  exact h

end Verif.Props
