import Verif.Proofs.Seek
import Verif.Props.Leak
/-!
# C95: errors stay local, and a message can be processed from its middle

`Gives` is that of C94: streaming the first string through a new object of the mode gives the second.  Here the first string
is the ciphertext for the decryptors.
-/
namespace Verif.Props
open Verif Verif.Spec Verif.Spec.Modes Verif.Spec.Leak Verif.Leak

theorem gives_spec {C : BCipher} (hC : CipherOk C) {n : Name} {iv X Y : List Byte} (hiv : iv.length = C.BS)
    (h : Gives C n iv X Y) : Y.length = X.length ∧ blocks C.BS Y = out C.E C.D C.BS iv n (blocks C.BS X) := by
  refine gives_out hC hiv (fun hw => ?_) h
  have hb := hC.bs
  cases n
  · exact ecb_lens hC.lenE _ (blocks_whole hb (hw rfl))
  · exact ecb_lens hC.lenD _ (blocks_whole hb (hw rfl))
  · exact cbc_lens hC.lenE _ iv hiv (blocks_whole hb (hw rfl))
  · exact cbcDec_lens hC.lenD _ iv hiv (blocks_whole hb (hw rfl))
  · exact cfb_lens hC.lenE _ iv hiv (blocks_shaped hb X)
  · exact cfbDec_lens hC.lenE _ iv hiv (blocks_shaped hb X)
  · exact ofb_lens hC.lenE _ iv hiv (shaped_le' hb X)
  · exact ctr_lens hC.lenE iv _ 0 (shaped_le' hb X)

theorem startIv_len {C : BCipher} (hC : CipherOk C) (n : Name) {iv X Y : List Byte} (hiv : iv.length = C.BS)
    (hl : Y.length = X.length) {j : Nat} (hj : j * C.BS ≤ X.length) : (startIv C.E C.BS iv X Y j n).length = C.BS := by
  have h1 := before_len' hC.bs hiv hj
  have h2 := before_len' hC.bs hiv (l := Y) (by rw [hl]; exact hj)
  cases n
  · exact hiv
  · exact hiv
  · exact h2
  · exact h1
  · exact h2
  · exact h1
  · exact iter_len hC.lenE hiv j
  · exact toBE_len _ _

/-- C95, starting in the middle: for every mode and cipher, processing a message from block `j` on with a new object, begun
with the IV `startIv` names, gives what processing the whole message gives from block `j` on. -/
theorem C95_start_anywhere {C : BCipher} (hC : CipherOk C) (n : Name) {iv X Y Z : List Byte} (hiv : iv.length = C.BS)
    (h : Gives C n iv X Y) (j : Nat) (hj : j * C.BS ≤ X.length)
    (h' : Gives C n (startIv C.E C.BS iv X Y j n) (X.drop (j * C.BS)) Z) : Z = Y.drop (j * C.BS) := by
  obtain ⟨l, e⟩ := gives_spec hC hiv h
  obtain ⟨_, e'⟩ := gives_spec hC (startIv_len hC n hiv l hj) h'
  have hb := hC.bs
  rw [blocks_drop hb] at e'
  suffices hs : blocks C.BS Z = blocks C.BS (Y.drop (j * C.BS)) by
    rw [← flatten_blocks hb Z, hs, flatten_blocks hb]
  rw [e', blocks_drop hb, e]
  have pX := prev_get hb iv hj
  have pY := prev_get hb iv (l := Y) (j := j) (by rw [l]; exact hj)
  rw [e] at pY
  cases n
  · exact (List.map_drop ..)
  · exact (List.map_drop ..)
  · exact (cbcEnc_drop _ _ _ _ pY).symm
  · exact (cbcDec_drop _ _ _ _ pX).symm
  · exact (cfbEnc_drop _ _ _ _ pY).symm
  · exact (cfbDec_drop _ _ _ _ pX).symm
  · exact (ofb_drop _ _ _).symm
  · show ctr C.E C.BS (toBE C.BS ((beVal iv + j) % 256 ^ C.BS)) 0 _ = (ctr C.E C.BS iv 0 _).drop j
    rw [ctr_shift, ctr_drop, Nat.add_comm]

/-- … and the tail is given something, so the theorem above applies to every message and block number. -/
theorem C95_start_exists {C : BCipher} (hC : CipherOk C) (n : Name) {iv X Y : List Byte} (hiv : iv.length = C.BS)
    (h : Gives C n iv X Y) (j : Nat) (hj : j * C.BS ≤ X.length) :
    ∃ Z, Gives C n (startIv C.E C.BS iv X Y j n) (X.drop (j * C.BS)) Z := by
  obtain ⟨l, _⟩ := gives_spec hC hiv h
  apply C94_gives_something hC n _ _ (startIv_len hC n hiv l hj)
  intro hw
  have hx := gives_whole hC hiv hw h
  rw [List.length_drop]
  have := Nat.div_add_mod X.length C.BS
  rw [hx, Nat.add_zero] at this
  rw [← this, Nat.mul_comm j, ← Nat.mul_sub]
  exact Nat.mul_mod_right _ _

/-! ## How far an altered ciphertext block is felt -/

theorem at_some {b : Nat} (hb : 0 < b) {Y : List Byte} {ys : List (List Byte)} {j : Nat} {v : List Byte}
    (hj : j * b < Y.length) (e : blocks b Y = ys) (h : ys[j]? = some v) : blockAt b Y j = v := by
  rw [← e, blocks_get hb j Y hj] at h
  exact Option.some.inj h

/-- Full blocks of a whole-block message. -/
theorem whole_full {b : Nat} (hb : 0 < b) {Y : List Byte} (hw : Y.length % b = 0) {j : Nat} (hj : j * b < Y.length) :
    (blockAt b Y j).length = b := by
  apply blockAt_len hb
  apply Nat.lt_of_mul_lt_mul_right (a := b)
  rwa [Nat.div_mul_cancel (Nat.dvd_of_mod_eq_zero hw)]

theorem blockAt_len_eq {b : Nat} {Y Y' : List Byte} (h : Y.length = Y'.length) (j : Nat) :
    (blockAt b Y j).length = (blockAt b Y' j).length := by
  unfold blockAt
  rw [List.length_take, List.length_take, List.length_drop, List.length_drop, h]

theorem blockAt_le {b : Nat} {Y : List Byte} (j : Nat) : (blockAt b Y j).length ≤ b := by
  unfold blockAt
  rw [List.length_take]
  omega

/-- C95, ECB: a decrypted block changes exactly when the ciphertext block does. -/
theorem C95_ecb {C : BCipher} (hC : CipherOk C) (hi : InjOn C.BS C.D) {iv iv' X X' Y Y' : List Byte}
    (hiv : iv.length = C.BS) (hiv' : iv'.length = C.BS)
    (h : Gives C .ecbDec iv Y X) (h' : Gives C .ecbDec iv' Y' X')
    {j : Nat} (hj : j * C.BS < Y.length) (hj' : j * C.BS < Y'.length) :
    blockAt C.BS X j = blockAt C.BS X' j ↔ blockAt C.BS Y j = blockAt C.BS Y' j := by
  obtain ⟨l, e⟩ := gives_spec hC hiv h
  obtain ⟨l', e'⟩ := gives_spec hC hiv' h'
  rw [at_some hC.bs (by rw [l]; exact hj) e (ecb_at _ _ _ (blocks_get hC.bs j Y hj)),
    at_some hC.bs (by rw [l']; exact hj') e' (ecb_at _ _ _ (blocks_get hC.bs j Y' hj'))]
  exact ⟨hi _ _ (whole_full hC.bs (gives_whole hC hiv rfl h) hj) (whole_full hC.bs (gives_whole hC hiv' rfl h') hj'),
    fun e => by rw [e]⟩

/-- C95, CBC: with the same ciphertext block before it, a decrypted block changes exactly when its ciphertext block does;
with the same ciphertext block, it changes by exactly the bits by which the ciphertext block before it (or the IV) does. -/
theorem C95_cbc {C : BCipher} (hC : CipherOk C) (hi : InjOn C.BS C.D) {iv iv' X X' Y Y' : List Byte}
    (hiv : iv.length = C.BS) (hiv' : iv'.length = C.BS)
    (h : Gives C .cbcDec iv Y X) (h' : Gives C .cbcDec iv' Y' X')
    {j : Nat} (hj : j * C.BS < Y.length) (hj' : j * C.BS < Y'.length) :
    (before C.BS iv Y j = before C.BS iv' Y' j →
      (blockAt C.BS X j = blockAt C.BS X' j ↔ blockAt C.BS Y j = blockAt C.BS Y' j)) ∧
    (blockAt C.BS Y j = blockAt C.BS Y' j →
      xorB (blockAt C.BS X j) (blockAt C.BS X' j) = xorB (before C.BS iv Y j) (before C.BS iv' Y' j)) := by
  obtain ⟨l, e⟩ := gives_spec hC hiv h
  obtain ⟨l', e'⟩ := gives_spec hC hiv' h'
  have f := whole_full hC.bs (gives_whole hC hiv rfl h) hj
  have f' := whole_full hC.bs (gives_whole hC hiv' rfl h') hj'
  have p := before_len' hC.bs hiv (Nat.le_of_lt hj)
  have p' := before_len' hC.bs hiv' (Nat.le_of_lt hj')
  rw [at_some hC.bs (by rw [l]; exact hj) e
      (cbcDec_at _ _ _ _ _ (blocks_get hC.bs j Y hj) (prev_get hC.bs iv (Nat.le_of_lt hj))),
    at_some hC.bs (by rw [l']; exact hj') e'
      (cbcDec_at _ _ _ _ _ (blocks_get hC.bs j Y' hj') (prev_get hC.bs iv' (Nat.le_of_lt hj')))]
  have d := hC.lenD _ f
  have d' := hC.lenD _ f'
  constructor
  · intro hb
    rw [← hb]
    exact ⟨fun hx => hi _ _ f f' (xorB_right_cancel (by omega) (by omega) hx), fun e => by rw [e]⟩
  · intro hy
    rw [← hy, xorB_comm _ (before C.BS iv Y j), xorB_comm _ (before C.BS iv' Y' j), xorB_both _ _ _ (by omega) (by omega)]

/-- C95, CFB: with the same ciphertext block before it, a decrypted block changes by exactly the bits by which its ciphertext
block does; with the same ciphertext block, a full block changes exactly when the ciphertext block before it (or the IV)
does. -/
theorem C95_cfb {C : BCipher} (hC : CipherOk C) (hi : InjOn C.BS C.E) {iv iv' X X' Y Y' : List Byte}
    (hiv : iv.length = C.BS) (hiv' : iv'.length = C.BS)
    (h : Gives C .cfbDec iv Y X) (h' : Gives C .cfbDec iv' Y' X') (hl : Y.length = Y'.length)
    {j : Nat} (hj : j * C.BS < Y.length) :
    (before C.BS iv Y j = before C.BS iv' Y' j →
      xorB (blockAt C.BS X j) (blockAt C.BS X' j) = xorB (blockAt C.BS Y j) (blockAt C.BS Y' j)) ∧
    (blockAt C.BS Y j = blockAt C.BS Y' j → j < Y.length / C.BS →
      (blockAt C.BS X j = blockAt C.BS X' j ↔ before C.BS iv Y j = before C.BS iv' Y' j)) := by
  obtain ⟨l, e⟩ := gives_spec hC hiv h
  obtain ⟨l', e'⟩ := gives_spec hC hiv' h'
  have hj' : j * C.BS < Y'.length := hl ▸ hj
  have p := before_len' hC.bs hiv (Nat.le_of_lt hj)
  have p' := before_len' hC.bs hiv' (Nat.le_of_lt hj')
  have d := hC.lenE _ p
  have d' := hC.lenE _ p'
  rw [at_some hC.bs (by rw [l]; exact hj) e
      (cfbDec_at _ _ _ _ _ (blocks_get hC.bs j Y hj) (prev_get hC.bs iv (Nat.le_of_lt hj))),
    at_some hC.bs (by rw [l']; exact hj') e'
      (cfbDec_at _ _ _ _ _ (blocks_get hC.bs j Y' hj') (prev_get hC.bs iv' (Nat.le_of_lt hj')))]
  constructor
  · intro hb
    rw [← hb, xorB_both _ _ _ (blockAt_len_eq hl j) (by rw [d]; exact blockAt_le j)]
  · intro hy hf
    have f := blockAt_len hC.bs hf
    rw [← hy]
    exact ⟨fun hx => hi _ _ p p' (xorB_left_cancel (by omega) (by omega) hx), fun e => by rw [e]⟩

/-- C95, OFB and CTR: with the same IV, a decrypted block changes by exactly the bits by which its ciphertext block does. -/
theorem C95_ofb_ctr {C : BCipher} (hC : CipherOk C) {n : Name} (hn : n = .ofb ∨ n = .ctr) {iv X X' Y Y' : List Byte}
    (hiv : iv.length = C.BS) (h : Gives C n iv Y X) (h' : Gives C n iv Y' X') (hl : Y.length = Y'.length)
    {j : Nat} (hj : j * C.BS < Y.length) :
    xorB (blockAt C.BS X j) (blockAt C.BS X' j) = xorB (blockAt C.BS Y j) (blockAt C.BS Y' j) := by
  obtain ⟨l, e⟩ := gives_spec hC hiv h
  obtain ⟨l', e'⟩ := gives_spec hC hiv h'
  have hj' : j * C.BS < Y'.length := hl ▸ hj
  rcases hn with rfl | rfl
  · have d := iter_len hC.lenE hiv (j + 1)
    rw [at_some hC.bs (by rw [l]; exact hj) e (ofb_at _ _ _ _ (blocks_get hC.bs j Y hj)),
      at_some hC.bs (by rw [l']; exact hj') e' (ofb_at _ _ _ _ (blocks_get hC.bs j Y' hj')),
      xorB_both _ _ _ (blockAt_len_eq hl j) (by rw [d]; exact blockAt_le j)]
  · have d := hC.lenE (ctrBlock C.BS iv (0 + j)) (toBE_len _ _)
    rw [at_some hC.bs (by rw [l]; exact hj) e (ctr_at _ _ _ _ _ (blocks_get hC.bs j Y hj)),
      at_some hC.bs (by rw [l']; exact hj') e' (ctr_at _ _ _ _ _ (blocks_get hC.bs j Y' hj')),
      xorB_both _ _ _ (blockAt_len_eq hl j) (by rw [d]; exact blockAt_le j)]

/-- C95, all decryptors: if two ciphertexts of one length differ in block `i` only, the plaintexts differ in block `i` only
for ECB, OFB and CTR, and in blocks `i` and `i + 1` only for CBC and CFB. -/
theorem C95_error_spread {C : BCipher} (hC : CipherOk C) {n : Name} {iv X X' Y Y' : List Byte} (hiv : iv.length = C.BS)
    (hn : n = .ecbDec ∨ n = .cbcDec ∨ n = .cfbDec ∨ n = .ofb ∨ n = .ctr)
    (h : Gives C n iv Y X) (h' : Gives C n iv Y' X') (hl : Y.length = Y'.length) (i : Nat)
    (hs : ∀ k, k ≠ i → blockAt C.BS Y k = blockAt C.BS Y' k)
    {j : Nat} (hj : j * C.BS < Y.length) (hji : j ≠ i) (hnext : n = .cbcDec ∨ n = .cfbDec → j ≠ i + 1) :
    blockAt C.BS X j = blockAt C.BS X' j := by
  obtain ⟨l, e⟩ := gives_spec hC hiv h
  obtain ⟨l', e'⟩ := gives_spec hC hiv h'
  have hj' : j * C.BS < Y'.length := hl ▸ hj
  have hY := hs j hji
  have hP : n = .cbcDec ∨ n = .cfbDec → before C.BS iv Y j = before C.BS iv Y' j := by
    intro hc
    have := hnext hc
    unfold before
    split_ifs with h0
    · rfl
    · exact hs _ (by omega)
  have g := blocks_get hC.bs j Y hj
  have g' := blocks_get hC.bs j Y' hj'
  have q := prev_get hC.bs iv (Nat.le_of_lt hj)
  have q' := prev_get hC.bs iv (Nat.le_of_lt hj')
  rcases hn with rfl | rfl | rfl | rfl | rfl
  · rw [at_some hC.bs (by rw [l]; exact hj) e (ecb_at _ _ _ g),
      at_some hC.bs (by rw [l']; exact hj') e' (ecb_at _ _ _ g'), hY]
  · rw [at_some hC.bs (by rw [l]; exact hj) e (cbcDec_at _ _ _ _ _ g q),
      at_some hC.bs (by rw [l']; exact hj') e' (cbcDec_at _ _ _ _ _ g' q'), hY, hP (Or.inl rfl)]
  · rw [at_some hC.bs (by rw [l]; exact hj) e (cfbDec_at _ _ _ _ _ g q),
      at_some hC.bs (by rw [l']; exact hj') e' (cfbDec_at _ _ _ _ _ g' q'), hY, hP (Or.inr rfl)]
  · rw [at_some hC.bs (by rw [l]; exact hj) e (ofb_at _ _ _ _ g),
      at_some hC.bs (by rw [l']; exact hj') e' (ofb_at _ _ _ _ g'), hY]
  · rw [at_some hC.bs (by rw [l]; exact hj) e (ctr_at _ _ _ _ _ g),
      at_some hC.bs (by rw [l']; exact hj') e' (ctr_at _ _ _ _ _ g'), hY]

/-- SM4 and AES meet the hypotheses on the inverse cipher. -/
theorem C95_sm4 (key : List Byte) (hk : key.length = 16) : InjOn 16 (Sm4.cipher key).D := by
  intro x y hx hy h
  have hr : (List.replicate 32 (0 : W32)).length = 32 := rfl
  rw [← (C17_sm4_inverse _ _ hr hr key x hk hx).2, ← (C17_sm4_inverse _ _ hr hr key y hk hy).2]
  exact congrArg _ h

theorem C95_aes (bits : Nat) (hb : AesBits bits) (key : List Byte) (hk : 8 * key.length = bits) :
    InjOn 16 (Aes.cipher bits key).D := by
  intro x y hx hy h
  rw [← (C19_aes_inverse bits hb key x hk hx).2, ← (C19_aes_inverse bits hb key y hk hy).2]
  exact congrArg (fun z => Aes.encBlock (Aes.encKeyInit key bits) z bits) h

/-- The hypotheses can be met: two ciphertexts of three SM4 blocks that differ in the middle one. -/
example : ∃ X X', Gives (Sm4.cipher (List.replicate 16 7)) .cbcDec (List.replicate 16 1) (List.replicate 48 5) X ∧
    Gives (Sm4.cipher (List.replicate 16 7)) .cbcDec (List.replicate 16 1)
      (List.replicate 16 5 ++ List.replicate 16 6 ++ List.replicate 16 5) X' := by
  obtain ⟨X, hX⟩ := C94_gives_something (C94_sm4 (List.replicate 16 7) rfl).1 .cbcDec (List.replicate 16 1)
    (List.replicate 48 5) rfl (by intro _; rfl)
  obtain ⟨X', hX'⟩ := C94_gives_something (C94_sm4 (List.replicate 16 7) rfl).1 .cbcDec (List.replicate 16 1)
    (List.replicate 16 5 ++ List.replicate 16 6 ++ List.replicate 16 5) rfl (by intro _; rfl)
  exact ⟨X, X', hX, hX'⟩

example : blockAt 16 (List.replicate 48 5) 1 ≠
    blockAt 16 (List.replicate 16 5 ++ List.replicate 16 6 ++ List.replicate 16 5) 1 := by decide

end Verif.Props
