import Verif.Proofs.GcmForge
import Verif.Props.Gcm
/-!
# C91: forged GCM messages are accepted for few hash keys only

Specification: `Spec/GcmForge.lean`.  `withKey E0 H` is the cipher `E0` with `H` as GCM's hash key (the image of the zero
block).  The theorems count hash keys, so they hold whatever the forger knows about the cipher otherwise.
-/
namespace Verif.Props
open Verif Verif.Spec Verif.Spec.Modes Verif.Spec.Gcm Verif.Spec.GF128 Verif.Gcm Verif.Ghash

/-- C91: the ring GHASH computes in (C06) is a field. -/
theorem C91_field : IsField GF := by
  have : Fact (Irreducible modulus) := ⟨modulus_irreducible⟩
  exact Field.toIsField (AdjoinRoot modulus)

/-- There are `2^128` hash keys. -/
theorem C91_key_count : {H : List Byte | H.length = 16}.ncard = 2 ^ 128 := by
  have e : ({H : List Byte | H.length = 16} : Set (List Byte)).ncard = Nat.card (List.Vector Byte 16) := rfl
  rw [e, Nat.card_congr (Equiv.vectorEquivFin Byte 16), Nat.card_fun, Nat.card_congr (⟨BitVec.toFin, BitVec.ofFin, fun _ => rfl, fun _ => rfl⟩ : Byte ≃ Fin (2 ^ 8))]
  simp

/-- C91: let the forger see the tag of a message (`iv`, `aad`, `ct`).  Whatever other message (`iv'`, `aad'`, `ct'` read from
memory, any chunking) and whatever change `δ` of the tag they choose, a decryptor accepts it for at most as many of the
`2^128` hash keys as the longer of the two has blocks.  This holds in every state of the process (`stat`). -/
theorem C91_forgery_bound {E0 D : List Byte → List Byte} (hE : LenOk 16 E0) (PAR : Nat) (hP : 0 < PAR) (junk : St)
    (stat iv iv' aad ct aad' δ : List Byte) (hs : stat.length = 16) (hiv : iv.length = 12) (hiv' : iv'.length = 12)
    (hδ : δ.length = 16) (m : Mem) (o i : Nat) (ns : List Nat) (last outl : Nat) (hp : StreamPlaced true 0 m o i ns last)
    (ha : aad.length ≤ (2 ^ 64 - 1) / 8) (hc : ct.length ≤ (2 ^ 64 - 1) / 8) (ha' : aad'.length ≤ (2 ^ 64 - 1) / 8)
    (hc' : ns.sum + last ≤ (2 ^ 64 - 1) / 8) (hne : (aad', rdm m i (ns.sum + last)) ≠ (aad, ct)) :
    let forged := {H : List Byte | H.length = 16 ∧ ∃ r, gcmDecrypt ⟨16, PAR, withKey E0 H, D⟩ junk stat iv' aad'
      (xorB δ (Spec.Gcm.tag (withKey E0 H) iv aad ct)) m o i ns last outl = .ok r}
    forged.Finite ∧ forged.ncard ≤ max (nblocks aad' (rdm m i (ns.sum + last))) (nblocks aad ct) := by
  intro forged
  have hl : (rdm m i (ns.sum + last)).length = ns.sum + last := rdm_len hp.1
  have hall : {H : List Byte | H.length = 16}.Finite := by
    apply Set.finite_of_ncard_pos
    rw [C91_key_count]
    exact Nat.two_pow_pos _
  have hf : Fills (rdm m i (ns.sum + last)) (stat.take ((16 - (rdm m i (ns.sum + last)).length % 16) % 16)) := by
    unfold Fills
    rw [List.length_take, hs]
    omega
  have hsub : forged ⊆ {H : List Byte | H.length = 16 ∧ tagP (withKey E0 H) iv' aad' (rdm m i (ns.sum + last))
      (stat.take ((16 - (rdm m i (ns.sum + last)).length % 16) % 16)) = xorB δ (Spec.Gcm.tag (withKey E0 H) iv aad ct)} := by
    intro H ⟨hH, r, hr⟩
    refine ⟨hH, ?_⟩
    by_contra hcon
    have h := C14_gcm_decrypt_exact (C := ⟨16, PAR, withKey E0 H, D⟩) rfl hP (withKey_len hE hH) junk stat
      iv' aad' (xorB δ (Spec.Gcm.tag (withKey E0 H) iv aad ct)) m o i ns last outl hp hs ha' (by omega)
    dsimp only at h
    unfold tagP authData at hcon
    rw [if_neg hcon] at h
    rw [h] at hr
    cases hr
  have hfin := hall.subset (t := {H : List Byte | H.length = 16 ∧ tagP (withKey E0 H) iv' aad' (rdm m i (ns.sum + last))
      (stat.take ((16 - (rdm m i (ns.sum + last)).length % 16) % 16)) = xorB δ (Spec.Gcm.tag (withKey E0 H) iv aad ct)})
      (fun H h => h.1)
  refine ⟨hfin.subset hsub, (Set.ncard_le_ncard hsub hfin).trans ?_⟩
  exact forge_card hE iv iv' aad ct aad' _ _ δ hf hiv hiv' hδ (by omega) (by omega) (by omega) (by rw [hl]; omega) hne

/-- In particular the message itself with another tag is never accepted, and a tag that is right for one message and one
hash key says nothing else: with the same message and `δ = 0` every key accepts. -/
theorem C91_same_message {E0 D : List Byte → List Byte} (hE : LenOk 16 E0) (PAR : Nat) (hP : 0 < PAR) (junk : St)
    (iv aad δ H : List Byte) (hδ : δ.length = 16) (hH : H.length = 16)
    (m : Mem) (o i : Nat) (ns : List Nat) (last outl : Nat) (hp : StreamPlaced true 0 m o i ns last)
    (ha : aad.length ≤ (2 ^ 64 - 1) / 8) (hc : ns.sum + last ≤ (2 ^ 64 - 1) / 8) :
    (∃ r, gcmDecrypt ⟨16, PAR, withKey E0 H, D⟩ junk (List.replicate 16 0) iv aad
      (xorB δ (Spec.Gcm.tag (withKey E0 H) iv aad (rdm m i (ns.sum + last)))) m o i ns last outl = .ok r) ↔
      δ = List.replicate 16 0 := by
  have hL := withKey_len hE hH
  have tl : (Spec.Gcm.tag (withKey E0 H) iv aad (rdm m i (ns.sum + last))).length = 16 := by
    unfold Spec.Gcm.tag
    have := hL _ (J0_len (E := withKey E0 H) iv)
    rw [xorB_len (by rw [this]; exact (toBE_len _ _).le)]
    exact toBE_len _ _
  have hd := C14_gcm_decrypt_partial (C := ⟨16, PAR, withKey E0 H, D⟩) rfl hP hL junk (List.replicate 16 0)
      iv aad (xorB δ (Spec.Gcm.tag (withKey E0 H) iv aad (rdm m i (ns.sum + last)))) m o i ns last outl hp
      (List.length_replicate ..) (Or.inl rfl) ha (by omega)
  dsimp only at hd
  unfold Spec.Gcm.decrypt at hd
  generalize Spec.Gcm.tag (withKey E0 H) iv aad (rdm m i (ns.sum + last)) = t at *
  have hiff : t = xorB δ t ↔ δ = List.replicate 16 0 := by
    constructor
    · intro h
      apply ofBytes_inj _ _ hδ (List.length_replicate ..)
      have := congrArg ofBytes h
      rw [ofBytes_xor _ _ (by rw [hδ, tl])] at this
      rw [ofBytes_zero16]
      simpa using this.symm
    · intro h
      apply ofBytes_inj _ _ tl (by rw [xorB_len (by rw [hδ, tl])]; exact hδ)
      rw [ofBytes_xor _ _ (by rw [hδ, tl]), h, ofBytes_zero16, zero_add]
  rw [← hiff]
  constructor
  · rintro ⟨r, hr⟩
    by_contra hcon
    rw [if_neg hcon] at hd
    rw [hd.2 rfl] at hr
    cases hr
  · intro h
    rw [if_pos h] at hd
    obtain ⟨h', hr⟩ := hd.1 _ rfl
    exact ⟨_, hr⟩

/-- C14 fails for every cipher, for ciphertexts that are not whole blocks once a decryption has been finished in the process: the genuine message is rejected unless the hash key is zero or the bytes the earlier decryption left in
`static t` happen to begin with the right number of zeros. -/
theorem C14_genuine_rejected_violated {C : BCipher} (hBS : C.BS = 16) (hP : 0 < C.PAR) (hE : LenOk 16 C.E) (junk : St)
    (stat iv aad : List Byte) (m : Mem) (o i : Nat) (ns : List Nat) (last outl : Nat)
    (hp : StreamPlaced true 0 m o i ns last) (hs : stat.length = 16) (hr : (ns.sum + last) % 16 ≠ 0)
    (ha : aad.length ≤ (2 ^ 64 - 1) / 8) (hlen : ns.sum + last ≤ (2 ^ 64 - 1) / 8) :
    gcmDecrypt C junk stat iv aad (Spec.Gcm.tag C.E iv aad (rdm m i (ns.sum + last))) m o i ns last outl = .throw ↔
      C.E (List.replicate 16 0) ≠ List.replicate 16 0 ∧
      stat.take (16 - (ns.sum + last) % 16) ≠ List.replicate (16 - (ns.sum + last) % 16) 0 := by
  have h := C14_gcm_decrypt_exact hBS hP hE junk stat iv aad (Spec.Gcm.tag C.E iv aad (rdm m i (ns.sum + last))) m o i ns last
    outl hp hs ha (by omega)
  dsimp only at h
  have hl : (rdm m i (ns.sum + last)).length = ns.sum + last := rdm_len hp.1
  generalize rdm m i (ns.sum + last) = ct at *
  have hk : (16 - ct.length % 16) % 16 = 16 - ct.length % 16 := by omega
  have e := pad_iff hE iv aad ct (stat.take (16 - ct.length % 16)) (List.replicate (16 - ct.length % 16) 0)
    (by rw [List.length_take, hs]; omega) (List.length_replicate ..)
  have ht : Spec.Gcm.tag C.E iv aad ct = xorB (ghash (hashKey C.E) (pad16 aad ++ (ct ++ List.replicate (16 - ct.length % 16) 0) ++
      len64 (8 * aad.length) ++ len64 (8 * ct.length))) (C.E (J0 C.E iv)) := by
    unfold Spec.Gcm.tag
    conv_lhs => rw [show pad16 ct = ct ++ List.replicate ((16 - ct.length % 16) % 16) 0 from rfl, hk]
  rw [hk, ht] at h
  rw [ht, ← hl]
  unfold hashKey at e
  unfold hashKey at h ⊢
  split_ifs at h with hc
  · obtain ⟨h', h1, -⟩ := h
    rw [h1]
    constructor
    · intro hx; cases hx
    · intro hx
      rcases e.mp hc with h2 | h2
      · exact absurd h2 hx.1
      · exact absurd h2 hx.2
  · rw [h]
    simp only [true_iff]
    refine ⟨fun h2 => hc (e.mpr (Or.inl h2)), fun h2 => hc (e.mpr (Or.inr h2))⟩

/-- A forged one-octet message meets the hypotheses: at most three of the `2^128` keys accept it. -/
example : {H : List Byte | H.length = 16 ∧ ∃ r, gcmDecrypt ⟨16, 2, withKey toy16.E H, id⟩ junk0 (List.replicate 16 8) (zeros 12) [9]
    (xorB (List.replicate 16 7) (Spec.Gcm.tag (withKey toy16.E H) (zeros 12) [9] [4])) [5, 0] 1 0 [] 1 0 = .ok r}.ncard ≤ 3 :=
  (C91_forgery_bound (E0 := toy16.E) (D := id) toy16_len 2 (by decide) junk0 (List.replicate 16 8) (zeros 12) (zeros 12) [9] [4] [9] (List.replicate 16 7)
    rfl rfl rfl rfl [5, 0] 1 0 [] 1 0 ⟨by decide, by decide, Or.inl (by decide)⟩ (by decide) (by decide) (by decide) (by decide)
    (by decide)).2

/-- Under the toy cipher a genuine ragged message is rejected after any decryption under a 12-octet IV (which leaves
`E(IV ‖ 1)`, not beginning with zeros here). -/
example : gcmDecrypt toy16 junk0 (toy16.E (zeros 12 ++ [0, 0, 0, 1])) (zeros 12) [9]
    (Spec.Gcm.tag toy16.E (zeros 12) [9] [5]) [5, 0] 1 0 [] 1 0 = .throw :=
  (C14_genuine_rejected_violated (C := toy16) rfl (by decide) toy16_len junk0 _ (zeros 12) [9] [5, 0] 1 0 [] 1 0
    ⟨by decide, by decide, Or.inl (by decide)⟩ (by decide) (by decide) (by decide) (by decide)).mpr ⟨by decide, by decide⟩

end Verif.Props
