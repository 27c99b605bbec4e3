import Verif.Proofs.GcmHistPclmul
import Verif.Props.GcmPclmul
import Verif.Props.GcmHist
import Verif.Props.GcmForge
/-!
# C99: GCM objects over their life, and forgeries, in the build with carry-less multiplication

C87 follows an object up to the first exception.  Here the caller catches the exception of a rejected message and goes on, as
in C90; and the bound on forgeries of C91 is shown for this build.  Specification: `Spec/GcmHist.lean`, `Spec/GcmForge.lean`.
-/
namespace Verif.Props
open Verif Verif.Spec Verif.Spec.Modes Verif.Spec.Gcm
open Verif.Gcm (GMsg GHistOk encExpected encActual decExpected decActual)
open GcmPclAux GcmPclmul GhashPclmul Verif.Ghash
open Verif.Gcm hiding St encHist decHist fresh setTag encInit decInit encImpl decImpl gctrInit encUpd encFin decUpd decFin
  decFinX encFinX finalX msgRunX

/-- C99: whatever state objects of the two builds are in, if they hold the same buffered octets (and, for a decryptor, tag and
`static t`), a list of messages — any ciphers, IVs, chunks and buffers, finished, abandoned or rejected — shows the caller the
same memory, lengths, tags and verdicts. -/
theorem C99_same (PAR : Nat) (as : List GMsg) (hk : ∀ a ∈ as, ∀ x : List Byte, x.length = 16 → (a.E x).length = 16)
    (h : ModeObj GcmPclmul.St) (g : ModeObj Gcm.St) (h1 : h.buf = g.buf) (h2 : h.st.hash.buf = g.st.hash.buf)
    (h3 : h.st.tag = g.st.tag) (h4 : h.st.stat = g.st.stat) :
    GcmPclmul.encHist PAR h as = Gcm.encHist PAR g as ∧ GcmPclmul.decHist PAR h as = Gcm.decHist PAR g as :=
  ⟨encHist_eq PAR as h g hk ⟨h1, h2, h3, h4⟩, decHist_eq PAR as h g hk ⟨h1, h2, h3, h4⟩⟩

/-- C99: what the caller of one encryptor sees of every message of every history: SP 800-38D's ciphertext and tag for what
the previous message left over followed by the message. -/
theorem C99_encrypt_exact (PAR : Nat) (hP : 0 < PAR) (as : List GMsg) (h : ModeObj GcmPclmul.St) (hb : h.buf.length < 16)
    (hh : h.st.hash.buf = []) (ho : GHistOk h.buf as) : GcmPclmul.encHist PAR h as = .ok (encActual h.buf as) := by
  rw [encHist_eq PAR as h (twin h) (ghistOk_msgs _ _ ho) (twin_pre h)]
  exact C90_encrypt_exact PAR hP as (twin h) hb hh ho

/-- C99: the same for one decryptor, which is used again after rejected messages too. -/
theorem C99_decrypt_exact (PAR : Nat) (hP : 0 < PAR) (as : List GMsg) (h : ModeObj GcmPclmul.St) (hb : h.buf.length < 16)
    (hh : h.st.hash.buf = []) (hs : h.st.stat.length = 16) (ho : GHistOk h.buf as) :
    GcmPclmul.decHist PAR h as = .ok (decActual h.buf h.st.stat as) := by
  rw [decHist_eq PAR as h (twin h) (ghistOk_msgs _ _ ho) (twin_pre h)]
  exact C90_decrypt_exact PAR hP as (twin h) hb hh hs ho

/-- C99 (partial, as C90): messages of whole blocks are encrypted each by itself. -/
theorem C99_encrypt_whole_partial (PAR : Nat) (hP : 0 < PAR) (as : List GMsg) (h : ModeObj GcmPclmul.St) (hb : h.buf = [])
    (hh : h.st.hash.buf = []) (hw : ∀ a ∈ as, a.len % 16 = 0) (ho : GHistOk [] as) :
    GcmPclmul.encHist PAR h as = .ok (encExpected as) := by
  rw [encHist_eq PAR as h (twin h) (ghistOk_msgs _ _ ho) (twin_pre h)]
  exact C90_encrypt_whole_partial PAR hP as (twin h) hb hh hw ho

/-- C99 (partial, as C90): messages of whole blocks are decrypted and judged each by itself, also after rejected ones. -/
theorem C99_decrypt_whole_partial (PAR : Nat) (hP : 0 < PAR) (as : List GMsg) (h : ModeObj GcmPclmul.St) (hb : h.buf = [])
    (hh : h.st.hash.buf = []) (hs : h.st.stat.length = 16) (hw : ∀ a ∈ as, a.len % 16 = 0) (ho : GHistOk [] as) :
    GcmPclmul.decHist PAR h as = .ok (decExpected as) := by
  rw [decHist_eq PAR as h (twin h) (ghistOk_msgs _ _ ho) (twin_pre h)]
  exact C90_decrypt_whole_partial PAR hP as (twin h) hb hh hs hw ho

/-- C99 fails, as C90 does: after a message that is not whole blocks the second one is not encrypted as it should be. -/
theorem C99_encrypt_carries_over_violated (PAR : Nat) (hP : 0 < PAR) (h : ModeObj GcmPclmul.St) (hb : h.buf = [])
    (hh : h.st.hash.buf = []) (a a' : GMsg) (hr : a.len % 16 ≠ 0) (hl : a'.last.isSome) (ho : GHistOk [] [a, a']) :
    GcmPclmul.encHist PAR h [a, a'] ≠ .ok (encExpected [a, a']) := by
  rw [encHist_eq PAR _ h (twin h) (ghistOk_msgs _ _ ho) (twin_pre h)]
  exact (C90_encrypt_carries_over_violated PAR hP (twin h) hb hh a a' hr hl ho).2.2

/-- C99 fails, as C90 does: after a message that is not whole blocks a genuine one is rejected or reported too long. -/
theorem C99_decrypt_carries_over_violated (PAR : Nat) (hP : 0 < PAR) (h : ModeObj GcmPclmul.St) (hb : h.buf = [])
    (hh : h.st.hash.buf = []) (hs : h.st.stat.length = 16) (a a' : GMsg) (hr : a.len % 16 ≠ 0) (hl : a'.last.isSome)
    (hg : a'.tag = Spec.Gcm.tag a'.E a'.iv a'.aad a'.text) (ho : GHistOk [] [a, a']) :
    GcmPclmul.decHist PAR h [a, a'] ≠ .ok (decExpected [a, a']) := by
  rw [decHist_eq PAR _ h (twin h) (ghistOk_msgs _ _ ho) (twin_pre h)]
  exact (C90_decrypt_carries_over_violated PAR hP (twin h) hb hh hs a a' hr hl hg ho).2

/-- One decryption in this build: a new object, `init`, `set_tag`, the ciphertext in any chunks, `do_final`. -/
def pclDecrypt (C : BCipher) (junk : GcmPclmul.St) (stat iv aad t : List Byte) (m : Mem) (o i : Nat) (ns : List Nat)
    (last outl : Nat) : Outcome (ModeObj GcmPclmul.St × Mem × Nat) :=
  GcmPclmul.decInit C.E (GcmPclmul.fresh junk stat) iv aad >>= fun h =>
    streamRun 16 (GcmPclmul.decImpl C) true (GcmPclmul.setTag h t) m o i ns last outl

theorem pclDecrypt_sim {C : BCipher} (hE : LenOk 16 C.E) (junk : GcmPclmul.St) (stat iv aad t : List Byte) (m : Mem)
    (o i : Nat) (ns : List Nat) (last outl : Nat) :
    OutSim OM (pclDecrypt C junk stat iv aad t m o i ns last outl)
      (gcmDecrypt C ⟨[], [], ⟨[], ⟨[], (0, 0)⟩⟩, 0, 0, junk.tag, []⟩ stat iv aad t m o i ns last outl) :=
  OutSim.bind (sim_decInit (zeros_E hE) (fresh_pre _ _ _ rfl) iv aad) fun x y hxy =>
    stream_sim (sim_dec C) ns _ _ _ _ _ _ _ (set_sim _ _ t hxy)

theorem pclDecrypt_ok {C : BCipher} (hE : LenOk 16 C.E) (junk : GcmPclmul.St) (stat iv aad t : List Byte) (m : Mem)
    (o i : Nat) (ns : List Nat) (last outl : Nat) :
    (∃ r, pclDecrypt C junk stat iv aad t m o i ns last outl = .ok r) ↔
      ∃ r, gcmDecrypt C ⟨[], [], ⟨[], ⟨[], (0, 0)⟩⟩, 0, 0, junk.tag, []⟩ stat iv aad t m o i ns last outl = .ok r := by
  have hs := pclDecrypt_sim hE junk stat iv aad t m o i ns last outl
  revert hs
  generalize pclDecrypt C junk stat iv aad t m o i ns last outl = a
  generalize gcmDecrypt C _ stat iv aad t m o i ns last outl = b
  intro hs
  constructor
  · rintro ⟨r, rfl⟩
    cases b <;> first | exact ⟨_, rfl⟩ | exact hs.elim
  · rintro ⟨r, rfl⟩
    cases a <;> first | exact ⟨_, rfl⟩ | exact hs.elim

/-- C99: a forged message, made after seeing one genuine tag, is accepted for at most as many of the `2^128` hash keys as the
longer message has blocks; in every state of the process. -/
theorem C99_forgery_bound {E0 D : List Byte → List Byte} (hE : LenOk 16 E0) (PAR : Nat) (hP : 0 < PAR) (junk : GcmPclmul.St)
    (stat iv iv' aad ct aad' δ : List Byte) (hs : stat.length = 16) (hiv : iv.length = 12) (hiv' : iv'.length = 12)
    (hδ : δ.length = 16) (m : Mem) (o i : Nat) (ns : List Nat) (last outl : Nat) (hp : StreamPlaced true 0 m o i ns last)
    (ha : aad.length ≤ (2 ^ 64 - 1) / 8) (hc : ct.length ≤ (2 ^ 64 - 1) / 8) (ha' : aad'.length ≤ (2 ^ 64 - 1) / 8)
    (hc' : ns.sum + last ≤ (2 ^ 64 - 1) / 8) (hne : (aad', rdm m i (ns.sum + last)) ≠ (aad, ct)) :
    let forged := {H : List Byte | H.length = 16 ∧ ∃ r, pclDecrypt ⟨16, PAR, withKey E0 H, D⟩ junk stat iv' aad'
      (xorB δ (Spec.Gcm.tag (withKey E0 H) iv aad ct)) m o i ns last outl = .ok r}
    forged.Finite ∧ forged.ncard ≤ max (nblocks aad' (rdm m i (ns.sum + last))) (nblocks aad ct) := by
  intro forged
  have e : forged = {H : List Byte | H.length = 16 ∧ ∃ r, gcmDecrypt ⟨16, PAR, withKey E0 H, D⟩
      ⟨[], [], ⟨[], ⟨[], (0, 0)⟩⟩, 0, 0, junk.tag, []⟩ stat iv' aad'
      (xorB δ (Spec.Gcm.tag (withKey E0 H) iv aad ct)) m o i ns last outl = .ok r} := by
    ext H
    simp only [forged, Set.mem_setOf_eq]
    exact and_congr_right fun hH => pclDecrypt_ok (C := ⟨16, PAR, withKey E0 H, D⟩) (withKey_len hE hH) ..
  rw [e]
  exact C91_forgery_bound hE PAR hP _ stat iv iv' aad ct aad' δ hs hiv hiv' hδ m o i ns last outl hp ha hc ha' hc' hne

/-- C99: the message itself is accepted with its tag and no other. -/
theorem C99_same_message {E0 D : List Byte → List Byte} (hE : LenOk 16 E0) (PAR : Nat) (hP : 0 < PAR) (junk : GcmPclmul.St)
    (iv aad δ H : List Byte) (hδ : δ.length = 16) (hH : H.length = 16)
    (m : Mem) (o i : Nat) (ns : List Nat) (last outl : Nat) (hp : StreamPlaced true 0 m o i ns last)
    (ha : aad.length ≤ (2 ^ 64 - 1) / 8) (hc : ns.sum + last ≤ (2 ^ 64 - 1) / 8) :
    (∃ r, pclDecrypt ⟨16, PAR, withKey E0 H, D⟩ junk (List.replicate 16 0) iv aad
      (xorB δ (Spec.Gcm.tag (withKey E0 H) iv aad (rdm m i (ns.sum + last)))) m o i ns last outl = .ok r) ↔
      δ = List.replicate 16 0 :=
  (pclDecrypt_ok (C := ⟨16, PAR, withKey E0 H, D⟩) (withKey_len hE hH) ..).trans
    (C91_same_message hE PAR hP _ iv aad δ H hδ hH m o i ns last outl hp ha hc)

/-- C99: once a decryption has been finished in the process, a genuine ragged message is rejected unless the hash key is zero
or the octets left in `static t` begin with the right number of zeros. -/
theorem C99_genuine_rejected_violated {C : BCipher} (hBS : C.BS = 16) (hP : 0 < C.PAR) (hE : LenOk 16 C.E)
    (junk : GcmPclmul.St) (stat iv aad : List Byte) (m : Mem) (o i : Nat) (ns : List Nat) (last outl : Nat)
    (hp : StreamPlaced true 0 m o i ns last) (hs : stat.length = 16) (hr : (ns.sum + last) % 16 ≠ 0)
    (ha : aad.length ≤ (2 ^ 64 - 1) / 8) (hlen : ns.sum + last ≤ (2 ^ 64 - 1) / 8) :
    pclDecrypt C junk stat iv aad (Spec.Gcm.tag C.E iv aad (rdm m i (ns.sum + last))) m o i ns last outl = .throw ↔
      C.E (List.replicate 16 0) ≠ List.replicate 16 0 ∧
      stat.take (16 - (ns.sum + last) % 16) ≠ List.replicate (16 - (ns.sum + last) % 16) 0 := by
  rw [← C14_genuine_rejected_violated hBS hP hE ⟨[], [], ⟨[], ⟨[], (0, 0)⟩⟩, 0, 0, junk.tag, []⟩ stat iv aad m o i ns last outl hp
    hs hr ha hlen]
  have h := pclDecrypt_sim hE junk stat iv aad (Spec.Gcm.tag C.E iv aad (rdm m i (ns.sum + last))) m o i ns last outl
  revert h
  generalize pclDecrypt C junk stat iv aad _ m o i ns last outl = a
  generalize gcmDecrypt C _ stat iv aad _ m o i ns last outl = b
  intro h
  constructor
  · rintro rfl
    cases b <;> first | rfl | exact h.elim
  · rintro rfl
    cases a <;> first | rfl | exact h.elim

/-- Five octets, then a genuine message of one octet, on a new decryptor: the hypotheses of the `violated` theorem are met, and
those of `C99_decrypt_exact`. -/
example (j : GcmPclmul.St) : GcmPclmul.decHist 2 (GcmPclmul.fresh j (List.replicate 16 0))
    [⟨toy16.E, zeros 12, [9], [], List.replicate 40 7, 20, 0, [3], some 2⟩,
      ⟨toy16.E, zeros 12, [9], goodTag, [5, 0, 0, 0, 0, 0, 0], 1, 0, [], some 1⟩] ≠
    .ok (decExpected [⟨toy16.E, zeros 12, [9], [], List.replicate 40 7, 20, 0, [3], some 2⟩,
      ⟨toy16.E, zeros 12, [9], goodTag, [5, 0, 0, 0, 0, 0, 0], 1, 0, [], some 1⟩]) := by
  refine C99_decrypt_carries_over_violated 2 (by decide) _ rfl rfl rfl _ _ (by decide) rfl (by decide +kernel)
    ⟨toy16_len, by decide, by decide, ⟨by decide, by decide, Or.inl (by decide)⟩, toy16_len, by decide, by decide,
    ⟨by decide, by decide, Or.inl (by decide)⟩, trivial⟩

/-- Three messages of whole blocks, the second abandoned: the hypotheses of the partial theorems are met. -/
example (j : GcmPclmul.St) : GcmPclmul.encHist 2 (GcmPclmul.fresh j (List.replicate 16 0))
    [⟨toy16.E, zeros 12, [9], [], List.replicate 40 7, 0, 0, [3, 12], some 1⟩,
    ⟨toy16.E, [1], [], [], List.replicate 40 7, 20, 0, [16], none⟩,
    ⟨toy16.E, zeros 12, [9], [], List.replicate 70 7, 33, 0, [], some 32⟩] =
    .ok (encExpected [⟨toy16.E, zeros 12, [9], [], List.replicate 40 7, 0, 0, [3, 12], some 1⟩,
    ⟨toy16.E, [1], [], [], List.replicate 40 7, 20, 0, [16], none⟩,
    ⟨toy16.E, zeros 12, [9], [], List.replicate 70 7, 33, 0, [], some 32⟩]) := by
  refine C99_encrypt_whole_partial 2 (by decide) _ _ rfl rfl ?_ ⟨toy16_len, by decide, by decide, ⟨by decide, by decide, Or.inr (Or.inr ⟨rfl, rfl⟩)⟩, toy16_len, by decide, by decide,
    ⟨by decide, by decide, Or.inl (by decide)⟩, toy16_len, by decide, by decide, ⟨by decide, by decide, Or.inl (by decide)⟩,
    trivial⟩
  intro a ha
  simp only [List.mem_cons, List.not_mem_nil, or_false] at ha
  rcases ha with rfl | rfl | rfl <;> decide

/-- A forged one-octet message: at most three of the `2^128` keys accept it. -/
example (j : GcmPclmul.St) : {H : List Byte | H.length = 16 ∧ ∃ r, pclDecrypt ⟨16, 2, withKey toy16.E H, id⟩ j (List.replicate 16 8) (zeros 12) [9]
    (xorB (List.replicate 16 7) (Spec.Gcm.tag (withKey toy16.E H) (zeros 12) [9] [4])) [5, 0] 1 0 [] 1 0 = .ok r}.ncard ≤ 3 :=
  (C99_forgery_bound (E0 := toy16.E) (D := id) toy16_len 2 (by decide) j (List.replicate 16 8) (zeros 12) (zeros 12) [9] [4] [9] (List.replicate 16 7)
    rfl rfl rfl rfl [5, 0] 1 0 [] 1 0 ⟨by decide, by decide, Or.inl (by decide)⟩ (by decide) (by decide) (by decide) (by decide)
    (by decide)).2

/-- A genuine ragged message is rejected after a decryption. -/
example (j : GcmPclmul.St) : pclDecrypt toy16 j (toy16.E (zeros 12 ++ [0, 0, 0, 1])) (zeros 12) [9]
    (Spec.Gcm.tag toy16.E (zeros 12) [9] [5]) [5, 0] 1 0 [] 1 0 = .throw :=
  (C99_genuine_rejected_violated (C := toy16) rfl (by decide) toy16_len j _ (zeros 12) [9] [5, 0] 1 0 [] 1 0
    ⟨by decide, by decide, Or.inl (by decide)⟩ (by decide) (by decide) (by decide) (by decide)).mpr ⟨by decide, by decide⟩

end Verif.Props
