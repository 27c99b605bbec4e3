import Verif.Proofs.GcmHist
import Verif.Props.Gcm
/-!
# C90: GCM objects used for message after message

`encHist`, `decHist` (Model/GcmHist.lean) run a list of messages on one object: each is begun with `init`, streamed in any
chunks, and finished or abandoned.  `encExpected`, `decExpected` (Spec/GcmHist.lean) process each message by itself as
SP 800-38D prescribes.
-/
namespace Verif.Props
open Verif Verif.Spec Verif.Spec.Modes Verif.Spec.Gcm Verif.Gcm Verif.Ghash

/-- C90: what the caller of one encryptor sees of every message, for every cipher and history: the ciphertext and tag
SP 800-38D prescribes for what the previous message left over followed by the message.  No call fails, and nothing outside
the output is written. -/
theorem C90_encrypt_exact (PAR : Nat) (hP : 0 < PAR) (as : List GMsg) :
    ∀ h : ModeObj St, h.buf.length < 16 → h.st.hash.buf = [] → GHistOk h.buf as →
      encHist PAR h as = .ok (encActual h.buf as) := by
  induction as with
  | nil => intro h _ _ _; rfl
  | cons a as ih =>
    intro h hb hh ⟨h1, h2, h3, h4, h5⟩
    obtain ⟨st, rej, e1, e2, e3⟩ := encMsg_spec hP h1 h.st h.buf hb h3 h4
    unfold encHist
    rw [encInit_spec h1 h hh a.iv a.aad h2, Outcome.ok_bind]
    rw [e1, Outcome.ok_bind, ih ⟨tail 16 (h.buf ++ a.text), st⟩ (tail_lt (by decide) _) e3 h5, Outcome.ok_bind]
    dsimp only
    rw [e2]
    rfl

/-- C90: what the caller of one decryptor sees of every message, for every cipher, history and content of the process-wide
`static t`: the plaintext of what the previous message left over followed by the message, written whether or not it is
accepted; the tag compared with is the one over that ciphertext padded with what the last finished decryption, accepted or
rejected, left in `static t`. -/
theorem C90_decrypt_exact (PAR : Nat) (hP : 0 < PAR) (as : List GMsg) :
    ∀ h : ModeObj St, h.buf.length < 16 → h.st.hash.buf = [] → h.st.stat.length = 16 → GHistOk h.buf as →
      decHist PAR h as = .ok (decActual h.buf h.st.stat as) := by
  induction as with
  | nil => intro h _ _ _ _; rfl
  | cons a as ih =>
    intro h hb hh hs ⟨h1, h2, h3, h4, h5⟩
    obtain ⟨st, e1, e2, e3⟩ := decMsg_spec hP h1 h.st hs h.buf hb h3 h4
    unfold decHist
    rw [decInit_spec h1 h hh a.iv a.aad h2, Outcome.ok_bind]
    have hset : setTag (⟨h.buf, initSt a.E h.st a.iv a.aad h.st.tag⟩ : ModeObj St) a.tag =
        ⟨h.buf, initSt a.E h.st a.iv a.aad a.tag⟩ := rfl
    rw [hset, e1, Outcome.ok_bind, ih ⟨tail 16 (h.buf ++ a.text), st⟩ (tail_lt (by decide) _) e3 (by
      dsimp only
      rw [e2]
      split_ifs
      · exact h1 _ (J0_len _)
      · exact hs) h5, Outcome.ok_bind]
    dsimp only
    rw [e2]
    rfl

theorem gtail_nil {X : List Byte} (h : X.length % 16 = 0) : tail 16 X = [] := by
  unfold tail
  apply List.drop_eq_nil_of_le
  omega

/-- C90 (partial): on an object with empty buffers, if every message is whole blocks (an abandoned one up to where it was
abandoned), each is encrypted by itself.  Missing: other lengths, where it is false (`C90_encrypt_carries_over_violated`). -/
theorem C90_encrypt_whole_partial (PAR : Nat) (hP : 0 < PAR) (as : List GMsg) (h : ModeObj St) (hb : h.buf = [])
    (hh : h.st.hash.buf = []) (hw : ∀ a ∈ as, a.len % 16 = 0) (ho : GHistOk [] as) :
    encHist PAR h as = .ok (encExpected as) := by
  rw [C90_encrypt_exact PAR hP as h (by rw [hb]; simp) hh (by rw [hb]; exact ho), hb]
  congr 1
  induction as with
  | nil => rfl
  | cons a as ih =>
    obtain ⟨-, -, -, h4, h5⟩ := ho
    have hl : a.text.length = a.len := rdm_len h4.1
    have ht : tail 16 a.text = [] := gtail_nil (by rw [hl]; exact hw a (by simp))
    rw [List.nil_append, ht] at h5
    simp only [encActual, List.nil_append, ht, encExpected, List.map_cons]
    rw [ih (fun x hx => hw x (List.mem_cons_of_mem _ hx)) h5]
    rfl

/-- C90 (partial): likewise for the decryptor, whatever the process-wide `static t` holds: every message is decrypted and
judged by itself.  Missing: other lengths, where it is false (`C90_decrypt_carries_over_violated`). -/
theorem C90_decrypt_whole_partial (PAR : Nat) (hP : 0 < PAR) (as : List GMsg) (h : ModeObj St) (hb : h.buf = [])
    (hh : h.st.hash.buf = []) (hs : h.st.stat.length = 16) (hw : ∀ a ∈ as, a.len % 16 = 0) (ho : GHistOk [] as) :
    decHist PAR h as = .ok (decExpected as) := by
  rw [C90_decrypt_exact PAR hP as h (by rw [hb]; simp) hh hs (by rw [hb]; exact ho), hb]
  congr 1
  generalize h.st.stat = pad
  induction as generalizing pad with
  | nil => rfl
  | cons a as ih =>
    obtain ⟨-, -, -, h4, h5⟩ := ho
    have hl : a.text.length = a.len := rdm_len h4.1
    have hz : a.text.length % 16 = 0 := by rw [hl]; exact hw a (by simp)
    have ht : tail 16 a.text = [] := gtail_nil hz
    rw [List.nil_append, ht] at h5
    have htag : tagWith a.E a.iv a.aad a.text pad = Spec.Gcm.tag a.E a.iv a.aad a.text := by
      unfold tagWith Spec.Gcm.tag pad16
      rw [hz]; simp
    simp only [decActual, List.nil_append, ht, decExpected, List.map_cons, htag]
    rw [ih (fun x hx => hw x (List.mem_cons_of_mem _ hx)) h5]
    rfl

theorem gtail_len {a : GMsg} (h : a.text.length = a.len) : (tail 16 a.text).length = a.len % 16 := by
  unfold tail
  rw [List.length_drop, h]
  omega

/-- C90 fails for the encryptor, for every cipher and every pair of messages the first of which is not whole blocks (finished
or abandoned): the second message is encrypted with the plaintext tail of the first in front, under its own key, and the
caller is told to have received that many octets more. -/
theorem C90_encrypt_carries_over_violated (PAR : Nat) (hP : 0 < PAR) (h : ModeObj St) (hb : h.buf = [])
    (hh : h.st.hash.buf = []) (a a' : GMsg) (hr : a.len % 16 ≠ 0) (hl : a'.last.isSome) (ho : GHistOk [] [a, a']) :
    (∃ r, encHist PAR h [a, a'] = .ok [r, (wrm a'.m a'.o (ciphertext a'.E a'.iv (tail 16 a.text ++ a'.text)),
        a'.o + (a.len % 16 + a'.len),
        Spec.Gcm.tag a'.E a'.iv a'.aad (ciphertext a'.E a'.iv (tail 16 a.text ++ a'.text)))]) ∧
      (tail 16 a.text).length = a.len % 16 ∧ encHist PAR h [a, a'] ≠ .ok (encExpected [a, a']) := by
  have hx := C90_encrypt_exact PAR hP [a, a'] h (by rw [hb]; simp) hh (by rw [hb]; exact ho)
  have hlen : a.text.length = a.len := rdm_len ho.2.2.2.1.1
  have hlen' : a'.text.length = a'.len := rdm_len ho.2.2.2.2.2.2.2.1.1
  have htl := gtail_len hlen
  simp only [encActual, hb, List.nil_append] at hx
  rw [encEffect.eq_def a', if_pos hl, List.length_append, htl, hlen'] at hx
  refine ⟨⟨_, hx⟩, htl, ?_⟩
  rw [hx]
  intro e
  have e := Outcome.ok.inj e
  simp only [encExpected, List.map_cons, List.map_nil] at e
  have e2 := (List.cons.inj (List.cons.inj e).2).1
  unfold encEffect at e2
  rw [if_pos hl] at e2
  have := congrArg (fun x => x.2.1) e2
  dsimp only at this
  omega

/-- C90 fails for the decryptor, for every cipher and every pair of messages the first of which is not whole blocks: a second
message that is genuine is never handled as it should be — it is rejected, or reported longer than it is. -/
theorem C90_decrypt_carries_over_violated (PAR : Nat) (hP : 0 < PAR) (h : ModeObj St) (hb : h.buf = [])
    (hh : h.st.hash.buf = []) (hs : h.st.stat.length = 16) (a a' : GMsg) (hr : a.len % 16 ≠ 0) (hl : a'.last.isSome)
    (hg : a'.tag = Spec.Gcm.tag a'.E a'.iv a'.aad a'.text) (ho : GHistOk [] [a, a']) :
    (∃ r cur rej, decHist PAR h [a, a'] = .ok [r, (wrm a'.m a'.o (ciphertext a'.E a'.iv (tail 16 a.text ++ a'.text)), cur, rej)] ∧
      (rej = false → cur = a'.o + (a.len % 16 + a'.len))) ∧
      decHist PAR h [a, a'] ≠ .ok (decExpected [a, a']) := by
  have hx := C90_decrypt_exact PAR hP [a, a'] h (by rw [hb]; simp) hh hs (by rw [hb]; exact ho)
  have hlen : a.text.length = a.len := rdm_len ho.2.2.2.1.1
  have hlen' : a'.text.length = a'.len := rdm_len ho.2.2.2.2.2.2.2.1.1
  have htl := gtail_len hlen
  simp only [decActual, hb, List.nil_append] at hx
  generalize hT : tagWith a'.E a'.iv a'.aad (tail 16 a.text ++ a'.text)
    (if a.last.isSome = true then a.E (J0 a.E a.iv) else h.st.stat) = T at hx
  rw [decEffect.eq_def a', if_pos hl, List.length_append, htl, hlen'] at hx
  constructor
  · refine ⟨_, _, _, hx, ?_⟩
    intro hd
    have : T = a'.tag := by simpa using hd
    rw [if_pos this]
  · rw [hx]
    intro e
    have e := Outcome.ok.inj e
    simp only [decExpected, List.map_cons, List.map_nil] at e
    have e2 := (List.cons.inj (List.cons.inj e).2).1
    rw [decEffect.eq_def a', if_pos hl, ← hg] at e2
    simp only [Prod.mk.injEq, if_true, ne_eq, decide_eq_decide, not_true_eq_false, not_not, iff_false] at e2
    rw [if_pos e2.2.2] at e2
    omega

/-- Without an exception `decFinX` is the `final_block` of C14, and it reports a rejection when that throws. -/
theorem C90_final_agrees (C : BCipher) (s : St) (m : Mem) (inp : List Byte) (o : Nat) :
    decFin C s m inp o = (decFinX C s m inp o >>= fun r => if r.2.2 then .throw else .ok (r.1, r.2.1)) := by
  unfold decFin decFinX
  simp only [bind_assoc, Outcome.ok_bind]
  congr 1
  funext x
  congr 1
  funext y
  congr 1
  funext z
  by_cases ht : xorBytes z.2 (C.E x.1.counter0) = x.1.tag
  · simp [ht]
  · simp [ht]

/-- `msgRunX` of an encryptor is the caller of C13 (`streamRun`). -/
theorem C90_run_agrees (C : BCipher) (n : Nat) : ∀ (ns : List Nat) (h : ModeObj St) (m : Mem) (o i : Nat),
    (msgRunX (encUpd C) (encFinX C) (some n) h m o i ns >>= fun r => .ok (r.1, r.2.1, r.2.2.1)) =
      streamRun 16 (encImpl C) true h m o i ns n 0 := by
  have hu : ∀ h m o i k, modeUpdate 16 (⟨encUpd C, fun _ _ _ _ => .ub⟩ : ModeImpl St) h m o i k 0 =
      modeUpdate 16 (encImpl C) h m o i k 0 := fun _ _ _ _ _ => rfl
  have any : ∀ (ns : List Nat) (h : ModeObj St) (m : Mem) (o i outl : Nat),
    (msgRunX (encUpd C) (encFinX C) (some n) h m o i ns >>= fun r => .ok (r.1, r.2.1, r.2.2.1)) =
      streamRun 16 (encImpl C) true h m o i ns n outl := by
    intro ns
    induction ns with
    | nil =>
      intro h m o i outl
      simp only [msgRunX, finalX, streamRun, modeFinal, encFinX, bind_assoc, Outcome.ok_bind, hu]
      congr 1
    | cons k ns ih =>
      intro h m o i outl
      simp only [msgRunX, streamRun, bind_assoc, hu]
      congr 1
      funext r
      exact ih _ _ _ _ _
  exact fun ns h m o i => any ns h m o i 0

/-- Three messages of whole blocks, the second abandoned, meet the hypotheses of the partial theorems. -/
example : GHistOk [] [⟨toy16.E, zeros 12, [9], [], List.replicate 40 7, 0, 0, [3, 12], some 1⟩,
    ⟨toy16.E, [1], [], [], List.replicate 40 7, 20, 0, [16], none⟩,
    ⟨toy16.E, zeros 12, [9], [], List.replicate 70 7, 33, 0, [], some 32⟩] ∧
    (∀ a ∈ ([⟨toy16.E, zeros 12, [9], [], List.replicate 40 7, 0, 0, [3, 12], some 1⟩,
    ⟨toy16.E, [1], [], [], List.replicate 40 7, 20, 0, [16], none⟩,
    ⟨toy16.E, zeros 12, [9], [], List.replicate 70 7, 33, 0, [], some 32⟩] : List GMsg), a.len % 16 = 0) := by
  refine ⟨⟨toy16_len, by decide, by decide, ⟨by decide, by decide, Or.inr (Or.inr ⟨rfl, rfl⟩)⟩, toy16_len, by decide, by decide,
    ⟨by decide, by decide, Or.inl (by decide)⟩, toy16_len, by decide, by decide, ⟨by decide, by decide, Or.inl (by decide)⟩,
    trivial⟩, ?_⟩
  intro a ha
  simp only [List.mem_cons, List.not_mem_nil, or_false] at ha
  rcases ha with rfl | rfl | rfl <;> decide

/-- Five octets, then a genuine message of one octet under another IV: the hypotheses of the `violated` theorems are met. -/
example : GHistOk [] [⟨toy16.E, zeros 12, [9], [], List.replicate 40 7, 20, 0, [3], some 2⟩,
    ⟨toy16.E, zeros 12, [9], goodTag, [5, 0, 0, 0, 0, 0, 0], 1, 0, [], some 1⟩] ∧
    goodTag = Spec.Gcm.tag toy16.E (zeros 12) [9]
      (GMsg.text ⟨toy16.E, zeros 12, [9], goodTag, [5, 0, 0, 0, 0, 0, 0], 1, 0, [], some 1⟩) := by
  refine ⟨⟨toy16_len, by decide, by decide, ⟨by decide, by decide, Or.inl (by decide)⟩, toy16_len, by decide, by decide,
    ⟨by decide, by decide, Or.inl (by decide)⟩, trivial⟩, by decide +kernel⟩

end Verif.Props
