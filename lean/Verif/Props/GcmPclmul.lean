import Verif.Proofs.GcmPclmul
import Verif.Props.Gcm
import Verif.Props.AesNi
import Verif.Props.Sm4Avx2
/-!
# C87: GCM in the build with carry-less multiplication

The two builds of the GCM classes show the same to every caller, over every history of calls on an object; so C13, C14, C71 and
C73 hold of the hardware build too.
-/
namespace Verif.Props
open Verif Verif.Spec Verif.Spec.Modes Verif.Spec.Gcm

/-- A call on a `GcmEncryptor` or `GcmDecryptor`.  `init` names the cipher under the key it installs; `update` and `final` name
offsets in the caller's memory, the length, and what `*outl` holds; `setTag` is for decryptors, `getTag` for encryptors; `store` is
the caller writing to its own memory between calls. -/
inductive GcmCall where
  | init (C : BCipher) (iv aad : List Byte)
  | setTag (tag : List Byte)
  | update (o i n outl : Nat)
  | final (o i n outl : Nat)
  | getTag
  | store (o : Nat) (data : List Byte)

/-- What the caller sees of a call: its whole memory and `*outl`, or the tag. -/
inductive GcmSeen where
  | wrote (m : Mem) (outl : Nat)
  | tag (t : List Byte)
deriving DecidableEq

/-- A build of one of the two classes. -/
structure GcmBuild (S : Type) where
  init : (List Byte → List Byte) → ModeObj S → List Byte → List Byte → Outcome (ModeObj S)
  setTag : ModeObj S → List Byte → ModeObj S
  impl : BCipher → ModeImpl S
  tag : S → List Byte

/-- Everything the caller sees of a history of calls on one object, up to the first exception. -/
def GcmBuild.run {S : Type} (B : GcmBuild S) : List GcmCall → BCipher → ModeObj S → Mem → Outcome (List GcmSeen)
  | [], _, _, _ => .ok []
  | .init C iv aad :: cs, _, h, m => do
    let h ← B.init C.E h iv aad
    B.run cs C h m
  | .setTag t :: cs, C, h, m => B.run cs C (B.setTag h t) m
  | .update o i n outl :: cs, C, h, m => do
    let r ← modeUpdate 16 (B.impl C) h m o i n outl
    let l ← B.run cs C r.1 r.2.1
    .ok (.wrote r.2.1 r.2.2 :: l)
  | .final o i n outl :: cs, C, h, m => do
    let r ← modeFinal 16 (B.impl C) h m o i n outl
    let l ← B.run cs C r.1 r.2.1
    .ok (.wrote r.2.1 r.2.2 :: l)
  | .getTag :: cs, C, h, m => do
    let l ← B.run cs C h m
    .ok (.tag (B.tag h.st) :: l)
  | .store o d :: cs, C, h, m => B.run cs C h (wrm m o d)

def encLut : GcmBuild Gcm.St := ⟨Gcm.encInit, Gcm.setTag, Gcm.encImpl, (·.tag)⟩
def encPcl : GcmBuild GcmPclmul.St := ⟨GcmPclmul.encInit, GcmPclmul.setTag, GcmPclmul.encImpl, (·.tag)⟩
def decLut : GcmBuild Gcm.St := ⟨Gcm.decInit, Gcm.setTag, Gcm.decImpl, (·.tag)⟩
def decPcl : GcmBuild GcmPclmul.St := ⟨GcmPclmul.decInit, GcmPclmul.setTag, GcmPclmul.decImpl, (·.tag)⟩

/-- Every cipher that `init` installs maps 16 octets to 16 octets. -/
def CiphersOk (cs : List GcmCall) : Prop := ∀ C iv aad, GcmCall.init C iv aad ∈ cs → LenOk 16 C.E

namespace GcmPclAux
open GcmPclmul GhashPclmul

theorem zeros_E {E : List Byte → List Byte} (h : LenOk 16 E) : (E (Gcm.zeros 16)).length = 16 := h _ (List.length_replicate ..)

theorem out_eq {α β γ : Type} {R : α → β → Prop} {a : Outcome α} {b : Outcome β} {f : α → Outcome γ} {g : β → Outcome γ}
    (h : OutSim R a b) (hf : ∀ x y, R x y → f x = g y) : (a >>= f) = (b >>= g) := by
  cases a <;> cases b <;> first | exact h.elim | rfl | exact hf _ _ h

theorem run_sim {A : GcmBuild GcmPclmul.St} {B : GcmBuild Gcm.St}
    (hinit : ∀ E : List Byte → List Byte, LenOk 16 E → ∀ h g iv aad, MSim StSim h g → OutSim (MSim StSim) (A.init E h iv aad) (B.init E g iv aad))
    (htag : ∀ h g t, MSim StSim h g → MSim StSim (A.setTag h t) (B.setTag g t))
    (himpl : ∀ C, ImplSim (A.impl C) (B.impl C)) (hget : ∀ s t, StSim s t → A.tag s = B.tag t) (cs : List GcmCall) :
    ∀ C h g m, CiphersOk cs → MSim StSim h g → A.run cs C h m = B.run cs C g m := by
  induction cs with
  | nil => intros; rfl
  | cons c cs ih =>
    intro C h g m hk hs
    have hk' : CiphersOk cs := fun C iv aad hm => hk C iv aad (List.mem_cons_of_mem _ hm)
    cases c with
    | init C' iv aad => exact out_eq (hinit C'.E (hk C' iv aad List.mem_cons_self) h g iv aad hs) fun x y hxy => ih _ _ _ _ hk' hxy
    | setTag t => exact ih _ _ _ _ hk' (htag h g t hs)
    | update o i n outl =>
      refine out_eq (sim_modeUpdate (himpl C) hs m o i n outl) ?_
      rintro ⟨x, m, l⟩ ⟨y, m', l'⟩ ⟨e1, e2⟩
      dsimp only at *
      cases e2
      rw [ih _ _ _ _ hk' e1]
    | final o i n outl =>
      refine out_eq (sim_modeFinal (himpl C) hs m o i n outl) ?_
      rintro ⟨x, m, l⟩ ⟨y, m', l'⟩ ⟨e1, e2⟩
      dsimp only at *
      cases e2
      rw [ih _ _ _ _ hk' e1]
    | getTag =>
      show (A.run cs C h m >>= fun l => Outcome.ok (GcmSeen.tag (A.tag h.st) :: l)) =
        (B.run cs C g m >>= fun l => Outcome.ok (GcmSeen.tag (B.tag g.st) :: l))
      rw [ih _ _ _ _ hk' hs, hget _ _ hs.2]
    | store o d => exact ih _ _ _ _ hk' hs

theorem set_sim (h : ModeObj GcmPclmul.St) (g : ModeObj Gcm.St) (t : List Byte) (hs : MSim StSim h g) :
    MSim StSim (GcmPclmul.setTag h t) (Gcm.setTag g t) :=
  ⟨hs.1, hs.2.1, hs.2.2.1, hs.2.2.2.1, hs.2.2.2.2.1, hs.2.2.2.2.2.1, rfl, hs.2.2.2.2.2.2.2⟩

theorem fresh_pre (j : GcmPclmul.St) (k : Gcm.St) (stat : List Byte) (ht : j.tag = k.tag) :
    MSim PreSim (GcmPclmul.fresh j stat) (Gcm.fresh k stat) := ⟨rfl, rfl, ht, rfl⟩

/-- A stream on related objects. -/
theorem stream_sim {I : ModeImpl GcmPclmul.St} {J : ModeImpl Gcm.St} (h : ImplSim I J) (ns : List Nat) :
    ∀ (a : ModeObj GcmPclmul.St) (b : ModeObj Gcm.St) (m : Mem) (o i last outl : Nat), MSim StSim a b →
      OutSim OM (streamRun 16 I true a m o i ns last outl) (streamRun 16 J true b m o i ns last outl) := by
  induction ns with
  | nil =>
    intro a b m o i last outl hs
    unfold streamRun
    refine OutSim.bind (sim_modeFinal h hs m o i last _) ?_
    rintro ⟨x, m, l⟩ ⟨y, m', l'⟩ ⟨e1, e2⟩
    dsimp only at *
    cases e2
    exact ⟨e1, rfl⟩
  | cons n ns ih =>
    intro a b m o i last outl hs
    unfold streamRun
    refine OutSim.bind (sim_modeUpdate h hs m o i n _) ?_
    rintro ⟨x, m, l⟩ ⟨y, m', l'⟩ ⟨e1, e2⟩
    dsimp only at *
    cases e2
    exact ih _ _ _ _ _ _ _ e1

theorem out_throw {α β : Type} {R : α → β → Prop} {a : Outcome α} {b : Outcome β} (h : OutSim R a b) (e : b = .throw) : a = .throw := by
  subst e
  cases a <;> first | rfl | exact h.elim

theorem out_ok {α β : Type} {R : α → β → Prop} {a : Outcome α} {b : Outcome β} (h : OutSim R a b) {y : β} (e : b = .ok y) :
    ∃ x, a = .ok x ∧ R x y := by
  subst e
  cases a <;> first | exact ⟨_, rfl, h⟩ | exact h.elim

end GcmPclAux
open GcmPclAux GcmPclmul GhashPclmul

/-- C87: a new encryptor of either build, put through any history of calls that begins with `init` — several messages, keys
and IVs, `init` in the middle of a message, updates after `do_final`, any offsets and lengths, overlapping buffers — writes
the same octets and lengths, reports the same tags, and throws or misbehaves at the same call. -/
theorem C87_encryptor_same (C : BCipher) (hC : LenOk 16 C.E) (iv aad : List Byte) (cs : List GcmCall) (hk : CiphersOk cs)
    (j : GcmPclmul.St) (k : Gcm.St) (stat : List Byte) (C0 C0' : BCipher) (m : Mem) :
    encPcl.run (.init C iv aad :: cs) C0 (GcmPclmul.fresh j stat) m = encLut.run (.init C iv aad :: cs) C0' (Gcm.fresh k stat) m := by
  have hp : MSim PreSim ⟨[], { j with hash := ⟨[], j.hash.st⟩, stat := stat, tag := k.tag }⟩ (Gcm.fresh k stat) := ⟨rfl, rfl, rfl, rfl⟩
  have e : GcmPclmul.encInit C.E (GcmPclmul.fresh j stat) iv aad =
      GcmPclmul.encInit C.E ⟨[], { j with hash := ⟨[], j.hash.st⟩, stat := stat, tag := k.tag }⟩ iv aad := rfl
  show (GcmPclmul.encInit C.E (GcmPclmul.fresh j stat) iv aad >>= _) = (Gcm.encInit C.E (Gcm.fresh k stat) iv aad >>= _)
  rw [e]
  refine out_eq (sim_encInit (zeros_E hC) hp iv aad) fun x y hxy => ?_
  exact run_sim (A := encPcl) (B := encLut)
    (fun E hE h g iv aad hs => sim_encInit (zeros_E hE) ⟨hs.1, hs.2.pre⟩ iv aad) set_sim sim_enc
    (fun s t h => h.2.2.2.2.2.1) cs C x y m hk hxy

/-- C87: the same for decryptors whose first two calls are `init` and `set_tag` (the tag is indeterminate before), in a process
whose static `t` holds anything. -/
theorem C87_decryptor_same (C : BCipher) (hC : LenOk 16 C.E) (iv aad tag : List Byte) (cs : List GcmCall) (hk : CiphersOk cs)
    (j : GcmPclmul.St) (k : Gcm.St) (stat : List Byte) (C0 C0' : BCipher) (m : Mem) :
    decPcl.run (.init C iv aad :: .setTag tag :: cs) C0 (GcmPclmul.fresh j stat) m =
      decLut.run (.init C iv aad :: .setTag tag :: cs) C0' (Gcm.fresh k stat) m := by
  have hp : MSim PreSim (GcmPclmul.fresh { j with tag := k.tag } stat) (Gcm.fresh k stat) := ⟨rfl, rfl, rfl, rfl⟩
  have e : (GcmPclmul.decInit C.E (GcmPclmul.fresh j stat) iv aad >>= fun h => decPcl.run (.setTag tag :: cs) C h m) =
      (GcmPclmul.decInit C.E (GcmPclmul.fresh { j with tag := k.tag } stat) iv aad >>= fun h => decPcl.run (.setTag tag :: cs) C h m) := by
    unfold GcmPclmul.decInit
    split
    · rfl
    · simp only [bind_assoc]
      rfl
  show (GcmPclmul.decInit C.E (GcmPclmul.fresh j stat) iv aad >>= _) = (Gcm.decInit C.E (Gcm.fresh k stat) iv aad >>= _)
  refine e.trans ?_
  refine out_eq (sim_decInit (zeros_E hC) hp iv aad) fun x y hxy => ?_
  exact run_sim (A := decPcl) (B := decLut)
    (fun E hE h g iv aad hs => sim_decInit (zeros_E hE) ⟨hs.1, hs.2.pre⟩ iv aad) set_sim sim_dec
    (fun s t h => h.2.2.2.2.2.1) (.setTag tag :: cs) C x y m (by
      intro C' iv aad hm
      rcases List.mem_cons.mp hm with h | h
      · cases h
      · exact hk C' iv aad h) hxy

/-- C87: encryption in the carry-less-multiplication build is GCM (SP 800-38D), for every cipher, every IV and AAD, however the
plaintext is cut into pieces, in place or not; over-long inputs throw. -/
theorem C87_encrypt {C : BCipher} (hBS : C.BS = 16) (hP : 0 < C.PAR) (hE : LenOk 16 C.E) (junk : GcmPclmul.St)
    (stat iv aad : List Byte) (m : Mem) (o i : Nat) (ns : List Nat) (last outl : Nat)
    (hp : StreamPlaced true 0 m o i ns last) :
    let run := GcmPclmul.encInit C.E (GcmPclmul.fresh junk stat) iv aad >>= fun h =>
      streamRun 16 (GcmPclmul.encImpl C) true h m o i ns last outl
    let ct := ciphertext C.E iv (rdm m i (ns.sum + last))
    if aad.length ≤ (2 ^ 64 - 1) / 8 ∧ ns.sum + last ≤ (2 ^ 64 - 1) / 8 then
      ∃ h', run = .ok (h', wrm m o ct, o + (ns.sum + last)) ∧ h'.st.tag = Spec.Gcm.tag C.E iv aad ct
    else run = .throw := by
  intro run ct
  have h := C13_gcm_encrypt hBS hP hE ⟨[], [], ⟨[], ⟨[], (0, 0)⟩⟩, 0, 0, junk.tag, []⟩ stat iv aad m o i ns last outl hp
  dsimp only at h
  have hs : OutSim OM run (Gcm.encInit C.E (Gcm.fresh ⟨[], [], ⟨[], ⟨[], (0, 0)⟩⟩, 0, 0, junk.tag, []⟩ stat) iv aad >>= fun h =>
      streamRun 16 (Gcm.encImpl C) true h m o i ns last outl) :=
    OutSim.bind (sim_encInit (zeros_E hE) (fresh_pre _ _ _ rfl) iv aad) fun x y hxy => stream_sim (sim_enc C) ns _ _ _ _ _ _ _ hxy
  split
  · rename_i hc
    rw [if_pos hc] at h
    obtain ⟨h', e1, e2⟩ := h
    obtain ⟨⟨x, y⟩, e3, e4, e5⟩ := out_ok hs e1
    dsimp only at e4 e5
    subst e5
    exact ⟨x, e3, by rw [e4.2.2.2.2.2.2.1, e2]⟩
  · rename_i hc
    rw [if_neg hc] at h
    exact out_throw hs h

/-- C87 (partial, as C14 is: ragged ciphertexts only in a process that has not decrypted before): decryption in the
carry-less-multiplication build returns the plaintext exactly when the tag is genuine, and throws otherwise. -/
theorem C87_decrypt_partial {C : BCipher} (hBS : C.BS = 16) (hP : 0 < C.PAR) (hE : LenOk 16 C.E) (junk : GcmPclmul.St)
    (stat iv aad t : List Byte) (m : Mem) (o i : Nat) (ns : List Nat) (last outl : Nat)
    (hp : StreamPlaced true 0 m o i ns last) (hs : stat.length = 16)
    (hstat : stat = List.replicate 16 0 ∨ (ns.sum + last) % 16 = 0)
    (ha : aad.length ≤ (2 ^ 64 - 1) / 8) (hlen : ns.sum + last < 2 ^ 64) :
    let run := GcmPclmul.decInit C.E (GcmPclmul.fresh junk stat) iv aad >>= fun h =>
      streamRun 16 (GcmPclmul.decImpl C) true (GcmPclmul.setTag h t) m o i ns last outl
    let ct := rdm m i (ns.sum + last)
    (∀ pt, Spec.Gcm.decrypt C.E iv aad ct t = some pt → ∃ h', run = .ok (h', wrm m o pt, o + (ns.sum + last))) ∧
    (Spec.Gcm.decrypt C.E iv aad ct t = none → run = .throw) := by
  intro run ct
  obtain ⟨h1, h2⟩ := C14_gcm_decrypt_partial hBS hP hE ⟨[], [], ⟨[], ⟨[], (0, 0)⟩⟩, 0, 0, junk.tag, []⟩ stat iv aad t m o i ns last outl
    hp hs hstat ha hlen
  have hs : OutSim OM run (gcmDecrypt C ⟨[], [], ⟨[], ⟨[], (0, 0)⟩⟩, 0, 0, junk.tag, []⟩ stat iv aad t m o i ns last outl) :=
    OutSim.bind (sim_decInit (zeros_E hE) (fresh_pre _ _ _ rfl) iv aad) fun x y hxy =>
      stream_sim (sim_dec C) ns _ _ _ _ _ _ _ (set_sim _ _ t hxy)
  refine ⟨fun pt hpt => ?_, fun hn => out_throw hs (h2 hn)⟩
  obtain ⟨h', e1⟩ := h1 pt hpt
  obtain ⟨⟨x, y⟩, e3, e4, e5⟩ := out_ok hs e1
  dsimp only at e5
  subst e5
  exact ⟨x, e3⟩

/-- C87 violated, as C14: in this build too a second decryption in the same process rejects a genuine ragged message and
accepts it under another tag. -/
theorem C87_second_decryption_violated :
    Spec.Gcm.decrypt toy16.E (List.replicate 12 0) [9] [5] goodTag = some [6] ∧
    Spec.Gcm.decrypt toy16.E (List.replicate 12 0) [9] [5] badTag = none ∧
    ∀ (C0 : BCipher) (j : GcmPclmul.St), ∃ left : List Byte,
      (decPcl.run [.init toy16 (List.replicate 12 0) [9], .setTag goodTag, .final 1 0 1 0] C0 (GcmPclmul.fresh j (List.replicate 16 0)) [5, 0] =
        .ok [.wrote [5, 6] 1]) ∧
      (decPcl.run [.init toy16 (List.replicate 12 0) [9], .setTag goodTag, .final 1 0 1 0] C0 (GcmPclmul.fresh j left) [5, 0] = .throw) ∧
      (decPcl.run [.init toy16 (List.replicate 12 0) [9], .setTag badTag, .final 1 0 1 0] C0 (GcmPclmul.fresh j left) [5, 0] =
        .ok [.wrote [5, 6] 1]) := by
  refine ⟨by decide +kernel, by decide +kernel, fun C0 j => ⟨toy16.E (J0 toy16.E (List.replicate 12 0)), ?_, ?_, ?_⟩⟩
  all_goals
    rw [C87_decryptor_same toy16 toy16_len _ _ _ _ (by intro C iv aad h; simp at h) j junk0 _ C0 toy16]
    decide +kernel

/-- C87: all hardware paths together — AES-NI and carry-less multiplication: AES-GCM of the standards. -/
theorem C87_aesni_gcm (bits : Nat) (key : List Byte) (ek dk : List AesNi.M128) (hr : AesniReady bits key ek dk)
    (junk : GcmPclmul.St) (stat iv aad : List Byte) (m : Mem)
    (o i : Nat) (ns : List Nat) (last outl : Nat) (hp : StreamPlaced true 0 m o i ns last)
    (ha : aad.length ≤ (2 ^ 64 - 1) / 8) (hl : ns.sum + last ≤ (2 ^ 64 - 1) / 8) :
    let ct := Spec.Gcm.ciphertext (AES.encrypt (bits / 32) key) iv (rdm m i (ns.sum + last))
    ∃ h', (GcmPclmul.encInit (AesNi.cipher bits ek dk).E (GcmPclmul.fresh junk stat) iv aad >>= fun h =>
        streamRun 16 (GcmPclmul.encImpl (AesNi.cipher bits ek dk)) true h m o i ns last outl) =
          .ok (h', wrm m o ct, o + (ns.sum + last)) ∧
      h'.st.tag = Spec.Gcm.tag (AES.encrypt (bits / 32) key) iv aad ct := by
  have ok := aesni_cipher_ok bits key ek dk hr
  have h := C87_encrypt (C := AesNi.cipher bits ek dk) rfl ok.par ok.lenE junk stat iv aad m o i ns last outl hp
  have ag : Agree 16 (AesNi.cipher bits ek dk).E (AES.encrypt (bits / 32) key) := fun x hx => (hr x hx).1
  dsimp only at h
  rw [if_pos ⟨ha, hl⟩, Gcm.ciphertext_congr ag, Gcm.tag_congr ag] at h
  exact h

/-- C87: AVX2 and carry-less multiplication: SM4-GCM. -/
theorem C87_sm4_avx2_gcm (key : List Byte) (hk : key.length = 16) (junk : GcmPclmul.St) (stat iv aad : List Byte) (m : Mem)
    (o i : Nat) (ns : List Nat) (last outl : Nat) (hp : StreamPlaced true 0 m o i ns last)
    (ha : aad.length ≤ (2 ^ 64 - 1) / 8) (hl : ns.sum + last ≤ (2 ^ 64 - 1) / 8) :
    let ct := Spec.Gcm.ciphertext (SM4.encrypt key) iv (rdm m i (ns.sum + last))
    ∃ h', (GcmPclmul.encInit (Sm4.Avx2.cipher key).E (GcmPclmul.fresh junk stat) iv aad >>= fun h =>
        streamRun 16 (GcmPclmul.encImpl (Sm4.Avx2.cipher key)) true h m o i ns last outl) =
          .ok (h', wrm m o ct, o + (ns.sum + last)) ∧
      h'.st.tag = Spec.Gcm.tag (SM4.encrypt key) iv aad ct := by
  have h := C87_encrypt (C := Sm4.Avx2.cipher key) rfl (Sm4.Avx2.cipher_ok key).par (Sm4.Avx2.cipher_ok key).lenE
    junk stat iv aad m o i ns last outl hp
  dsimp only at h
  rw [if_pos ⟨ha, hl⟩, show (Sm4.Avx2.cipher key).E = (Sm4.cipher key).E from rfl,
    Gcm.ciphertext_congr (sm4_agreeE key hk), Gcm.tag_congr (sm4_agreeE key hk)] at h
  exact h

/-- A history with a message in two pieces, its tag, and a second message under another key begun without finishing the
first; the table build runs through it. -/
example : ∃ l, l.length = 4 ∧ encLut.run [.init toy16 (List.replicate 12 0) [9], .update 8 0 5 0, .final 8 5 3 0, .getTag,
    .store 0 [1, 2, 3], .init ⟨16, 1, fun x => x.map (· + 1), fun x => x.map (· - 1)⟩ [4] [], .update 8 0 4 0] toy16
      (Gcm.fresh junk0 (Gcm.zeros 16)) (List.replicate 64 7) = .ok l := by
  have h : (match encLut.run [.init toy16 (List.replicate 12 0) [9], .update 8 0 5 0, .final 8 5 3 0, .getTag,
    .store 0 [1, 2, 3], .init ⟨16, 1, fun x => x.map (· + 1), fun x => x.map (· - 1)⟩ [4] [], .update 8 0 4 0] toy16
      (Gcm.fresh junk0 (Gcm.zeros 16)) (List.replicate 64 7) with | .ok l => l.length | _ => 0) = 4 := by decide +kernel
  revert h
  generalize encLut.run _ _ _ _ = x
  cases x with
  | ok l => exact fun h => ⟨l, h, rfl⟩
  | throw => exact fun h => absurd h (by decide)
  | ub => exact fun h => absurd h (by decide)

end Verif.Props
