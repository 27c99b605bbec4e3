import Verif.Proofs.GcmMem
import Verif.Props.Gcm
/-!
# C109: GCM objects on shared buffers

`run` (Model/GcmMem.lean) executes a program over any number of encryptors and decryptors and one memory.  `GSpec.run`
(Spec/GcmMem.lean) says what it does in terms of SP 800-38D, each object being the octets passed to it; `GSpec.ideal` is what a
user expects.
-/
namespace Verif.Props
open Verif Verif.GcmMem Spec Spec.Modes Spec.Gcm Verif.Gcm

/-- **C109.**  Any number of new encryptors and decryptors, any interleaving of the caller's stores with calls on them, keys,
IVs, associated data, tags, inputs and outputs anywhere in one memory: if the caller stays inside the memory, begins every
message and processes in place or apart, no call does anything undefined, the memory ends as SP 800-38D says, and every
length and verdict is what `GSpec` says: encryptors do not see one another or the decryptors, and a decryptor judges with the
octets that the last finished decryption of *any* decryptor has left behind. -/
theorem C109_history (c : Cls) (hc : ClsOk c) (xs : List Call) (m : Mem) (enc dec : Nat → Obj) (pad : List Byte)
    (hn : ∀ k, (enc k).obj.buf = [] ∧ (enc k).obj.st.hash.buf = [] ∧ (dec k).obj.buf = [] ∧ (dec k).obj.st.hash.buf = [])
    (hp : pad.length = 16) (s' : GSpec)
    (h : GSpec.run c xs ⟨m, fun _ => .idle [], fun _ => none, fun _ => .idle [], fun _ => none, pad, []⟩ = some s') :
    ∃ w', run c xs ⟨m, enc, dec, pad, []⟩ = .ok w' ∧ w'.mem = s'.mem ∧ w'.log = s'.log := by
  have ini : ∀ at' (b : Obj), b.obj.buf = [] → b.obj.st.hash.buf = [] → ObjInv at' b (.idle []) none := fun at' b h1 h2 =>
    ⟨h2, fun t ht => (by cases ht), h1, Nat.succ_pos 15, fun E iv aad X hX => (by cases hX)⟩
  obtain ⟨w', e, i⟩ := run_ok hc xs (w := ⟨m, enc, dec, pad, []⟩)
    ⟨rfl, rfl, rfl, hp, fun k => ini _ _ (hn k).1 (hn k).2.1, fun k => ini _ _ (hn k).2.2.1 (hn k).2.2.2⟩ h
  exact ⟨w', e, i.mem, i.log⟩

theorem tagWith_whole (E : List Byte → List Byte) (iv aad ct pad pad' : List Byte) (h : ct.length % 16 = 0) :
    tagWith E iv aad ct pad = tagWith E iv aad ct pad' := by
  unfold tagWith
  rw [h]
  simp

/-- Filled up with zeros, the tag is SP 800-38D's: what `GSpec.ideal` accepts is what the standard accepts. -/
theorem C109_ideal_tag (E : List Byte → List Byte) (iv aad ct : List Byte) :
    tagWith E iv aad ct (List.replicate 16 0) = Spec.Gcm.tag E iv aad ct := by
  unfold tagWith Spec.Gcm.tag pad16
  rw [List.take_replicate, Nat.min_eq_left (by omega)]

/-- The two specifications agree on tidy steps, but for what is left behind. -/
theorem tidy_step {c : Cls} {s t t' : GSpec} (hst : ∃ p, s = { t with pad := p }) {x : Call} (ht : Tidy t x)
    (h : (t.alone x).call c x = some t') : ∃ s', s.call c x = some s' ∧ ∃ p, s' = { t' with pad := p } := by
  obtain ⟨p, rfl⟩ := hst
  cases x with
  | store q bs =>
    change GSpec.call c t (.store q bs) = some t' at h
    simp only [GSpec.call] at h ⊢
    split_ifs at h with hb
    cases h
    exact ⟨_, if_pos hb, p, rfl⟩
  | encInit k q r l a n =>
    simp only [GSpec.alone, GSpec.call, Function.update_self, Function.update_idem] at h ⊢
    simp only [Tidy] at ht
    rw [ht]
    obtain ⟨ph, hph, rfl⟩ := Option.map_eq_some_iff.1 h
    have hph : begun c t.mem [] q r l a n = some ph := hph
    rw [hph]
    exact ⟨_, rfl, p, rfl⟩
  | encUpdate k o i n =>
    change GSpec.call c t (.encUpdate k o i n) = some t' at h
    simp only [GSpec.call] at h ⊢
    cases hp : t.enc k with
    | idle l => simp [hp] at h
    | within E iv aad X =>
      simp only [hp] at h ⊢
      split_ifs at h with hf
      cases h
      exact ⟨_, if_pos hf, p, rfl⟩
  | encFinal k o i n =>
    change GSpec.call c t (.encFinal k o i n) = some t' at h
    simp only [GSpec.call] at h ⊢
    cases hp : t.enc k with
    | idle l => simp [hp] at h
    | within E iv aad X =>
      simp only [hp] at h ⊢
      split_ifs at h with hf
      cases h
      exact ⟨_, if_pos hf, p, rfl⟩
  | getTag k q =>
    change GSpec.call c t (.getTag k q) = some t' at h
    simp only [GSpec.call] at h ⊢
    cases hp : t.etag k with
    | none => simp [hp] at h
    | some g =>
      simp only [hp] at h ⊢
      split_ifs at h with hf
      cases h
      exact ⟨_, if_pos hf, p, rfl⟩
  | decInit k q r l a n =>
    simp only [GSpec.alone, GSpec.call, Function.update_self, Function.update_idem] at h ⊢
    simp only [Tidy] at ht
    rw [ht]
    obtain ⟨ph, hph, rfl⟩ := Option.map_eq_some_iff.1 h
    have hph : begun c t.mem [] q r l a n = some ph := hph
    rw [hph]
    exact ⟨_, rfl, p, rfl⟩
  | setTag k q =>
    change GSpec.call c t (.setTag k q) = some t' at h
    simp only [GSpec.call] at h ⊢
    split_ifs at h with hb
    cases h
    exact ⟨_, if_pos hb, p, rfl⟩
  | decUpdate k o i n =>
    change GSpec.call c t (.decUpdate k o i n) = some t' at h
    simp only [GSpec.call] at h ⊢
    cases hp : t.dec k with
    | idle l => simp [hp] at h
    | within E iv aad X =>
      simp only [hp] at h ⊢
      split_ifs at h with hf
      cases h
      exact ⟨_, if_pos hf, p, rfl⟩
  | decFinal k o i n =>
    change GSpec.call c { t with pad := List.replicate 16 0 } (.decFinal k o i n) = some t' at h
    simp only [GSpec.call] at h ⊢
    cases hp : t.dec k with
    | idle l => simp [hp] at h
    | within E iv aad X =>
      cases hg : t.dtag k with
      | none => simp [hp, hg] at h
      | some g =>
        simp only [hp, hg] at h ⊢
        rw [Option.ite_none_right_eq_some] at h
        obtain ⟨hf, h⟩ := h
        simp only [Tidy, hp] at ht
        have hz : (X ++ rdm t.mem i n).length % 16 = 0 := by rw [List.length_append, rdm_len hf.1]; exact ht
        rw [tagWith_whole E iv aad _ (List.replicate 16 0) p hz] at h
        cases h
        exact ⟨_, if_pos hf, _, rfl⟩

/-- **C109** (partial): if every message is begun with nothing left over of the one before and every decryption is finished
at whole blocks, a program does what the user expects, whatever earlier decryptions in the process have left behind.
Missing: other lengths, where it is false (`C109_other_decryptor_violated`). -/
theorem C109_alone_partial (c : Cls) (hc : ClsOk c) (xs : List Call) (m : Mem) (enc dec : Nat → Obj) (pad : List Byte)
    (hn : ∀ k, (enc k).obj.buf = [] ∧ (enc k).obj.st.hash.buf = [] ∧ (dec k).obj.buf = [] ∧ (dec k).obj.st.hash.buf = [])
    (hp : pad.length = 16) (s' : GSpec)
    (ht : TidyRun c xs ⟨m, fun _ => .idle [], fun _ => none, fun _ => .idle [], fun _ => none, List.replicate 16 0, []⟩)
    (h : GSpec.ideal c xs ⟨m, fun _ => .idle [], fun _ => none, fun _ => .idle [], fun _ => none, List.replicate 16 0, []⟩ =
      some s') :
    ∃ w', run c xs ⟨m, enc, dec, pad, []⟩ = .ok w' ∧ w'.mem = s'.mem ∧ w'.log = s'.log := by
  have key : ∀ (xs : List Call) (s t t' : GSpec), (∃ p, s = { t with pad := p }) → TidyRun c xs t →
      GSpec.ideal c xs t = some t' → ∃ s', GSpec.run c xs s = some s' ∧ ∃ p, s' = { t' with pad := p } := by
    intro xs
    induction xs with
    | nil =>
      intro s t t' hs _ h
      cases h
      exact ⟨s, rfl, hs⟩
    | cons x xs ih =>
      intro s t t' hs ht h
      simp only [GSpec.ideal, Option.bind_eq_some_iff] at h
      obtain ⟨t1, h1, h2⟩ := h
      obtain ⟨s1, e1, hs1⟩ := tidy_step hs ht.1 h1
      obtain ⟨s', e, hs'⟩ := ih s1 t1 t' hs1 (ht.2 t1 h1) h2
      exact ⟨s', by simp only [GSpec.run]; rw [e1]; exact e, hs'⟩
  obtain ⟨s1, e, p, rfl⟩ := key xs ⟨m, fun _ => .idle [], fun _ => none, fun _ => .idle [], fun _ => none, pad, []⟩ _ s'
    ⟨pad, rfl⟩ ht h
  obtain ⟨w', h1, h2, h3⟩ := C109_history c hc xs m enc dec pad hn hp _ e
  exact ⟨w', h1, h2, h3⟩

theorem gcm_tag_len {E : List Byte → List Byte} (hE : LenOk 16 E) (iv aad ct : List Byte) :
    (Spec.Gcm.tag E iv aad ct).length = 16 := by
  have hg : ∀ d, (ghash (hashKey E) d).length = 16 := fun d => toBE_len _ _
  have hj := hE _ (J0_len (E := E) iv)
  unfold Spec.Gcm.tag
  rw [xorB_len (by rw [hg, hj]), hg]

theorem wrm_around {m : Mem} {b t : Nat} {Y T : List Byte} {n : Nat} (hb : b + n ≤ m.length) (hY : Y.length = n)
    (ht : t + T.length ≤ m.length) (hd : b + n ≤ t ∨ t + T.length ≤ b) :
    wrm (wrm (wrm m b Y) t T) b (rdm m b n) = wrm m t T := by
  have h1 : (wrm m b Y).length = m.length := wrm_len (by omega)
  have h2 : (wrm (wrm m b Y) t T).length = m.length := by rw [wrm_len (by omega), h1]
  have hr := rdm_len hb
  apply List.ext_getElem?
  intro k
  rw [wrm_get (by omega), wrm_get (by omega), wrm_get (by omega), wrm_get (by omega), rdm_get, hr, hY]
  split_ifs <;> first | rfl | omega | (congr 1; omega)

/-- **C109** (partial), one buffer: encrypting in place with an encryptor, storing the tag, then decrypting in place with a
decryptor given that tag, keys and the rest lying outside the buffer and the place of the tag: the message is accepted and
the memory is as it was but for the tag — in a new process, or for whole blocks.  Missing: other lengths after an earlier
decryption. -/
theorem C109_in_place_round_trip_partial (c : Cls) (hc : ClsOk c) (m : Mem) (enc dec : Nat → Obj) (pad : List Byte)
    (hn : ∀ k, (enc k).obj.buf = [] ∧ (enc k).obj.st.hash.buf = [] ∧ (dec k).obj.buf = [] ∧ (dec k).obj.st.hash.buf = [])
    (hp : pad.length = 16) (q p l a n b len t : Nat)
    (h1 : q + c.keyLen ≤ m.length) (h2 : p + l ≤ m.length) (h3 : a + n ≤ m.length) (h4 : b + len ≤ m.length)
    (h5 : t + 16 ≤ m.length) (h6 : n ≤ (2 ^ 64 - 1) / 8) (h7 : len ≤ (2 ^ 64 - 1) / 8)
    (hq : q + c.keyLen ≤ b ∨ b + len ≤ q) (hq' : q + c.keyLen ≤ t ∨ t + 16 ≤ q)
    (hv : p + l ≤ b ∨ b + len ≤ p) (hv' : p + l ≤ t ∨ t + 16 ≤ p)
    (ha : a + n ≤ b ∨ b + len ≤ a) (ha' : a + n ≤ t ∨ t + 16 ≤ a) (hbt : b + len ≤ t ∨ t + 16 ≤ b)
    (hz : pad = List.replicate 16 0 ∨ len % 16 = 0) :
    ∃ w', run c [.encInit 0 q p l a n, .encFinal 0 b b len, .getTag 0 t, .decInit 0 q p l a n, .setTag 0 t,
        .decFinal 0 b b len] ⟨m, enc, dec, pad, []⟩ = .ok w' ∧ w'.log = [(len, false), (len, false)] ∧
      ∃ T, T.length = 16 ∧ w'.mem = wrm m t T := by
  have hE := hc.len _ (rdm_len h1)
  have hX := rdm_len h4
  generalize hEe : c.sched (rdm m q c.keyLen) = E at hE
  generalize hIe : rdm m p l = iv
  have hA := rdm_len h3
  generalize hAe : rdm m a n = aad at hA
  generalize hXe : rdm m b len = X at hX
  have hY := (ct_len hE iv X).trans hX
  have hback : ciphertext E iv (ciphertext E iv X) = X := gctr_gctr hE _ (inc32_len _ (J0_len iv)) _
  have hT := gcm_tag_len hE iv aad (ciphertext E iv X)
  have htag : tagWith E iv aad (ciphertext E iv X) pad = Spec.Gcm.tag E iv aad (ciphertext E iv X) := by
    rcases hz with rfl | hz
    · exact C109_ideal_tag _ _ _ _
    · rw [tagWith_whole E iv aad _ pad (List.replicate 16 0) (by rw [hY]; exact hz)]
      exact C109_ideal_tag _ _ _ _
  generalize hYe : ciphertext E iv X = Y at hY hback hT htag
  generalize hTe : Spec.Gcm.tag E iv aad Y = T at hT htag
  have l1 : (wrm m b Y).length = m.length := wrm_len (by omega)
  have l2 : (wrm (wrm m b Y) t T).length = m.length := by rw [wrm_len (by omega), l1]
  have rd : ∀ u v, (u + v ≤ b ∨ b + len ≤ u) → (u + v ≤ t ∨ t + 16 ≤ u) → rdm (wrm (wrm m b Y) t T) u v = rdm m u v := by
    intro u v d1 d2
    rw [rdm_wrm_disj (by omega) (by omega), rdm_wrm_disj (by omega) (by omega)]
  have r1 := rd q c.keyLen hq hq'
  have r2 := (rd p l hv hv').trans hIe
  have r3 := (rd a n ha ha').trans hAe
  have r4 : rdm (wrm (wrm m b Y) t T) t 16 = T := by
    have := rdm_wrm_same (m := wrm m b Y) (o := t) (bs := T) (by omega)
    rwa [hT] at this
  have r5 : rdm (wrm (wrm m b Y) t T) b len = Y := by
    rw [rdm_wrm_disj (by omega) (by omega)]
    have := rdm_wrm_same (m := m) (o := b) (bs := Y) (by omega)
    rwa [hY] at this
  have hf0 : Fits m b b len (tail 16 ([] : List Byte)).length len len := ⟨h4, h4, .inr (.inr (by simp [tail])), h7⟩
  have hf1 : Fits (wrm (wrm m b Y) t T) b b len (tail 16 ([] : List Byte)).length len len :=
    ⟨by rw [l2]; exact h4, by rw [l2]; exact h4, .inr (.inr (by simp [tail])), h7⟩
  have hm : wrm (wrm (wrm m b Y) t T) b X = wrm m t T := by
    rw [← hXe]; exact wrm_around h4 hY (by omega) (by omega)
  have b0 : begun c m [] q p l a n = some (.within E iv aad []) := by
    unfold begun; rw [if_pos ⟨h1, h2, h3, h6⟩, hEe, hIe, hAe]
  have b1 : begun c (wrm (wrm m b Y) t T) [] q p l a n = some (.within E iv aad []) := by
    unfold begun; rw [if_pos ⟨by rw [l2]; exact h1, by rw [l2]; exact h2, by rw [l2]; exact h3, h6⟩, r1, hEe, r2, r3]
  have h : ∃ s', GSpec.run c [.encInit 0 q p l a n, .encFinal 0 b b len, .getTag 0 t, .decInit 0 q p l a n, .setTag 0 t,
        .decFinal 0 b b len] ⟨m, fun _ => .idle [], fun _ => none, fun _ => .idle [], fun _ => none, pad, []⟩ = some s' ∧
      s'.mem = wrm m t T ∧ s'.log = [(len, false), (len, false)] := by
    simp only [GSpec.run, GSpec.call, Phase.left, b0, Option.map_some, Option.bind_some, Function.update_self,
      List.nil_append, hXe, List.length_nil, Nat.zero_div, Nat.zero_mul, Nat.sub_zero, hX, List.drop_zero]
    rw [if_pos hf0]
    simp only [Option.bind_some, Function.update_self, hYe, hTe]
    rw [if_pos (by rw [l1]; exact h5)]
    simp only [Option.bind_some, b1, Option.map_some]
    rw [if_pos (by rw [l2]; exact h5)]
    simp only [Option.bind_some, Function.update_self, List.nil_append, r4, r5, hY, List.length_nil, Nat.zero_div,
      Nat.zero_mul, Nat.sub_zero, List.drop_zero, hback, htag]
    rw [if_pos hf1]
    exact ⟨_, rfl, hm, by simp⟩
  obtain ⟨s', hs, e1, e2⟩ := h
  obtain ⟨w', e, h1, h2⟩ := C109_history c hc _ m enc dec pad hn hp s' hs
  exact ⟨w', e, h2.trans e2, T, hT, h1.trans e1⟩

/-- A class for the examples: a key of one octet added to every octet, two blocks at a time. -/
def addGcm : Cls := ⟨2, 1, fun key x => x.map (· + key.headD 0)⟩

theorem addGcm_ok : ClsOk addGcm := ⟨by decide, fun key _ x hx => by simpa [addGcm] using hx⟩

/-- Key 3 at 0, IV at 1, associated data at 13, ciphertext of one octet at 14, its tag at 15, then room. -/
def gcmMem : Mem := [3] ++ List.replicate 12 0 ++ [9] ++ [5] ++ goodTag ++ [0, 0, 0]

/-- Decryptor 0 and decryptor 1 each decrypt that message, both genuine. -/
def gcmTwo : List Call :=
  [.decInit 0 0 1 12 13 1, .decInit 1 0 1 12 13 1, .setTag 0 15, .setTag 1 15, .decFinal 0 31 14 1, .decFinal 1 32 14 1]

/-- **C109** fails between two decryptors that share nothing but their class: in a new process both should accept the genuine
message; the second refuses it, because the first has been finished. -/
theorem C109_other_decryptor_violated (enc dec : Nat → Obj)
    (hn : ∀ k, (enc k).obj.buf = [] ∧ (enc k).obj.st.hash.buf = [] ∧ (dec k).obj.buf = [] ∧ (dec k).obj.st.hash.buf = []) :
    (∃ s', GSpec.ideal addGcm gcmTwo ⟨gcmMem, fun _ => .idle [], fun _ => none, fun _ => .idle [], fun _ => none,
        List.replicate 16 0, []⟩ = some s' ∧ s'.log = [(1, false), (1, false)]) ∧
    ∃ w', run addGcm gcmTwo ⟨gcmMem, enc, dec, List.replicate 16 0, []⟩ = .ok w' ∧ w'.log = [(1, false), (0, true)] ∧
      w'.mem = [3] ++ List.replicate 12 0 ++ [9] ++ [5] ++ goodTag ++ [6, 6, 0] := by
  constructor
  · have h : ((GSpec.ideal addGcm gcmTwo ⟨gcmMem, fun _ => .idle [], fun _ => none, fun _ => .idle [], fun _ => none,
        List.replicate 16 0, []⟩).map fun s => s.log) = some [(1, false), (1, false)] := by decide +kernel
    obtain ⟨s', hs, e⟩ := Option.map_eq_some_iff.1 h
    exact ⟨s', hs, e⟩
  · have h : ((GSpec.run addGcm gcmTwo ⟨gcmMem, fun _ => .idle [], fun _ => none, fun _ => .idle [], fun _ => none,
        List.replicate 16 0, []⟩).map fun s => (s.mem, s.log)) =
        some ([3] ++ List.replicate 12 0 ++ [9] ++ [5] ++ goodTag ++ [6, 6, 0], [(1, false), (0, true)]) := by decide +kernel
    obtain ⟨s', hs, e⟩ := Option.map_eq_some_iff.1 h
    simp only [Prod.mk.injEq] at e
    obtain ⟨w', hw, h1, h2⟩ := C109_history addGcm addGcm_ok gcmTwo gcmMem enc dec _ hn (by simp) s' hs
    exact ⟨w', hw, h2.trans e.2, h1.trans e.1⟩

/-- Twenty octets at 40, their tag to go to 70, whatever the memory holds. -/
example (m : Mem) (hm : m.length = 100) (enc dec : Nat → Obj)
    (hn : ∀ k, (enc k).obj.buf = [] ∧ (enc k).obj.st.hash.buf = [] ∧ (dec k).obj.buf = [] ∧ (dec k).obj.st.hash.buf = []) :
    ∃ w', run addGcm [.encInit 0 0 1 12 13 5, .encFinal 0 40 40 20, .getTag 0 70, .decInit 0 0 1 12 13 5, .setTag 0 70,
        .decFinal 0 40 40 20] ⟨m, enc, dec, List.replicate 16 0, []⟩ = .ok w' ∧ w'.log = [(20, false), (20, false)] ∧
      ∃ T, T.length = 16 ∧ w'.mem = wrm m 70 T :=
  C109_in_place_round_trip_partial addGcm addGcm_ok m enc dec _ hn (by simp) 0 1 12 13 5 40 20 70 (by rw [hm]; decide)
    (by rw [hm]; decide) (by rw [hm]; decide) (by rw [hm]; decide) (by rw [hm]; decide) (by decide) (by decide) (by decide)
    (by decide) (by decide) (by decide) (by decide) (by decide) (by decide) (.inl rfl)

/-- Two encryptors and two decryptors interleaved, whole blocks: the hypotheses of `C109_alone_partial` are met, and the
second decryptor's verdict on a wrong tag does not depend on the first. -/
def gcmTidy : List Call :=
  [.encInit 0 0 1 12 13 1, .encInit 1 1 2 3 4 5, .encUpdate 0 31 14 10, .encFinal 1 50 31 9, .encFinal 0 31 24 6, .getTag 0 60,
    .decInit 0 0 1 12 13 1, .decInit 1 0 1 12 13 1, .setTag 0 60, .setTag 1 61, .decUpdate 0 80 31 16, .decFinal 1 80 31 16,
    .decFinal 0 90 31 0]

def gcmRoom : Mem := gcmMem ++ List.replicate 70 0

/-- `TidyRun`, computed. -/
def tidyB (c : Cls) : List Call → GSpec → Bool
  | [], _ => true
  | x :: xs, s => (match x with
      | .encInit k _ _ _ _ _ => (s.enc k).left.isEmpty
      | .decInit k _ _ _ _ _ => (s.dec k).left.isEmpty
      | .decFinal k _ _ n => (match s.dec k with
        | .within _ _ _ X => decide ((X.length + n) % 16 = 0)
        | _ => true)
      | _ => true) && (match (s.alone x).call c x with
        | some s' => tidyB c xs s'
        | none => true)

theorem tidyB_ok (c : Cls) (xs : List Call) : ∀ s, tidyB c xs s = true → TidyRun c xs s := by
  induction xs with
  | nil => intro _ _; trivial
  | cons x xs ih =>
    intro s h
    simp only [tidyB, Bool.and_eq_true] at h
    obtain ⟨h1, h2⟩ := h
    refine ⟨?_, fun s' hs' => ih s' (by rw [hs'] at h2; exact h2)⟩
    cases x <;> simp only [Tidy] at * <;> first | exact List.isEmpty_iff.1 h1 | skip
    split at h1 <;> simp_all

example (enc dec : Nat → Obj) (pad : List Byte) (hp : pad.length = 16)
    (hn : ∀ k, (enc k).obj.buf = [] ∧ (enc k).obj.st.hash.buf = [] ∧ (dec k).obj.buf = [] ∧ (dec k).obj.st.hash.buf = []) :
    ∃ w', run addGcm gcmTidy ⟨gcmRoom, enc, dec, pad, []⟩ = .ok w' ∧
      w'.log = [(0, false), (9, false), (16, false), (16, false), (16, true), (0, false)] := by
  have h : ((GSpec.ideal addGcm gcmTidy ⟨gcmRoom, fun _ => .idle [], fun _ => none, fun _ => .idle [], fun _ => none,
      List.replicate 16 0, []⟩).map fun s => s.log) =
      some [(0, false), (9, false), (16, false), (16, false), (16, true), (0, false)] := by decide +kernel
  obtain ⟨s', hs, e⟩ := Option.map_eq_some_iff.1 h
  obtain ⟨w', hw, -, h2⟩ := C109_alone_partial addGcm addGcm_ok gcmTidy gcmRoom enc dec pad hn hp s'
    (tidyB_ok _ _ _ (by decide +kernel)) hs
  exact ⟨w', hw, h2.trans e⟩

end Verif.Props
