import Verif.Props.GcmMem
import Verif.Props.ModeMemLib
import Verif.Proofs.GcmForge
/-! # C109: when a decryptor disturbs another, and C109 for the ciphers of the library -/
namespace Verif.Props
open Verif Verif.GcmMem Spec Spec.Modes Spec.Gcm Verif.Gcm

/-- Filled up with other octets than zeros, the tag is SP 800-38D's only under the hash key zero. -/
theorem tagWith_iff {E : List Byte → List Byte} (hE : LenOk 16 E) (iv aad ct pad : List Byte) (hp : pad.length = 16)
    (hr : ct.length % 16 ≠ 0) : tagWith E iv aad ct pad = Spec.Gcm.tag E iv aad ct ↔
      E (List.replicate 16 0) = List.replicate 16 0 ∨
        pad.take (16 - ct.length % 16) = List.replicate (16 - ct.length % 16) 0 := by
  have hk : (16 - ct.length % 16) % 16 = 16 - ct.length % 16 := by omega
  have e := pad_iff hE iv aad ct (pad.take (16 - ct.length % 16)) (List.replicate (16 - ct.length % 16) 0)
    (by rw [List.length_take, hp]; omega) (List.length_replicate ..)
  rw [← C109_ideal_tag]
  unfold tagWith
  rw [hk, List.take_replicate, Nat.min_eq_left (by omega)]
  exact e

/-- **C109** fails, exactly: in any process, decryptor 0 finishes a message of any length, genuine or not, under any key; then
decryptor 1, begun before that under a key and an IV of its own, is given a genuine message which is not a whole number of
blocks.  It is refused unless its hash key `E'(0)` is zero or the block `E(J0)` of the *other* decryptor's key and IV begins
with as many zeros as are missing from the last block. -/
theorem C109_genuine_refused_violated (c : Cls) (hc : ClsOk c) (m : Mem) (enc dec : Nat → Obj) (pad : List Byte)
    (hn : ∀ k, (enc k).obj.buf = [] ∧ (enc k).obj.st.hash.buf = [] ∧ (dec k).obj.buf = [] ∧ (dec k).obj.st.hash.buf = [])
    (hp : pad.length = 16) (q p l a n t o b len q' p' l' a' n' t' o' b' len' : Nat)
    (i1 : q + c.keyLen ≤ m.length) (i2 : p + l ≤ m.length) (i3 : a + n ≤ m.length) (i4 : n ≤ (2 ^ 64 - 1) / 8)
    (j1 : q' + c.keyLen ≤ m.length) (j2 : p' + l' ≤ m.length) (j3 : a' + n' ≤ m.length) (j4 : n' ≤ (2 ^ 64 - 1) / 8)
    (ht : t + 16 ≤ m.length) (ht' : t' + 16 ≤ m.length)
    (hf : Fits m o b len 0 len len) (hf' : Fits m o' b' len' 0 len' len')
    (hd : b' + len' ≤ o ∨ o + len ≤ b') (hr : len' % 16 ≠ 0)
    (hg : rdm m t' 16 = Spec.Gcm.tag (c.sched (rdm m q' c.keyLen)) (rdm m p' l') (rdm m a' n') (rdm m b' len')) :
    ∃ w' v r, run c [.decInit 0 q p l a n, .decInit 1 q' p' l' a' n', .setTag 0 t, .setTag 1 t', .decFinal 0 o b len,
        .decFinal 1 o' b' len'] ⟨m, enc, dec, pad, []⟩ = .ok w' ∧ w'.log = [v, r] ∧
      (r.2 = true ↔ c.sched (rdm m q' c.keyLen) (List.replicate 16 0) ≠ List.replicate 16 0 ∧
        (c.sched (rdm m q c.keyLen) (J0 (c.sched (rdm m q c.keyLen)) (rdm m p l))).take (16 - len' % 16) ≠
          List.replicate (16 - len' % 16) 0) := by
  have hE := hc.len _ (rdm_len i1)
  have hE' := hc.len _ (rdm_len j1)
  have hX := rdm_len hf.1
  have hX' := rdm_len hf'.1
  generalize hEe : c.sched (rdm m q c.keyLen) = E at hE
  generalize hEe' : c.sched (rdm m q' c.keyLen) = E' at hE' hg
  generalize hIe : rdm m p l = iv
  generalize hIe' : rdm m p' l' = iv' at hg
  generalize hAe : rdm m a n = aad
  generalize hAe' : rdm m a' n' = aad' at hg
  generalize hXe : rdm m b len = X at hX
  generalize hXe' : rdm m b' len' = X' at hX' hg
  have hY := (ct_len hE iv X).trans hX
  generalize hYe : ciphertext E iv X = Y at hY
  have l1 : (wrm m o Y).length = m.length := wrm_len (by have := hf.2.1; omega)
  have r1 : rdm (wrm m o Y) b' len' = X' := by
    rw [rdm_wrm_disj (by have := hf.2.1; omega) (by omega), hXe']
  have b0 : begun c m [] q p l a n = some (.within E iv aad []) := by
    unfold begun; rw [if_pos ⟨i1, i2, i3, i4⟩, hEe, hIe, hAe]
  have b1 : begun c m [] q' p' l' a' n' = some (.within E' iv' aad' []) := by
    unfold begun; rw [if_pos ⟨j1, j2, j3, j4⟩, hEe', hIe', hAe']
  have f0 : Fits m o b len (tail 16 ([] : List Byte)).length len len := by
    have : (tail 16 ([] : List Byte)).length = 0 := by simp [tail]
    rw [this]; exact hf
  have f1 : Fits (wrm m o Y) o' b' len' (tail 16 ([] : List Byte)).length len' len' := by
    have : (tail 16 ([] : List Byte)).length = 0 := by simp [tail]
    rw [this]; unfold Fits; rw [l1]; exact hf'
  have htag := tagWith_iff hE' iv' aad' X' (E (J0 E iv)) (hE _ (J0_len iv)) (by rw [hX']; exact hr)
  rw [hX'] at htag
  have h : ∃ s' v, GSpec.run c [.decInit 0 q p l a n, .decInit 1 q' p' l' a' n', .setTag 0 t, .setTag 1 t', .decFinal 0 o b len,
        .decFinal 1 o' b' len'] ⟨m, fun _ => .idle [], fun _ => none, fun _ => .idle [], fun _ => none, pad, []⟩ = some s' ∧
      s'.log = [v, if tagWith E' iv' aad' X' (E (J0 E iv)) = Spec.Gcm.tag E' iv' aad' X' then (len', false)
        else (len' / 16 * 16, true)] := by
    have h10 : (1 : Nat) ≠ 0 := by decide
    have h01 : (0 : Nat) ≠ 1 := by decide
    simp only [GSpec.run, GSpec.call, Phase.left, b0, b1, Option.map_some, Option.bind_some,
      Function.update_of_ne h10]
    rw [if_pos ht]
    simp only [Option.bind_some]
    rw [if_pos ht']
    simp only [Option.bind_some, Function.update_self, Function.update_of_ne h01,
      List.nil_append, hXe, List.length_nil, Nat.zero_div, Nat.zero_mul, Nat.sub_zero, hX, List.drop_zero]
    rw [if_pos f0]
    simp only [Option.bind_some, Function.update_self, Function.update_of_ne h10, hYe,
      List.nil_append, r1, hX', List.length_nil, Nat.zero_div, Nat.zero_mul, Nat.sub_zero, List.drop_zero]
    rw [if_pos f1, hg]
    exact ⟨_, _, rfl, rfl⟩
  obtain ⟨s', v, hs, e2⟩ := h
  obtain ⟨w', e, -, h2⟩ := C109_history c hc _ m enc dec pad hn hp s' hs
  refine ⟨w', v, _, e, h2.trans e2, ?_⟩
  split_ifs with hh
  · simp only [false_iff]
    rintro ⟨x, y⟩
    rcases htag.1 hh with z | z
    · exact x z
    · exact y z
  · simp only [true_iff]
    exact ⟨fun z => hh (htag.2 (.inl z)), fun z => hh (htag.2 (.inr z))⟩

/-- The message of `gcmMem`, in any process. -/
example (enc dec : Nat → Obj) (pad : List Byte) (hp : pad.length = 16)
    (hn : ∀ k, (enc k).obj.buf = [] ∧ (enc k).obj.st.hash.buf = [] ∧ (dec k).obj.buf = [] ∧ (dec k).obj.st.hash.buf = []) :
    ∃ w' v r, run addGcm gcmTwo ⟨gcmMem, enc, dec, pad, []⟩ = .ok w' ∧ w'.log = [v, r] ∧ r.2 = true := by
  obtain ⟨w', v, r, h1, h2, h3⟩ := C109_genuine_refused_violated addGcm addGcm_ok gcmMem enc dec pad hn hp 0 1 12 13 1 15 31 14 1
    0 1 12 13 1 15 32 14 1 (by decide) (by decide) (by decide) (by decide) (by decide) (by decide) (by decide) (by decide)
    (by decide) (by decide) (by decide) (by decide) (by decide) (by decide) (by decide +kernel)
  exact ⟨w', v, r, h1, h2, h3.2 ⟨by decide, by decide +kernel⟩⟩

/-- GCM over a cipher of the library, as a class of C109. -/
def gcmCls (l : LibCipher) : Cls := ⟨l.par, l.keyLen, fun key => (l.keyed key).E⟩

theorem gcm_lib_ok (l : LibCipher) : ClsOk (gcmCls l) :=
  ⟨(lib_ok l .ecbEnc).par, fun key hk => (lib_ok l .ecbEnc).lenE key hk⟩

/-- **C109** for SM4 and AES. -/
theorem C109_library (l : LibCipher) (xs : List Call) (m : Mem) (enc dec : Nat → Obj) (pad : List Byte)
    (hn : ∀ k, (enc k).obj.buf = [] ∧ (enc k).obj.st.hash.buf = [] ∧ (dec k).obj.buf = [] ∧ (dec k).obj.st.hash.buf = [])
    (hp : pad.length = 16) (s' : GSpec)
    (h : GSpec.run (gcmCls l) xs ⟨m, fun _ => .idle [], fun _ => none, fun _ => .idle [], fun _ => none, pad, []⟩ = some s') :
    ∃ w', run (gcmCls l) xs ⟨m, enc, dec, pad, []⟩ = .ok w' ∧ w'.mem = s'.mem ∧ w'.log = s'.log :=
  C109_history _ (gcm_lib_ok l) xs m enc dec pad hn hp s' h

/-- **C109** for SM4 and AES (partial): the round trip in place.  Missing: other lengths after an earlier decryption. -/
theorem C109_library_round_trip_partial (c : LibCipher) (m : Mem) (enc dec : Nat → Obj) (pad : List Byte)
    (hn : ∀ k, (enc k).obj.buf = [] ∧ (enc k).obj.st.hash.buf = [] ∧ (dec k).obj.buf = [] ∧ (dec k).obj.st.hash.buf = [])
    (hp : pad.length = 16) (q p l a n b len t : Nat)
    (h1 : q + c.keyLen ≤ m.length) (h2 : p + l ≤ m.length) (h3 : a + n ≤ m.length) (h4 : b + len ≤ m.length)
    (h5 : t + 16 ≤ m.length) (h6 : n ≤ (2 ^ 64 - 1) / 8) (h7 : len ≤ (2 ^ 64 - 1) / 8)
    (hq : q + c.keyLen ≤ b ∨ b + len ≤ q) (hq' : q + c.keyLen ≤ t ∨ t + 16 ≤ q)
    (hv : p + l ≤ b ∨ b + len ≤ p) (hv' : p + l ≤ t ∨ t + 16 ≤ p)
    (ha : a + n ≤ b ∨ b + len ≤ a) (ha' : a + n ≤ t ∨ t + 16 ≤ a) (hbt : b + len ≤ t ∨ t + 16 ≤ b)
    (hz : pad = List.replicate 16 0 ∨ len % 16 = 0) :
    ∃ w', run (gcmCls c) [.encInit 0 q p l a n, .encFinal 0 b b len, .getTag 0 t, .decInit 0 q p l a n, .setTag 0 t,
        .decFinal 0 b b len] ⟨m, enc, dec, pad, []⟩ = .ok w' ∧ w'.log = [(len, false), (len, false)] ∧
      ∃ T, T.length = 16 ∧ w'.mem = wrm m t T :=
  C109_in_place_round_trip_partial _ (gcm_lib_ok c) m enc dec pad hn hp q p l a n b len t h1 h2 h3 h4 h5 h6 h7 hq hq' hv hv' ha
    ha' hbt hz

/-- AES-256-GCM, 33 octets at 60, key at 0, IV at 32, tag to 100, in a new process. -/
example (m : Mem) (hm : m.length = 120) (enc dec : Nat → Obj)
    (hn : ∀ k, (enc k).obj.buf = [] ∧ (enc k).obj.st.hash.buf = [] ∧ (dec k).obj.buf = [] ∧ (dec k).obj.st.hash.buf = []) :
    ∃ w', run (gcmCls .aes256) [.encInit 0 0 32 12 44 7, .encFinal 0 60 60 33, .getTag 0 100, .decInit 0 0 32 12 44 7,
        .setTag 0 100, .decFinal 0 60 60 33] ⟨m, enc, dec, List.replicate 16 0, []⟩ = .ok w' ∧
      w'.log = [(33, false), (33, false)] ∧ ∃ T, T.length = 16 ∧ w'.mem = wrm m 100 T :=
  C109_library_round_trip_partial .aes256 m enc dec _ hn (by simp) 0 32 12 44 7 60 33 100 (by rw [hm]; decide)
    (by rw [hm]; decide) (by rw [hm]; decide) (by rw [hm]; decide) (by rw [hm]; decide) (by decide) (by decide) (by decide)
    (by decide) (by decide) (by decide) (by decide) (by decide) (by decide) (.inl rfl)

end Verif.Props
