import Verif.Proofs.Sm3
/-! # Helper lemmas: the reference SM3 backend, HMAC -/
namespace Verif.Sm3
open Verif.Spec (beVal toBE)

theorem bytes_len (s : Spec.SM3.State) : s.bytes.length = 32 := by
  simp [Spec.SM3.State.bytes, toBE_len]

theorem hash_len (m : List Byte) : (Spec.SM3.hash m).length = 32 := bytes_len _

namespace Common

/-- A platform on which a 32-bit value shifted by 32 gives the value itself (count taken modulo 32)
or zero. -/
def Benign (sh32 : W32 → Outcome W32) : Prop := ∀ x, sh32 x = .ok x ∨ sh32 x = .ok 0

theorem rotlV_spec {sh32} (hb : Benign sh32) (x : W32) (n : Nat) (h : n < 32) :
    rotlV sh32 x n = .ok (Spec.SM3.rotl x n) := by
  rw [← rotl_eq x n h]
  unfold rotlV rotl
  by_cases hn : n = 0
  · subst hn
    rw [if_pos rfl]
    have z : x >>> 32 = 0 := by
      apply BitVec.eq_of_toNat_eq
      rw [BitVec.toNat_ushiftRight, Nat.shiftRight_eq_div_pow, Nat.div_eq_of_lt x.isLt]; rfl
    rcases hb x with e | e <;> rw [e] <;> simp [z]
  · rw [if_neg hn]; rfl

theorem R_spec {sh32} (hb : Benign sh32) (B : Nat → W32) (W W_ : List W32) (t : W32)
    (ff gg : W32 → W32 → W32 → W32) (j : Nat) (hj : j < 64)
    (hW : ∀ i < 68, rd W i = Spec.SM3.W B i) (hW' : ∀ i < 64, rd W_ i = Spec.SM3.W' B i)
    (ht : t = Spec.SM3.T j) (hf : ff = Spec.SM3.FF j) (hg : gg = Spec.SM3.GG j) (r : Reg) :
    ∃ r', R sh32 t ff gg W W_ j r = .ok r' ∧ toS r' = Spec.SM3.round B j (toS r) := by
  subst hf hg ht
  unfold R
  rw [rotlV_spec hb _ _ (Nat.mod_lt _ (by decide))]
  refine ⟨_, rfl, ?_⟩
  simp only [Spec.SM3.round, toS, hW j (by omega), hW' j hj, P0_eq]
  simp only [rotl_eq _ _ (show 12 < 32 by decide), rotl_eq _ _ (show 7 < 32 by decide),
    rotl_eq _ _ (show 9 < 32 by decide), rotl_eq _ _ (show 19 < 32 by decide)]

theorem Rloop_spec {sh32} (hb : Benign sh32) (B : Nat → W32) (W W_ : List W32) (t : W32)
    (ff gg : W32 → W32 → W32 → W32)
    (hW : ∀ i < 68, rd W i = Spec.SM3.W B i) (hW' : ∀ i < 64, rd W_ i = Spec.SM3.W' B i) (s : Spec.SM3.State) :
    ∀ (n j : Nat) (r : Reg), j + n ≤ 64 → (∀ k < n, t = Spec.SM3.T (j + k)) →
      (∀ k < n, ff = Spec.SM3.FF (j + k)) → (∀ k < n, gg = Spec.SM3.GG (j + k)) →
      toS r = Spec.SM3.rounds B j s →
      ∃ r', Rloop sh32 t ff gg W W_ n j r = .ok r' ∧ toS r' = Spec.SM3.rounds B (j + n) s
  | 0, j, r, _, _, _, _, h => ⟨r, rfl, h⟩
  | n + 1, j, r, hj, ht, hf, hg, h => by
    obtain ⟨r1, e1, h1⟩ := R_spec hb B W W_ t ff gg j (by omega) hW hW' (ht 0 (by omega)) (hf 0 (by omega))
      (hg 0 (by omega)) r
    rw [Rloop, e1, Outcome.ok_bind, show j + (n + 1) = j + 1 + n by omega]
    apply Rloop_spec hb B W W_ t ff gg hW hW' s n (j + 1) _ (by omega)
    · intro k hk; rw [ht (1 + k) (by omega), Nat.add_assoc]
    · intro k hk; rw [hf (1 + k) (by omega), Nat.add_assoc]
    · intro k hk; rw [hg (1 + k) (by omega), Nat.add_assoc]
    · rw [h1, h]; rfl

theorem rd_wprime (W : List W32) (i : Nat) (h : i < 64) : rd (wprime W) i = rd W i ^^^ rd W (i + 4) := by
  unfold wprime
  rw [rd, List.getD_eq_getElem?_getD, List.getElem?_map, List.getElem?_range h]; rfl

theorem compress_eq {sh32} (hb : Benign sh32) (s : Reg) (data : List Byte) :
    compress sh32 s data = .ok (Sm3.compress s data) := by
  let B : Nat → W32 := fun i => rd (loadWords data 16 0) i
  have hW := W_spec B data (fun _ _ => rfl)
  have hW' : ∀ i < 64, rd (wprime (expand 52 16 (loadWords data 16 0))) i = Spec.SM3.W' B i := by
    intro i hi
    rw [rd_wprime _ _ hi, hW i (by omega), hW (i + 4) (by omega)]; rfl
  obtain ⟨r1, e1, h1⟩ := Rloop_spec hb B _ _ 0x79cc4519 FF00 GG00 hW hW' (toS s) 16 0 s (by decide)
    (fun k hk => by rw [Spec.SM3.T, if_pos (by omega)])
    (fun k hk => FF_lo _ (by omega)) (fun k hk => GG_lo _ (by omega)) rfl
  obtain ⟨r2, e2, h2⟩ := Rloop_spec hb B _ _ 0x7a879d8a FF16 GG16 hW hW' (toS s) 48 16 r1 (by decide)
    (fun k hk => by rw [Spec.SM3.T, if_neg (by omega)])
    (fun k hk => FF_hi _ (by omega)) (fun k hk => GG_hi _ (by omega)) h1
  have hc := compress_spec B s data (fun _ _ => rfl)
  unfold compress
  dsimp only
  rw [e1, Outcome.ok_bind, e2, Outcome.ok_bind]
  congr 1
  have inj : ∀ a b : Reg, toS a = toS b → a = b := by
    intro a b h; cases a; cases b; simpa [toS] using h
  apply inj
  rw [hc, Spec.SM3.CF, show (64 : Nat) = 16 + 48 from rfl, ← h2]
  simp only [toS, Reg.xor, Spec.SM3.State.xor, BitVec.xor_comm]

theorem compressBlocks_eq {sh32} (hb : Benign sh32) : ∀ (n : Nat) (s : Reg) (data : List Byte),
    compressBlocks sh32 n s data = .ok (Sm3.compressBlocks Sm3.compress n s data)
  | 0, _, _ => rfl
  | n + 1, s, d => by
    rw [compressBlocks, compress_eq hb, Outcome.ok_bind, compressBlocks_eq hb n]; rfl

theorem compress_ub (s : Reg) (data : List Byte) : compress (fun _ => .ub) s data = .ub := rfl

end Common

/-- Final digest of an absorbed message. -/
theorem final_absorb (m x : List Byte) :
    (absorb 64 (impl compress) init m >>= fun h => hashFinal 64 (impl compress) h x >>= fun r => .ok r.2) =
      if 8 * (m ++ x).length < 2 ^ 64 then .ok (Spec.SM3.hash (m ++ x)) else .throw := by
  rw [← run_spec (m ++ x), ← absorb_append _ impl_lawful, bind_assoc]
  congr 1; funext h
  unfold hashFinal
  rw [bind_assoc]
  congr 1; funext h'
  rw [bind_assoc]; rfl

theorem fresh_absorb : Outcome.ok cls.fresh = absorb 64 (impl compress) init [] := (absorb_nil _ impl_lawful _).symm

theorem final_fresh (x : List Byte) :
    (hashFinal 64 (impl compress) cls.fresh x >>= fun r => .ok r.2) =
      if 8 * x.length < 2 ^ 64 then .ok (Spec.SM3.hash x) else .throw := by
  have := final_absorb [] x
  rw [← fresh_absorb] at this
  exact this

/-- `bind`-ing only the digest out of a final call. -/
theorem digest_of {x : Outcome (HashObj Ctx × List Byte)} {d : List Byte}
    (h : (x >>= fun r => .ok r.2) = .ok d) : ∃ o, x = .ok (o, d) := by
  cases x with
  | ok a => obtain ⟨o, d'⟩ := a; simp only [Outcome.ok_bind, Outcome.ok.injEq] at h; subst h; exact ⟨o, rfl⟩
  | throw => cases h
  | ub => cases h

theorem absorb_ok (m : List Byte) (h : 8 * m.length < 2 ^ 64) :
    ∃ o, absorb 64 (impl compress) init m = .ok o := by
  unfold absorb
  simp only [impl, updateBlocks_spec]
  rw [if_pos (by rw [show init.dataBits.toNat = 0 from rfl]; omega)]
  exact ⟨_, rfl⟩

theorem updates_fresh (cs : List (List Byte)) :
    cs.foldlM (hashUpdate 64 (impl compress)) cls.fresh = absorb 64 (impl compress) init cs.flatten := by
  have := updates_eq (impl compress) impl_lawful init cs []
  rw [← fresh_absorb] at this
  simpa using this

theorem setKey_spec (m : HMac Ctx) (K : List Byte) (hK : 8 * K.length < 2 ^ 64) :
    (m.setKey cls K) = (absorb 64 (impl compress) init ((Spec.hmacKey Spec.SM3.hash 64 K).map (· ^^^ 0x36)) >>= fun h =>
      .ok ⟨Spec.hmacKey Spec.SM3.hash 64 K, h⟩) := by
  unfold HMac.setKey
  dsimp only
  have hup : ∀ x, hashUpdate 64 (impl compress) ⟨[], init⟩ x = absorb 64 (impl compress) init x := by
    intro x
    have := absorb_append (impl compress) impl_lawful init [] x
    rw [absorb_nil _ impl_lawful, List.nil_append] at this
    exact this
  by_cases hl : K.length > 64
  · have hf := final_fresh K
    rw [if_pos hK] at hf
    obtain ⟨o, ho⟩ := digest_of hf
    have ho' : hashFinal cls.BS cls.impl (cls.reset m.h) K = .ok (o, Spec.SM3.hash K) := ho
    rw [if_pos (show K.length > cls.BS from hl), ho']
    simp only [Outcome.ok_bind]
    have e : (Spec.SM3.hash K).take (if cls.BS < cls.DS then cls.BS else cls.DS) ++
        List.replicate (cls.BS - if cls.BS < cls.DS then cls.BS else cls.DS) 0 = Spec.hmacKey Spec.SM3.hash 64 K := by
      unfold Spec.hmacKey
      dsimp only
      rw [if_pos hl, hash_len, show (if cls.BS < cls.DS then cls.BS else cls.DS) = 32 from rfl,
        List.take_of_length_le (by rw [hash_len])]; rfl
    rw [e]
    show (hashUpdate 64 (impl compress) ⟨[], init⟩ _ >>= _) = _
    rw [hup]
  · rw [if_neg (show ¬ K.length > cls.BS from hl)]
    simp only [Outcome.ok_bind]
    have e : K ++ List.replicate (cls.BS - K.length) 0 = Spec.hmacKey Spec.SM3.hash 64 K := by
      unfold Spec.hmacKey
      dsimp only
      rw [if_neg (by omega)]; rfl
    rw [e]
    show (hashUpdate 64 (impl compress) ⟨[], init⟩ _ >>= _) = _
    rw [hup]

theorem hmacKey_len (K : List Byte) : (Spec.hmacKey Spec.SM3.hash 64 K).length = 64 := by
  unfold Spec.hmacKey
  dsimp only
  rw [List.length_append, List.length_replicate]
  split_ifs with h
  · rw [hash_len]
  · omega

theorem hmacUpdates (Kb : List Byte) (cs : List (List Byte)) : ∀ h : HashObj Ctx,
    (cs.foldlM (fun (m : HMac Ctx) c => m.update cls c) ⟨Kb, h⟩) =
      (cs.foldlM (hashUpdate 64 (impl compress)) h >>= fun h => .ok ⟨Kb, h⟩) := by
  induction cs with
  | nil => intro h; rfl
  | cons c cs ih =>
    intro h
    simp only [List.foldlM_cons, HMac.update]
    rw [bind_assoc, bind_assoc]
    show (hashUpdate 64 (impl compress) h c >>= _) = _
    congr 1; funext h'
    simp only [Outcome.ok_bind]
    exact ih h'

theorem hmac_spec (m : HMac Ctx) (K : List Byte) (cs : List (List Byte)) (last : List Byte)
    (hK : 8 * K.length < 2 ^ 64) (hM : 8 * (64 + (cs.flatten ++ last).length) < 2 ^ 64) :
    ((m.setKey cls K >>= fun m => cs.foldlM (fun (m : HMac Ctx) c => m.update cls c) m) >>= fun m =>
      m.final cls last >>= fun r => .ok r.2) = .ok (Spec.hmac Spec.SM3.hash 64 K (cs.flatten ++ last)) := by
  rw [setKey_spec m K hK, bind_assoc, bind_assoc]
  generalize hkb : Spec.hmacKey Spec.SM3.hash 64 K = kb
  have hkl : kb.length = 64 := by rw [← hkb, hmacKey_len]
  simp only [Outcome.ok_bind, hmacUpdates]
  have e1 : ∀ f : HashObj Ctx → Outcome (List Byte),
      (absorb 64 (impl compress) init (kb.map (· ^^^ 0x36)) >>= fun h =>
        cs.foldlM (hashUpdate 64 (impl compress)) h >>= f) =
      (absorb 64 (impl compress) init (kb.map (· ^^^ 0x36) ++ cs.flatten) >>= f) := by
    intro f
    rw [← updates_eq _ impl_lawful, bind_assoc]
  simp only [bind_assoc, Outcome.ok_bind]
  rw [e1]
  have hl1 : 8 * (kb.map (· ^^^ 0x36) ++ cs.flatten ++ last).length < 2 ^ 64 := by
    simp only [List.length_append, List.length_map, hkl] at hM ⊢; omega
  unfold HMac.final HMac.update
  have e2 : ∀ f : HashObj Ctx → Outcome (List Byte),
      (absorb 64 (impl compress) init (kb.map (· ^^^ 0x36) ++ cs.flatten) >>= fun h =>
        hashUpdate cls.BS cls.impl h last >>= f) =
      (absorb 64 (impl compress) init (kb.map (· ^^^ 0x36) ++ cs.flatten ++ last) >>= f) := by
    intro f
    rw [← absorb_append _ impl_lawful (m := _ ++ _) (x := last), bind_assoc]; rfl
  simp only [bind_assoc, Outcome.ok_bind]
  rw [e2]
  obtain ⟨o, ho⟩ := absorb_ok _ hl1
  have hf := final_absorb (kb.map (· ^^^ 0x36) ++ cs.flatten ++ last) []
  rw [List.append_nil, if_pos hl1, ho, Outcome.ok_bind] at hf
  obtain ⟨o2, ho2⟩ := digest_of hf
  rw [ho, Outcome.ok_bind]
  have ho2' : hashFinal cls.BS cls.impl o [] = .ok (o2, _) := ho2
  rw [ho2', Outcome.ok_bind]
  have hin := hash_len (kb.map (· ^^^ 0x36) ++ cs.flatten ++ last)
  unfold Spec.hmac
  dsimp only
  rw [hkb, ← List.append_assoc]
  generalize Spec.SM3.hash (kb.map (· ^^^ 0x36) ++ cs.flatten ++ last) = inner at *
  have h3 := updates_fresh [kb.map (· ^^^ 0x5c), inner]
  simp only [List.foldlM_cons, List.foldlM_nil, List.flatten_cons, List.flatten_nil, List.append_nil, bind_pure] at h3
  have h4 := final_absorb (kb.map (· ^^^ 0x5c) ++ inner) []
  rw [List.append_nil, if_pos (by simp only [List.length_append, List.length_map, hkl, hin]; omega), ← h3, bind_assoc] at h4
  exact h4

end Verif.Sm3
