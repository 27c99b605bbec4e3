import Verif.Proofs.Ghash2
import Verif.Model.Gcm
/-! # GCM: the code as a Mealy machine over blocks, and its agreement with SP 800-38D -/
namespace Verif.Gcm
open Verif.Spec Verif.Spec.Modes Verif.Spec.Gcm Verif.Ghash

/-! ## Counter -/

theorem store32_beVal (a : W32) : beVal (memStore32BE a) = a.toNat := by
  have := u256ToBytes_spec [a]
  simpa [u256ToBytes] using this

theorem gctrInc_eq (b : List Byte) (h : b.length = 16) : gctrInc b = inc32 b := by
  have hd : (b.drop 12).length = 4 := by rw [List.length_drop]; omega
  unfold gctrInc inc32
  generalize b.drop 12 = w at hd
  match w, hd with
  | [b0, b1, b2, b3], _ =>
    dsimp only
    congr 1
    apply beVal_inj _ _ (by rw [toBE_len]; rfl)
    rw [store32_beVal, beVal_toBE, BitVec.toNat_add, memLoad_toNat]
    simp only [beVal, List.foldl_cons, List.foldl_nil]
    simp only [BitVec.ofNat_eq_ofNat, BitVec.toNat_ofNat]
    omega

theorem inc32_len (b : List Byte) (h : b.length = 16) : (inc32 b).length = 16 := by
  unfold inc32
  rw [List.length_append, toBE_len, List.length_take, h]; rfl

theorem gctrInc_len : LenOk 16 gctrInc := fun b h => by rw [gctrInc_eq b h, inc32_len b h]

theorem incN_len (n : Nat) (b : List Byte) (h : b.length = 16) : (inc32^[n] b).length = 16 := by
  induction n generalizing b with
  | zero => exact h
  | succ n ih => rw [Function.iterate_succ_apply]; exact ih _ (inc32_len b h)

theorem gctr_run (E : List Byte → List Byte) (c : List Byte) (hc : c.length = 16) (bl : List (List Byte)) :
    runBlocks (ctrMealy E gctrInc) c bl = .ok (inc32^[bl.length] c, (gctrBlocks E c bl).flatten) := by
  induction bl generalizing c with
  | nil => rfl
  | cons b bs ih =>
    simp only [runBlocks, ctrMealy, Outcome.ok_bind]
    rw [gctrInc_eq c hc]
    have := ih (inc32 c) (inc32_len c hc)
    rw [this]
    rfl

theorem gctrBlocks_append (E : List Byte → List Byte) (c : List Byte) (bl : List (List Byte)) (r : List Byte) :
    gctrBlocks E c (bl ++ [r]) = gctrBlocks E c bl ++ [xorB r (E (inc32^[bl.length] c))] := by
  induction bl generalizing c with
  | nil => rfl
  | cons b bs ih => simp only [List.cons_append, gctrBlocks, ih, List.length_cons, Function.iterate_succ_apply]

theorem gctrBlocks_len {E : List Byte → List Byte} (hE : LenOk 16 E) (c : List Byte) (hc : c.length = 16)
    (bl : List (List Byte)) (hl : ∀ b ∈ bl, b.length = 16) : ∀ b ∈ gctrBlocks E c bl, b.length = 16 := by
  induction bl generalizing c with
  | nil => simp [gctrBlocks]
  | cons b bs ih =>
    intro d hd
    simp only [gctrBlocks, List.mem_cons] at hd
    have hb := hl b (by simp)
    rcases hd with rfl | hd
    · rw [xorB_len (by rw [hE c hc]; omega), hb]
    · exact ih (inc32 c) (inc32_len c hc) (fun x hx => hl x (by simp [hx])) d hd

theorem gctrBlocks_count (E : List Byte → List Byte) (c : List Byte) (bl : List (List Byte)) :
    (gctrBlocks E c bl).length = bl.length := by
  induction bl generalizing c with
  | nil => rfl
  | cons b bs ih => simp [gctrBlocks, ih]

/-! ## Hashing whole and padded strings -/

theorem flat_len {bl : List (List Byte)} (hl : ∀ b ∈ bl, b.length = 16) : bl.flatten.length = bl.length * 16 := by
  induction bl with
  | nil => rfl
  | cons b bs ih =>
    rw [List.flatten_cons, List.length_append, ih (fun c hc => hl c (by simp [hc])), hl b (by simp),
      List.length_cons]; omega

theorem blocks_of_whole {bl : List (List Byte)} (hl : ∀ b ∈ bl, b.length = 16) : blocks 16 bl.flatten = bl := by
  apply blocks_flatten (by decide)
  induction bl with
  | nil => trivial
  | cons b bs ih => exact shaped_cons (by decide) (hl b (by simp)) (ih (fun c hc => hl c (by simp [hc])))

/-- The whole blocks and the rest of a byte string. -/
theorem split16 (X : List Byte) : ∃ bl r, (∀ b ∈ bl, b.length = 16) ∧ r.length < 16 ∧ X = bl.flatten ++ r ∧
    bl = chop 16 (X.length / 16) X ∧ r = X.drop (X.length / 16 * 16) := by
  refine ⟨chop 16 (X.length / 16) X, X.drop (X.length / 16 * 16), chop_mem (Nat.div_mul_le_self _ _), ?_, ?_, rfl, rfl⟩
  · rw [List.length_drop]; omega
  · rw [chop_flatten, List.take_append_drop]

theorem whole_append {bl : List (List Byte)} (hl : ∀ b ∈ bl, b.length = 16) (r p : List Byte) (hr : r.length < 16)
    (hp : p.length = (16 - r.length % 16) % 16) :
    blocks 16 (bl.flatten ++ r ++ p) = bl ++ (if r = [] ∧ p = [] then [] else [r ++ p]) := by
  have : bl.flatten ++ r ++ p = (bl ++ (if r = [] ∧ p = [] then [] else [r ++ p])).flatten := by
    split_ifs with h
    · rw [h.1, h.2]; simp
    · simp
  rw [this]
  apply blocks_of_whole
  intro b hb
  rw [List.mem_append] at hb
  rcases hb with hb | hb
  · exact hl b hb
  · split_ifs at hb with h
    · simp at hb
    · rw [List.mem_singleton.mp hb, List.length_append]
      by_cases hr0 : r.length = 0
      · rw [hr0] at hp
        exact absurd ⟨List.length_eq_zero_iff.mp hr0, List.length_eq_zero_iff.mp (by omega)⟩ h
      · rw [Nat.mod_eq_of_lt hr] at hp; omega

theorem hash_pad (X p : List Byte) (hp : p.length = (16 - X.length % 16) % 16) (c : Ctx) :
    (hashUpdate 16 Ghash.impl ⟨[], c⟩ X >>= fun h => hashUpdate 16 Ghash.impl h p) =
      .ok ⟨[], (blocks 16 (X ++ p)).foldl absorbB c⟩ := by
  obtain ⟨bl, r, hl, hr, rfl, _, _⟩ := split16 X
  have hm : (bl.flatten ++ r).length % 16 = r.length % 16 := by
    rw [List.length_append, flat_len hl]; omega
  rw [hm] at hp
  rw [update_ragged bl hl r hr c, Outcome.ok_bind]
  rw [update_fill r p hr, whole_append hl r p hr hp, List.foldl_append]
  by_cases hr0 : r.length = 0
  · right
    rw [hr0] at hp
    exact ⟨List.length_eq_zero_iff.mp hr0, List.length_eq_zero_iff.mp (by omega)⟩
  · left; rw [Nat.mod_eq_of_lt hr] at hp; omega

theorem hash_whole (X : List Byte) (h : X.length % 16 = 0) (c : Ctx) :
    hashUpdate 16 Ghash.impl ⟨[], c⟩ X = .ok ⟨[], (blocks 16 X).foldl absorbB c⟩ := by
  have hl := blocks_whole (b := 16) (by decide) h
  have := update_whole (blocks 16 X) hl c
  rwa [flatten_blocks (by decide)] at this

theorem hash_final (c : Ctx) : hashFinal 16 Ghash.impl ⟨[], c⟩ [] = .ok (⟨[], c⟩, digest c) := rfl

theorem toBE_mod (n v : Nat) : toBE n (v % 256 ^ n) = toBE n v :=
  beVal_inj _ _ (by rw [toBE_len, toBE_len]) (by rw [beVal_toBE, beVal_toBE, Nat.mod_mod])

theorem lenBlock_eq (a b : Nat) : lenBlock a b = len64 a ++ len64 b := by
  unfold lenBlock len64
  rw [Sm3.store64_eq, Sm3.store64_eq, BitVec.toNat_ofNat, BitVec.toNat_ofNat]
  exact congrArg₂ _ (toBE_mod 8 a) (toBE_mod 8 b)

theorem lenBlock_len (a b : Nat) : (lenBlock a b).length = 16 := rfl

theorem fold_T (bl : List (List Byte)) (c : Ctx) : (bl.foldl absorbB c).T = c.T := by
  induction bl generalizing c with
  | nil => rfl
  | cons b bs ih => rw [List.foldl_cons, ih]; rfl

theorem pad_len (X : List Byte) : (pad16 X).length % 16 = 0 := by
  unfold pad16; rw [List.length_append, List.length_replicate]; omega

/-- Concatenating padded parts. -/
theorem ghash_parts (H : List Byte) (hH : H.length = 16) (parts : List (List Byte))
    (hp : ∀ X ∈ parts, X.length % 16 = 0) :
    digest ((parts.flatMap (blocks 16)).foldl absorbB (ghashInit H)) = ghash H parts.flatten := by
  rw [digest_fold H hH]
  · congr 1
    induction parts with
    | nil => rfl
    | cons X Xs ih =>
      rw [List.flatMap_cons, List.flatten_append, flatten_blocks (by decide), ih (fun Y hY => hp Y (by simp [hY])),
        List.flatten_cons]
  · intro b hb
    obtain ⟨X, hX, hb⟩ := List.mem_flatMap.mp hb
    exact blocks_whole (by decide) (hp X hX) b hb

theorem blocks_len16 (b : List Byte) (h : b.length = 16) : blocks 16 b = [b] := by
  have := blocks_of_whole (bl := [b]) (by simpa using h)
  simpa using this

/-! ## init -/

theorem gctrInit_spec {E : List Byte → List Byte} (hE : LenOk 16 E) (hash : HashObj Ctx) (hb : hash.buf = [])
    (iv : List Byte) :
    gctrInit E hash iv = .ok (J0 E iv, ⟨[], ghashInit (hashKey E)⟩) := by
  have hH : (hashKey E).length = 16 := hE _ (List.length_replicate ..)
  unfold gctrInit J0
  simp only
  by_cases h12 : iv.length = 12
  · rw [if_pos h12, if_pos h12, setKey, hb]; rfl
  · rw [if_neg h12, if_neg h12]
    have e : (setKey hash (E (zeros 16))) = ⟨[], ghashInit (hashKey E)⟩ := by rw [setKey, hb]; rfl
    rw [e]
    have hp := hash_pad iv (zeros ((16 - iv.length % 16) % 16)) (List.length_replicate ..) (ghashInit (hashKey E))
    rw [← bind_assoc, hp, Outcome.ok_bind, hash_whole _ (by rw [lenBlock_len]), Outcome.ok_bind, hash_final,
      Outcome.ok_bind]
    rw [blocks_len16 _ (lenBlock_len _ _)]
    have g := ghash_parts (hashKey E) hH [iv ++ zeros ((16 - iv.length % 16) % 16), lenBlock 0 (iv.length * 8)]
      (by
        intro X hX
        simp only [List.mem_cons, List.not_mem_nil, or_false] at hX
        rcases hX with rfl | rfl
        · rw [List.length_append, zeros, List.length_replicate]; omega
        · rw [lenBlock_len])
    simp only [List.flatMap_cons, List.flatMap_nil, List.append_nil, List.foldl_append, List.flatten_cons,
      List.flatten_nil, blocks_len16 _ (lenBlock_len _ _)] at g
    congr 1
    refine Prod.ext ?_ ?_
    · dsimp only
      rw [g, lenBlock_eq, Nat.mul_comm iv.length 8]
      unfold pad16 zeros
      rw [List.append_assoc _ (len64 0)]
    · have ht : ∀ (c : Ctx) b, (absorbB c b).T = c.T := fun _ _ => rfl
      unfold reset ghashReset
      simp only [List.foldl_cons, List.foldl_nil, ht, fold_T]
      rw [ghashInit]

/-- The state both classes reach after `init`. -/
def initSt (E : List Byte → List Byte) (s : St) (iv aad tag : List Byte) : St :=
  { s with counter0 := J0 E iv, counter := inc32 (J0 E iv), hash := ⟨[], (blocks 16 (pad16 aad)).foldl absorbB (ghashInit (hashKey E))⟩,
           aadLen := aad.length, ctLen := 0, tag := tag }

theorem J0_len {E : List Byte → List Byte} (iv : List Byte) : (J0 E iv).length = 16 := by
  unfold J0
  split_ifs with h
  · rw [List.length_append, h]; rfl
  · exact toBE_len _ _

theorem encInit_spec {E : List Byte → List Byte} (hE : LenOk 16 E) (o : ModeObj St) (hb : o.st.hash.buf = [])
    (iv aad : List Byte) (ha : aad.length ≤ maxLen) :
    encInit E o iv aad = .ok ⟨o.buf, initSt E o.st iv aad (zeros 16)⟩ := by
  unfold encInit
  rw [if_neg (by omega), gctrInit_spec hE _ hb, Outcome.ok_bind]
  dsimp only
  have hp := hash_pad aad (zeros ((16 - aad.length % 16) % 16)) (List.length_replicate ..) (ghashInit (hashKey E))
  rw [← bind_assoc, hp, Outcome.ok_bind, gctrInc_eq _ (J0_len iv)]
  rfl

theorem decInit_spec {E : List Byte → List Byte} (hE : LenOk 16 E) (o : ModeObj St) (hb : o.st.hash.buf = [])
    (iv aad : List Byte) (ha : aad.length ≤ maxLen) :
    decInit E o iv aad = .ok ⟨o.buf, initSt E o.st iv aad o.st.tag⟩ := by
  unfold decInit
  rw [if_neg (by omega), gctrInit_spec hE _ hb, Outcome.ok_bind]
  dsimp only
  have hp := hash_pad aad (zeros ((16 - aad.length % 16) % 16)) (List.length_replicate ..) (ghashInit (hashKey E))
  rw [← bind_assoc, hp, Outcome.ok_bind, gctrInc_eq _ (J0_len iv)]
  rfl

/-! ## Encryption -/

def EncInv (s : St) : Prop := s.counter.length = 16 ∧ s.hash.buf = [] ∧ s.ctLen ≤ maxLen

def encStep (E : List Byte → List Byte) : Step St := fun s b =>
  if s.ctLen + 16 > maxLen then .throw
  else .ok ({ s with counter := inc32 s.counter, ctLen := s.ctLen + 16,
                     hash := ⟨[], absorbB s.hash.st (xorB b (E s.counter))⟩ }, xorB b (E s.counter))

theorem encStep_ok {E : List Byte → List Byte} (hE : LenOk 16 E) : StepOk 16 EncInv (encStep E) := by
  intro s b s' c ⟨hi1, hi2, hi3⟩ hb h
  unfold encStep at h
  split_ifs at h with hc
  simp only [Outcome.ok.injEq, Prod.mk.injEq] at h
  have := hE _ hi1
  rw [← h.1, ← h.2]
  exact ⟨⟨inc32_len _ hi1, rfl, by dsimp only; omega⟩, by rw [xorB_len (by omega), hb]⟩

theorem enc_run {E : List Byte → List Byte} (bl : List (List Byte)) (s : St) (hi : EncInv s) :
    runBlocks (encStep E) s bl = if s.ctLen + bl.length * 16 > maxLen then .throw else
      .ok ({ s with counter := inc32^[bl.length] s.counter, ctLen := s.ctLen + bl.length * 16,
                    hash := ⟨[], (gctrBlocks E s.counter bl).foldl absorbB s.hash.st⟩ },
        (gctrBlocks E s.counter bl).flatten) := by
  induction bl generalizing s with
  | nil =>
    obtain ⟨c, c0, ⟨hb, hs⟩, ct, al, tag, stat⟩ := s
    obtain ⟨h1, h2, h3⟩ := hi
    simp only at h1 h2 h3
    subst h2
    rw [if_neg (by simp only [List.length_nil]; omega)]; rfl
  | cons b bs ih =>
    simp only [runBlocks]
    unfold encStep
    by_cases hc : s.ctLen + 16 > maxLen
    · rw [if_pos hc, if_pos (by simp only [List.length_cons]; omega)]; rfl
    · rw [if_neg hc, Outcome.ok_bind]
      have := ih { s with counter := inc32 s.counter, ctLen := s.ctLen + 16,
                          hash := ⟨[], absorbB s.hash.st (xorB b (E s.counter))⟩ }
        ⟨inc32_len _ hi.1, rfl, by dsimp only; omega⟩
      unfold encStep at this
      rw [this]
      dsimp only
      have e : s.ctLen + 16 + bs.length * 16 = s.ctLen + (b :: bs).length * 16 := by
        simp only [List.length_cons]; omega
      rw [e]
      split_ifs with h2
      · rfl
      · simp only [Outcome.ok_bind, List.length_cons, Function.iterate_succ_apply, gctrBlocks, List.foldl_cons,
          List.flatten_cons]

theorem gctr_upd {C : BCipher} (hBS : C.BS = 16) (hP : 0 < C.PAR) (hE : LenOk 16 C.E) :
    BatchesOk true 16 (fun s => s.length = 16) (ctrMealy C.E gctrInc) (gctrImpl C).upd := by
  have := ctr_updOk (C := C) (inc := gctrInc) hP (by rw [hBS]; exact hE) (by rw [hBS]; exact gctrInc_len)
  rw [hBS] at this
  exact this

theorem xorB_flat_len {E : List Byte → List Byte} (hE : LenOk 16 E) (c : List Byte) (hc : c.length = 16)
    (bl : List (List Byte)) (hl : ∀ b ∈ bl, b.length = 16) :
    (gctrBlocks E c bl).flatten.length = bl.length * 16 := by
  rw [flat_len (gctrBlocks_len hE c hc bl hl), gctrBlocks_count]

theorem maxLen_lt : maxLen < 2 ^ 64 := by decide

theorem encUpd_ok {C : BCipher} (hBS : C.BS = 16) (hP : 0 < C.PAR) (hE : LenOk 16 C.E) :
    BatchesOk true 16 EncInv (encStep C.E) (encUpd C) := by
  have hg := gctr_upd hBS hP hE
  have hmax := maxLen_lt
  constructor
  · intro s m src o hi
    unfold encUpd
    rw [hg.1 _ _ _ _ hi.1, Outcome.ok_bind]
    dsimp only
    rw [if_neg (by have := hi.2.2; omega)]
    obtain ⟨c, c0, ⟨hb, hs⟩, ct, al, tag, stat⟩ := s
    obtain ⟨h1, h2, h3⟩ := hi
    simp only at h2
    subst h2
    rfl
  · intro K s m src o bl h0 hK hi hl hr hsafe hm
    have hk := hg.2 K s.counter m src o bl h0 hK hi.1 hl hr hsafe hm
    rw [gctr_run _ _ hi.1, Outcome.ok_bind] at hk
    rw [enc_run bl s hi]
    unfold encUpd
    rw [hk, Outcome.ok_bind]
    dsimp only
    by_cases hc : s.ctLen + bl.length * 16 > maxLen
    · rw [if_pos (Or.inr hc), if_pos hc]; rfl
    · rw [if_neg (by omega), if_neg hc, Outcome.ok_bind]
      have hlen := xorB_flat_len hE s.counter hi.1 bl hl
      have hrd : rdm (wrm m o (gctrBlocks C.E s.counter bl).flatten) o (bl.length * 16) =
          (gctrBlocks C.E s.counter bl).flatten := by
        rw [← hlen]; exact rdm_wrm_same (by rw [hlen]; exact hm)
      rw [hrd]
      have hh : s.hash = ⟨[], s.hash.st⟩ := by rw [← hi.2.1]
      rw [hh, update_whole _ (gctrBlocks_len hE s.counter hi.1 bl hl), Outcome.ok_bind]

def encTail (E : List Byte → List Byte) : Step St := fun s r =>
  if s.ctLen + r.length > maxLen then .throw
  else
    let c := xorB r (E s.counter)
    let h := absorbB ((blocks 16 (pad16 c)).foldl absorbB s.hash.st)
      (lenBlock (s.aadLen * 8) ((s.ctLen + r.length) * 8))
    .ok ({ s with counter := if r.length = 0 then s.counter else inc32 s.counter, ctLen := s.ctLen + r.length,
                  hash := ⟨[], h⟩, tag := xorB (digest h) (E s.counter0) }, c)

theorem encTail_ok {E : List Byte → List Byte} (hE : LenOk 16 E) : FStepOk 16 EncInv (encTail E) := by
  intro s r s' w hi hr h
  unfold encTail at h
  by_cases hc : s.ctLen + r.length > maxLen
  · rw [if_pos hc] at h; exact absurd h (by simp)
  · rw [if_neg hc] at h
    simp only [Outcome.ok.injEq, Prod.mk.injEq] at h
    have := hE _ hi.1
    rw [← h.2, xorB_len (by omega)]

theorem gctr_fin {C : BCipher} (hBS : C.BS = 16) (c : List Byte) (hc : c.length = 16)
    (m : Mem) (r : List Byte) (o : Nat) (hr : r.length < 16) (hm : o + r.length ≤ m.length) (h0 : r.length ≠ 0) :
    (gctrImpl C).fin c m r o = .ok (inc32 c, wrm m o (xorB r (C.E c))) := by
  have := ctr_finOk (C := C) (inc := gctrInc) c m r o (by rw [hBS]; exact hc) (by rw [hBS]; exact hr) hm
  unfold gctrImpl
  rw [this]
  simp only [ctrTail, Outcome.ok_bind, if_neg h0, gctrInc_eq c hc]

theorem encFin_ok {C : BCipher} (hBS : C.BS = 16) (hE : LenOk 16 C.E) :
    FinOk 16 EncInv (encTail C.E) (encFin C) := by
  intro s m r o hi hr hm
  have hmax := maxLen_lt
  have hh : s.hash = ⟨[], s.hash.st⟩ := by rw [← hi.2.1]
  unfold encFin encTail
  by_cases h0 : r.length = 0
  · have : r = [] := List.length_eq_zero_iff.mp h0
    subst this
    rw [if_neg (by simp), Outcome.ok_bind]
    simp only
    rw [if_neg (by have := hi.2.2; simp only [List.length_nil]; omega), hh,
      hash_whole _ (by rw [lenBlock_len]), Outcome.ok_bind, hash_final, Outcome.ok_bind, Outcome.ok_bind,
      blocks_len16 _ (lenBlock_len _ _)]
    have e : blocks 16 (pad16 (xorB [] (C.E s.counter))) = [] := by
      simp only [xorB, List.zipWith_nil_left, pad16, List.length_nil, List.nil_append]
      rw [show (16 - 0 % 16) % 16 = 0 from rfl, List.replicate_zero]
      unfold blocks; simp
    rw [e]
    simp only [List.length_nil, Nat.add_zero, xorB, List.zipWith_nil_left, wrm_nil, if_true, List.foldl_nil,
      List.foldl_cons]
    rfl
  · rw [if_pos h0, gctr_fin hBS _ hi.1 m r o hr hm h0, Outcome.ok_bind]
    dsimp only
    have hcl : (xorB r (C.E s.counter)).length = r.length := by
      have := hE _ hi.1
      rw [xorB_len (by omega)]
    have hrd : rdm (wrm m o (xorB r (C.E s.counter))) o r.length = xorB r (C.E s.counter) := by
      rw [← hcl]; exact rdm_wrm_same (by rw [hcl]; exact hm)
    rw [hrd, hh]
    have hp := hash_pad (xorB r (C.E s.counter)) (zeros ((16 - r.length % 16) % 16))
      (by rw [hcl]; exact List.length_replicate ..) s.hash.st
    rw [← bind_assoc, hp]
    simp only [Outcome.ok_bind]
    by_cases hc : s.ctLen + r.length > maxLen
    · rw [if_pos (Or.inr hc), if_pos hc]; rfl
    · rw [if_neg (by omega), if_neg hc, Outcome.ok_bind]
      dsimp only
      rw [hash_whole _ (by rw [lenBlock_len]), Outcome.ok_bind, hash_final, Outcome.ok_bind, Outcome.ok_bind,
        blocks_len16 _ (lenBlock_len _ _), if_neg h0]
      have e : pad16 (xorB r (C.E s.counter)) = xorB r (C.E s.counter) ++ zeros ((16 - r.length % 16) % 16) := by
        unfold pad16 zeros; rw [hcl]
      rw [e]
      simp only [List.foldl_cons, List.foldl_nil]
      rfl

/-- GCTR on the whole string. -/
theorem gctr_split (E : List Byte → List Byte) (c : List Byte) (bl : List (List Byte)) (r : List Byte)
    (hl : ∀ b ∈ bl, b.length = 16) (hr : r.length < 16) :
    gctr E c (bl.flatten ++ r) = (gctrBlocks E c bl).flatten ++ xorB r (E (inc32^[bl.length] c)) := by
  unfold gctr
  have hb : blocks 16 (bl.flatten ++ r) = bl ++ (if r = [] then [] else [r]) := by
    have : bl.flatten ++ r = (bl ++ (if r = [] then [] else [r])).flatten := by
      split_ifs with h
      · rw [h]; simp
      · simp
    rw [this]
    apply blocks_flatten (by decide)
    have : ∀ bl : List (List Byte), (∀ b ∈ bl, b.length = 16) → Shaped 16 (bl ++ (if r = [] then [] else [r])) := by
      intro bl
      induction bl with
      | nil =>
        intro _
        split_ifs with h
        · trivial
        · exact ⟨List.length_pos_iff.mpr h, by omega⟩
      | cons b bs ih =>
        intro hl
        exact shaped_cons (by decide) (hl b (by simp)) (ih (fun c hc => hl c (by simp [hc])))
    exact this bl hl
  rw [hb]
  by_cases h : r = []
  · rw [if_pos h, h]; simp [xorB]
  · rw [if_neg h, gctrBlocks_append]; simp

theorem pad_split (bl : List (List Byte)) (hl : ∀ b ∈ bl, b.length = 16) (r : List Byte) :
    pad16 (bl.flatten ++ r) = bl.flatten ++ pad16 r := by
  unfold pad16
  have hm : (bl.flatten ++ r).length % 16 = r.length % 16 := by
    rw [List.length_append, flat_len hl]; omega
  rw [hm, List.append_assoc]

theorem pad_blocks (bl : List (List Byte)) (hl : ∀ b ∈ bl, b.length = 16) (X : List Byte) (hX : X.length % 16 = 0) :
    blocks 16 (bl.flatten ++ X) = bl ++ blocks 16 X := by
  have := blocks_of_whole (bl := bl ++ blocks 16 X) (by
    intro b hb
    rcases List.mem_append.mp hb with h | h
    · exact hl b h
    · exact blocks_whole (by decide) hX b h)
  rwa [List.flatten_append, flatten_blocks (by decide)] at this

/-- The tag as computed from parts. -/
theorem tag_parts {E : List Byte → List Byte} (hE : LenOk 16 E) (aad X : List Byte) (hX : X.length % 16 = 0) (a c : Nat) :
    digest (absorbB ((blocks 16 X).foldl absorbB ((blocks 16 (pad16 aad)).foldl absorbB (ghashInit (hashKey E))))
      (lenBlock a c)) = ghash (hashKey E) (pad16 aad ++ X ++ len64 a ++ len64 c) := by
  have hH : (hashKey E).length = 16 := hE _ (List.length_replicate ..)
  have g := ghash_parts (hashKey E) hH [pad16 aad, X, lenBlock a c] (by
    intro Y hY
    simp only [List.mem_cons, List.not_mem_nil, or_false] at hY
    rcases hY with rfl | rfl | rfl
    · exact pad_len aad
    · exact hX
    · rw [lenBlock_len])
  simp only [List.flatMap_cons, List.flatMap_nil, List.append_nil, List.foldl_append, List.flatten_cons,
    List.flatten_nil, blocks_len16 _ (lenBlock_len _ _), List.foldl_cons, List.foldl_nil] at g
  rw [g, lenBlock_eq, List.append_assoc, List.append_assoc]

theorem enc_spec {C : BCipher} (hBS : C.BS = 16) (hP : 0 < C.PAR) (hE : LenOk 16 C.E) (s : St) (iv aad tag0 : List Byte)
    (m : Mem) (o i : Nat) (ns : List Nat) (last outl : Nat) (hp : StreamPlaced true 0 m o i ns last) :
    let pt := rdm m i (ns.sum + last)
    let ct := ciphertext C.E iv pt
    if ns.sum + last ≤ maxLen then
      ∃ h', streamRun 16 (encImpl C) true ⟨[], initSt C.E s iv aad tag0⟩ m o i ns last outl =
        .ok (h', wrm m o ct, o + (ns.sum + last)) ∧ h'.st.tag = Spec.Gcm.tag C.E iv aad ct ∧
          h'.st.hash.buf = [] ∧ h'.buf = pt.drop (pt.length / 16 * 16) ∧ h'.st.stat = s.stat
    else streamRun 16 (encImpl C) true ⟨[], initSt C.E s iv aad tag0⟩ m o i ns last outl = .throw := by
  intro pt ct
  have hi : EncInv (initSt C.E s iv aad tag0) := ⟨inc32_len _ (J0_len iv), rfl, Nat.zero_le _⟩
  rw [stream_eq (BS := 16) (by decide) (encStep_ok hE) (encUpd_ok hBS hP hE) (encTail_ok hE) (encFin_ok hBS hE)
    last ns ⟨[], initSt C.E s iv aad tag0⟩ m o i outl hi (by simp) hp]
  have hpl : pt.length = ns.sum + last := rdm_len hp.1
  have hpt : rdm m i (ns.sum + last) = pt := rfl
  rw [hpt, ← hpl]
  clear_value pt
  obtain ⟨bl, r, hl, hr, hX, hbl, hrr⟩ := split16 pt
  unfold feed
  simp only [List.nil_append, bind_assoc, Outcome.ok_bind, List.length_nil, Nat.zero_add]
  rw [← hbl, ← hrr, enc_run bl _ hi]
  have hplen : pt.length = bl.length * 16 + r.length := by rw [hX, List.length_append, flat_len hl]
  have hct0 : (initSt C.E s iv aad tag0).ctLen = 0 := rfl
  rw [hct0, Nat.zero_add]
  have hct : ct = (gctrBlocks C.E (inc32 (J0 C.E iv)) bl).flatten ++
      xorB r (C.E (inc32^[bl.length] (inc32 (J0 C.E iv)))) := by
    show gctr C.E _ pt = _
    rw [hX]; exact gctr_split C.E _ bl r hl hr
  have hgl := gctrBlocks_len hE (inc32 (J0 C.E iv)) (inc32_len _ (J0_len iv)) bl hl
  have hxl : (xorB r (C.E (inc32^[bl.length] (inc32 (J0 C.E iv))))).length = r.length := by
    have := hE _ (incN_len bl.length _ (inc32_len _ (J0_len (E := C.E) iv)))
    rw [xorB_len (by omega)]
  have hctl : ct.length = pt.length := by
    rw [hct, List.length_append, hxl, flat_len hgl, gctrBlocks_count, hplen]
  by_cases h1 : bl.length * 16 > maxLen
  · rw [if_pos h1, if_neg (by omega)]; rfl
  · rw [if_neg h1, Outcome.ok_bind]
    unfold encTail
    simp only
    by_cases h2 : bl.length * 16 + r.length > maxLen
    · rw [if_pos h2, if_neg (by omega)]; rfl
    · rw [if_neg h2, if_pos (by omega), Outcome.ok_bind]
      refine ⟨_, (congrArg Outcome.ok (congrArg₂ Prod.mk rfl (congrArg₂ Prod.mk (congrArg (wrm m o) hct.symm) rfl))), ?_, rfl, rfl, rfl⟩
      · dsimp only [initSt]
        have hpp : pad16 ct = (gctrBlocks C.E (inc32 (J0 C.E iv)) bl).flatten ++
            pad16 (xorB r (C.E (inc32^[bl.length] (inc32 (J0 C.E iv))))) := by
          rw [hct]; exact pad_split _ hgl _
        have t := tag_parts hE aad (pad16 ct) (pad_len ct) (aad.length * 8) (pt.length * 8)
        conv at t => lhs; rw [hpp, pad_blocks _ hgl _ (pad_len _), List.foldl_append]
        unfold Spec.Gcm.tag
        rw [← hplen, t, hctl, Nat.mul_comm 8, Nat.mul_comm 8]

/-! ## Decryption -/

def DecInv (s : St) : Prop := s.counter.length = 16 ∧ s.hash.buf = [] ∧ s.ctLen < 2 ^ 64 ∧ s.stat.length = 16

def decStep (E : List Byte → List Byte) : Step St := fun s b =>
  if s.ctLen + 16 ≥ 2 ^ 64 then .throw
  else .ok ({ s with counter := inc32 s.counter, ctLen := s.ctLen + 16, hash := ⟨[], absorbB s.hash.st b⟩ },
    xorB b (E s.counter))

theorem decStep_ok {E : List Byte → List Byte} (hE : LenOk 16 E) : StepOk 16 DecInv (decStep E) := by
  intro s b s' c ⟨hi1, hi2, hi3, hi4⟩ hb h
  unfold decStep at h
  split_ifs at h with hc
  simp only [Outcome.ok.injEq, Prod.mk.injEq] at h
  have := hE _ hi1
  rw [← h.1, ← h.2]
  exact ⟨⟨inc32_len _ hi1, rfl, by dsimp only; omega, hi4⟩, by rw [xorB_len (by omega), hb]⟩

theorem dec_run {E : List Byte → List Byte} (bl : List (List Byte)) (s : St) (hi : DecInv s) :
    runBlocks (decStep E) s bl = if s.ctLen + bl.length * 16 ≥ 2 ^ 64 then .throw else
      .ok ({ s with counter := inc32^[bl.length] s.counter, ctLen := s.ctLen + bl.length * 16,
                    hash := ⟨[], bl.foldl absorbB s.hash.st⟩ }, (gctrBlocks E s.counter bl).flatten) := by
  induction bl generalizing s with
  | nil =>
    obtain ⟨c, c0, ⟨hb, hs⟩, ct, al, tag, stat⟩ := s
    obtain ⟨h1, h2, h3, h4⟩ := hi
    simp only at h1 h2 h3
    subst h2
    rw [if_neg (by simp only [List.length_nil]; omega)]; rfl
  | cons b bs ih =>
    simp only [runBlocks]
    unfold decStep
    by_cases hc : s.ctLen + 16 ≥ 2 ^ 64
    · rw [if_pos hc, if_pos (by simp only [List.length_cons]; omega)]; rfl
    · rw [if_neg hc, Outcome.ok_bind]
      have := ih { s with counter := inc32 s.counter, ctLen := s.ctLen + 16, hash := ⟨[], absorbB s.hash.st b⟩ }
        ⟨inc32_len _ hi.1, rfl, by dsimp only; omega, hi.2.2.2⟩
      unfold decStep at this
      rw [this]
      dsimp only
      have e : s.ctLen + 16 + bs.length * 16 = s.ctLen + (b :: bs).length * 16 := by
        simp only [List.length_cons]; omega
      rw [e]
      split_ifs with h2
      · rfl
      · simp only [Outcome.ok_bind, List.length_cons, Function.iterate_succ_apply, gctrBlocks, List.foldl_cons,
          List.flatten_cons]

theorem decUpd_ok {C : BCipher} (hBS : C.BS = 16) (hP : 0 < C.PAR) (hE : LenOk 16 C.E) :
    BatchesOk true 16 DecInv (decStep C.E) (decUpd C) := by
  have hg := gctr_upd hBS hP hE
  constructor
  · intro s m src o hi
    unfold decUpd
    rw [if_pos rfl]
  · intro K s m src o bl h0 hK hi hl hr hsafe hm
    have hk := hg.2 K s.counter m src o bl h0 hK hi.1 hl hr hsafe hm
    rw [gctr_run _ _ hi.1, Outcome.ok_bind] at hk
    rw [dec_run bl s hi]
    unfold decUpd
    rw [if_neg (by omega)]
    dsimp only
    by_cases hc : s.ctLen + bl.length * 16 ≥ 2 ^ 64
    · rw [if_pos hc, if_pos hc]; rfl
    · rw [if_neg hc, if_neg hc, Outcome.ok_bind, hr]
      have hh : s.hash = ⟨[], s.hash.st⟩ := by rw [← hi.2.1]
      rw [hh, update_whole _ hl, Outcome.ok_bind, hk, Outcome.ok_bind]

/-- The tag computed for a ragged rest `r` when the padding is taken from `stat`. -/
def decTail (E : List Byte → List Byte) : Step St := fun s r =>
  if s.ctLen + r.length ≥ 2 ^ 64 then .throw
  else
    let h := absorbB ((blocks 16 (r ++ s.stat.take ((16 - r.length % 16) % 16))).foldl absorbB s.hash.st)
      (lenBlock (s.aadLen * 8) ((s.ctLen + r.length) * 8))
    if xorB (digest h) (E s.counter0) ≠ s.tag then .throw
    else .ok ({ s with counter := if r.length = 0 then s.counter else inc32 s.counter, ctLen := s.ctLen + r.length,
                       hash := ⟨[], h⟩, stat := E s.counter0 }, xorB r (E s.counter))

theorem decTail_ok {E : List Byte → List Byte} (hE : LenOk 16 E) : FStepOk 16 DecInv (decTail E) := by
  intro s r s' w hi hr h
  unfold decTail at h
  simp only at h
  by_cases hc : s.ctLen + r.length ≥ 2 ^ 64
  · rw [if_pos hc] at h; exact absurd h (by simp)
  · rw [if_neg hc] at h
    generalize (if r.length = 0 then s.counter else inc32 s.counter) = c at h
    split_ifs at h with h2
    simp only [Outcome.ok.injEq, Prod.mk.injEq] at h
    have := hE _ hi.1
    rw [← h.2, xorB_len (by omega)]

theorem ite_bind {α β : Type} (p : Prop) [Decidable p] (a : α) (f : α → Outcome β) :
    ((if p then Outcome.throw else .ok a) >>= f) = if p then .throw else f a := by
  split_ifs <;> rfl

attribute [local irreducible] absorbB digest lenBlock in
theorem decFin_ok {C : BCipher} (hBS : C.BS = 16) :
    FinOk 16 DecInv (decTail C.E) (decFin C) := by
  intro s m r o hi hr hm
  have hh : s.hash = ⟨[], s.hash.st⟩ := by rw [← hi.2.1]
  unfold decFin decTail
  by_cases h0 : r.length = 0
  · have : r = [] := List.length_eq_zero_iff.mp h0
    subst this
    rw [if_neg (by simp), Outcome.ok_bind]
    simp only
    rw [if_neg (by have := hi.2.2.1; simp only [List.length_nil]; omega), hh,
      hash_whole _ (by rw [lenBlock_len]), Outcome.ok_bind, hash_final, Outcome.ok_bind,
      blocks_len16 _ (lenBlock_len _ _)]
    have e : blocks 16 (([] : List Byte) ++ s.stat.take ((16 - ([] : List Byte).length % 16) % 16)) = [] := by
      simp only [List.length_nil]
      rw [show (16 - 0 % 16) % 16 = 0 from rfl, List.take_zero]
      unfold blocks; simp
    rw [e]
    simp only [List.length_nil, Nat.add_zero, List.foldl_nil, List.foldl_cons]
    show (if xorB (digest (absorbB s.hash.st (lenBlock (s.aadLen * 8) (s.ctLen * 8)))) (C.E s.counter0) ≠ s.tag then _ else _) = _
    by_cases ht : xorB (digest (absorbB s.hash.st (lenBlock (s.aadLen * 8) (s.ctLen * 8)))) (C.E s.counter0) ≠ s.tag
    · rw [if_pos ht, if_pos ht]; rfl
    · rw [if_neg ht, if_neg ht, Outcome.ok_bind]
      simp only [xorB, List.zipWith_nil_left, wrm_nil, if_true]
  · rw [if_pos h0]
    dsimp only
    by_cases hc : s.ctLen + r.length ≥ 2 ^ 64
    · rw [if_pos hc, if_pos hc]; rfl
    · rw [if_neg hc, if_neg hc, hh]
      have hp := hash_pad r (s.stat.take ((16 - r.length % 16) % 16))
        (by rw [List.length_take, hi.2.2.2]; omega) s.hash.st
      rw [← bind_assoc, hp, Outcome.ok_bind, gctr_fin hBS _ hi.1 m r o hr hm h0, Outcome.ok_bind, Outcome.ok_bind]
      dsimp only
      rw [hash_whole _ (by rw [lenBlock_len]), Outcome.ok_bind, hash_final, Outcome.ok_bind,
        blocks_len16 _ (lenBlock_len _ _), if_neg h0]
      simp only [List.foldl_cons, List.foldl_nil]
      rw [ite_bind]
      rfl

/-- What `GcmDecryptor` does to a message, whatever the process-wide padding bytes are. -/
theorem dec_spec {C : BCipher} (hBS : C.BS = 16) (hP : 0 < C.PAR) (hE : LenOk 16 C.E) (s : St) (hst : s.stat.length = 16)
    (iv aad tag0 : List Byte)
    (m : Mem) (o i : Nat) (ns : List Nat) (last outl : Nat) (hp : StreamPlaced true 0 m o i ns last)
    (hlen : ns.sum + last < 2 ^ 64) :
    let ct := rdm m i (ns.sum + last)
    let padded := ct ++ s.stat.take ((16 - ct.length % 16) % 16)
    let t := xorB (ghash (hashKey C.E) (pad16 aad ++ padded ++ len64 (8 * aad.length) ++ len64 (8 * ct.length)))
      (C.E (J0 C.E iv))
    if t = tag0 then
      ∃ h', streamRun 16 (decImpl C) true ⟨[], initSt C.E s iv aad tag0⟩ m o i ns last outl =
        .ok (h', wrm m o (ciphertext C.E iv ct), o + (ns.sum + last)) ∧ h'.st.stat = C.E (J0 C.E iv) ∧
          h'.st.hash.buf = []
    else streamRun 16 (decImpl C) true ⟨[], initSt C.E s iv aad tag0⟩ m o i ns last outl = .throw := by
  intro ct padded t
  have hi : DecInv (initSt C.E s iv aad tag0) := ⟨inc32_len _ (J0_len iv), rfl, Nat.two_pow_pos _, hst⟩
  rw [stream_eq (BS := 16) (by decide) (decStep_ok hE) (decUpd_ok hBS hP hE) (decTail_ok hE) (decFin_ok hBS)
    last ns ⟨[], initSt C.E s iv aad tag0⟩ m o i outl hi (by simp) hp]
  have hpl : ct.length = ns.sum + last := rdm_len hp.1
  have hpt : rdm m i (ns.sum + last) = ct := rfl
  rw [hpt, ← hpl]
  rw [← hpl] at hlen
  clear hpt hpl
  obtain ⟨ct', hct'⟩ : ∃ x, x = ct := ⟨_, rfl⟩
  have hpad : padded = ct' ++ s.stat.take ((16 - ct'.length % 16) % 16) := by rw [hct']
  have ht : t = xorB (ghash (hashKey C.E) (pad16 aad ++ padded ++ len64 (8 * aad.length) ++ len64 (8 * ct'.length)))
      (C.E (J0 C.E iv)) := by rw [hct']
  clear_value t padded
  rw [← hct'] at hlen ⊢
  obtain ⟨bl, r, hl, hr, hX, hbl, hrr⟩ := split16 ct'
  unfold feed
  simp only [List.nil_append, bind_assoc, Outcome.ok_bind, List.length_nil, Nat.zero_add]
  rw [← hbl, ← hrr, dec_run bl _ hi]
  have hplen : ct'.length = bl.length * 16 + r.length := by rw [hX, List.length_append, flat_len hl]
  have hct0 : (initSt C.E s iv aad tag0).ctLen = 0 := rfl
  rw [hct0, Nat.zero_add, if_neg (show ¬ bl.length * 16 ≥ 2 ^ 64 by omega), Outcome.ok_bind]
  unfold decTail
  simp only
  rw [if_neg (show ¬ bl.length * 16 + r.length ≥ 2 ^ 64 by omega)]
  have hm : ct'.length % 16 = r.length % 16 := by rw [hplen]; omega
  have hrp : (r ++ s.stat.take ((16 - r.length % 16) % 16)).length % 16 = 0 := by
    rw [List.length_append, List.length_take, hst]; omega
  have hpad2 : padded = bl.flatten ++ (r ++ s.stat.take ((16 - r.length % 16) % 16)) := by
    rw [hpad, hm, ← List.append_assoc, ← hX]
  have hpm : padded.length % 16 = 0 := by
    rw [hpad2, List.length_append, flat_len hl]; omega
  have tp := tag_parts hE aad padded hpm (aad.length * 8) (ct'.length * 8)
  conv at tp => lhs; rw [hpad2, pad_blocks _ hl _ hrp, List.foldl_append]
  have et : xorB (digest (absorbB ((blocks 16 (r ++ (initSt C.E s iv aad tag0).stat.take ((16 - r.length % 16) % 16))).foldl absorbB
      (bl.foldl absorbB (initSt C.E s iv aad tag0).hash.st))
      (lenBlock ((initSt C.E s iv aad tag0).aadLen * 8) ((bl.length * 16 + r.length) * 8))))
      (C.E (initSt C.E s iv aad tag0).counter0) = t := by
    dsimp only [initSt]
    rw [ht, ← hplen, tp, Nat.mul_comm 8, Nat.mul_comm 8]
  by_cases htt : t = tag0
  · rw [if_neg (not_not.mpr (et.trans (show t = (initSt C.E s iv aad tag0).tag from htt))), if_pos htt, Outcome.ok_bind]
    have : ciphertext C.E iv ct' = (gctrBlocks C.E (inc32 (J0 C.E iv)) bl).flatten ++
        xorB r (C.E (inc32^[bl.length] (inc32 (J0 C.E iv)))) := by
      conv_lhs => rw [hX]
      exact gctr_split C.E _ bl r hl hr
    rw [this]
    exact ⟨_, rfl, rfl, rfl⟩
  · rw [if_pos (show _ ≠ (initSt C.E s iv aad tag0).tag from fun h => htt (et.symm.trans h)), if_neg htt]; rfl

end Verif.Gcm
