import Verif.Proofs.GF128Field
import Verif.Proofs.Gcm
import Verif.Spec.GcmForge
import Mathlib.Data.Set.Card
import Mathlib.Algebra.Polynomial.Roots
/-! # GHASH as a polynomial in the hash key -/
namespace Verif.Ghash
open Verif.Spec Verif.Spec.GF128 Verif.Spec.Modes Polynomial

attribute [local irreducible] modulus

theorem ofByte_xor (a b : Byte) : ofByte (a ^^^ b) = ofByte a + ofByte b := by
  unfold ofByte
  rw [← Finset.sum_add_distrib]
  refine Finset.sum_congr rfl fun i _ => ?_
  rw [BitVec.getMsbD_xor]
  cases a.getMsbD i <;> cases b.getMsbD i <;> simp [add_self]

theorem ofBytes_xor : ∀ a b : List Byte, a.length = b.length → ofBytes (xorB a b) = ofBytes a + ofBytes b
  | [], [], _ => by simp [xorB, ofBytes]
  | x :: xs, y :: ys, h => by
    have ih := ofBytes_xor xs ys (by simpa using h)
    show ofByte (x ^^^ y) + _ * ofBytes (xorB xs ys) = (ofByte x + _) + (ofByte y + _)
    rw [ofByte_xor, ih]; ring

/-- The polynomial whose value at the hash key is GHASH. -/
noncomputable def hpoly (bl : List GF) : GF[X] := bl.foldl (fun P b => (P + C b) * X) 0

theorem hpoly_concat (bl : List GF) (b : GF) : hpoly (bl ++ [b]) = (hpoly bl + C b) * X := by
  unfold hpoly; rw [List.foldl_append]; rfl

theorem hpoly_eval (H : GF) (bl : List GF) : (hpoly bl).eval H = bl.foldl (fun y b => (y + b) * H) 0 := by
  induction bl using List.reverseRecOn with
  | nil => simp [hpoly]
  | append_singleton bl b ih => rw [hpoly_concat, List.foldl_append, eval_mul, eval_add, eval_X, eval_C, ih]; rfl

theorem hpoly_coeff0 (bl : List GF) : (hpoly bl).coeff 0 = 0 := by
  induction bl using List.reverseRecOn with
  | nil => simp [hpoly]
  | append_singleton bl b ih => rw [hpoly_concat]; simp

theorem hpoly_degree (bl : List GF) : (hpoly bl).natDegree ≤ bl.length := by
  induction bl using List.reverseRecOn with
  | nil => simp [hpoly]
  | append_singleton bl b ih =>
    rw [hpoly_concat, List.length_append]
    refine (natDegree_mul_le).trans ?_
    have h1 : (hpoly bl + C b).natDegree ≤ bl.length := by
      refine (natDegree_add_le _ _).trans ?_
      rw [natDegree_C]
      omega
    have h2 : (X : GF[X]).natDegree ≤ 1 := natDegree_X_le
    simp only [List.length_singleton]
    omega

theorem hpoly_concat_inj {bl bl' : List GF} {b b' : GF} (h : hpoly (bl ++ [b]) = hpoly (bl' ++ [b'])) :
    b = b' ∧ hpoly bl = hpoly bl' := by
  rw [hpoly_concat, hpoly_concat] at h
  have h1 : hpoly bl + C b = hpoly bl' + C b' := mul_right_cancel₀ X_ne_zero h
  have h2 : b = b' := by
    have := congrArg (fun p => coeff p 0) h1
    simpa [hpoly_coeff0] using this
  subst h2
  exact ⟨rfl, add_right_cancel h1⟩

theorem hpoly_inj : ∀ (bl bl' : List GF), bl.length = bl'.length → hpoly bl = hpoly bl' → bl = bl' := by
  intro bl
  induction bl using List.reverseRecOn with
  | nil => intro bl' h _; exact (List.length_eq_zero_iff.mp h.symm).symm
  | append_singleton bl b ih =>
    intro bl' h hp
    rcases List.eq_nil_or_concat bl' with rfl | ⟨l, b', rfl⟩
    · simp at h
    · rw [List.concat_eq_append] at *
      obtain ⟨h1, h2⟩ := hpoly_concat_inj hp
      rw [h1, ih l (by simpa using h) h2]

/-- Two sequences with different polynomials, any masks: the keys for which the masked values agree are few. -/
theorem hpoly_card {bl bl' : List GF} (h : hpoly bl ≠ hpoly bl') (c : GF) :
    {H : GF | (hpoly bl).eval H = (hpoly bl').eval H + c}.ncard ≤ max bl.length bl'.length := by
  classical
  have hq : hpoly bl - hpoly bl' - C c ≠ 0 := by
    intro e
    have e1 : hpoly bl - hpoly bl' = C c := sub_eq_zero.mp e
    have hc : c = 0 := by
      have := congrArg (fun p => coeff p 0) e1
      simpa [hpoly_coeff0, eq_comm] using this
    rw [hc, C_0, sub_eq_zero] at e1
    exact h e1
  have hsub : {H : GF | (hpoly bl).eval H = (hpoly bl').eval H + c} ⊆ ↑(hpoly bl - hpoly bl' - C c).roots.toFinset := by
    intro H hH
    simp only [Finset.mem_coe, Multiset.mem_toFinset, mem_roots hq, IsRoot.def, eval_sub, eval_C]
    rw [Set.mem_ofPred_eq] at hH
    rw [hH]; ring
  have h1 := Set.ncard_le_ncard hsub (Finset.finite_toSet _)
  rw [Set.ncard_coe_finset] at h1
  refine h1.trans ((Multiset.toFinset_card_le _).trans ((card_roots' _).trans ?_))
  have d1 := hpoly_degree bl
  have d2 := hpoly_degree bl'
  have d3 : (hpoly bl - hpoly bl').natDegree ≤ max bl.length bl'.length :=
    (natDegree_sub_le _ _).trans (by omega)
  refine (natDegree_sub_le _ _).trans ?_
  rw [natDegree_C]
  omega

theorem ghash_eval (H : List Byte) (hH : H.length = 16) (data : List Byte) (hd : data.length % 16 = 0) :
    ofBytes (Spec.Gcm.ghash H data) = (hpoly ((blocks 16 data).map ofBytes)).eval (ofBytes H) := by
  unfold Spec.Gcm.ghash
  rw [ofBytes_toBlock, p128_ghash_fold H hH _ (blocks_whole (by decide) hd), hpoly_eval, List.foldl_map]
  rw [show p128 (0 : BitVec 128) = 0 from p128_zero]

end Verif.Ghash

namespace Verif.Gcm
open Verif Verif.Spec Verif.Spec.Modes Verif.Spec.Gcm Verif.Spec.GF128 Verif.Ghash

attribute [local irreducible] modulus

/-- What GHASH is applied to when the last block of the ciphertext is filled up with `p`. -/
def authData (aad ct p : List Byte) : List Byte := pad16 aad ++ (ct ++ p) ++ len64 (8 * aad.length) ++ len64 (8 * ct.length)

/-- `p` fills up the last block. -/
def Fills (ct p : List Byte) : Prop := p.length = (16 - ct.length % 16) % 16

theorem Fills.len {ct p : List Byte} (h : Fills ct p) : (ct ++ p).length = (ct.length + 15) / 16 * 16 := by
  unfold Fills at h
  rw [List.length_append]
  omega

theorem Fills.mod {ct p : List Byte} (h : Fills ct p) : (ct ++ p).length % 16 = 0 := by rw [h.len]; omega

theorem authData_blocks (aad : List Byte) {ct p : List Byte} (hp : Fills ct p) : blocks 16 (authData aad ct p) =
    blocks 16 (pad16 aad) ++ blocks 16 (ct ++ p) ++ [len64 (8 * aad.length) ++ len64 (8 * ct.length)] := by
  have hl : (len64 (8 * aad.length) ++ len64 (8 * ct.length)).length = 16 := by
    rw [List.length_append]; unfold len64; rw [toBE_len, toBE_len]
  have h := blocks_of_whole (bl := blocks 16 (pad16 aad) ++ blocks 16 (ct ++ p) ++ [len64 (8 * aad.length) ++ len64 (8 * ct.length)]) (by
    intro b hb
    simp only [List.mem_append, List.mem_singleton] at hb
    rcases hb with (hb | hb) | rfl
    · exact blocks_whole (by decide) (pad_len aad) b hb
    · exact blocks_whole (by decide) hp.mod b hb
    · exact hl)
  rw [List.flatten_append, List.flatten_append, flatten_blocks (by decide), flatten_blocks (by decide)] at h
  unfold authData
  rw [List.append_assoc]
  simpa using h

theorem authData_len (aad : List Byte) {ct p : List Byte} (hp : Fills ct p) : (authData aad ct p).length % 16 = 0 := by
  unfold authData len64
  have h1 := pad_len aad
  have h2 := hp.mod
  rw [List.length_append] at h2
  simp only [List.length_append, toBE_len]
  omega

theorem blocks_count {a : List Byte} {n : Nat} (h : a.length = n * 16) : (blocks 16 a).length = n := by
  have h2 := flat_len (blocks_whole (b := 16) (l := a) (by decide) (by omega))
  rw [flatten_blocks (by decide)] at h2
  omega

theorem authData_count (aad : List Byte) {ct p : List Byte} (hp : Fills ct p) :
    (blocks 16 (authData aad ct p)).length = nblocks aad ct := by
  have h : (pad16 aad).length = (aad.length + 15) / 16 * 16 := by
    unfold pad16; rw [List.length_append, List.length_replicate]; omega
  rw [authData_blocks aad hp, List.length_append, List.length_append, blocks_count h, blocks_count hp.len]
  rfl

theorem len64_inj {a b : Nat} (ha : a < 2 ^ 64) (hb : b < 2 ^ 64) (h : len64 a = len64 b) : a = b := by
  have := congrArg beVal h
  unfold len64 at this
  rw [beVal_toBE, beVal_toBE] at this
  omega

theorem map_ofBytes_inj : ∀ (l l' : List (List Byte)), (∀ b ∈ l, b.length = 16) → (∀ b ∈ l', b.length = 16) →
    l.map ofBytes = l'.map ofBytes → l = l'
  | [], [], _, _, _ => rfl
  | [], _ :: _, _, _, h => by simp at h
  | _ :: _, [], _, _, h => by simp at h
  | a :: l, b :: l', h1, h2, h => by
    simp only [List.map_cons, List.cons.injEq] at h
    rw [ofBytes_inj a b (h1 a (by simp)) (h2 b (by simp)) h.1,
      map_ofBytes_inj l l' (fun x hx => h1 x (by simp [hx])) (fun x hx => h2 x (by simp [hx])) h.2]

theorem pad16_inj {a b : List Byte} (hl : a.length = b.length) (h : pad16 a = pad16 b) : a = b := by
  unfold pad16 at h
  exact (List.append_inj h hl).1

/-- Different messages have different polynomials, however their last blocks are filled up. -/
theorem authPoly_inj {aad ct p aad' ct' p' : List Byte} (hp : Fills ct p) (hp' : Fills ct' p') (h1 : 8 * aad.length < 2 ^ 64)
    (h2 : 8 * ct.length < 2 ^ 64) (h1' : 8 * aad'.length < 2 ^ 64) (h2' : 8 * ct'.length < 2 ^ 64)
    (h : hpoly ((blocks 16 (authData aad ct p)).map ofBytes) = hpoly ((blocks 16 (authData aad' ct' p')).map ofBytes)) :
    aad = aad' ∧ ct = ct' := by
  have hl : ∀ aad ct : List Byte, (len64 (8 * aad.length) ++ len64 (8 * ct.length)).length = 16 := by
    intro aad ct; rw [List.length_append]; unfold len64; rw [toBE_len, toBE_len]
  have hh := h
  rw [authData_blocks aad hp, authData_blocks aad' hp', List.map_append,
    List.map_append (l₂ := [len64 (8 * aad'.length) ++ _])] at hh
  have e := (hpoly_concat_inj hh).1
  have e2 := List.append_inj (ofBytes_inj _ _ (hl aad ct) (hl aad' ct') e) (by unfold len64; rw [toBE_len, toBE_len])
  have la : aad.length = aad'.length := by have := len64_inj h1 h1' e2.1; omega
  have lc : ct.length = ct'.length := by have := len64_inj h2 h2' e2.2; omega
  have hcount : (blocks 16 (authData aad ct p)).length = (blocks 16 (authData aad' ct' p')).length := by
    rw [authData_count aad hp, authData_count aad' hp']; unfold nblocks; rw [la, lc]
  have hb := map_ofBytes_inj _ _ (blocks_whole (by decide) (authData_len aad hp)) (blocks_whole (by decide) (authData_len aad' hp'))
    (hpoly_inj _ _ (by rw [List.length_map, List.length_map, hcount]) h)
  have hd : authData aad ct p = authData aad' ct' p' := by
    rw [← flatten_blocks (b := 16) (by decide) (authData aad ct p), hb, flatten_blocks (by decide)]
  unfold authData at hd
  rw [List.append_assoc, List.append_assoc (_ ++ _)] at hd
  have lp : (pad16 aad).length = (pad16 aad').length := by
    unfold pad16; rw [List.length_append, List.length_append, la, List.length_replicate]
  have hd1 := (List.append_inj hd (by
    have a1 := hp.len
    have a2 := hp'.len
    rw [List.length_append] at a1 a2
    simp only [List.length_append]
    omega)).1
  have hd2 := List.append_inj hd1 lp
  exact ⟨pad16_inj la hd2.1, (List.append_inj hd2.2 lc).1⟩

/-- The tag computed with `p` in place of the zero padding. -/
def tagP (E : List Byte → List Byte) (iv aad ct p : List Byte) : List Byte :=
  xorB (ghash (hashKey E) (authData aad ct p)) (E (J0 E iv))

theorem tag_eq_tagP (E : List Byte → List Byte) (iv aad ct : List Byte) :
    Spec.Gcm.tag E iv aad ct = tagP E iv aad ct (List.replicate ((16 - ct.length % 16) % 16) 0) := rfl

theorem fills_zero (ct : List Byte) : Fills ct (List.replicate ((16 - ct.length % 16) % 16) 0) := List.length_replicate ..

theorem tagP_len {E : List Byte → List Byte} (hE : LenOk 16 E) (iv aad ct p : List Byte) : (tagP E iv aad ct p).length = 16 := by
  unfold tagP
  have := hE _ (J0_len (E := E) iv)
  rw [xorB_len (by rw [this]; exact (toBE_len _ _).le)]
  exact toBE_len _ _

theorem tag_eval {E : List Byte → List Byte} (hE : LenOk 16 E) (iv aad : List Byte) {ct p : List Byte} (hp : Fills ct p) :
    ofBytes (tagP E iv aad ct p) =
      (hpoly ((blocks 16 (authData aad ct p)).map ofBytes)).eval (ofBytes (hashKey E)) + ofBytes (E (J0 E iv)) := by
  have hH : (hashKey E).length = 16 := hE _ (List.length_replicate ..)
  have hg : ∀ d, (ghash (hashKey E) d).length = 16 := fun d => toBE_len _ _
  unfold tagP
  rw [ofBytes_xor _ _ (by rw [hg, hE _ (J0_len _)])]
  rw [← ghash_eval _ hH _ (authData_len aad hp)]

theorem withKey_len {E0 : List Byte → List Byte} (hE : LenOk 16 E0) {H : List Byte} (hH : H.length = 16) :
    LenOk 16 (withKey E0 H) := by
  intro x hx
  unfold withKey
  split_ifs
  · exact hH
  · exact hE x hx

theorem withKey_hash (E0 : List Byte → List Byte) (H : List Byte) : hashKey (withKey E0 H) = H := by
  unfold hashKey withKey; rw [if_pos rfl]

theorem withKey_J0 (E0 : List Byte → List Byte) (H iv : List Byte) (hiv : iv.length = 12) :
    withKey E0 H (J0 (withKey E0 H) iv) = E0 (iv ++ [0, 0, 0, 1]) := by
  unfold J0
  rw [if_pos hiv]
  unfold withKey
  rw [if_neg]
  intro h
  have := congrArg (fun l => l.drop 12) h
  simp only [List.drop_append_of_le_length hiv.ge, List.drop_eq_nil_of_le hiv.le] at this
  exact absurd this (by decide)

theorem forge_card {E0 : List Byte → List Byte} (hE : LenOk 16 E0) (iv iv' aad ct aad' ct' p' δ : List Byte) (hp' : Fills ct' p')
    (hiv : iv.length = 12) (hiv' : iv'.length = 12) (hδ : δ.length = 16) (h1 : 8 * aad.length < 2 ^ 64)
    (h2 : 8 * ct.length < 2 ^ 64) (h1' : 8 * aad'.length < 2 ^ 64) (h2' : 8 * ct'.length < 2 ^ 64) (hne : (aad', ct') ≠ (aad, ct)) :
    {H : List Byte | H.length = 16 ∧ tagP (withKey E0 H) iv' aad' ct' p' =
      xorB δ (Spec.Gcm.tag (withKey E0 H) iv aad ct)}.ncard ≤ max (nblocks aad' ct') (nblocks aad ct) := by
  have hz := fills_zero ct
  simp only [tag_eq_tagP]
  generalize List.replicate ((16 - ct.length % 16) % 16) (0 : Byte) = z at *
  have hp : hpoly ((blocks 16 (authData aad' ct' p')).map ofBytes) ≠ hpoly ((blocks 16 (authData aad ct z)).map ofBytes) := by
    intro h
    have := authPoly_inj hp' hz h1' h2' h1 h2 h
    exact hne (by rw [this.1, this.2])
  set c := ofBytes δ + ofBytes (E0 (iv ++ [0, 0, 0, 1])) + ofBytes (E0 (iv' ++ [0, 0, 0, 1])) with hc
  have hcard := hpoly_card hp c
  rw [List.length_map, List.length_map, authData_count aad' hp', authData_count aad hz] at hcard
  refine le_trans ?_ hcard
  have hfin : {H : GF | (hpoly ((blocks 16 (authData aad' ct' p')).map ofBytes)).eval H =
      (hpoly ((blocks 16 (authData aad ct z)).map ofBytes)).eval H + c}.Finite := by
    have : Module.Finite (ZMod 2) GF := (AdjoinRoot.powerBasis modulus_ne_zero).finite
    have : Finite GF := Module.finite_of_finite (ZMod 2)
    exact Set.toFinite _
  refine Set.ncard_le_ncard_of_injOn ofBytes ?_ ?_ hfin
  · intro H hH
    obtain ⟨hl, ht⟩ := hH
    rw [Set.mem_ofPred_eq]
    have hL := withKey_len hE hl
    have e := congrArg ofBytes ht
    rw [ofBytes_xor _ _ (by rw [hδ, tagP_len hL]), tag_eval hL _ _ hp', tag_eval hL _ _ hz, withKey_hash, withKey_J0 _ _ _ hiv,
      withKey_J0 _ _ _ hiv'] at e
    have e' := congrArg (· + ofBytes (E0 (iv' ++ [0, 0, 0, 1]))) e
    rw [add_assoc, add_self, add_zero] at e'
    rw [e', hc]; ring
  · intro a ha b hb h
    exact ofBytes_inj a b ha.1 hb.1 h

/-- Two tags under one IV: the mask cancels. -/
theorem reuse_card (iv aad ct aad' ct' T T' : List Byte) (h1 : 8 * aad.length < 2 ^ 64)
    (h2 : 8 * ct.length < 2 ^ 64) (h1' : 8 * aad'.length < 2 ^ 64) (h2' : 8 * ct'.length < 2 ^ 64) (hne : (aad', ct') ≠ (aad, ct)) :
    {H : List Byte | H.length = 16 ∧ ∃ E, LenOk 16 E ∧ hashKey E = H ∧ Spec.Gcm.tag E iv aad ct = T ∧
      Spec.Gcm.tag E iv aad' ct' = T'}.Finite ∧
    {H : List Byte | H.length = 16 ∧ ∃ E, LenOk 16 E ∧ hashKey E = H ∧ Spec.Gcm.tag E iv aad ct = T ∧
      Spec.Gcm.tag E iv aad' ct' = T'}.ncard ≤ max (nblocks aad' ct') (nblocks aad ct) := by
  have hz := fills_zero ct
  have hz' := fills_zero ct'
  simp only [tag_eq_tagP]
  generalize List.replicate ((16 - ct.length % 16) % 16) (0 : Byte) = z at *
  generalize List.replicate ((16 - ct'.length % 16) % 16) (0 : Byte) = z' at *
  have hp : hpoly ((blocks 16 (authData aad' ct' z')).map ofBytes) ≠ hpoly ((blocks 16 (authData aad ct z)).map ofBytes) := by
    intro h
    have := authPoly_inj hz' hz h1' h2' h1 h2 h
    exact hne (by rw [this.1, this.2])
  have hcard := hpoly_card hp (ofBytes T' + ofBytes T)
  rw [List.length_map, List.length_map, authData_count aad' hz', authData_count aad hz] at hcard
  have hfin : {H : GF | (hpoly ((blocks 16 (authData aad' ct' z')).map ofBytes)).eval H =
      (hpoly ((blocks 16 (authData aad ct z)).map ofBytes)).eval H + (ofBytes T' + ofBytes T)}.Finite := by
    have : Module.Finite (ZMod 2) GF := (AdjoinRoot.powerBasis modulus_ne_zero).finite
    have : Finite GF := Module.finite_of_finite (ZMod 2)
    exact Set.toFinite _
  have hmap : ∀ H ∈ {H : List Byte | H.length = 16 ∧ ∃ E, LenOk 16 E ∧ hashKey E = H ∧ tagP E iv aad ct z = T ∧
      tagP E iv aad' ct' z' = T'}, ofBytes H ∈ {H : GF | (hpoly ((blocks 16 (authData aad' ct' z')).map ofBytes)).eval H =
      (hpoly ((blocks 16 (authData aad ct z)).map ofBytes)).eval H + (ofBytes T' + ofBytes T)} := by
    rintro H ⟨hl, E, hE, hk, rfl, rfl⟩
    rw [Set.mem_ofPred_eq, tag_eval hE _ _ hz', tag_eval hE _ _ hz, hk]
    generalize Polynomial.eval (ofBytes H) _ = a
    generalize Polynomial.eval (ofBytes H) _ = b
    generalize ofBytes (E (J0 E iv)) = c
    calc a = a + (b + b) + (c + c) := by rw [add_self, add_self, add_zero, add_zero]
      _ = _ := by ring
  have hinj : Set.InjOn ofBytes {H : List Byte | H.length = 16 ∧ ∃ E, LenOk 16 E ∧ hashKey E = H ∧ tagP E iv aad ct z = T ∧
      tagP E iv aad' ct' z' = T'} := fun a ha b hb h => ofBytes_inj a b ha.1 hb.1 h
  exact ⟨Set.Finite.of_injOn hmap hinj hfin, (Set.ncard_le_ncard_of_injOn ofBytes hmap hinj hfin).trans hcard⟩

/-! ## A last block that is padded with something else -/

theorem ghash_last2 {H : List Byte} (hH : H.length = 16) {bl : List (List Byte)} (hl : ∀ b ∈ bl, b.length = 16)
    {b b' l : List Byte} (hb : b.length = 16) (hb' : b'.length = 16) (hl' : l.length = 16) :
    ofBytes (ghash H (bl.flatten ++ b ++ l)) + ofBytes (ghash H (bl.flatten ++ b' ++ l)) =
      (ofBytes b + ofBytes b') * ofBytes H ^ 2 := by
  have key : ∀ c : List Byte, c.length = 16 → ofBytes (ghash H (bl.flatten ++ c ++ l)) =
      (((hpoly (bl.map ofBytes)).eval (ofBytes H) + ofBytes c) * ofBytes H + ofBytes l) * ofBytes H := by
    intro c hc
    have hbl := blocks_of_whole (bl := bl ++ [c] ++ [l]) (by
      intro x hx
      simp only [List.mem_append, List.mem_singleton] at hx
      rcases hx with (hx | rfl) | rfl
      · exact hl x hx
      · exact hc
      · exact hl')
    have hf : (bl ++ [c] ++ [l]).flatten = bl.flatten ++ c ++ l := by simp
    rw [hf] at hbl
    rw [ghash_eval H hH _ (by rw [List.length_append, List.length_append, flat_len hl, hc, hl']; omega), hbl,
      List.map_append, List.map_append]
    simp only [List.map_cons, List.map_nil]
    rw [hpoly_concat, hpoly_concat]
    simp only [Polynomial.eval_mul, Polynomial.eval_add, Polynomial.eval_C, Polynomial.eval_X]
  rw [key b hb, key b' hb']
  have e := add_self ((hpoly (bl.map ofBytes)).eval (ofBytes H) * ofBytes H ^ 2 + ofBytes l * ofBytes H)
  calc _ = ((hpoly (bl.map ofBytes)).eval (ofBytes H) * ofBytes H ^ 2 + ofBytes l * ofBytes H) +
        ((hpoly (bl.map ofBytes)).eval (ofBytes H) * ofBytes H ^ 2 + ofBytes l * ofBytes H) +
        (ofBytes b + ofBytes b') * ofBytes H ^ 2 := by ring
    _ = _ := by rw [e, zero_add]

theorem ofBytes_zero16 : ofBytes (List.replicate 16 0) = 0 := by
  have h : ofByte 0 = 0 := by unfold ofByte; simp
  simp [ofBytes, show ofByte 0#8 = 0 from h, List.replicate]

theorem xorB_right_inj {a b c : List Byte} (ha : a.length = 16) (hb : b.length = 16) (hc : c.length = 16)
    (h : xorB a c = xorB b c) : a = b := by
  apply ofBytes_inj a b ha hb
  have := congrArg ofBytes h
  rw [ofBytes_xor _ _ (by rw [ha, hc]), ofBytes_xor _ _ (by rw [hb, hc])] at this
  exact add_right_cancel this

/-- The tag over the ciphertext `ct ++ p` with the length of `ct`. -/
theorem pad_iff {E : List Byte → List Byte} (hE : LenOk 16 E) (iv aad ct p q : List Byte)
    (hp : p.length = 16 - ct.length % 16) (hq : q.length = 16 - ct.length % 16) :
    xorB (ghash (hashKey E) (pad16 aad ++ (ct ++ p) ++ len64 (8 * aad.length) ++ len64 (8 * ct.length))) (E (J0 E iv)) =
      xorB (ghash (hashKey E) (pad16 aad ++ (ct ++ q) ++ len64 (8 * aad.length) ++ len64 (8 * ct.length))) (E (J0 E iv)) ↔
    hashKey E = List.replicate 16 0 ∨ p = q := by
  have hH : (hashKey E).length = 16 := hE _ (List.length_replicate ..)
  have hg : ∀ d, (ghash (hashKey E) d).length = 16 := fun d => toBE_len _ _
  obtain ⟨bl, r, hl, hr16, hX, -, -⟩ := split16 ct
  have hcl : ct.length = bl.length * 16 + r.length := by rw [hX, List.length_append, flat_len hl]
  have hab := blocks_whole (b := 16) (by decide) (pad_len aad)
  have hdata : ∀ p : List Byte, pad16 aad ++ (ct ++ p) ++ len64 (8 * aad.length) ++ len64 (8 * ct.length) =
      (blocks 16 (pad16 aad) ++ bl).flatten ++ (r ++ p) ++ (len64 (8 * aad.length) ++ len64 (8 * ct.length)) := by
    intro p
    have hX' : ct ++ p = bl.flatten ++ (r ++ p) := by rw [← List.append_assoc, ← hX]
    rw [List.flatten_append, flatten_blocks (by decide), hX']
    simp only [List.append_assoc]
  have hall : ∀ b ∈ blocks 16 (pad16 aad) ++ bl, b.length = 16 := by
    intro b hb
    rcases List.mem_append.mp hb with h | h
    · exact hab b h
    · exact hl b h
  have hrp : ∀ p : List Byte, p.length = 16 - ct.length % 16 → (r ++ p).length = 16 := by
    intro p hp
    rw [List.length_append, hp]; omega
  have hll : (len64 (8 * aad.length) ++ len64 (8 * ct.length)).length = 16 := by
    rw [List.length_append]; unfold len64; rw [toBE_len, toBE_len]
  have g := ghash_last2 hH hall (hrp p hp) (hrp q hq) hll
  rw [← hdata p, ← hdata q] at g
  constructor
  · intro h
    have h := xorB_right_inj (hg _) (hg _) (hE _ (J0_len iv)) h
    rw [h, add_self, eq_comm, mul_eq_zero] at g
    rcases g with g | g
    · right
      have : ofBytes (r ++ p) = ofBytes (r ++ q) := by
        have e := congrArg (· + ofBytes (r ++ q)) g
        rwa [add_assoc, add_self, add_zero, zero_add] at e
      exact List.append_cancel_left (ofBytes_inj _ _ (hrp p hp) (hrp q hq) this)
    · left
      apply ofBytes_inj _ _ hH (List.length_replicate ..)
      rw [ofBytes_zero16]
      exact pow_eq_zero_iff (by decide) |>.mp g
  · rintro (h | h)
    · have h0 : ofBytes (hashKey E) = 0 := by rw [h, ofBytes_zero16]
      rw [h0, zero_pow (by decide), mul_zero] at g
      generalize pad16 aad ++ (ct ++ p) ++ len64 (8 * aad.length) ++ len64 (8 * ct.length) = d at *
      generalize pad16 aad ++ (ct ++ q) ++ len64 (8 * aad.length) ++ len64 (8 * ct.length) = d' at *
      have e : ofBytes (ghash (hashKey E) d) = ofBytes (ghash (hashKey E) d') := by
        have e := congrArg (· + ofBytes (ghash (hashKey E) d')) g
        rwa [add_assoc, add_self, add_zero, zero_add] at e
      exact congrArg (xorB · (E (J0 E iv))) (ofBytes_inj _ _ (hg _) (hg _) e)
    · rw [h]

end Verif.Gcm
