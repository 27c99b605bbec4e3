import Verif.Proofs.Ghash
import Verif.Spec.Gcm
import Verif.Proofs.Sm3
import Verif.Proofs.Modes3
/-! # GHASH: agreement with the bit-string algorithm of SP 800-38D, and use through the hash object -/
namespace Verif.Ghash
open Verif.Spec Verif.Spec.GF128 Polynomial

attribute [local irreducible] modulus

noncomputable def p128 (a : BitVec 128) : GF := ∑ i ∈ Finset.range 128, if a.getMsbD i then x ^ i else 0

theorem p128_xor (a b : BitVec 128) : p128 (a ^^^ b) = p128 a + p128 b := by
  unfold p128
  rw [← Finset.sum_add_distrib]
  refine Finset.sum_congr rfl fun i _ => ?_
  rw [BitVec.getMsbD_xor]
  cases a.getMsbD i <;> cases b.getMsbD i <;> simp [add_self]

theorem p128_append (h l : W64) : p128 (h ++ l) = pp (h, l) := by
  have e : p128 (h ++ l) = ∑ i ∈ Finset.range (64 + 64), if (h ++ l).getMsbD i then x ^ i else 0 := rfl
  rw [e, Finset.sum_range_add, pp, p64, p64, Finset.mul_sum]
  refine congrArg₂ (· + ·) ?_ ?_
  · refine Finset.sum_congr rfl fun i hi => ?_
    have hi : i < 64 := Finset.mem_range.mp hi
    have : (h ++ l).getMsbD i = h.getMsbD i := by
      rw [BitVec.getMsbD_append]; simp [show ¬ 64 ≤ i by omega]
    rw [this]
  · refine Finset.sum_congr rfl fun i hi => ?_
    have hi : i < 64 := Finset.mem_range.mp hi
    have : (h ++ l).getMsbD (64 + i) = l.getMsbD i := by
      rw [BitVec.getMsbD_append]; simp
    rw [this]
    split
    · rw [pow_add]
    · simp

theorem p128_R : p128 Gcm.R = x ^ 128 := by
  rw [show Gcm.R = 0xE100000000000000#64 ++ 0#64 by decide, p128_append, pp, p64_E1]
  rw [show p64 (0#64) = 0 from p64_zero]; ring

theorem p128_zero : p128 0 = 0 := by simp [p128]

theorem p128_shift (V : BitVec 128) : x * p128 V = p128 (V >>> 1) + if V.getLsbD 0 then x ^ 128 else 0 := by
  have e1 : p128 V = ∑ i ∈ Finset.range (127 + 1), if V.getMsbD i then x ^ i else 0 := rfl
  have e2 : p128 (V >>> 1) = ∑ i ∈ Finset.range (127 + 1), if (V >>> 1).getMsbD i then x ^ i else 0 := rfl
  rw [e1, e2, Finset.sum_range_succ, Finset.sum_range_succ' (fun i => if (V >>> 1).getMsbD i then x ^ i else 0)]
  rw [show (V >>> 1).getMsbD 0 = false by rw [BitVec.getMsbD_ushiftRight]; simp]
  rw [mul_add, Finset.mul_sum]
  have h127 : V.getMsbD 127 = V.getLsbD 0 := by rw [BitVec.getMsbD_eq_getLsbD]; simp
  rw [h127]
  refine congrArg₂ (· + ·) ?_ ?_
  · simp only [Bool.false_eq_true, if_false, add_zero]
    refine Finset.sum_congr rfl fun i hi => ?_
    have hi : i < 127 := Finset.mem_range.mp hi
    rw [BitVec.getMsbD_ushiftRight]
    have q1 : i + 1 < 128 := by omega
    simp only [q1, decide_true, show ¬ (i + 1 < 1) by omega, decide_false, Bool.not_false, Bool.true_and,
      Nat.add_sub_cancel]
    split
    · rw [pow_succ]; ring
    · simp
  · split
    · rw [show 128 = 127 + 1 from rfl, pow_succ]; ring
    · simp

theorem p128_mulx (V : BitVec 128) : p128 (if V.getLsbD 0 then (V >>> 1) ^^^ Gcm.R else V >>> 1) = x * p128 V := by
  rw [p128_shift]
  split
  · rw [p128_xor, p128_R]
  · simp

theorem p128_fold (X Y : BitVec 128) (n : Nat) :
    let r := (List.range n).foldl (fun (ZV : BitVec 128 × BitVec 128) i =>
      (if X.getMsbD i then ZV.1 ^^^ ZV.2 else ZV.1,
       if ZV.2.getLsbD 0 then (ZV.2 >>> 1) ^^^ Gcm.R else ZV.2 >>> 1)) (0, Y)
    p128 r.1 = (∑ i ∈ Finset.range n, if X.getMsbD i then x ^ i else 0) * p128 Y ∧ p128 r.2 = x ^ n * p128 Y := by
  induction n with
  | zero => simp [p128_zero, show p128 0#128 = 0 from p128_zero]
  | succ n ih =>
    simp only at ih ⊢
    rw [List.range_succ, List.foldl_append, List.foldl_cons, List.foldl_nil]
    generalize (List.range n).foldl (fun (ZV : BitVec 128 × BitVec 128) i =>
      (if X.getMsbD i then ZV.1 ^^^ ZV.2 else ZV.1,
       if ZV.2.getLsbD 0 then (ZV.2 >>> 1) ^^^ Gcm.R else ZV.2 >>> 1)) (0, Y) = r at ih
    obtain ⟨Z, V⟩ := r
    dsimp only at ih ⊢
    refine ⟨?_, ?_⟩
    · rw [Finset.sum_range_succ, add_mul, ← ih.1]
      by_cases h : X.getMsbD n = true
      · rw [if_pos h, if_pos h, p128_xor, ih.2]
      · rw [if_neg h, if_neg h, zero_mul, add_zero]
    · rw [p128_mulx, ih.2, pow_succ]; ring

theorem p128_mul (X Y : BitVec 128) : p128 (Gcm.mul X Y) = p128 X * p128 Y := (p128_fold X Y 128).1

theorem p64_beVal (bs : List Byte) (h : bs.length = 8) : p64 (BitVec.ofNat 64 (beVal bs)) = ofBytes bs := by
  have hlt : beVal bs < 2 ^ 64 := by have := beVal_lt bs; rw [h] at this; exact this
  rw [← ofBytes_store, Sm3.store64_eq, BitVec.toNat_ofNat, Nat.mod_eq_of_lt hlt]
  congr 1
  have := toBE_beVal bs
  rwa [h] at this

theorem p128_ofBlock (bs : List Byte) (h : bs.length = 16) : p128 (Gcm.ofBlock bs) = ofBytes bs := by
  have h1 : (bs.take 8).length = 8 := by simp [h]
  have h2 : (bs.drop 8).length = 8 := by simp [h]
  have hl1 : beVal (bs.take 8) < 2 ^ 64 := by have := beVal_lt (bs.take 8); rw [h1] at this; exact this
  have hl2 : beVal (bs.drop 8) < 2 ^ 64 := by have := beVal_lt (bs.drop 8); rw [h2] at this; exact this
  have e : Gcm.ofBlock bs = BitVec.ofNat 64 (beVal (bs.take 8)) ++ BitVec.ofNat 64 (beVal (bs.drop 8)) := by
    apply BitVec.eq_of_toNat_eq
    rw [BitVec.toNat_append, BitVec.toNat_ofNat, BitVec.toNat_ofNat, Nat.mod_eq_of_lt hl1, Nat.mod_eq_of_lt hl2,
      ← Nat.shiftLeft_add_eq_or_of_lt hl2, Nat.shiftLeft_eq]
    have hb : beVal bs = beVal (bs.take 8) * 2 ^ 64 + beVal (bs.drop 8) := by
      conv_lhs => rw [← List.take_append_drop 8 bs, beVal_append, h2]
      rfl
    unfold Gcm.ofBlock
    rw [BitVec.toNat_ofNat, hb, Nat.mod_eq_of_lt (by omega)]
  rw [e, p128_append, pp]
  dsimp only
  rw [p64_beVal _ h1, p64_beVal _ h2]
  conv_rhs => rw [← List.take_append_drop 8 bs, ofBytes_append, h1]

theorem ofBytes_toBlock (v : BitVec 128) : ofBytes (Gcm.toBlock v) = p128 v := by
  have h16 : (Gcm.toBlock v).length = 16 := toBE_len _ _
  rw [← p128_ofBlock _ h16]
  refine congrArg p128 ?_
  unfold Gcm.toBlock Gcm.ofBlock
  rw [beVal_toBE, Nat.mod_eq_of_lt (show v.toNat < 256 ^ 16 from v.isLt), BitVec.ofNat_toNat, BitVec.setWidth_eq]

theorem p128_ghash_fold (H : List Byte) (hH : H.length = 16) (bl : List (List Byte)) (hl : ∀ b ∈ bl, b.length = 16)
    (Y : BitVec 128) :
    p128 (bl.foldl (fun Y X => Gcm.mul (Y ^^^ Gcm.ofBlock X) (Gcm.ofBlock H)) Y) =
      bl.foldl (fun y b => (y + ofBytes b) * ofBytes H) (p128 Y) := by
  induction bl generalizing Y with
  | nil => rfl
  | cons b bs ih =>
    rw [List.foldl_cons, List.foldl_cons, ih (fun c hc => hl c (by simp [hc])), p128_mul, p128_xor,
      p128_ofBlock b (hl b (by simp)), p128_ofBlock H hH]

/-! ## The hash object -/

/-- One block. -/
def absorbB (c : Ctx) (b : List Byte) : Ctx := ⟨c.T, gmulBlock c.T c.state b⟩

def digest (c : Ctx) : List Byte := Sm3.memStore64BE c.state.1 ++ Sm3.memStore64BE c.state.2

theorem digest_len (c : Ctx) : (digest c).length = 16 := rfl

theorem load_append (a b : List Byte) (h : 8 ≤ a.length) : memLoad64BE (a ++ b) = memLoad64BE a := by
  have e : ∀ i, i < 8 → (a ++ b).getD i 0 = a.getD i 0 := by
    intro i hi
    rw [List.getD_eq_getElem?_getD, List.getD_eq_getElem?_getD, List.getElem?_append_left (by omega)]
  unfold memLoad64BE
  simp only [e 0 (by decide), e 1 (by decide), e 2 (by decide), e 3 (by decide), e 4 (by decide), e 5 (by decide),
    e 6 (by decide), e 7 (by decide)]

theorem updateBlocks_fold (bl : List (List Byte)) (hl : ∀ b ∈ bl, b.length = 16) (c : Ctx) (l : List Byte) :
    updateBlocks c (bl.flatten ++ l) bl.length = bl.foldl absorbB c := by
  induction bl generalizing c with
  | nil => simp [updateBlocks]
  | cons b bs ih =>
    have hb : b.length = 16 := hl b (by simp)
    simp only [List.length_cons, updateBlocks, List.flatten_cons, List.append_assoc, List.foldl_cons]
    rw [show (b ++ (bs.flatten ++ l)).drop 16 = bs.flatten ++ l by rw [← hb, List.drop_left]]
    rw [ih (fun c hc => hl c (by simp [hc]))]
    refine congrArg (fun d => bs.foldl absorbB d) ?_
    unfold absorbB gmulBlock
    rw [load_append b _ (by omega), List.drop_append_of_le_length (by omega),
      load_append (b.drop 8) _ (by rw [List.length_drop]; omega)]

/-- The digest after whole blocks is GHASH. -/
theorem digest_fold (H : List Byte) (hH : H.length = 16) (bl : List (List Byte)) (hl : ∀ b ∈ bl, b.length = 16) :
    digest (bl.foldl absorbB (ghashInit H)) = Gcm.ghash H bl.flatten := by
  have hb : Modes.blocks 16 bl.flatten = bl := by
    apply blocks_flatten (by decide)
    clear hH
    induction bl with
    | nil => trivial
    | cons b bs ih => exact shaped_cons (by decide) (hl b (by simp)) (ih (fun c hc => hl c (by simp [hc])))
  unfold Gcm.ghash
  rw [hb]
  apply ofBytes_inj _ _ (digest_len _) (by unfold Gcm.toBlock; exact toBE_len _ _)
  rw [ofBytes_toBlock, digest, pp_store, p128_ghash_fold H hH bl hl]
  have := (updateBlocks_spec H hH bl [] (0, 0) hl).2
  rw [updateBlocks_fold bl hl] at this
  refine this.trans ?_
  have z : pp ((0, 0) : Pair) = p128 (0 : BitVec 128) := by
    rw [p128_zero, pp, p64_zero]; ring
  rw [z]

theorem update_whole (bl : List (List Byte)) (hl : ∀ b ∈ bl, b.length = 16) (c : Ctx) :
    hashUpdate 16 impl ⟨[], c⟩ bl.flatten = .ok ⟨[], bl.foldl absorbB c⟩ := by
  have hlen : bl.flatten.length = bl.length * 16 := by
    clear c
    induction bl with
    | nil => rfl
    | cons b bs ih =>
      rw [List.flatten_cons, List.length_append, ih (fun c hc => hl c (by simp [hc])), hl b (by simp),
        List.length_cons]; omega
  unfold hashUpdate
  by_cases h0 : bl.flatten.length = 0
  · have : bl = [] := List.length_eq_zero_iff.mp (by omega)
    rw [if_pos h0, this]; rfl
  · dsimp only
    have hz : ([] : List Byte).length = 0 := rfl
    rw [if_neg h0, if_pos hz]
    unfold hashAbsorb
    rw [if_neg (by omega), show bl.flatten.length / 16 = bl.length by omega]
    have := updateBlocks_fold bl hl c []
    rw [List.append_nil] at this
    simp only [impl, Outcome.ok_bind, this]
    rw [if_pos (by rw [List.length_drop]; omega)]

theorem update_ragged (bl : List (List Byte)) (hl : ∀ b ∈ bl, b.length = 16) (r : List Byte) (hr : r.length < 16)
    (c : Ctx) : hashUpdate 16 impl ⟨[], c⟩ (bl.flatten ++ r) = .ok ⟨r, bl.foldl absorbB c⟩ := by
  by_cases hr0 : r = []
  · subst hr0; rw [List.append_nil]; exact update_whole bl hl c
  have hpos : 0 < r.length := List.length_pos_iff.mpr hr0
  have hlen : bl.flatten.length = bl.length * 16 := by
    clear c
    induction bl with
    | nil => rfl
    | cons b bs ih =>
      rw [List.flatten_cons, List.length_append, ih (fun c hc => hl c (by simp [hc])), hl b (by simp),
        List.length_cons]; omega
  unfold hashUpdate
  have h0 : ¬ (bl.flatten ++ r).length = 0 := by rw [List.length_append]; omega
  have hz : ([] : List Byte).length = 0 := rfl
  dsimp only
  rw [if_neg h0, if_pos hz]
  unfold hashAbsorb
  have hn : (bl.flatten ++ r).length / 16 = bl.length := by rw [List.length_append]; omega
  rw [hn, if_neg (by rw [List.length_append]; omega)]
  simp only [impl, Outcome.ok_bind, updateBlocks_fold bl hl c r]
  have hd : (bl.flatten ++ r).drop (bl.length * 16) = r := by rw [← hlen, List.drop_left]
  rw [hd, if_neg (by omega)]
  unfold memcpyBuf
  rw [if_pos (by simp only [List.length_nil]; omega)]
  rfl

/-- Filling the buffer up. -/
theorem update_fill (r p : List Byte) (hr16 : r.length < 16) (h : r.length + p.length = 16 ∨ r = [] ∧ p = []) (c : Ctx) :
    hashUpdate 16 impl ⟨r, c⟩ p = .ok ⟨[], (if r = [] ∧ p = [] then [] else [r ++ p]).foldl absorbB c⟩ := by
  rcases h with h | ⟨h1, h2⟩
  · by_cases hr : r.length = 0
    · have hr' : r = [] := List.length_eq_zero_iff.mp hr
      subst hr'
      have hp : p ≠ [] := fun e => by rw [e] at h; simp at h
      rw [if_neg (by simp [hp])]
      have := update_whole [p] (by simpa using h) c
      simpa using this
    · have hr' : r ≠ [] := fun e => hr (by rw [e]; rfl)
      rw [if_neg (by simp [hr'])]
      by_cases hp : p.length = 0
      · have hp' : p = [] := List.length_eq_zero_iff.mp hp
        omega
      · unfold hashUpdate
        dsimp only
        rw [if_neg hp, if_neg hr]
        have hs : (if 16 - r.length > p.length then p.length else 16 - r.length) = p.length := by
          rw [if_neg (by omega)]; omega
        rw [hs, List.take_of_length_le (Nat.le_refl _), List.drop_eq_nil_of_le (Nat.le_refl _)]
        unfold memcpyBuf
        rw [if_pos (by omega)]
        simp only [Outcome.ok_bind]
        rw [if_pos (by rw [List.length_append]; omega)]
        have := updateBlocks_fold [r ++ p] (by intro b hb; rw [List.mem_singleton.mp hb, List.length_append]; omega) c []
        simp only [List.flatten_cons, List.flatten_nil, List.append_nil, List.length_singleton] at this
        simp only [impl, this, Outcome.ok_bind]
        rfl
  · subst h1; subst h2; rfl

end Verif.Ghash
