import Verif.Spec.Seek
import Verif.Proofs.Leak
/-! # Helper lemmas for C95: the tail of the output of a mode -/
namespace Verif.Leak
open Verif Verif.Spec Verif.Spec.Modes Verif.Spec.Leak

variable {b : Nat} {E D : List Byte → List Byte}

theorem prev_get (hb : 0 < b) (iv : List Byte) {l : List Byte} {j : Nat} (h : j * b ≤ l.length) :
    (iv :: blocks b l)[j]? = some (before b iv l j) := by
  unfold before
  cases j with
  | zero => rfl
  | succ j =>
    rw [List.getElem?_cons_succ, blocks_get hb j l (by rw [Nat.succ_mul] at h; omega)]
    rfl

theorem before_len' (hb : 0 < b) {iv l : List Byte} (hiv : iv.length = b) {j : Nat} (h : j * b ≤ l.length) :
    (before b iv l j).length = b := by
  unfold before
  split_ifs with h0
  · exact hiv
  · obtain ⟨i, rfl⟩ : ∃ i, j = i + 1 := ⟨j - 1, by omega⟩
    rw [Nat.succ_mul] at h
    unfold blockAt
    rw [Nat.add_sub_cancel, List.length_take, List.length_drop]
    omega

theorem blocks_drop (hb : 0 < b) : ∀ (j : Nat) (l : List Byte), blocks b (l.drop (j * b)) = (blocks b l).drop j
  | 0, l => by simp
  | j + 1, l => by
    by_cases hl : l = []
    · subst hl
      rw [List.drop_nil]
      have : blocks b [] = [] := by unfold blocks; simp
      rw [this, List.drop_nil]
    · have e : blocks b l = l.take b :: blocks b (l.drop b) := by
        conv_lhs => unfold blocks
        rw [dif_neg (by simp only [hl, or_false]; omega)]
      rw [e, List.drop_succ_cons, ← blocks_drop hb j (l.drop b), List.drop_drop, Nat.succ_mul, Nat.add_comm b]

/-! ## Decryption, block by block -/

theorem cbcDec_at : ∀ (cs : List (List Byte)) (iv : List Byte) (j : Nat) (c q : List Byte), cs[j]? = some c →
    (iv :: cs)[j]? = some q → (cbcDec D iv cs)[j]? = some (xorB (D c) q)
  | [], _, j, _, _, h, _ => by simp at h
  | x :: cs, iv, 0, c, q, h, h2 => by
    simp only [List.getElem?_cons_zero, Option.some.injEq] at h h2
    subst h h2
    rfl
  | x :: cs, iv, j + 1, c, q, h, h2 => by
    rw [List.getElem?_cons_succ] at h h2
    rw [cbcDec, List.getElem?_cons_succ]
    exact cbcDec_at cs _ j c q h h2

theorem cfbDec_at : ∀ (cs : List (List Byte)) (iv : List Byte) (j : Nat) (c q : List Byte), cs[j]? = some c →
    (iv :: cs)[j]? = some q → (cfbDec E iv cs)[j]? = some (xorB c (E q))
  | [], _, j, _, _, h, _ => by simp at h
  | x :: cs, iv, 0, c, q, h, h2 => by
    simp only [List.getElem?_cons_zero, Option.some.injEq] at h h2
    subst h h2
    rfl
  | x :: cs, iv, j + 1, c, q, h, h2 => by
    rw [List.getElem?_cons_succ] at h h2
    rw [cfbDec, List.getElem?_cons_succ]
    exact cfbDec_at cs _ j c q h h2

theorem cbcDec_lens (hD : LenOk b D) : ∀ (cs : List (List Byte)) (iv : List Byte), iv.length = b →
    (∀ p ∈ cs, p.length = b) → (cbcDec D iv cs).map List.length = cs.map List.length
  | [], _, _, _ => rfl
  | c :: cs, iv, hiv, hp => by
    have h1 := hp c (by simp)
    have h2 := hD c h1
    simp only [cbcDec, List.map_cons, List.cons.injEq]
    exact ⟨by rw [xorB_len (by omega), h2, h1], cbcDec_lens hD cs _ h1 (fun q hq => hp q (by simp [hq]))⟩

theorem cfbDec_lens (hE : LenOk b E) : ∀ (cs : List (List Byte)) (iv : List Byte), iv.length = b →
    Shaped b cs → (cfbDec E iv cs).map List.length = cs.map List.length
  | [], _, _, _ => rfl
  | [p], iv, hiv, hs => by
    have h1 := hE iv hiv
    simp only [cfbDec, List.map_cons, List.map_nil, List.cons.injEq, and_true]
    exact xorB_len (by have := hs.2; omega)
  | p :: q :: ps, iv, hiv, hs => by
    have h1 := hE iv hiv
    have h2 : (xorB p (E iv)).length = p.length := xorB_len (by have := hs.1; omega)
    rw [cfbDec, List.map_cons, h2, cfbDec_lens hE (q :: ps) _ hs.1 hs.2]
    rfl

theorem ecb_lens (hE : LenOk b E) (ps : List (List Byte)) (hp : ∀ p ∈ ps, p.length = b) :
    (ecb E ps).map List.length = ps.map List.length := by
  unfold ecb
  rw [List.map_map]
  apply List.map_congr_left
  intro x hx
  have := hp x hx
  show (E x).length = _
  rw [hE x this, this]

/-! ## Tails -/

theorem cbcEnc_drop : ∀ (ps : List (List Byte)) (iv : List Byte) (j : Nat) (q : List Byte),
    (iv :: cbcEnc E iv ps)[j]? = some q → (cbcEnc E iv ps).drop j = cbcEnc E q (ps.drop j)
  | ps, iv, 0, q, h => by
    simp only [List.getElem?_cons_zero, Option.some.injEq] at h
    subst h; rfl
  | [], iv, j + 1, q, h => by simp [cbcEnc] at h
  | p :: ps, iv, j + 1, q, h => by
    rw [cbcEnc, List.getElem?_cons_succ] at h
    rw [cbcEnc, List.drop_succ_cons, List.drop_succ_cons]
    exact cbcEnc_drop ps _ j q h

theorem cfbEnc_drop : ∀ (ps : List (List Byte)) (iv : List Byte) (j : Nat) (q : List Byte),
    (iv :: cfbEnc E iv ps)[j]? = some q → (cfbEnc E iv ps).drop j = cfbEnc E q (ps.drop j)
  | ps, iv, 0, q, h => by
    simp only [List.getElem?_cons_zero, Option.some.injEq] at h
    subst h; rfl
  | [], iv, j + 1, q, h => by simp [cfbEnc] at h
  | p :: ps, iv, j + 1, q, h => by
    rw [cfbEnc, List.getElem?_cons_succ] at h
    rw [cfbEnc, List.drop_succ_cons, List.drop_succ_cons]
    exact cfbEnc_drop ps _ j q h

theorem cbcDec_drop : ∀ (cs : List (List Byte)) (iv : List Byte) (j : Nat) (q : List Byte),
    (iv :: cs)[j]? = some q → (cbcDec D iv cs).drop j = cbcDec D q (cs.drop j)
  | cs, iv, 0, q, h => by
    simp only [List.getElem?_cons_zero, Option.some.injEq] at h
    subst h; rfl
  | [], iv, j + 1, q, h => by simp at h
  | c :: cs, iv, j + 1, q, h => by
    rw [List.getElem?_cons_succ] at h
    rw [cbcDec, List.drop_succ_cons, List.drop_succ_cons]
    exact cbcDec_drop cs _ j q h

theorem cfbDec_drop : ∀ (cs : List (List Byte)) (iv : List Byte) (j : Nat) (q : List Byte),
    (iv :: cs)[j]? = some q → (cfbDec E iv cs).drop j = cfbDec E q (cs.drop j)
  | cs, iv, 0, q, h => by
    simp only [List.getElem?_cons_zero, Option.some.injEq] at h
    subst h; rfl
  | [], iv, j + 1, q, h => by simp at h
  | c :: cs, iv, j + 1, q, h => by
    rw [List.getElem?_cons_succ] at h
    rw [cfbDec, List.drop_succ_cons, List.drop_succ_cons]
    exact cfbDec_drop cs _ j q h

theorem ofb_drop : ∀ (ps : List (List Byte)) (iv : List Byte) (j : Nat),
    (ofb E iv ps).drop j = ofb E (E^[j] iv) (ps.drop j)
  | ps, iv, 0 => rfl
  | [], iv, j + 1 => rfl
  | p :: ps, iv, j + 1 => by
    rw [ofb, List.drop_succ_cons, List.drop_succ_cons, ofb_drop ps (E iv) j]
    rfl

theorem ctr_drop : ∀ (ps : List (List Byte)) (iv : List Byte) (s j : Nat),
    (ctr E b iv s ps).drop j = ctr E b iv (s + j) (ps.drop j)
  | ps, iv, s, 0 => rfl
  | [], iv, s, j + 1 => rfl
  | p :: ps, iv, s, j + 1 => by
    rw [ctr, List.drop_succ_cons, List.drop_succ_cons, ctr_drop ps iv (s + 1) j, show s + 1 + j = s + (j + 1) by omega]

theorem ctr_shift (iv : List Byte) (j : Nat) : ∀ (ps : List (List Byte)) (s : Nat),
    ctr E b (toBE b ((beVal iv + j) % 256 ^ b)) s ps = ctr E b iv (j + s) ps
  | [], _ => rfl
  | p :: ps, s => by
    rw [ctr, ctr, ctr_shift iv j ps (s + 1)]
    have e : ctrBlock b (toBE b ((beVal iv + j) % 256 ^ b)) s = ctrBlock b iv (j + s) := by
      unfold ctrBlock
      rw [beVal_toBE, Nat.mod_mod, Nat.mod_add_mod, Nat.add_assoc]
    rw [e]
    rfl

/-- Two strings xored with the same bytes differ by what they differed by. -/
theorem xorB_both : ∀ (x y e : List Byte), x.length = y.length → x.length ≤ e.length →
    xorB (xorB x e) (xorB y e) = xorB x y
  | [], [], _, _, _ => rfl
  | a :: x, c :: y, d :: e, h, h2 => by
    show ((a ^^^ d) ^^^ (c ^^^ d)) :: xorB (xorB x e) (xorB y e) = (a ^^^ c) :: xorB x y
    rw [xorB_both x y e (by simpa using h) (by simpa using h2)]
    congr 1
    rw [BitVec.xor_comm c d, BitVec.xor_assoc, ← BitVec.xor_assoc d d c, BitVec.xor_self, BitVec.zero_xor]
  | [], _ :: _, _, h, _ => by simp at h
  | _ :: _, [], _, h, _ => by simp at h
  | _ :: _, _ :: _, [], _, h => by simp at h

end Verif.Leak
