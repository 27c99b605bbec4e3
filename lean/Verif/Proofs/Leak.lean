import Verif.Spec.Leak
import Verif.Proofs.Gcm
import Verif.Proofs.Modes3
/-! # Helper lemmas for C94: the output of the modes, block by block -/
namespace Verif.Leak
open Verif Verif.Spec Verif.Spec.Modes Verif.Spec.Gcm Verif.Spec.Leak Verif.Gcm

variable {b : Nat} {E : List Byte → List Byte}

/-! ## Cutting -/

theorem blocks_get (hb : 0 < b) : ∀ (j : Nat) (l : List Byte), j * b < l.length →
    (blocks b l)[j]? = some (blockAt b l j)
  | 0, l, h => by
    have hne : l ≠ [] := by rintro rfl; simp at h
    unfold blocks
    rw [dif_neg (by simp only [hne, or_false]; omega)]
    simp [blockAt]
  | j + 1, l, h => by
    have hne : l ≠ [] := by rintro rfl; simp at h
    rw [Nat.succ_mul] at h
    unfold blocks
    rw [dif_neg (by simp only [hne, or_false]; omega), List.getElem?_cons_succ,
      blocks_get hb j (l.drop b) (by rw [List.length_drop]; omega)]
    simp only [blockAt, List.drop_drop, Nat.succ_mul, Nat.add_comm]

theorem lt_of_full {j n : Nat} (h : j < n / b) : j * b + b ≤ n := by
  have := Nat.div_mul_le_self n b
  have h2 : (j + 1) * b ≤ n / b * b := Nat.mul_le_mul_right b h
  rw [Nat.succ_mul] at h2
  omega

theorem blockAt_len (hb : 0 < b) {l : List Byte} {j : Nat} (h : j < l.length / b) : (blockAt b l j).length = b := by
  have := lt_of_full h
  unfold blockAt
  rw [List.length_take, List.length_drop]
  omega

theorem blocks_at (hb : 0 < b) {l : List Byte} {j : Nat} (h : j < l.length / b) :
    (blocks b l)[j]? = some (blockAt b l j) :=
  blocks_get hb j l (by have := lt_of_full h; omega)

theorem prev_at (hb : 0 < b) (iv : List Byte) {l : List Byte} {j : Nat} (h : j < l.length / b) :
    (iv :: blocks b l)[j]? = some (before b iv l j) := by
  unfold before
  cases j with
  | zero => rfl
  | succ j => rw [List.getElem?_cons_succ, blocks_at hb (by omega)]; rfl

theorem before_len (hb : 0 < b) {iv l : List Byte} (hiv : iv.length = b) {j : Nat} (h : j < l.length / b) :
    (before b iv l j).length = b := by
  unfold before
  split_ifs
  · exact hiv
  · exact blockAt_len hb (by omega)

/-! ## xor -/

theorem xorB_comm : ∀ x y : List Byte, xorB x y = xorB y x
  | [], [] => rfl
  | [], _ :: _ => rfl
  | _ :: _, [] => rfl
  | a :: x, c :: y => by
    show (a ^^^ c) :: xorB x y = (c ^^^ a) :: xorB y x
    rw [xorB_comm x y, BitVec.xor_comm]

theorem xorB_self_left {x y : List Byte} (h : x.length = y.length) : xorB x (xorB x y) = y := by
  rw [xorB_comm x (xorB x y), xorB_comm x y]
  exact xorB_xorB (by omega)

theorem xorB_right_cancel {x y z : List Byte} (hx : x.length = z.length) (hy : y.length = z.length)
    (h : xorB x z = xorB y z) : x = y := by
  have := congrArg (xorB · z) h
  rwa [xorB_xorB (by omega), xorB_xorB (by omega)] at this

theorem xorB_left_cancel {x y z : List Byte} (hx : x.length = z.length) (hy : y.length = z.length)
    (h : xorB z x = xorB z y) : x = y :=
  xorB_right_cancel hx hy (by rwa [xorB_comm x, xorB_comm y])

/-! ## The modes, block by block -/

theorem ecb_at (ps : List (List Byte)) (j : Nat) (p : List Byte) (h : ps[j]? = some p) :
    (ecb E ps)[j]? = some (E p) := by
  unfold ecb
  rw [List.getElem?_map, h]; rfl

theorem cbc_at : ∀ (ps : List (List Byte)) (iv : List Byte) (j : Nat) (p q : List Byte), ps[j]? = some p →
    (iv :: cbcEnc E iv ps)[j]? = some q → (cbcEnc E iv ps)[j]? = some (E (xorB p q))
  | [], _, j, _, _, h, _ => by simp at h
  | x :: ps, iv, 0, p, q, h, h2 => by
    simp only [List.getElem?_cons_zero, Option.some.injEq] at h h2
    subst h h2
    rfl
  | x :: ps, iv, j + 1, p, q, h, h2 => by
    rw [List.getElem?_cons_succ] at h h2
    rw [cbcEnc, List.getElem?_cons_succ]
    exact cbc_at ps _ j p q h h2

theorem cfb_at : ∀ (ps : List (List Byte)) (iv : List Byte) (j : Nat) (p q : List Byte), ps[j]? = some p →
    (iv :: cfbEnc E iv ps)[j]? = some q → (cfbEnc E iv ps)[j]? = some (xorB p (E q))
  | [], _, j, _, _, h, _ => by simp at h
  | x :: ps, iv, 0, p, q, h, h2 => by
    simp only [List.getElem?_cons_zero, Option.some.injEq] at h h2
    subst h h2
    rfl
  | x :: ps, iv, j + 1, p, q, h, h2 => by
    rw [List.getElem?_cons_succ] at h h2
    rw [cfbEnc, List.getElem?_cons_succ]
    exact cfb_at ps _ j p q h h2

theorem ofb_at : ∀ (ps : List (List Byte)) (iv : List Byte) (j : Nat) (p : List Byte), ps[j]? = some p →
    (ofb E iv ps)[j]? = some (xorB p (E^[j + 1] iv))
  | [], _, j, _, h => by simp at h
  | x :: ps, iv, 0, p, h => by
    simp only [List.getElem?_cons_zero, Option.some.injEq] at h
    subst h
    rfl
  | x :: ps, iv, j + 1, p, h => by
    rw [List.getElem?_cons_succ] at h
    rw [ofb, List.getElem?_cons_succ, ofb_at ps (E iv) j p h]
    rfl

theorem ctr_at : ∀ (ps : List (List Byte)) (iv : List Byte) (s j : Nat) (p : List Byte), ps[j]? = some p →
    (ctr E b iv s ps)[j]? = some (xorB p (E (ctrBlock b iv (s + j))))
  | [], _, _, j, _, h => by simp at h
  | x :: ps, iv, s, 0, p, h => by
    simp only [List.getElem?_cons_zero, Option.some.injEq] at h
    subst h
    rfl
  | x :: ps, iv, s, j + 1, p, h => by
    rw [List.getElem?_cons_succ] at h
    rw [ctr, List.getElem?_cons_succ, ctr_at ps iv (s + 1) j p h, show s + 1 + j = s + (j + 1) by omega]

theorem gctr_at : ∀ (ps : List (List Byte)) (c : List Byte) (j : Nat) (p : List Byte), ps[j]? = some p →
    (gctrBlocks E c ps)[j]? = some (xorB p (E (inc32^[j] c)))
  | [], _, j, _, h => by simp at h
  | x :: ps, c, 0, p, h => by
    simp only [List.getElem?_cons_zero, Option.some.injEq] at h
    subst h
    rfl
  | x :: ps, c, j + 1, p, h => by
    rw [List.getElem?_cons_succ] at h
    rw [gctrBlocks, List.getElem?_cons_succ, gctr_at ps (inc32 c) j p h]
    rfl

/-! ## Lengths -/

/-- Every mode keeps the lengths of the blocks (encryption directions; mode_inverse has the other hypotheses). -/
theorem cbc_lens (hE : LenOk b E) : ∀ (ps : List (List Byte)) (iv : List Byte), iv.length = b →
    (∀ p ∈ ps, p.length = b) → (cbcEnc E iv ps).map List.length = ps.map List.length
  | [], _, _, _ => rfl
  | p :: ps, iv, hiv, hp => by
    have h1 := hp p (by simp)
    have hx : (xorB p iv).length = b := by rw [xorB_len (by omega), h1]
    simp only [cbcEnc, List.map_cons, List.cons.injEq]
    exact ⟨by rw [hE _ hx, h1], cbc_lens hE ps _ (hE _ hx) (fun q hq => hp q (by simp [hq]))⟩

theorem cfb_lens (hE : LenOk b E) : ∀ (ps : List (List Byte)) (iv : List Byte), iv.length = b →
    Shaped b ps → (cfbEnc E iv ps).map List.length = ps.map List.length
  | [], _, _, _ => rfl
  | [p], iv, hiv, hs => by
    have h1 := hE iv hiv
    simp only [cfbEnc, List.map_cons, List.map_nil, List.cons.injEq, and_true]
    exact xorB_len (by have := hs.2; omega)
  | p :: q :: ps, iv, hiv, hs => by
    have h1 := hE iv hiv
    have h2 : (xorB p (E iv)).length = p.length := xorB_len (by have := hs.1; omega)
    rw [cfbEnc, List.map_cons, h2, cfb_lens hE (q :: ps) _ (by rw [h2]; exact hs.1) hs.2]
    rfl

theorem ofb_lens (hE : LenOk b E) : ∀ (ps : List (List Byte)) (iv : List Byte), iv.length = b →
    (∀ p ∈ ps, p.length ≤ b) → (ofb E iv ps).map List.length = ps.map List.length
  | [], _, _, _ => rfl
  | p :: ps, iv, hiv, hp => by
    have h1 := hp p (by simp)
    have h2 := hE iv hiv
    simp only [ofb, List.map_cons, List.cons.injEq]
    exact ⟨xorB_len (by omega), ofb_lens hE ps _ h2 (fun q hq => hp q (by simp [hq]))⟩

theorem ctr_lens (hE : LenOk b E) (iv : List Byte) : ∀ (ps : List (List Byte)) (s : Nat),
    (∀ p ∈ ps, p.length ≤ b) → (ctr E b iv s ps).map List.length = ps.map List.length
  | [], _, _ => rfl
  | p :: ps, s, hp => by
    have h1 := hp p (by simp)
    have h2 := hE (ctrBlock b iv s) (toBE_len _ _)
    simp only [ctr, List.map_cons, List.cons.injEq]
    exact ⟨xorB_len (by omega), ctr_lens hE iv ps _ (fun q hq => hp q (by simp [hq]))⟩

theorem gctr_lens (hE : LenOk 16 E) : ∀ (ps : List (List Byte)) (c : List Byte), c.length = 16 →
    (∀ p ∈ ps, p.length ≤ 16) → (gctrBlocks E c ps).map List.length = ps.map List.length
  | [], _, _, _ => rfl
  | p :: ps, c, hc, hp => by
    have h1 := hp p (by simp)
    have h2 := hE c hc
    simp only [gctrBlocks, List.map_cons, List.cons.injEq]
    exact ⟨xorB_len (by omega), gctr_lens hE ps _ (inc32_len c hc) (fun q hq => hp q (by simp [hq]))⟩

/-- If a mode keeps block lengths, its output string has the same length and its blocks are the mode's. -/
theorem flat_blocks (hb : 0 < b) {X : List Byte} {ys : List (List Byte)}
    (h : ys.map List.length = (blocks b X).map List.length) :
    blocks b ys.flatten = ys ∧ ys.flatten.length = X.length := by
  refine ⟨blocks_flatten hb _ (shaped_of_lengths _ _ h.symm (blocks_shaped hb X)), ?_⟩
  conv_rhs => rw [← flatten_blocks hb X]
  rw [List.length_flatten, List.length_flatten, h]

/-! ## Counters -/

theorem toBE_inj_lt {n x y : Nat} (hx : x < 256 ^ n) (hy : y < 256 ^ n) (h : toBE n x = toBE n y) : x = y := by
  have := congrArg beVal h
  rwa [beVal_toBE, beVal_toBE, Nat.mod_eq_of_lt hx, Nat.mod_eq_of_lt hy] at this

theorem ctrBlock_eq {iv iv' : List Byte} {j k : Nat} :
    ctrBlock b iv j = ctrBlock b iv' k ↔ (beVal iv + j) % 256 ^ b = (beVal iv' + k) % 256 ^ b := by
  constructor
  · intro h
    exact toBE_inj_lt (Nat.mod_lt _ (by positivity)) (Nat.mod_lt _ (by positivity)) h
  · intro h
    unfold ctrBlock
    rw [h]

theorem inc32_iter (c : List Byte) (h : c.length = 16) : ∀ n, (inc32^[n] c).length = 16 ∧
    (inc32^[n] c).take 12 = c.take 12 ∧ beVal ((inc32^[n] c).drop 12) = (beVal (c.drop 12) + n) % 2 ^ 32
  | 0 => by
    refine ⟨h, rfl, ?_⟩
    have := beVal_lt (c.drop 12)
    rw [List.length_drop, h] at this
    show beVal (c.drop 12) = _
    omega
  | n + 1 => by
    obtain ⟨h1, h2, h3⟩ := inc32_iter c h n
    rw [Function.iterate_succ_apply']
    generalize inc32^[n] c = d at *
    refine ⟨inc32_len d h1, ?_, ?_⟩
    · rw [← h2]
      unfold inc32
      rw [List.take_append_of_le_length (by rw [List.length_take]; omega), List.take_take]; rfl
    · unfold inc32
      rw [List.drop_append_of_le_length (by rw [List.length_take]; omega), List.drop_eq_nil_of_le (by simp),
        List.nil_append, beVal_toBE, h3]
      omega

/-- The counter blocks of a message with a 12-byte IV. -/
theorem gcm_counter {iv iv' : List Byte} (h : iv.length = 12) (h' : iv'.length = 12) (j k : Nat) :
    inc32^[j] (J0 E iv) = inc32^[k] (J0 E iv') ↔ iv = iv' ∧ j % 2 ^ 32 = k % 2 ^ 32 := by
  have e : J0 E iv = iv ++ [0, 0, 0, 1] := if_pos h
  have e' : J0 E iv' = iv' ++ [0, 0, 0, 1] := if_pos h'
  have l : (iv ++ [0, 0, 0, 1] : List Byte).length = 16 := by rw [List.length_append, h]; rfl
  have l' : (iv' ++ [0, 0, 0, 1] : List Byte).length = 16 := by rw [List.length_append, h']; rfl
  rw [e, e']
  obtain ⟨a1, a2, a3⟩ := inc32_iter _ l j
  obtain ⟨b1, b2, b3⟩ := inc32_iter _ l' k
  rw [← h, List.take_left] at a2
  rw [← h', List.take_left] at b2
  rw [h] at a2
  rw [h'] at b2
  have o1 : beVal ((iv ++ [0, 0, 0, 1] : List Byte).drop 12) = 1 := by
    rw [← h, List.drop_left]; rfl
  have o2 : beVal ((iv' ++ [0, 0, 0, 1] : List Byte).drop 12) = 1 := by
    rw [← h', List.drop_left]; rfl
  rw [o1] at a3
  rw [o2] at b3
  generalize inc32^[j] (iv ++ [0, 0, 0, 1] : List Byte) = c at *
  generalize inc32^[k] (iv' ++ [0, 0, 0, 1] : List Byte) = d at *
  constructor
  · rintro rfl
    refine ⟨a2.symm.trans b2, ?_⟩
    rw [a3] at b3
    omega
  · rintro ⟨hi, hm⟩
    rw [← List.take_append_drop 12 c, ← List.take_append_drop 12 d, a2, b2, hi]
    congr 1
    apply beVal_inj
    · rw [List.length_drop, List.length_drop, a1, b1]
    · rw [a3, b3]
      omega

/-- Iterates of an injective block function. -/
theorem iter_len (hE : LenOk b E) {x : List Byte} (hx : x.length = b) : ∀ n, (E^[n] x).length = b
  | 0 => hx
  | n + 1 => by rw [Function.iterate_succ_apply']; exact hE _ (iter_len hE hx n)

theorem iter_inj (hE : LenOk b E) (hi : InjOn b E) {x y : List Byte} (hx : x.length = b) (hy : y.length = b) :
    ∀ n, E^[n] x = E^[n] y → x = y
  | 0, h => h
  | n + 1, h => by
    rw [Function.iterate_succ_apply', Function.iterate_succ_apply'] at h
    exact iter_inj hE hi hx hy n (hi _ _ (iter_len hE hx n) (iter_len hE hy n) h)

end Verif.Leak
