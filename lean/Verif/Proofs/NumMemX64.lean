import Verif.Model.NumMemX64
import Verif.Proofs.NumMemBad
import Verif.Proofs.MontX64
/-!
# Lemmas for `Props/NumMemX64.lean`
-/
namespace Verif.X64.NumMem
open Verif Verif.X64 Verif.NumMem

theorem vloop_add (as bs : List W64) (c : Byte) : vloop addStep as bs c = addLoop as bs c := by
  induction as generalizing bs c with
  | nil => cases bs <;> rfl
  | cons a as ih => cases bs with
    | nil => rfl
    | cons b bs => simp only [vloop, addLoop, addStep, ih]

theorem vloop_sub (as bs : List W64) (c : Byte) : vloop subStep as bs c = subLoop as bs c := by
  induction as generalizing bs c with
  | nil => cases bs <;> rfl
  | cons a as ih => cases bs with
    | nil => rfl
    | cons b bs => simp only [vloop, subLoop, subStep, ih]

theorem vrow_mul (rs as : List W64) (h : rs.length = as.length) (b c : W64) :
    vrow (fun _ x y c => X64.mulCarry x y c) rs as b c = X64.mulRow as b c := by
  induction as generalizing rs c with
  | nil => cases rs <;> rfl
  | cons a as ih => cases rs with
    | nil => simp at h
    | cons r rs => simp only [vrow, X64.mulRow, ih rs (by simpa using h)]

theorem vrow_addMul (rs as : List W64) (b c : W64) : vrow X64.addMulCarry rs as b c = X64.addMulRow rs as b c := by
  induction rs generalizing as c with
  | nil => cases as <;> rfl
  | cons r rs ih => cases as with
    | nil => rfl
    | cons a as => simp only [vrow, X64.addMulRow, ih]

theorem vrows_addMul (as bs win : List W64) : vrows X64.addMulCarry as bs win = mpzMulLoop as bs win := by
  induction bs generalizing win with
  | nil => rfl
  | cons b bs ih =>
    simp only [vrows, mpzMulLoop, vrow_addMul, ih]
    rcases X64.addMulRow win as b 0 with ⟨_ | ⟨r0, rs⟩, c⟩ <;> rfl

theorem mpzMul_eq (n r a b : Nat) (m : Verif.NumMem.Mem 64) (ha : a + n ≤ r ∨ r + 2 * n ≤ a + 1)
    (hb : b + n ≤ r ∨ r + n ≤ b) :
    words (NumMem.mpzMul n r a b m) r (2 * n) = X64.mpzMul (words m a n) (words m b n) n ∧
    Same m (NumMem.mpzMul n r a b m) r (2 * n) := by
  unfold NumMem.mpzMul X64.mpzMul
  rcases Nat.eq_zero_or_pos n with rfl | hn
  · exact ⟨rfl, fun y _ => rfl⟩
  · rw [if_neg (by omega), if_neg (by omega)]
    obtain ⟨⟨r0, rs, c, h1, h2⟩, h3⟩ := mulG_spec X64.mulCarry X64.addMulCarry n r a b hn m ha hb
    refine ⟨?_, h3⟩
    refine h2.trans ?_
    rw [List.take_of_length_le (by simp), List.take_of_length_le (by simp)]
    rw [vrow_mul _ _ (by simp)] at h1
    have hb' : words m b n = m b :: words m (b + 1) (n - 1) := by
      conv => lhs; rw [show n = n - 1 + 1 by omega, words]
    rw [hb']
    simp only [h1, vrows_addMul]

theorem vdown_div (d : W64) (ds : List W64) (c : W64) : vdown (NumMem.divStep d) ds c = X64.divWordLoop d ds c := by
  induction ds generalizing c with
  | nil => rfl
  | cons a ds ih => simp only [vdown, X64.divWordLoop, ih]; rfl

/-! ### `uint256_mul` -/

theorem words_lit_take {w : Nat} (m : Verif.NumMem.Mem w) (n : Nat) (l : List (BitVec w)) (h : n ≤ l.length) :
    (Opd.lit l).words m n = l.take n := by
  induction n generalizing l with
  | zero => rfl
  | succ n ih =>
    cases l with
    | nil => simp at h
    | cons a l => rw [Opd.words, Opd.tl, List.tail_cons, ih l (by simpa using h)]; rfl

theorem addC_eq (n r : Nat) (a b : Opd 64) (m : Verif.NumMem.Mem 64) (ha : Fwd r n a) (hb : Fwd r n b) :
    (chain addStep n r a b 0 m).2 = (addLoop (a.words m n) (b.words m n) 0).2 ∧
    words (chain addStep n r a b 0 m).1 r n = (addLoop (a.words m n) (b.words m n) 0).1 ∧
    Same m (chain addStep n r a b 0 m).1 r n := by
  have h := chain_spec addStep n r a b 0 m ha hb
  rw [vloop_add] at h
  exact h

theorem subC_eq (n r : Nat) (a b : Opd 64) (m : Verif.NumMem.Mem 64) (ha : Fwd r n a) (hb : Fwd r n b) :
    (chain subStep n r a b 0 m).2 = (subLoop (a.words m n) (b.words m n) 0).2 ∧
    words (chain subStep n r a b 0 m).1 r n = (subLoop (a.words m n) (b.words m n) 0).1 ∧
    Same m (chain subStep n r a b 0 m).1 r n := by
  have h := chain_spec subStep n r a b 0 m ha hb
  rw [vloop_sub] at h
  exact h

theorem mulxStores_eq (n r a b : Nat) (m : Verif.NumMem.Mem 64) (ha : r ≤ a ∨ a + n ≤ r)
    (hb : b < r ∨ r + n ≤ b + 1) :
    (mulxStores n r a b m).2 = (mulxRow (words m a n) (m b)).2 ∧
    words (mulxStores n r a b m).1 r n = (mulxRow (words m a n) (m b)).1 ∧ Same m (mulxStores n r a b m).1 r n := by
  induction n generalizing r a m with
  | zero => exact ⟨rfl, rfl, fun y _ => rfl⟩
  | succ n ih =>
    obtain ⟨h1, h2, h3⟩ := ih (r + 1) (a + 1) (put m r (mulxU64 (m a) (m b)).1) (by omega) (by omega)
    have hbn : mulxRow (words (put m r (mulxU64 (m a) (m b)).1) (a + 1) n) (put m r (mulxU64 (m a) (m b)).1 b) =
        mulxRow (words m (a + 1) n) (m b) := by
      rw [words_congr (m := m) (a := a + 1) (fun y g1 g2 => put_ne m r _ (by omega))]
      rcases (show n = 0 ∨ b ≠ r by omega) with rfl | h
      · rfl
      · rw [put_ne _ _ _ h]
    rw [hbn] at h1 h2
    refine ⟨?_, ?_, ?_⟩
    · simp only [mulxStores, words, mulxRow]
      rw [h1]
    · simp only [mulxStores, words, mulxRow]
      rw [h2, h3 r (by omega), put_same]
    · intro y hy
      simp only [mulxStores]
      rw [h3 y (by omega), put_ne _ _ _ (by omega)]

theorem mulxWordStores_eq (d : W64) (n r a : Nat) (m : Verif.NumMem.Mem 64) (ha : r ≤ a ∨ a + n ≤ r) :
    (mulxWordStores d n r a m).2 = (mulxRow (words m a n) d).2 ∧
    words (mulxWordStores d n r a m).1 r n = (mulxRow (words m a n) d).1 ∧
    Same m (mulxWordStores d n r a m).1 r n := by
  induction n generalizing r a m with
  | zero => exact ⟨rfl, rfl, fun y _ => rfl⟩
  | succ n ih =>
    obtain ⟨h1, h2, h3⟩ := ih (r + 1) (a + 1) (put m r (mulxU64 (m a) d).1) (by omega)
    rw [words_congr (m := m) (a := a + 1) (fun y g1 g2 => put_ne m r _ (by omega))] at h1 h2
    refine ⟨?_, ?_, ?_⟩
    · simp only [mulxWordStores, words, mulxRow]
      rw [h1]
    · simp only [mulxWordStores, words, mulxRow]
      rw [h2, h3 r (by omega), put_same]
    · intro y hy
      simp only [mulxWordStores]
      rw [h3 y (by omega), put_ne _ _ _ (by omega)]

/-- The chain that adds the high words one position up. -/
theorem mulWordTail (r : Nat) (m m1 : Verif.NumMem.Mem 64) (as : List W64) (d : W64) (his : List W64)
    (ha : as.length = 4) (h1 : his = (mulxRow as d).2) (h2 : words m1 r 4 = (mulxRow as d).1) (h3 : Same m m1 r 4) :
    let t := chain addStep 3 (r + 1) (.mem (r + 1)) (.lit his) 0 m1
    words t.1 r 4 = (X64.mulWord as d).1 ∧ (addcarryU64 t.2 0 (his.getLastD 0)).1 = (X64.mulWord as d).2 ∧
      Same m t.1 r 4 := by
  intro t
  have hl : his.length = 4 := by rw [h1, (mulxRow_len as d).2, ha]
  obtain ⟨g1, g2, g3⟩ := addC_eq 3 (r + 1) (.mem (r + 1)) (.lit his) m1 (Or.inl (Nat.le_refl _)) trivial
  rw [Opd.words_mem, words_lit_take m1 3 his (by omega)] at g1 g2
  have hdl : his.take 3 = his.dropLast := by rw [List.dropLast_eq_take, hl]
  rw [hdl] at g1 g2
  have hv : X64.mulWord as d = (m1 r :: (addLoop (words m1 (r + 1) 3) his.dropLast 0).1,
      (addcarryU64 (addLoop (words m1 (r + 1) 3) his.dropLast 0).2 0 (his.getLastD 0)).1) := by
    have hp : mulxRow as d = (m1 r :: words m1 (r + 1) 3, his) := Prod.ext h2.symm h1.symm
    unfold X64.mulWord
    rw [hp]
  rw [hv]
  refine ⟨?_, ?_, ?_⟩
  · rw [words, g2, g3 r (by omega)]
  · rw [g1]
  · intro y hy
    rw [g3 y (by omega), h3 y (by omega)]

theorem mulWord_eq (r a : Nat) (d : W64) (m : Verif.NumMem.Mem 64) (ha : r ≤ a ∨ a + 4 ≤ r) :
    words (NumMem.mulWord r a d m).1 r 4 = (X64.mulWord (words m a 4) d).1 ∧
    (NumMem.mulWord r a d m).2 = (X64.mulWord (words m a 4) d).2 ∧ Same m (NumMem.mulWord r a d m).1 r 4 := by
  obtain ⟨h1, h2, h3⟩ := mulxWordStores_eq d 4 r a m ha
  exact mulWordTail r m _ (words m a 4) d _ (words_len m a 4) h1 h2 h3

theorem mulFirst_eq (r a b : Nat) (m : Verif.NumMem.Mem 64) (ha : r ≤ a ∨ a + 4 ≤ r) (hb : b < r ∨ r + 4 ≤ b + 1) :
    mulFirst r a b m r = (X64.mulWord (words m a 4) (m b)).1.headD 0 ∧
    words (mulFirst r a b m) (r + 1) 4 =
      (X64.mulWord (words m a 4) (m b)).1.tail ++ [(X64.mulWord (words m a 4) (m b)).2] ∧
    Same m (mulFirst r a b m) r 5 := by
  obtain ⟨h1, h2, h3⟩ := mulxStores_eq 4 r a b m ha hb
  obtain ⟨g1, g2, g3⟩ := mulWordTail r m _ (words m a 4) (m b) _ (words_len m a 4) h1 h2 h3
  obtain ⟨rs, e1, e2, e3, e4⟩ := window (by omega) (X64.mulWord (words m a 4) (m b)).2 g1 g3
  have hm : mulFirst r a b m = put (chain addStep 3 (r + 1) (.mem (r + 1)) (.lit (mulxStores 4 r a b m).2) 0
      (mulxStores 4 r a b m).1).1 (r + 4) (X64.mulWord (words m a 4) (m b)).2 := by
    rw [← g2]; rfl
  rw [hm, e1, List.headD_cons, List.tail_cons]
  exact ⟨e3, e2, e4⟩

theorem mulRows_eq (a k r b : Nat) (m : Verif.NumMem.Mem 64) (ha : a + 4 ≤ r ∨ r + 4 + k ≤ a + 1)
    (hb : b + k ≤ r ∨ r + 4 ≤ b) :
    words (mulRows a k r b m) r (4 + k) = mulSteps (words m a 4) (words m b k) (words m r 4) ∧
    Same m (mulRows a k r b m) r (4 + k) := by
  induction k generalizing r b m with
  | zero => exact ⟨rfl, fun y _ => rfl⟩
  | succ k ih =>
    obtain ⟨los, hlo⟩ : ∃ l, l = (mulxRow (words m a 4) (m b)).1 := ⟨_, rfl⟩
    obtain ⟨his, hhi⟩ : ∃ l, l = (mulxRow (words m a 4) (m b)).2 := ⟨_, rfl⟩
    have ll : los.length = 4 := by rw [hlo, (mulxRow_len _ _).1, words_len]
    have lh : his.length = 4 := by rw [hhi, (mulxRow_len _ _).2, words_len]
    obtain ⟨g1, g2, g3⟩ := addC_eq 4 r (.mem r) (.lit los) m (Or.inl (Nat.le_refl _)) trivial
    rw [Opd.words_mem, words_lit_take m 4 los (by omega), List.take_of_length_le (by omega)] at g1 g2
    obtain ⟨m1, hm1⟩ : ∃ x, x = chain addStep 4 r (.mem r) (.lit los) 0 m := ⟨_, rfl⟩
    rw [← hm1] at g1 g2 g3
    obtain ⟨top, htop⟩ : ∃ x, x = (addcarryU64 m1.2 0 0).1 := ⟨_, rfl⟩
    obtain ⟨rs, e1, e2, e3, e4⟩ := window (by omega) top g2 g3
    obtain ⟨m2, hm2⟩ : ∃ x, x = put m1.1 (r + 4) top := ⟨_, rfl⟩
    rw [← hm2] at e2 e3 e4
    obtain ⟨_, f2, f3⟩ := addC_eq 4 (r + 1) (.mem (r + 1)) (.lit his) m2 (Or.inl (Nat.le_refl _)) trivial
    rw [Opd.words_mem, words_lit_take m2 4 his (by omega), List.take_of_length_le (by omega), e2] at f2
    obtain ⟨m3, hm3⟩ : ∃ x, x = (chain addStep 4 (r + 1) (.mem (r + 1)) (.lit his) 0 m2).1 := ⟨_, rfl⟩
    rw [← hm3] at f2 f3
    have hrun : mulRows a (k + 1) r b m = mulRows a k (r + 1) (b + 1) m3 := by
      rw [hm3, hm2, htop, hm1, hlo, hhi]; rfl
    have s3 : Same m m3 r 5 := fun y hy => (f3 y (by omega)).trans (e4 y (by omega))
    obtain ⟨i1, i2⟩ := ih (r + 1) (b + 1) m3 (by omega) (by omega)
    have r2 : words m3 (b + 1) k = words m (b + 1) k := words_congr fun y g1 g2 => s3 y (by omega)
    have r1 : mulSteps (words m3 a 4) (words m (b + 1) k) (words m3 (r + 1) 4) =
        mulSteps (words m a 4) (words m (b + 1) k) (words m3 (r + 1) 4) := by
      rcases Nat.eq_zero_or_pos k with rfl | hk
      · rfl
      · rw [words_congr (m := m) (a := a) fun y g1 g2 => s3 y (by omega)]
    rw [r2, r1, f2] at i1
    rw [hrun]
    have hw : (addLoop (words m r 4) los 0).1 = m1.1 r :: rs := e1
    have hstep : mulStep (words m a 4) (m b) (words m r 4) = (m1.1 r, (addLoop (rs ++ [top]) his 0).1) := by
      unfold mulStep
      have hp : mulxRow (words m a 4) (m b) = (los, his) := Prod.ext hlo.symm hhi.symm
      rw [hp]
      simp only
      rw [hw, ← g1, ← htop]
      rfl
    refine ⟨?_, ?_⟩
    · rw [show 4 + (k + 1) = 4 + k + 1 by omega, words, i1,
        show words m b (k + 1) = m b :: words m (b + 1) k from rfl, mulSteps, hstep]
      simp only
      rw [i2 r (by omega), f3 r (by omega), e3]
    · intro y hy
      exact (i2 y (by omega)).trans (s3 y (by omega))

theorem mul_eq (r a b : Nat) (m : Verif.NumMem.Mem 64) (ha : a + 4 ≤ r ∨ r + 8 ≤ a + 1) (hb : b + 4 ≤ r ∨ r + 4 ≤ b) :
    words (NumMem.mul r a b m) r 8 = u256Mul (words m a 4) (words m b 4) ∧ Same m (NumMem.mul r a b m) r 8 := by
  obtain ⟨h1, h2, h3⟩ := mulFirst_eq r a b m (by omega) (by omega)
  obtain ⟨i1, i2⟩ := mulRows_eq a 3 (r + 1) (b + 1) (mulFirst r a b m) (by omega) (by omega)
  rw [words_congr (m := m) (a := a) (fun y g1 g2 => h3 y (by omega)),
    words_congr (m := m) (a := b + 1) (fun y g1 g2 => h3 y (by omega)), h2] at i1
  refine ⟨?_, ?_⟩
  · have hr : NumMem.mul r a b m r = (X64.mulWord (words m a 4) (m b)).1.headD 0 := (i2 r (by omega)).trans h1
    rw [show (8 : Nat) = 4 + 3 + 1 from rfl, words, hr]
    exact congrArg _ i1
  · intro y hy
    exact (i2 y (by omega)).trans (h3 y (by omega))

theorem subStep_self (x : W64) : subStep x x 0 = (0, 0) := by
  unfold subStep subborrowU64
  simp

/-! ### Modular functions -/

theorem modAdd_eq (r : Nat) (a b : Opd 64) (d : Nat) (m : Verif.NumMem.Mem 64) (ha : Fwd r 4 a) (hb : Fwd r 4 b)
    (hd : Apart r d 4) :
    words (modAdd r a b d m) r 4 = u256ModAdd (a.words m 4) (b.words m 4) (words m d 4) ∧
    Same m (modAdd r a b d m) r 4 := by
  obtain ⟨h1, h2, h3⟩ := addC_eq 4 r a b m ha hb
  obtain ⟨_, g2, g3⟩ := subC_eq 4 r (.mem r) (.mem d) (chain addStep 4 r a b 0 m).1 (Or.inl (Nat.le_refl r))
    (by simp only [Fwd]; unfold Apart at hd; omega)
  have hdw := apart_words hd h3
  rw [Opd.words_mem, Opd.words_mem, hdw, h2] at g2
  simp only [modAdd, u256ModAdd]
  rw [h1, h2, hdw]
  split
  · exact ⟨g2, same_trans h3 g3⟩
  · exact ⟨h2, h3⟩

theorem modSub_eq (r : Nat) (a b : Opd 64) (d : Nat) (m : Verif.NumMem.Mem 64) (ha : Fwd r 4 a) (hb : Fwd r 4 b)
    (hd : Apart r d 4) :
    words (modSub r a b d m) r 4 = u256ModSub (a.words m 4) (b.words m 4) (words m d 4) ∧
    Same m (modSub r a b d m) r 4 := by
  obtain ⟨h1, h2, h3⟩ := subC_eq 4 r a b m ha hb
  obtain ⟨_, g2, g3⟩ := addC_eq 4 r (.mem r) (.mem d) (chain subStep 4 r a b 0 m).1 (Or.inl (Nat.le_refl r))
    (by simp only [Fwd]; unfold Apart at hd; omega)
  have hdw := apart_words hd h3
  rw [Opd.words_mem, Opd.words_mem, hdw, h2] at g2
  simp only [modSub, u256ModSub]
  rw [h1, h2, hdw]
  split
  · exact ⟨g2, same_trans h3 g3⟩
  · exact ⟨h2, h3⟩

theorem modDoubleN_eq (r d : Nat) (hd : Apart r d 4) (n : Nat) (m : Verif.NumMem.Mem 64) :
    words (modDoubleN r d n m) r 4 = X64.modDoubleN (words m d 4) n (words m r 4) ∧
    Same m (modDoubleN r d n m) r 4 := by
  induction n generalizing m with
  | zero => exact ⟨rfl, fun y _ => rfl⟩
  | succ n ih =>
    obtain ⟨h1, h2⟩ := modAdd_eq r (.mem r) (.mem r) d m (Or.inl (Nat.le_refl r)) (Or.inl (Nat.le_refl r)) hd
    obtain ⟨g1, g2⟩ := ih (modAdd r (.mem r) (.mem r) d m)
    rw [apart_words hd h2, h1, Opd.words_mem] at g1
    exact ⟨g1, same_trans h2 g2⟩

theorem selfModSll_eq (r n d : Nat) (hd : Apart r d 4) (m : Verif.NumMem.Mem 64) :
    words (selfModSll r n d m) r 4 = u256SelfModSll (words m r 4) n (words m d 4) ∧
    Same m (selfModSll r n d m) r 4 := by
  unfold selfModSll u256SelfModSll
  split
  · exact ⟨rfl, fun y _ => rfl⟩
  · exact modDoubleN_eq r d hd n m

theorem setZero_eq (r : Nat) (m : Verif.NumMem.Mem 64) : words (setZero r m) r 4 = u256Zero ∧ Same m (setZero r m) r 4 := by
  obtain ⟨_, h2, h3⟩ := chain_spec (fun _ _ c => ((0 : W64), c)) 4 r (.lit []) (.lit []) () m trivial trivial
  exact ⟨h2, h3⟩

theorem subWhileGe_len (d : List W64) (hd : d.length = 4) (fuel : Nat) (t u : List W64) (ht : t.length = 4)
    (h : subWhileGe d fuel t = some u) : u.length = 4 := by
  induction fuel generalizing t with
  | zero => simp [subWhileGe] at h
  | succ n ih =>
    unfold subWhileGe at h
    split at h
    · exact ih _ (by unfold u256SubBorrow; rw [subLoop_len _ _ _ (by omega)]; exact ht) h
    · simp only [Option.some.injEq] at h; rw [← h]; exact ht

theorem loadWordsBE_len (n : Nat) (bs : List Byte) (h : bs.length = 8 * n) : (loadWordsBE bs).length = n := by
  induction n generalizing bs with
  | zero =>
    obtain rfl := List.length_eq_zero_iff.mp (show bs.length = 0 by omega)
    rfl
  | succ n ih =>
    match bs, h with
    | b0 :: b1 :: b2 :: b3 :: b4 :: b5 :: b6 :: b7 :: rest, h =>
      simp only [loadWordsBE, List.length_cons] at h ⊢
      rw [ih rest (by omega)]

theorem fromBytes_len (bs : List Byte) (h : bs.length = 32) : (u256FromBytes bs).length = 4 := by
  unfold u256FromBytes
  rw [List.length_reverse]
  exact loadWordsBE_len 4 bs h

theorem modAdd_lit (r d : Nat) (t : List W64) (ht : t.length = 4) (m : Verif.NumMem.Mem 64) (hd : Apart r d 4) :
    words (modAdd r (.mem r) (.lit t) d m) r 4 = u256ModAdd (words m r 4) t (words m d 4) ∧
    Same m (modAdd r (.mem r) (.lit t) d m) r 4 := by
  obtain ⟨h1, h2⟩ := modAdd_eq r (.mem r) (.lit t) d m (Or.inl (Nat.le_refl r)) trivial hd
  rw [Opd.words_mem, show (Opd.lit t).words m 4 = t by rw [← ht]; exact Opd.words_lit m t] at h1
  exact ⟨h1, h2⟩

theorem modLoop_eq (r d : Nat) (hd : Apart r d 4) (k : Nat) (data : List Byte) (hk : data.length ≤ k) (m : Verif.NumMem.Mem 64) :
    (modLoop loopFuel r d data m = none ∧ u256ModLoop (words m d 4) data (words m r 4) = none) ∨
    ∃ m', modLoop loopFuel r d data m = some m' ∧ Same m m' r 4 ∧
      u256ModLoop (words m d 4) data (words m r 4) = some (words m' r 4) := by
  induction k generalizing data m with
  | zero =>
    obtain rfl := List.length_eq_zero_iff.mp (show data.length = 0 by omega)
    right
    refine ⟨m, ?_, fun y _ => rfl, ?_⟩
    · rw [modLoop, dif_neg (by simp), if_neg (by simp)]
    · rw [u256ModLoop, dif_neg (by simp), if_neg (by simp)]
  | succ k ih =>
    rw [modLoop, u256ModLoop]
    by_cases h : data.length ≥ 32
    · rw [dif_pos h, dif_pos h]
      obtain ⟨s1, s2⟩ := selfModSll_eq r 256 d hd m
      simp only
      rw [apart_words hd s2]
      cases ht : subWhileGe (words m d 4) loopFuel (u256FromBytes (data.take 32)) with
      | none => exact Or.inl ⟨rfl, rfl⟩
      | some t =>
        have tl := subWhileGe_len _ (words_len m d 4) _ _ _ (fromBytes_len _ (by simp; omega)) ht
        obtain ⟨a1, a2⟩ := modAdd_lit r d t tl (selfModSll r 256 d m) hd
        rw [s1, apart_words hd s2] at a1
        have st := same_trans s2 a2
        have := ih (data.drop 32) (by simp; omega) (modAdd r (.mem r) (.lit t) d (selfModSll r 256 d m))
        rw [apart_words hd st, a1] at this
        rcases this with h | ⟨m', h1, h2, h3⟩
        · exact Or.inl h
        · exact Or.inr ⟨m', h1, same_trans st h2, h3⟩
    · rw [dif_neg h, dif_neg h]
      by_cases h0 : data.length ≠ 0
      · rw [if_pos h0, if_pos h0]
        obtain ⟨s1, s2⟩ := selfModSll_eq r (8 * data.length) d hd m
        simp only
        rw [apart_words hd s2]
        cases ht : subWhileGe (words m d 4) loopFuel
            (u256FromBytes (List.replicate (32 - data.length) 0 ++ data)) with
        | none => exact Or.inl ⟨rfl, rfl⟩
        | some t =>
          have tl := subWhileGe_len _ (words_len m d 4) _ _ _ (fromBytes_len _ (by simp; omega)) ht
          obtain ⟨a1, a2⟩ := modAdd_lit r d t tl (selfModSll r (8 * data.length) d m) hd
          rw [s1, apart_words hd s2] at a1
          exact Or.inr ⟨_, rfl, same_trans s2 a2, by rw [a1]⟩
      · rw [if_neg h0, if_neg h0]
        exact Or.inr ⟨m, rfl, fun y _ => rfl, rfl⟩

theorem mod_eq (r d : Nat) (hd : Apart r d 4) (data : List Byte) (m : Verif.NumMem.Mem 64) :
    (mod loopFuel r data d m = none ∧ u256Mod data (words m d 4) = none) ∨
    ∃ m', mod loopFuel r data d m = some m' ∧ Same m m' r 4 ∧
      u256Mod data (words m d 4) = some (words m' r 4) := by
  obtain ⟨z1, z2⟩ := setZero_eq r m
  unfold mod u256Mod
  simp only
  by_cases h : data.length ≥ 32
  · rw [if_pos h, if_pos h, apart_words hd z2]
    cases ht : subWhileGe (words m d 4) loopFuel (u256FromBytes (data.take 32)) with
    | none => exact Or.inl ⟨rfl, rfl⟩
    | some t =>
      have tl := subWhileGe_len _ (words_len m d 4) _ _ _ (fromBytes_len _ (by simp; omega)) ht
      obtain ⟨a1, a2⟩ := modAdd_lit r d t tl (setZero r m) hd
      rw [z1, apart_words hd z2] at a1
      have st := same_trans z2 a2
      have := modLoop_eq r d hd _ (data.drop 32) (Nat.le_refl _) (modAdd r (.mem r) (.lit t) d (setZero r m))
      rw [apart_words hd st, a1] at this
      rcases this with h | ⟨m', h1, h2, h3⟩
      · exact Or.inl h
      · exact Or.inr ⟨m', h1, same_trans st h2, h3⟩
  · rw [if_neg h, if_neg h]
    have := modLoop_eq r d hd _ data (Nat.le_refl _) (setZero r m)
    rw [apart_words hd z2, z1] at this
    rcases this with h | ⟨m', h1, h2, h3⟩
    · exact Or.inl h
    · exact Or.inr ⟨m', h1, same_trans z2 h2, h3⟩

/-! ### The remainder stored over the divisor -/

theorem sub_zero (t : List W64) (ht : t.length = 4) : (u256SubBorrow t u256Zero).1 = t := by
  have hz : Spec.val u256Zero = 0 := by decide
  obtain ⟨h1, h2, _⟩ := u256Sub_spec t u256Zero ht rfl
  exact Verif.val_inj _ _ (by rw [h1, ht]) (by rw [(h2 (by rw [hz]; omega)).1, hz, Nat.sub_zero])

theorem cmp_zero (t : List W64) (ht : t.length = 4) : u256Cmp t u256Zero ≥ 0 := by
  have h := cmp_spec t u256Zero (by rw [ht]; rfl)
  have hz : Spec.val u256Zero = 0 := by decide
  unfold u256Cmp
  rw [h, hz]
  split
  · decide
  · split
    · omega
    · decide

theorem subWhileGe_zero (fuel : Nat) (t : List W64) (ht : t.length = 4) : subWhileGe u256Zero fuel t = none := by
  induction fuel with
  | zero => rfl
  | succ n ih => rw [subWhileGe, if_pos (cmp_zero t ht), sub_zero t ht]; exact ih

theorem mod_self (fuel r : Nat) (data : List Byte) (hne : data ≠ []) (m : Verif.NumMem.Mem 64) : mod fuel r data r m = none := by
  obtain ⟨z1, z2⟩ := setZero_eq r m
  unfold mod
  simp only
  by_cases h : data.length ≥ 32
  · rw [if_pos h, z1, subWhileGe_zero _ _ (fromBytes_len _ (by simp; omega))]
  · rw [if_neg h, modLoop, dif_neg h, if_pos (by simpa using hne)]
    have hs : selfModSll r (8 * data.length) r (setZero r m) = setZero r m := by
      unfold selfModSll
      rw [z1, if_pos (by decide)]
    simp only
    rw [hs, z1, subWhileGe_zero _ _ (fromBytes_len _ (by simp; omega))]

end Verif.X64.NumMem
