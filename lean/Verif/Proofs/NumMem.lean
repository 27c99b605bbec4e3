import Verif.Model.NumMem
import Verif.Proofs.Mont
/-!
# Lemmas for `Props/NumMem.lean`: programs on memory against the functions on lists
-/
namespace Verif.NumMem
open Verif

variable {w : Nat} {γ : Type}

/-! ## Memory -/

@[simp] theorem put_same (m : Mem w) (x : Nat) (v : BitVec w) : put m x v x = v := by simp [put]

theorem put_ne (m : Mem w) (x : Nat) (v : BitVec w) {y : Nat} (h : y ≠ x) : put m x v y = m y := by simp [put, h]

@[simp] theorem words_len (m : Mem w) (a n : Nat) : (words m a n).length = n := by
  induction n generalizing a with
  | zero => rfl
  | succ n ih => simp [words, ih]

theorem words_congr {m m' : Mem w} {a n : Nat} (h : ∀ y, a ≤ y → y < a + n → m' y = m y) :
    words m' a n = words m a n := by
  induction n generalizing a with
  | zero => rfl
  | succ n ih =>
    simp only [words]
    rw [h a (by omega) (by omega), ih (fun y h1 h2 => h y (by omega) (by omega))]

theorem words_snoc (m : Mem w) (a n : Nat) : words m a (n + 1) = words m a n ++ [m (a + n)] := by
  induction n generalizing a with
  | zero => rfl
  | succ n ih =>
    rw [words, ih (a + 1), words, List.cons_append, show a + 1 + n = a + (n + 1) by omega]

theorem words_get (m : Mem w) (a n i : Nat) (h : i < n) : (words m a n)[i]? = some (m (a + i)) := by
  induction n generalizing a i with
  | zero => omega
  | succ n ih =>
    cases i with
    | zero => rfl
    | succ i => rw [words, List.getElem?_cons_succ, ih _ _ (by omega), show a + 1 + i = a + (i + 1) by omega]

/-- Words outside the `n` from `r` up are the same. -/
def Same (m m' : Mem w) (r n : Nat) : Prop := ∀ y, y < r ∨ r + n ≤ y → m' y = m y

/-! ## Operands -/

/-- The first `n` words of an operand. -/
def Opd.words (m : Mem w) : Opd w → Nat → List (BitVec w)
  | _, 0 => []
  | o, n + 1 => o.hd m :: Opd.words m o.tl n

/-- The result `r` begins at or below the operand, or they are apart. -/
def Fwd (r n : Nat) : Opd w → Prop
  | .mem x => r ≤ x ∨ x + n ≤ r
  | .lit _ => True

theorem Opd.words_mem (m : Mem w) (a n : Nat) : (Opd.mem a).words m n = NumMem.words m a n := by
  induction n generalizing a with
  | zero => rfl
  | succ n ih => rw [Opd.words, NumMem.words, Opd.tl, ih]; rfl

theorem Opd.words_lit (m : Mem w) (l : List (BitVec w)) : (Opd.lit l).words m l.length = l := by
  induction l with
  | nil => rfl
  | cons a l ih => rw [List.length_cons, Opd.words, Opd.tl, List.tail_cons, ih]; rfl

theorem Opd.words_nil (m : Mem w) (n : Nat) : (Opd.lit ([] : List (BitVec w))).words m n = List.replicate n 0 := by
  induction n with
  | zero => rfl
  | succ n ih => rw [Opd.words, Opd.tl, List.tail_nil, ih]; rfl

@[simp] theorem Opd.words_len (m : Mem w) (o : Opd w) (n : Nat) : (o.words m n).length = n := by
  induction n generalizing o with
  | zero => rfl
  | succ n ih => simp [Opd.words, ih]

theorem Opd.words_put {m : Mem w} {r n : Nat} {o : Opd w} (h : Fwd r (n + 1) o) (v : BitVec w) :
    o.tl.words (put m r v) n = o.tl.words m n := by
  cases o with
  | mem x =>
    simp only [Opd.tl, Opd.words_mem]
    exact words_congr fun y h1 h2 => put_ne _ _ _ (by simp only [Fwd] at h; omega)
  | lit l =>
    simp only [Opd.tl]
    generalize l.tail = l
    induction n generalizing l with
    | zero => rfl
    | succ n ih => rw [Opd.words, Opd.words, Opd.tl, ih]; rfl; trivial

/-! ## Carry chains -/

/-- The same chain on lists. -/
def vloop (step : BitVec w → BitVec w → γ → BitVec w × γ) :
    List (BitVec w) → List (BitVec w) → γ → List (BitVec w) × γ
  | a :: as, b :: bs, c =>
    let s := step a b c
    let t := vloop step as bs s.2
    (s.1 :: t.1, t.2)
  | _, _, c => ([], c)

theorem chain_spec (step : BitVec w → BitVec w → γ → BitVec w × γ) (n r : Nat) (a b : Opd w) (c : γ) (m : Mem w)
    (ha : Fwd r n a) (hb : Fwd r n b) :
    (chain step n r a b c m).2 = (vloop step (a.words m n) (b.words m n) c).2 ∧
    words (chain step n r a b c m).1 r n = (vloop step (a.words m n) (b.words m n) c).1 ∧
    Same m (chain step n r a b c m).1 r n := by
  induction n generalizing r a b c m with
  | zero => exact ⟨rfl, rfl, fun y _ => rfl⟩
  | succ n ih =>
    have tl : ∀ o : Opd w, Fwd r (n + 1) o → Fwd (r + 1) n o.tl := by
      intro o h
      cases o with
      | mem x => simp only [Fwd, Opd.tl] at h ⊢; omega
      | lit l => trivial
    obtain ⟨h1, h2, h3⟩ := ih (r + 1) a.tl b.tl (step (a.hd m) (b.hd m) c).2 (put m r (step (a.hd m) (b.hd m) c).1)
      (tl a ha) (tl b hb)
    rw [Opd.words_put ha, Opd.words_put hb] at h1 h2
    refine ⟨h1, ?_, ?_⟩
    · simp only [words, chain]
      rw [h2, h3 r (by omega), put_same]
      rfl
    · intro y hy
      simp only [chain]
      rw [h3 y (by omega), put_ne _ _ _ (by omega)]

theorem vloop_len (step : BitVec w → BitVec w → γ → BitVec w × γ) (as bs : List (BitVec w)) (c : γ)
    (h : as.length = bs.length) : (vloop step as bs c).1.length = as.length := by
  induction as generalizing bs c with
  | nil => cases bs <;> rfl
  | cons a as ih =>
    cases bs with
    | nil => simp at h
    | cons b bs => simp only [vloop, List.length_cons]; rw [ih bs _ (by simpa using h)]

/-! ## Multiplication -/

/-- A row on lists. -/
def vrow (step : BitVec w → BitVec w → BitVec w → BitVec w → BitVec w × BitVec w) :
    List (BitVec w) → List (BitVec w) → BitVec w → BitVec w → List (BitVec w) × BitVec w
  | r :: rs, a :: as, b, c =>
    let s := step r a b c
    let t := vrow step rs as b s.2
    (s.1 :: t.1, t.2)
  | _, _, _, c => ([], c)

theorem vrow_len (step : BitVec w → BitVec w → BitVec w → BitVec w → BitVec w × BitVec w) (rs as : List (BitVec w))
    (b c : BitVec w) (h : rs.length = as.length) : (vrow step rs as b c).1.length = as.length := by
  induction rs generalizing as c with
  | nil => cases as with
    | nil => rfl
    | cons a as => simp at h
  | cons r rs ih =>
    cases as with
    | nil => simp at h
    | cons a as => simp only [vrow, List.length_cons]; rw [ih as _ (by simpa using h)]

theorem row_spec (step : BitVec w → BitVec w → BitVec w → BitVec w → BitVec w × BitVec w) (n r a b : Nat)
    (c : BitVec w) (m : Mem w) (ha : r ≤ a ∨ a + n ≤ r) (hb : b < r ∨ r + n ≤ b + 1) :
    (row step n r a b c m).2 = (vrow step (words m r n) (words m a n) (m b) c).2 ∧
    words (row step n r a b c m).1 r n = (vrow step (words m r n) (words m a n) (m b) c).1 ∧
    Same m (row step n r a b c m).1 r n := by
  induction n generalizing r a c m with
  | zero => exact ⟨rfl, rfl, fun y _ => rfl⟩
  | succ n ih =>
    obtain ⟨h1, h2, h3⟩ := ih (r + 1) (a + 1) (step (m r) (m a) (m b) c).2 (put m r (step (m r) (m a) (m b) c).1)
      (by omega) (by omega)
    rw [words_congr (fun y h1 h2 => put_ne m r _ (by omega)),
      words_congr (a := a + 1) (fun y h1 h2 => put_ne m r _ (by omega))] at h1 h2
    have hbn : n = 0 ∨ b ≠ r := by omega
    have hb' : vrow step (words m (r + 1) n) (words m (a + 1) n) (put m r (step (m r) (m a) (m b) c).1 b)
        (step (m r) (m a) (m b) c).2 =
        vrow step (words m (r + 1) n) (words m (a + 1) n) (m b) (step (m r) (m a) (m b) c).2 := by
      rcases hbn with rfl | hbn
      · rfl
      · rw [put_ne _ _ _ hbn]
    rw [hb'] at h1 h2
    refine ⟨h1, ?_, ?_⟩
    · simp only [words, row]
      rw [h2, h3 r (by omega), put_same]
      rfl
    · intro y hy
      simp only [row]
      rw [h3 y (by omega), put_ne _ _ _ (by omega)]

/-- The rows on lists. -/
def vrows (step : BitVec w → BitVec w → BitVec w → BitVec w → BitVec w × BitVec w) (as : List (BitVec w)) :
    List (BitVec w) → List (BitVec w) → List (BitVec w)
  | [], win => win
  | b :: bs, win =>
    match vrow step win as b 0 with
    | (r0 :: rs, c) => r0 :: vrows step as bs (rs ++ [c])
    | ([], c) => [c]

/-- What one row and the store of its carry leave: the finished word, the next window, everything else. -/
theorem window {m m1 : Mem w} {n r : Nat} (hn : 0 < n) {L : List (BitVec w)} (c : BitVec w)
    (h2 : words m1 r n = L) (h3 : Same m m1 r n) :
    ∃ rs, L = m1 r :: rs ∧ words (put m1 (r + n) c) (r + 1) n = rs ++ [c] ∧
      put m1 (r + n) c r = m1 r ∧ Same m (put m1 (r + n) c) r (n + 1) := by
  obtain ⟨k, rfl⟩ : ∃ k, n = k + 1 := ⟨n - 1, by omega⟩
  refine ⟨words m1 (r + 1) k, h2.symm, ?_, put_ne _ _ _ (by omega), ?_⟩
  · rw [words_snoc, show r + 1 + k = r + (k + 1) by omega, put_same,
      words_congr (fun y h1 h2 => put_ne m1 _ _ (by omega))]
  · intro y hy
    rw [put_ne _ _ _ (by omega), h3 y (by omega)]

theorem rows_spec (step : BitVec w → BitVec w → BitVec w → BitVec w → BitVec w × BitVec w) (n a : Nat) (hn : 0 < n)
    (k r b : Nat) (m : Mem w) (ha : a + n ≤ r ∨ r + n + k ≤ a + 1) (hb : b + k ≤ r ∨ r + n ≤ b) :
    words (rows step n a k r b m) r (n + k) = vrows step (words m a n) (words m b k) (words m r n) ∧
    Same m (rows step n a k r b m) r (n + k) := by
  induction k generalizing r b m with
  | zero => exact ⟨rfl, fun y _ => rfl⟩
  | succ k ih =>
    obtain ⟨h1, h2, h3⟩ := row_spec step n r a b 0 m (by omega) (by omega)
    obtain ⟨rs, e1, e2, e3, e4⟩ := window hn (row step n r a b 0 m).2 h2 h3
    have r1 : k = 0 ∨ words (put (row step n r a b 0 m).1 (r + n) (row step n r a b 0 m).2) a n = words m a n := by
      rcases Nat.eq_zero_or_pos k with h | h
      · exact Or.inl h
      · exact Or.inr (words_congr fun y g1 g2 => e4 y (by omega))
    have r2 : words (put (row step n r a b 0 m).1 (r + n) (row step n r a b 0 m).2) (b + 1) k = words m (b + 1) k :=
      words_congr fun y g1 g2 => e4 y (by omega)
    obtain ⟨i1, i2⟩ := ih (r + 1) (b + 1) (put (row step n r a b 0 m).1 (r + n) (row step n r a b 0 m).2)
      (by omega) (by omega)
    rw [r2, e2] at i1
    have i1' : words (rows step n a (k + 1) r b m) (r + 1) (n + k) =
        vrows step (words m a n) (words m (b + 1) k) (rs ++ [(row step n r a b 0 m).2]) := by
      refine i1.trans ?_
      rcases r1 with rfl | r1
      · rfl
      · rw [r1]
    refine ⟨?_, ?_⟩
    · have hr : (rows step n a (k + 1) r b m) r = (row step n r a b 0 m).1 r := by
        refine (i2 r (by omega)).trans e3
      rw [show n + (k + 1) = n + k + 1 by omega, words, i1', hr]
      have hv : vrow step (words m r n) (words m a n) (m b) 0 =
          ((row step n r a b 0 m).1 r :: rs, (row step n r a b 0 m).2) := Prod.ext e1 h1.symm
      rw [show words m b (k + 1) = m b :: words m (b + 1) k from rfl, vrows, hv]
    · intro y hy
      exact (i2 y (by omega)).trans (e4 y (by omega))

/-- A whole multiplication. -/
theorem mulG_spec (s1 : BitVec w → BitVec w → BitVec w → BitVec w × BitVec w)
    (s2 : BitVec w → BitVec w → BitVec w → BitVec w → BitVec w × BitVec w) (n r a b : Nat) (hn : 0 < n) (m : Mem w)
    (ha : a + n ≤ r ∨ r + 2 * n ≤ a + 1) (hb : b + n ≤ r ∨ r + n ≤ b) :
    let s := row (fun _ x y c => s1 x y c) n r a b 0 m
    let m' := rows s2 n a (n - 1) (r + 1) (b + 1) (put s.1 (r + n) s.2)
    (∃ r0 rs c, vrow (fun _ x y c => s1 x y c) (words m r n) (words m a n) (m b) 0 = (r0 :: rs, c) ∧
      words m' r (2 * n) = r0 :: vrows s2 (words m a n) (words m (b + 1) (n - 1)) (rs ++ [c])) ∧
    Same m m' r (2 * n) := by
  intro s m'
  obtain ⟨h1, h2, h3⟩ := row_spec (fun _ x y c => s1 x y c) n r a b 0 m (by omega) (by omega)
  obtain ⟨rs, e1, e2, e3, e4⟩ := window hn s.2 h2 h3
  obtain ⟨i1, i2⟩ := rows_spec s2 n a hn (n - 1) (r + 1) (b + 1) (put s.1 (r + n) s.2) (by omega) (by omega)
  have r2 : words (put s.1 (r + n) s.2) (b + 1) (n - 1) = words m (b + 1) (n - 1) :=
    words_congr fun y g1 g2 => e4 y (by omega)
  rw [r2] at i1
  refine ⟨⟨s.1 r, rs, s.2, Prod.ext e1 h1.symm, ?_⟩, ?_⟩
  · rw [show 2 * n = n + (n - 1) + 1 by omega, words]
    have hr : m' r = s.1 r := (i2 r (by omega)).trans e3
    rw [hr]
    refine congrArg _ (i1.trans ?_)
    rw [e2]
    rcases Nat.eq_or_lt_of_le (show 1 ≤ n from hn) with h | h
    · rw [show n - 1 = 0 by omega]; rfl
    · rw [words_congr (m := m) (a := a) (n := n) fun y g1 g2 => e4 y (by omega)]
  · intro y hy
    exact (i2 y (by omega)).trans (e4 y (by omega))

/-! ## Division -/

/-- The downward loop on the list of words, most significant first. -/
def vdown (step : BitVec w → γ → BitVec w × γ) : List (BitVec w) → γ → List (BitVec w) × γ
  | [], c => ([], c)
  | d :: ds, c =>
    let s := step d c
    let t := vdown step ds s.2
    (s.1 :: t.1, t.2)

theorem down_spec (step : BitVec w → γ → BitVec w × γ) (n q a : Nat) (c : γ) (m : Mem w)
    (h : a ≤ q ∨ q + n ≤ a) :
    (down step n q a c m).2 = (vdown step (words m a n).reverse c).2 ∧
    words (down step n q a c m).1 q n = (vdown step (words m a n).reverse c).1.reverse ∧
    Same m (down step n q a c m).1 q n := by
  induction n generalizing c m with
  | zero => exact ⟨rfl, rfl, fun y _ => rfl⟩
  | succ n ih =>
    obtain ⟨h1, h2, h3⟩ := ih (step (m (a + n)) c).2 (put m (q + n) (step (m (a + n)) c).1) (by omega)
    rw [words_congr fun y g1 g2 => put_ne m (q + n) _ (by omega)] at h1 h2
    rw [words_snoc m a n, List.reverse_append, List.reverse_singleton, List.singleton_append]
    refine ⟨h1, ?_, ?_⟩
    · rw [words_snoc, vdown, List.reverse_cons]
      simp only [down]
      rw [h2, h3 (q + n) (by omega), put_same]
    · intro y hy
      simp only [down]
      rw [h3 y (by omega), put_ne _ _ _ (by omega)]

/-! ## The portable build -/

theorem vloop_add (as bs : List W32) (c : CInt) : vloop addCarry as bs c = addCarryLoop as bs c := by
  induction as generalizing bs c with
  | nil => cases bs <;> rfl
  | cons a as ih => cases bs with
    | nil => rfl
    | cons b bs => simp only [vloop, addCarryLoop, ih]

theorem vloop_sub (as bs : List W32) (c : CInt) : vloop subBorrow as bs c = subBorrowLoop as bs c := by
  induction as generalizing bs c with
  | nil => cases bs <;> rfl
  | cons a as ih => cases bs with
    | nil => rfl
    | cons b bs => simp only [vloop, subBorrowLoop, ih]

theorem vloop_dbl (as bs : List W32) (h : as.length = bs.length) (c : CInt) :
    vloop (fun x _ c => dblCarry x c) as bs c = dblCarryLoop as c := by
  induction as generalizing bs c with
  | nil => cases bs <;> rfl
  | cons a as ih => cases bs with
    | nil => simp at h
    | cons b bs => simp only [vloop, dblCarryLoop, ih bs (by simpa using h)]

theorem vloop_tpl (as bs : List W32) (h : as.length = bs.length) (c : CInt) :
    vloop (fun x _ c => tplCarry x c) as bs c = tplCarryLoop as c := by
  induction as generalizing bs c with
  | nil => cases bs <;> rfl
  | cons a as ih => cases bs with
    | nil => simp at h
    | cons b bs => simp only [vloop, tplCarryLoop, ih bs (by simpa using h)]

theorem vloop_mulWord (as bs : List W32) (h : as.length = bs.length) (d c : W32) :
    vloop (fun x _ c => mulCarry x d c) as bs c = mulRow as d c := by
  induction as generalizing bs c with
  | nil => cases bs <;> rfl
  | cons a as ih => cases bs with
    | nil => simp at h
    | cons b bs => simp only [vloop, mulRow, ih bs (by simpa using h)]

theorem vrow_mul (rs as : List W32) (h : rs.length = as.length) (b c : W32) :
    vrow (fun _ x y c => mulCarry x y c) rs as b c = mulRow as b c := by
  induction as generalizing rs c with
  | nil => cases rs <;> rfl
  | cons a as ih => cases rs with
    | nil => simp at h
    | cons r rs => simp only [vrow, mulRow, ih rs (by simpa using h)]

theorem vrow_addMul (rs as : List W32) (b c : W32) : vrow addMulCarry rs as b c = addMulRow rs as b c := by
  induction rs generalizing as c with
  | nil => cases as <;> rfl
  | cons r rs ih => cases as with
    | nil => rfl
    | cons a as => simp only [vrow, addMulRow, ih]

theorem vrows_addMul (as bs win : List W32) : vrows addMulCarry as bs win = mulLoop as bs win := by
  induction bs generalizing win with
  | nil => rfl
  | cons b bs ih =>
    simp only [vrows, mulLoop, vrow_addMul, ih]
    rcases addMulRow win as b 0 with ⟨_ | ⟨r0, rs⟩, c⟩ <;> rfl

theorem mpzMul_eq (n r a b : Nat) (m : Mem 32) (ha : a + n ≤ r ∨ r + 2 * n ≤ a + 1) (hb : b + n ≤ r ∨ r + n ≤ b) :
    words (mpzMul n r a b m) r (2 * n) = Verif.mpzMul (words m a n) (words m b n) n ∧
    Same m (mpzMul n r a b m) r (2 * n) := by
  unfold NumMem.mpzMul Verif.mpzMul
  rcases Nat.eq_zero_or_pos n with rfl | hn
  · exact ⟨rfl, fun y _ => rfl⟩
  · rw [if_neg (by omega), if_neg (by omega)]
    obtain ⟨⟨r0, rs, c, h1, h2⟩, h3⟩ := mulG_spec mulCarry addMulCarry n r a b hn m ha hb
    refine ⟨?_, h3⟩
    refine h2.trans ?_
    rw [List.take_of_length_le (by simp), List.take_of_length_le (by simp)]
    rw [vrow_mul _ _ (by simp)] at h1
    have hb' : words m b n = m b :: words m (b + 1) (n - 1) := by
      conv => lhs; rw [show n = n - 1 + 1 by omega, words]
    rw [hb']
    simp only [h1, vrows_addMul]

theorem vdown_div (d : W32) (ds : List W32) (c : W64) : vdown (divStep d) ds c = divWordLoop d ds c := by
  induction ds generalizing c with
  | nil => rfl
  | cons a ds ih => simp only [vdown, divWordLoop, ih]; rfl

/-! ### Modular functions -/

theorem add_eq (r : Nat) (a b : Opd 32) (m : Mem 32) (ha : Fwd r 8 a) (hb : Fwd r 8 b) :
    (add r a b m).2 = (u256AddCarry (a.words m 8) (b.words m 8)).2 ∧
    words (add r a b m).1 r 8 = (u256AddCarry (a.words m 8) (b.words m 8)).1 ∧ Same m (add r a b m).1 r 8 := by
  have h := chain_spec addCarry 8 r a b 0 m ha hb
  rw [vloop_add] at h
  exact h

theorem sub_eq (r : Nat) (a b : Opd 32) (m : Mem 32) (ha : Fwd r 8 a) (hb : Fwd r 8 b) :
    (sub r a b m).2 = (u256SubBorrow (a.words m 8) (b.words m 8)).2 ∧
    words (sub r a b m).1 r 8 = (u256SubBorrow (a.words m 8) (b.words m 8)).1 ∧ Same m (sub r a b m).1 r 8 := by
  have h := chain_spec subBorrow 8 r a b 0 m ha hb
  rw [vloop_sub] at h
  exact h

/-- Two arrays of `n` words without a common word. -/
def Apart (r d n : Nat) : Prop := r + n ≤ d ∨ d + n ≤ r

theorem apart_words {m m' : Mem w} {r d n : Nat} (h : Apart r d n) (hs : Same m m' r n) :
    words m' d n = words m d n :=
  words_congr fun y g1 g2 => hs y (by unfold Apart at h; omega)

theorem same_trans {m m1 m2 : Mem w} {r n : Nat} (h : Same m m1 r n) (h' : Same m1 m2 r n) : Same m m2 r n :=
  fun y hy => (h' y hy).trans (h y hy)

theorem modAdd_eq (r : Nat) (a b : Opd 32) (d : Nat) (m : Mem 32) (ha : Fwd r 8 a) (hb : Fwd r 8 b)
    (hd : Apart r d 8) :
    words (modAdd r a b d m) r 8 = u256ModAdd (a.words m 8) (b.words m 8) (words m d 8) ∧
    Same m (modAdd r a b d m) r 8 := by
  obtain ⟨h1, h2, h3⟩ := add_eq r a b m ha hb
  obtain ⟨_, g2, g3⟩ := sub_eq r (.mem r) (.mem d) (add r a b m).1 (Or.inl (Nat.le_refl r))
    (by simp only [Fwd]; unfold Apart at hd; omega)
  have hdw := apart_words hd h3
  rw [Opd.words_mem, Opd.words_mem, hdw, h2] at g2
  simp only [modAdd, u256ModAdd]
  rw [h1, h2, hdw]
  split
  · exact ⟨g2, same_trans h3 g3⟩
  · exact ⟨h2, h3⟩

theorem modSub_eq (r : Nat) (a b : Opd 32) (d : Nat) (m : Mem 32) (ha : Fwd r 8 a) (hb : Fwd r 8 b)
    (hd : Apart r d 8) :
    words (modSub r a b d m) r 8 = u256ModSub (a.words m 8) (b.words m 8) (words m d 8) ∧
    Same m (modSub r a b d m) r 8 := by
  obtain ⟨h1, h2, h3⟩ := sub_eq r a b m ha hb
  obtain ⟨_, g2, g3⟩ := add_eq r (.mem r) (.mem d) (sub r a b m).1 (Or.inl (Nat.le_refl r))
    (by simp only [Fwd]; unfold Apart at hd; omega)
  have hdw := apart_words hd h3
  rw [Opd.words_mem, Opd.words_mem, hdw, h2] at g2
  simp only [modSub, u256ModSub]
  rw [h1, h2, hdw]
  split
  · exact ⟨g2, same_trans h3 g3⟩
  · exact ⟨h2, h3⟩

theorem modDoubleN_eq (r d : Nat) (hd : Apart r d 8) (n : Nat) (m : Mem 32) :
    words (modDoubleN r d n m) r 8 = Verif.modDoubleN (words m d 8) n (words m r 8) ∧
    Same m (modDoubleN r d n m) r 8 := by
  induction n generalizing m with
  | zero => exact ⟨rfl, fun y _ => rfl⟩
  | succ n ih =>
    obtain ⟨h1, h2⟩ := modAdd_eq r (.mem r) (.mem r) d m (Or.inl (Nat.le_refl r)) (Or.inl (Nat.le_refl r)) hd
    obtain ⟨g1, g2⟩ := ih (modAdd r (.mem r) (.mem r) d m)
    rw [apart_words hd h2, h1, Opd.words_mem] at g1
    exact ⟨g1, same_trans h2 g2⟩

theorem selfModSll_eq (r n d : Nat) (hd : Apart r d 8) (m : Mem 32) :
    words (selfModSll r n d m) r 8 = u256SelfModSll (words m r 8) n (words m d 8) ∧
    Same m (selfModSll r n d m) r 8 := by
  unfold selfModSll u256SelfModSll
  split
  · exact ⟨rfl, fun y _ => rfl⟩
  · exact modDoubleN_eq r d hd n m

theorem setZero_eq (r : Nat) (m : Mem 32) : words (setZero r m) r 8 = u256Zero ∧ Same m (setZero r m) r 8 := by
  obtain ⟨_, h2, h3⟩ := chain_spec (fun _ _ c => ((0 : W32), c)) 8 r (.lit []) (.lit []) () m trivial trivial
  exact ⟨h2, h3⟩

theorem subWhileGe_len (d : List W32) (hd : d.length = 8) (fuel : Nat) (t u : List W32) (ht : t.length = 8)
    (h : subWhileGe d fuel t = some u) : u.length = 8 := by
  induction fuel generalizing t with
  | zero => simp [subWhileGe] at h
  | succ n ih =>
    unfold subWhileGe at h
    split at h
    · exact ih _ (by unfold u256SubBorrow; rw [subBorrowLoop_len _ _ _ (by omega)]; exact ht) h
    · simp only [Option.some.injEq] at h; rw [← h]; exact ht

theorem loadWordsBE_len (n : Nat) (bs : List Byte) (h : bs.length = 4 * n) : (loadWordsBE bs).length = n := by
  induction n generalizing bs with
  | zero =>
    obtain rfl := List.length_eq_zero_iff.mp (show bs.length = 0 by omega)
    rfl
  | succ n ih =>
    match bs, h with
    | b0 :: b1 :: b2 :: b3 :: rest, h =>
      simp only [loadWordsBE, List.length_cons] at h ⊢
      rw [ih rest (by omega)]

theorem fromBytes_len (bs : List Byte) (h : bs.length = 32) : (u256FromBytes bs).length = 8 := by
  unfold u256FromBytes
  rw [List.length_reverse]
  exact loadWordsBE_len 8 bs h

theorem modAdd_lit (r d : Nat) (t : List W32) (ht : t.length = 8) (m : Mem 32) (hd : Apart r d 8) :
    words (modAdd r (.mem r) (.lit t) d m) r 8 = u256ModAdd (words m r 8) t (words m d 8) ∧
    Same m (modAdd r (.mem r) (.lit t) d m) r 8 := by
  obtain ⟨h1, h2⟩ := modAdd_eq r (.mem r) (.lit t) d m (Or.inl (Nat.le_refl r)) trivial hd
  rw [Opd.words_mem, show (Opd.lit t).words m 8 = t by rw [← ht]; exact Opd.words_lit m t] at h1
  exact ⟨h1, h2⟩

theorem modLoop_eq (r d : Nat) (hd : Apart r d 8) (k : Nat) (data : List Byte) (hk : data.length ≤ k) (m : Mem 32) :
    (modLoop loopFuel r d data m = none ∧ u256ModLoop (words m d 8) data (words m r 8) = none) ∨
    ∃ m', modLoop loopFuel r d data m = some m' ∧ Same m m' r 8 ∧
      u256ModLoop (words m d 8) data (words m r 8) = some (words m' r 8) := by
  induction k generalizing data m with
  | zero =>
    obtain rfl := List.length_eq_zero_iff.mp (show data.length = 0 by omega)
    right
    refine ⟨m, ?_, fun y _ => rfl, ?_⟩
    · rw [modLoop, dif_neg (by simp), if_neg (by simp)]
    · rw [u256ModLoop, dif_neg (by simp), if_neg (by simp)]
  | succ k ih =>
    rw [modLoop, u256ModLoop]
    by_cases h : data.length ≥ 32
    · rw [dif_pos h, dif_pos h]
      obtain ⟨s1, s2⟩ := selfModSll_eq r 256 d hd m
      simp only
      rw [apart_words hd s2]
      cases ht : subWhileGe (words m d 8) loopFuel (u256FromBytes (data.take 32)) with
      | none => exact Or.inl ⟨rfl, rfl⟩
      | some t =>
        have tl := subWhileGe_len _ (words_len m d 8) _ _ _ (fromBytes_len _ (by simp; omega)) ht
        obtain ⟨a1, a2⟩ := modAdd_lit r d t tl (selfModSll r 256 d m) hd
        rw [s1, apart_words hd s2] at a1
        have st := same_trans s2 a2
        have := ih (data.drop 32) (by simp; omega) (modAdd r (.mem r) (.lit t) d (selfModSll r 256 d m))
        rw [apart_words hd st, a1] at this
        rcases this with h | ⟨m', h1, h2, h3⟩
        · exact Or.inl h
        · exact Or.inr ⟨m', h1, same_trans st h2, h3⟩
    · rw [dif_neg h, dif_neg h]
      by_cases h0 : data.length ≠ 0
      · rw [if_pos h0, if_pos h0]
        obtain ⟨s1, s2⟩ := selfModSll_eq r (8 * data.length) d hd m
        simp only
        rw [apart_words hd s2]
        cases ht : subWhileGe (words m d 8) loopFuel
            (u256FromBytes (List.replicate (32 - data.length) 0 ++ data)) with
        | none => exact Or.inl ⟨rfl, rfl⟩
        | some t =>
          have tl := subWhileGe_len _ (words_len m d 8) _ _ _ (fromBytes_len _ (by simp; omega)) ht
          obtain ⟨a1, a2⟩ := modAdd_lit r d t tl (selfModSll r (8 * data.length) d m) hd
          rw [s1, apart_words hd s2] at a1
          exact Or.inr ⟨_, rfl, same_trans s2 a2, by rw [a1]⟩
      · rw [if_neg h0, if_neg h0]
        exact Or.inr ⟨m, rfl, fun y _ => rfl, rfl⟩

theorem mod_eq (r d : Nat) (hd : Apart r d 8) (data : List Byte) (m : Mem 32) :
    (mod loopFuel r data d m = none ∧ u256Mod data (words m d 8) = none) ∨
    ∃ m', mod loopFuel r data d m = some m' ∧ Same m m' r 8 ∧
      u256Mod data (words m d 8) = some (words m' r 8) := by
  obtain ⟨z1, z2⟩ := setZero_eq r m
  unfold mod u256Mod
  simp only
  by_cases h : data.length ≥ 32
  · rw [if_pos h, if_pos h, apart_words hd z2]
    cases ht : subWhileGe (words m d 8) loopFuel (u256FromBytes (data.take 32)) with
    | none => exact Or.inl ⟨rfl, rfl⟩
    | some t =>
      have tl := subWhileGe_len _ (words_len m d 8) _ _ _ (fromBytes_len _ (by simp; omega)) ht
      obtain ⟨a1, a2⟩ := modAdd_lit r d t tl (setZero r m) hd
      rw [z1, apart_words hd z2] at a1
      have st := same_trans z2 a2
      have := modLoop_eq r d hd _ (data.drop 32) (Nat.le_refl _) (modAdd r (.mem r) (.lit t) d (setZero r m))
      rw [apart_words hd st, a1] at this
      rcases this with h | ⟨m', h1, h2, h3⟩
      · exact Or.inl h
      · exact Or.inr ⟨m', h1, same_trans st h2, h3⟩
  · rw [if_neg h, if_neg h]
    have := modLoop_eq r d hd _ data (Nat.le_refl _) (setZero r m)
    rw [apart_words hd z2, z1] at this
    rcases this with h | ⟨m', h1, h2, h3⟩
    · exact Or.inl h
    · exact Or.inr ⟨m', h1, same_trans z2 h2, h3⟩

/-! ### The remainder stored over the divisor -/

theorem sub_zero (t : List W32) (ht : t.length = 8) : (u256SubBorrow t u256Zero).1 = t := by
  have hz : Spec.val u256Zero = 0 := by decide
  obtain ⟨h1, h2, _⟩ := u256Sub_spec t u256Zero ht rfl
  exact Verif.val_inj _ _ (by rw [h1, ht]) (by rw [(h2 (by rw [hz]; omega)).1, hz, Nat.sub_zero])

theorem cmp_zero (t : List W32) (ht : t.length = 8) : u256Cmp t u256Zero ≥ 0 := by
  have h := cmp_spec t u256Zero (by rw [ht]; rfl)
  have hz : Spec.val u256Zero = 0 := by decide
  unfold u256Cmp
  rw [h, hz]
  split
  · decide
  · split
    · omega
    · decide

theorem subWhileGe_zero (fuel : Nat) (t : List W32) (ht : t.length = 8) : subWhileGe u256Zero fuel t = none := by
  induction fuel with
  | zero => rfl
  | succ n ih => rw [subWhileGe, if_pos (cmp_zero t ht), sub_zero t ht]; exact ih

theorem mod_self (fuel r : Nat) (data : List Byte) (hne : data ≠ []) (m : Mem 32) : mod fuel r data r m = none := by
  obtain ⟨z1, z2⟩ := setZero_eq r m
  unfold mod
  simp only
  by_cases h : data.length ≥ 32
  · rw [if_pos h, z1, subWhileGe_zero _ _ (fromBytes_len _ (by simp; omega))]
  · rw [if_neg h, modLoop, dif_neg h, if_pos (by simpa using hne)]
    have hs : selfModSll r (8 * data.length) r (setZero r m) = setZero r m := by
      unfold selfModSll
      rw [z1, if_pos (by decide)]
    simp only
    rw [hs, z1, subWhileGe_zero _ _ (fromBytes_len _ (by simp; omega))]

end Verif.NumMem
