import Verif.Proofs.Alias
import Verif.Proofs.Limbs
/-! Helper lemmas for C78: the functions on limbs. -/
namespace Verif.Alias
open Verif Verif.Spec.Alias

/-- The functions of a context on values. -/
def montOps (ctx : Mont256CTX) : FpOps (List W32) where
  add := mont256Add ctx
  sub := mont256Sub ctx
  mul := mont256Mul ctx
  sqr := mont256Sqr ctx
  dbl := mont256Dbl ctx
  tpl := mont256Tpl ctx
  neg := mont256Neg ctx
  inv := mont256Inv ctx
  eq := mont256Equal ctx
  isZero := mont256EqualZero ctx
  one := mont256SetOne ctx
  zero := u256Zero

def vals (m : Mem W32) (s : Src) : Nat → Nat → List W32
  | _, 0 => []
  | i, n + 1 => s.get m i :: vals m s (i + 1) n

def loopV (step : W32 → W32 → CInt → W32 × CInt) : List W32 → List W32 → CInt → List W32 × CInt
  | a :: as, b :: bs, c =>
    let (r, c) := step a b c
    let (rs, c) := loopV step as bs c
    (r :: rs, c)
  | _, _, c => ([], c)

def SrcOk (r : Nat) : Src → Prop
  | .mem a => SameOrApart r 8 a 8
  | .const _ => True

theorem get_upd {r : Nat} {s : Src} (h : SrcOk r s) {i j : Nat} (hij : i < j) (hj : j < 8) (m : Mem W32) (v : W32) :
    s.get (upd m (r + i) v) j = s.get m j := by
  cases s with
  | const l => rfl
  | mem a =>
    have h : SameOrApart r 8 a 8 := h
    unfold SameOrApart at h
    show (if a + j = r + i then v else m (a + j)) = m (a + j)
    rw [if_neg (by omega)]

theorem vals_upd {r : Nat} {s : Src} (h : SrcOk r s) {i : Nat} (m : Mem W32) (v : W32) :
    ∀ (n j : Nat), i < j → j + n ≤ 8 → vals (upd m (r + i) v) s j n = vals m s j n
  | 0, _, _, _ => rfl
  | n + 1, j, h1, h2 => by
    show s.get _ j :: vals _ s (j + 1) n = s.get m j :: vals m s (j + 1) n
    rw [get_upd h h1 (by omega), vals_upd h m v n (j + 1) (by omega) (by omega)]

/-- `m'` is `m` with the words `l` at `r`. -/
def Wrote (m : Mem W32) (r : Nat) (l : List W32) (m' : Mem W32) : Prop :=
  rdN l.length m' r = l ∧ ∀ x, ¬ (r ≤ x ∧ x < r + l.length) → m' x = m x

theorem ripple_spec (step : W32 → W32 → CInt → W32 × CInt) {r : Nat} {a b : Src} (ha : SrcOk r a) (hb : SrcOk r b) :
    ∀ (n i : Nat) (c : CInt) (m : Mem W32), i + n = 8 →
      ∃ m', ripple step r a b n i c m = (m', (loopV step (vals m a i n) (vals m b i n) c).2) ∧
        Wrote m (r + i) (loopV step (vals m a i n) (vals m b i n) c).1 m' ∧
        (loopV step (vals m a i n) (vals m b i n) c).1.length = n
  | 0, _, _, m, _ => ⟨m, rfl, ⟨rfl, fun _ _ => rfl⟩, rfl⟩
  | n + 1, i, c, m, h => by
    obtain ⟨m', e1, e2, e3⟩ := ripple_spec step ha hb n (i + 1) (step (a.get m i) (b.get m i) c).2
      (upd m (r + i) (step (a.get m i) (b.get m i) c).1) (by omega)
    rw [vals_upd ha m _ n (i + 1) (by omega) (by omega), vals_upd hb m _ n (i + 1) (by omega) (by omega)] at e1 e2 e3
    refine ⟨m', e1, ⟨?_, ?_⟩, congrArg (· + 1) e3⟩
    · show rdN ((_ : List W32).length + 1) m' (r + i) = _
      show m' (r + i) :: rdN _ m' (r + i + 1) = _
      have h1 := e2.1
      have h2 := e2.2 (r + i) (by omega)
      rw [h2]
      refine congrArg₂ List.cons ?_ h1
      show (if r + i = r + i then _ else _) = _
      rw [if_pos rfl]
    · intro x hx
      have hl : (loopV step (vals m a i (n + 1)) (vals m b i (n + 1)) c).1.length =
        (loopV step (vals m a (i + 1) n) (vals m b (i + 1) n) (step (a.get m i) (b.get m i) c).2).1.length + 1 := rfl
      rw [hl] at hx
      rw [e2.2 x (by omega)]
      show (if x = r + i then _ else _) = _
      rw [if_neg (by omega)]

theorem vals_mem (m : Mem W32) (a : Nat) : ∀ (n i : Nat), vals m (.mem a) i n = rdN n m (a + i)
  | 0, _ => rfl
  | n + 1, i => congrArg (m (a + i) :: ·) (vals_mem m a n (i + 1))

theorem vals_const (m : Mem W32) : ∀ (l l0 : List W32), vals m (.const (l0 ++ l)) l0.length l.length = l
  | [], _ => rfl
  | x :: l, l0 => by
    have := vals_const m l (l0 ++ [x])
    rw [List.append_assoc, List.length_append] at this
    show (l0 ++ x :: l).getD l0.length 0 :: vals m (.const (l0 ++ x :: l)) (l0.length + 1) l.length = x :: l
    refine congrArg₂ List.cons (by simp) this

theorem loopV_add : ∀ (a b : List W32) (c : CInt), loopV addCarry a b c = addCarryLoop a b c
  | [], _, _ => rfl
  | _ :: _, [], _ => rfl
  | a :: as, b :: bs, c => by simp only [loopV, addCarryLoop, loopV_add as bs]
theorem loopV_sub : ∀ (a b : List W32) (c : CInt), loopV subBorrow a b c = subBorrowLoop a b c
  | [], _, _ => rfl
  | _ :: _, [], _ => rfl
  | a :: as, b :: bs, c => by simp only [loopV, subBorrowLoop, loopV_sub as bs]
theorem loopV_dbl : ∀ (a : List W32) (c : CInt), loopV (fun x _ c => dblCarry x c) a a c = dblCarryLoop a c
  | [], _ => rfl
  | a :: as, c => by simp only [loopV, dblCarryLoop, loopV_dbl as]
theorem loopV_tpl : ∀ (a : List W32) (c : CInt), loopV (fun x _ c => tplCarry x c) a a c = tplCarryLoop a c
  | [], _ => rfl
  | a :: as, c => by simp only [loopV, tplCarryLoop, loopV_tpl as]
theorem loopV_cpy : ∀ (a : List W32) (c : CInt), (loopV (fun x _ c => (x, c)) a a c).1 = a
  | [], _ => rfl
  | a :: as, c => congrArg (a :: ·) (loopV_cpy as c)

/-- What an operand holds. -/
def Src.val (m : Mem W32) : Src → List W32
  | .mem a => rd8 m a
  | .const l => l

def SrcOk' (r : Nat) : Src → Prop
  | .mem a => SameOrApart r 8 a 8
  | .const l => l.length = 8

theorem SrcOk'.ok {r : Nat} {s : Src} (h : SrcOk' r s) : SrcOk r s := by
  cases s with
  | mem a => exact h
  | const l => exact trivial

theorem SrcOk'.vals {r : Nat} {s : Src} (h : SrcOk' r s) (m : Mem W32) : vals m s 0 8 = s.val m := by
  cases s with
  | mem a => exact vals_mem m a 8 0
  | const l =>
    have := vals_const m l []
    have h : l.length = 8 := h
    rw [h] at this
    exact this

/-- `m'` is `m` with the eight words `l` at `r`. -/
def W8 (m : Mem W32) (r : Nat) (l : List W32) (m' : Mem W32) : Prop :=
  rd8 m' r = l ∧ l.length = 8 ∧ ∀ x, ¬ (r ≤ x ∧ x < r + 8) → m' x = m x

theorem W8.trans {m m' m'' : Mem W32} {r : Nat} {l l' : List W32} (h : W8 m r l m') (h' : W8 m' r l' m'') :
    W8 m r l' m'' := ⟨h'.1, h'.2.1, fun x hx => (h'.2.2 x hx).trans (h.2.2 x hx)⟩

theorem ripple8 (step : W32 → W32 → CInt → W32 × CInt) {r : Nat} {a b : Src} (ha : SrcOk' r a) (hb : SrcOk' r b)
    (m : Mem W32) : W8 m r (loopV step (a.val m) (b.val m) 0).1 (ripple step r a b 8 0 0 m).1 ∧
      (ripple step r a b 8 0 0 m).2 = (loopV step (a.val m) (b.val m) 0).2 := by
  obtain ⟨m', e1, e2, e3⟩ := ripple_spec step ha.ok hb.ok 8 0 0 m rfl
  rw [ha.vals, hb.vals] at e1 e2 e3
  unfold Wrote at e2
  rw [e3] at e2
  rw [e1]
  exact ⟨⟨e2.1, e3, e2.2⟩, rfl⟩

theorem rd8_len (m : Mem W32) (a : Nat) : (rd8 m a).length = 8 := rfl

theorem mem_addCarry {r : Nat} {a b : Src} (ha : SrcOk' r a) (hb : SrcOk' r b) (m : Mem W32) :
    W8 m r (u256AddCarry (a.val m) (b.val m)).1 (memAddCarry r a b m).1 ∧
      (memAddCarry r a b m).2 = (u256AddCarry (a.val m) (b.val m)).2 := by
  have := ripple8 addCarry ha hb m
  rwa [loopV_add] at this
theorem mem_subBorrow {r : Nat} {a b : Src} (ha : SrcOk' r a) (hb : SrcOk' r b) (m : Mem W32) :
    W8 m r (u256SubBorrow (a.val m) (b.val m)).1 (memSubBorrow r a b m).1 ∧
      (memSubBorrow r a b m).2 = (u256SubBorrow (a.val m) (b.val m)).2 := by
  have := ripple8 subBorrow ha hb m
  rwa [loopV_sub] at this
theorem mem_dblCarry {r : Nat} {a : Src} (ha : SrcOk' r a) (m : Mem W32) :
    W8 m r (u256DblCarry (a.val m)).1 (memDblCarry r a m).1 ∧
      (memDblCarry r a m).2 = (u256DblCarry (a.val m)).2 := by
  have := ripple8 (fun x _ c => dblCarry x c) ha ha m
  rwa [loopV_dbl] at this
theorem mem_tplCarry {r : Nat} {a : Src} (ha : SrcOk' r a) (m : Mem W32) :
    W8 m r (u256TplCarry (a.val m)).1 (memTplCarry r a m).1 ∧
      (memTplCarry r a m).2 = (u256TplCarry (a.val m)).2 := by
  have := ripple8 (fun x _ c => tplCarry x c) ha ha m
  rwa [loopV_tpl] at this
theorem mem_cpy {r : Nat} {a : Src} (ha : SrcOk' r a) (m : Mem W32) : W8 m r (a.val m) (memCpy r a m) := by
  have := (ripple8 (fun x _ c => (x, c)) ha ha m).1
  rwa [loopV_cpy] at this

theorem rdN_congr {m m' : Mem W32} : ∀ (n a : Nat), (∀ x, a ≤ x → x < a + n → m x = m' x) → rdN n m a = rdN n m' a
  | 0, _, _ => rfl
  | n + 1, a, h => congrArg₂ List.cons (h a (by omega) (by omega))
      (rdN_congr n (a + 1) fun x h1 h2 => h x (by omega) (by omega))

theorem or_zero {x y : W32} (h : x ||| y = 0) : x = 0 ∧ y = 0 := by
  constructor
  · apply BitVec.eq_of_getLsbD_eq
    intro i hi
    have := congrArg (fun z => z.getLsbD i) h
    simp at this
    simp [this.1]
  · apply BitVec.eq_of_getLsbD_eq
    intro i hi
    have := congrArg (fun z => z.getLsbD i) h
    simp at this
    simp [this.2]

theorem foldl_or : ∀ (l : List W32) (x : W32), l.foldl (· ||| ·) x = 0 → x = 0 ∧ l = List.replicate l.length 0
  | [], _, h => ⟨h, rfl⟩
  | y :: l, x, h => by
    obtain ⟨h1, h2⟩ := foldl_or l (x ||| y) h
    obtain ⟨h3, h4⟩ := or_zero h1
    exact ⟨h3, by rw [h4]; exact congrArg ((0 : W32) :: ·) h2⟩

theorem eq_zero_of (l : List W32) (hl : l.length = 8) (h : u256EqualZero l = true) : l = u256Zero := by
  have := (foldl_or l 0 (by simpa [u256EqualZero] using h)).2
  rw [hl] at this
  exact this

theorem self_ok (r : Nat) : SrcOk' r (.mem r) := Or.inl rfl

/-- The last step of the functions: subtract or add `P` in place. -/
theorem mem_fix (sub : Bool) {m m1 : Mem W32} {r : Nat} {l P : List W32} (hP : P.length = 8) (h : W8 m r l m1) (c : Prop)
    [Decidable c] :
    W8 m r (if c ∨ u256Cmp l P ≥ 0 then (if sub then (u256SubBorrow l P).1 else (u256AddCarry l P).1) else l)
      (if c ∨ u256Cmp (rd8 m1 r) P ≥ 0 then
        (if sub then (memSubBorrow r (.mem r) (.const P) m1).1 else (memAddCarry r (.mem r) (.const P) m1).1) else m1) := by
  rw [h.1]
  by_cases hc : c ∨ u256Cmp l P ≥ 0
  · rw [if_pos hc, if_pos hc]
    cases sub with
    | true =>
      have := (mem_subBorrow (self_ok r) (show SrcOk' r (.const P) from hP) m1).1
      simp only [Src.val, h.1] at this
      exact h.trans this
    | false =>
      have := (mem_addCarry (self_ok r) (show SrcOk' r (.const P) from hP) m1).1
      simp only [Src.val, h.1] at this
      exact h.trans this
  · rw [if_neg hc, if_neg hc]
    exact h

/-- From a description of what is written to the contract. -/
theorem safe_of {f : MemOp W32} {g : List W32 → List W32 → Option (List W32)}
    (h : ∀ L r a b m, SameOrApart r 8 a 8 → SameOrApart r 8 b 8 →
      match g (rd8 m a) (rd8 m b) with
      | none => f L r a b m = none
      | some v => ∃ m', f L r a b m = some m' ∧ W8 m r v m') :
    InPlaceSafe 8 8 8 rd8 (fun m a b => g (rd8 m a) (rd8 m b)) f := by
  intro L r a b m hra hrb _ _ _ _
  have := h L r a b m hra hrb
  dsimp only
  cases hg : g (rd8 m a) (rd8 m b) with
  | none => rw [hg] at this; exact this
  | some v =>
    rw [hg] at this
    obtain ⟨m', e1, e2⟩ := this
    exact ⟨m', e1, e2.1, fun x _ hx => e2.2.2 x hx⟩

section
variable {ctx : Mont256CTX} (hP : ctx.P.length = 8) (hR : ctx.R.length = 8)
include hP

theorem add_limb : InPlaceSafe 8 8 8 rd8 (fun m a b => some (mont256Add ctx (rd8 m a) (rd8 m b))) (memAdd ctx) := by
  refine safe_of (g := fun x y => some (mont256Add ctx x y)) fun L r a b m ha hb => ?_
  have h := mem_addCarry (show SrcOk' r (.mem a) from ha) (show SrcOk' r (.mem b) from hb) m
  dsimp only
  unfold memAdd mont256Add u256ModAdd
  dsimp only [Src.val] at h ⊢
  generalize memAddCarry r (.mem a) (.mem b) m = p at h ⊢
  obtain ⟨m1, c⟩ := p
  dsimp only at h ⊢
  refine ⟨_, rfl, ?_⟩
  rw [← h.2]
  exact mem_fix true hP h.1 (c ≠ 0)

theorem sub_limb : InPlaceSafe 8 8 8 rd8 (fun m a b => some (mont256Sub ctx (rd8 m a) (rd8 m b))) (memSub ctx) := by
  refine safe_of (g := fun x y => some (mont256Sub ctx x y)) fun L r a b m ha hb => ?_
  have h := mem_subBorrow (show SrcOk' r (.mem a) from ha) (show SrcOk' r (.mem b) from hb) m
  dsimp only
  unfold memSub mont256Sub u256ModSub
  dsimp only [Src.val] at h ⊢
  generalize memSubBorrow r (.mem a) (.mem b) m = p at h ⊢
  obtain ⟨m1, c⟩ := p
  dsimp only at h ⊢
  refine ⟨_, rfl, ?_⟩
  rw [← h.2]
  exact mem_fix false hP h.1 (c ≠ 0)

theorem dbl_limb : InPlaceSafe 8 8 8 rd8 (fun m a _ => some (mont256Dbl ctx (rd8 m a))) (memDbl ctx) := by
  refine safe_of (g := fun x _ => some (mont256Dbl ctx x)) fun L r a b m ha hb => ?_
  have h := mem_dblCarry (show SrcOk' r (.mem a) from ha) m
  dsimp only
  unfold memDbl mont256Dbl
  dsimp only [Src.val] at h ⊢
  generalize memDblCarry r (.mem a) m = p at h ⊢
  obtain ⟨m1, c⟩ := p
  dsimp only at h ⊢
  refine ⟨_, rfl, ?_⟩
  rw [← h.2]
  exact mem_fix true hP h.1 (c ≠ 0)

theorem tplLoop_limb {m : Mem W32} {r : Nat} : ∀ (fuel : Nat) (c : CInt) (l : List W32) (m1 : Mem W32), W8 m r l m1 →
    match tplSubLoop ctx.P fuel l c with
    | none => memTplLoop ctx.P r fuel c m1 = none
    | some v => ∃ m', memTplLoop ctx.P r fuel c m1 = some m' ∧ W8 m r v m'
  | 0, _, _, _, _ => rfl
  | fuel + 1, c, l, m1, h => by
    unfold tplSubLoop memTplLoop
    by_cases hc : c ≠ 0
    · rw [if_pos hc, if_pos hc]
      have h1 := mem_subBorrow (self_ok r) (show SrcOk' r (.const ctx.P) from hP) m1
      simp only [Src.val, h.1] at h1
      generalize memSubBorrow r (.mem r) (.const ctx.P) m1 = p at h1 ⊢
      obtain ⟨m2, b⟩ := p
      dsimp only at h1 ⊢
      rw [← h1.2]
      exact tplLoop_limb fuel (c + b) _ m2 (h.trans h1.1)
    · rw [if_neg hc, if_neg hc]
      exact ⟨m1, rfl, h⟩

set_option exponentiation.threshold 300 in
theorem tpl_limb : InPlaceSafe 8 8 8 rd8 (fun m a _ => mont256Tpl ctx (rd8 m a)) (memTpl ctx) := by
  refine safe_of (g := fun x _ => mont256Tpl ctx x) fun L r a b m ha hb => ?_
  have h := mem_tplCarry (show SrcOk' r (.mem a) from ha) m
  unfold memTpl mont256Tpl
  dsimp only [Src.val] at h ⊢
  generalize memTplCarry r (.mem a) m = p at h ⊢
  obtain ⟨m1, c⟩ := p
  dsimp only at h ⊢
  generalize 2 ^ 258 = N
  have T := tplLoop_limb hP N c _ m1 h.1
  rw [← h.2]
  generalize tplSubLoop ctx.P N (u256TplCarry (rd8 m a)).1 c = o at T ⊢
  cases o with
  | none =>
    have T : memTplLoop ctx.P r N c m1 = none := T
    dsimp only
    rw [T]
  | some v =>
    obtain ⟨m2, e1, e2⟩ := T
    dsimp only
    rw [e1]
    dsimp only
    refine ⟨_, rfl, ?_⟩
    have := mem_fix true hP e2 False
    simp only [false_or] at this
    exact this

theorem neg_limb : InPlaceSafe 8 8 8 rd8 (fun m a _ => some (mont256Neg ctx (rd8 m a))) (memNeg ctx) := by
  refine safe_of (g := fun x _ => some (mont256Neg ctx x)) fun L r a b m ha hb => ?_
  refine ⟨_, rfl, ?_⟩
  unfold mont256Neg
  dsimp only
  by_cases hz : u256EqualZero (rd8 m a) = true
  · rw [if_pos hz, if_pos hz]
    have hw := mem_cpy (show SrcOk' r (.const u256Zero) from rfl) m
    have hs := (mem_subBorrow (show SrcOk' r (.const ctx.P) from hP) (show SrcOk' r (.mem a) from ha)
      (memCpy r (.const u256Zero) m)).1
    have hv : rd8 (memCpy r (.const u256Zero) m) a = u256Zero := by
      rcases ha with ha | ha
      · rw [← ha]; exact hw.1
      · have : rd8 (memCpy r (.const u256Zero) m) a = rd8 m a :=
          rdN_congr 8 a fun x h1 h2 => hw.2.2 x (by omega)
        rw [this]
        exact eq_zero_of _ rfl hz
    simp only [Src.val, hv] at hs
    exact hw.trans hs
  · rw [if_neg hz, if_neg hz]
    exact (mem_subBorrow (show SrcOk' r (.const ctx.P) from hP) (show SrcOk' r (.mem a) from ha) m).1

omit hP in
theorem addMulRow_length : ∀ (r a : List W32) (b c : W32), (addMulRow r a b c).1.length = min r.length a.length
  | [], _, _, _ => by simp [addMulRow]
  | _ :: _, [], _, _ => by simp [addMulRow]
  | r :: rs, a :: as, b, c => by
    show ((addMulRow rs as b _).1.length + 1) = _
    rw [addMulRow_length rs as b]
    simp only [List.length_cons]
    omega

omit hP in
theorem propCarry_length : ∀ (l : List W32) (c : CInt), (propCarry l c).1.length = l.length
  | [], _ => rfl
  | x :: xs, c => by
    unfold propCarry
    by_cases hc : c = 0
    · rw [if_pos hc]
    · rw [if_neg hc]
      exact congrArg (· + 1) (propCarry_length xs _)

theorem redcRound_length (N_ : W32) (s : List W32) (hs : 9 ≤ s.length) :
    (redcRound ctx.P N_ s).1.length = s.length - 1 := by
  match s, hs with
  | t0 :: s, hs =>
    unfold redcRound
    dsimp only
    have hr := addMulRow_length ((t0 :: s).take 8) ctx.P (t0 * N_) 0
    rw [hP, List.length_take] at hr
    generalize addMulRow ((t0 :: s).take 8) ctx.P (t0 * N_) 0 = p at hr ⊢
    obtain ⟨row, carry⟩ := p
    dsimp only at hr ⊢
    have hd : ((t0 :: s).drop 8).length = (t0 :: s).length - 8 := List.length_drop
    generalize (t0 :: s).drop 8 = d at hd ⊢
    match d, hd with
    | [], hd => simp at hd; simp at hs; omega
    | t8 :: hi, hd =>
      dsimp only
      have hp := propCarry_length hi (addCarry t8 carry 0).2
      simp only [List.length_append, List.length_tail, List.length_cons] at hd hs hr ⊢
      rw [hp]
      omega

theorem redcLoop_length (N_ : W32) : ∀ (n : Nat) (s : List W32) (t : W32), 8 + n ≤ s.length →
    (redcLoop ctx.P N_ n s t).1.length = s.length - n
  | 0, _, _, _ => rfl
  | n + 1, s, t, h => by
    have h1 := redcRound_length hP N_ s (by omega)
    unfold redcLoop
    generalize redcRound ctx.P N_ s = p at h1 ⊢
    obtain ⟨s', c⟩ := p
    dsimp only at h1 ⊢
    rw [redcLoop_length N_ n _ _ (by rw [h1]; omega), h1]
    omega

omit hP in
theorem mulLoop_length (a : List W32) (ha : a.length = 8) : ∀ (bs win : List W32), win.length = 8 →
    (mulLoop a bs win).length = bs.length + 8
  | [], win, h => by rw [mulLoop, h]; rfl
  | b :: bs, win, h => by
    unfold mulLoop
    have hr := addMulRow_length win a b 0
    rw [h, ha] at hr
    generalize addMulRow win a b 0 = p at hr ⊢
    obtain ⟨row, c⟩ := p
    match row, hr with
    | r0 :: rs, hr =>
      dsimp only
      rw [List.length_cons, mulLoop_length a ha bs (rs ++ [c]) (by simpa using hr)]
      simp only [List.length_cons]

omit hP in
theorem u256Mul_length {a b : List W32} (ha : a.length = 8) (hb : b.length = 8) : (u256Mul a b).length = 16 := by
  unfold u256Mul
  match b, hb with
  | b0 :: bs, hb =>
    dsimp only
    have hr := mulRow_len a b0 0
    rw [ha] at hr
    generalize mulRow a b0 0 = p at hr ⊢
    obtain ⟨row, c⟩ := p
    match row, hr with
    | r0 :: rs, hr =>
      dsimp only
      rw [List.length_cons, mulLoop_length a ha bs (rs ++ [c]) (by simpa using hr)]
      simp only [List.length_cons] at hb
      omega

theorem redc_limb {r : Nat} {t : List W32} (ht : t.length = 16) (m : Mem W32) :
    W8 m r (mont256Redc ctx t) (memRedc ctx r t m) := by
  unfold mont256Redc memRedc
  have hl := redcLoop_length hP ctx.N_ 8 t 0 (by omega)
  generalize redcLoop ctx.P ctx.N_ 8 t 0 = p at hl ⊢
  obtain ⟨t', t16⟩ := p
  dsimp only at hl ⊢
  exact mem_fix true hP (mem_cpy (show SrcOk' r (.const t') from by rw [ht] at hl; exact hl) m) (t16 ≠ 0)

theorem mul_limb : InPlaceSafe 8 8 8 rd8 (fun m a b => some (mont256Mul ctx (rd8 m a) (rd8 m b))) (memMul ctx) :=
  safe_of (g := fun x y => some (mont256Mul ctx x y)) fun _ _ _ _ m _ _ =>
    ⟨_, rfl, redc_limb hP (u256Mul_length rfl rfl) m⟩

theorem sqr_limb : InPlaceSafe 8 8 8 rd8 (fun m a _ => some (mont256Sqr ctx (rd8 m a))) (memSqr ctx) :=
  safe_of (g := fun x _ => some (mont256Sqr ctx x)) fun _ _ _ _ m _ _ =>
    ⟨_, rfl, redc_limb hP (u256Mul_length rfl rfl) m⟩

theorem redc_length {t : List W32} (ht : t.length = 16) : (mont256Redc ctx t).length = 8 :=
  (redc_limb hP (r := 0) ht fun _ => 0).2.1

theorem mul_length {a b : List W32} (ha : a.length = 8) (hb : b.length = 8) : (mont256Mul ctx a b).length = 8 :=
  redc_length hP (u256Mul_length ha hb)

theorem sqr4_length {t : List W32} (h : t.length = 8) : (sqr4 ctx t).length = 8 := by
  unfold sqr4 mont256Sqr u256Sqr
  have h1 := redc_length hP (u256Mul_length h h)
  have h2 := redc_length hP (u256Mul_length h1 h1)
  have h3 := redc_length hP (u256Mul_length h2 h2)
  exact redc_length hP (u256Mul_length h3 h3)

theorem powTable_length {base : List W32} (hb : base.length = 8) : ∀ (n : Nat) (prev : List W32), prev.length = 8 →
    ∀ x ∈ powTable ctx base n prev, x.length = 8
  | 0, _, _, x, hx => absurd hx List.not_mem_nil
  | n + 1, prev, h, x, hx => by
    rcases List.mem_cons.1 hx with hx | hx
    · rw [hx]; exact h
    · exact powTable_length hb n _ (mul_length hP h hb) x hx

omit hP in
theorem powSel_length {lut : List (List W32)} {base : List W32} (hl : ∀ x ∈ lut, x.length = 8) (hb : base.length = 8)
    {i : Nat} {x : List W32} (h : powSel lut base i = some x) : x.length = 8 := by
  unfold powSel at h
  split at h
  · cases h; exact hb
  · split at h
    · cases h
    · exact hl x (List.mem_of_getElem? h)

theorem powMulSel_length {lut : List (List W32)} {base t : List W32} (hl : ∀ x ∈ lut, x.length = 8)
    (hb : base.length = 8) (ht : t.length = 8) {i : Nat} {x : List W32} (h : powMulSel ctx lut base t i = some x) :
    x.length = 8 := by
  unfold powMulSel at h
  split at h
  · cases hs : powSel lut base i with
    | none => rw [hs] at h; cases h
    | some y =>
      rw [hs] at h
      cases h
      exact mul_length hP ht (powSel_length hl hb hs)
  · cases h; exact ht

theorem powLoop_length {lut : List (List W32)} {base : List W32} (hl : ∀ x ∈ lut, x.length = 8)
    (hb : base.length = 8) : ∀ (es : List Byte) (t x : List W32), t.length = 8 →
    powLoop ctx lut base es t = some x → x.length = 8
  | [], t, x, ht, h => by cases h; exact ht
  | e :: es, t, x, ht, h => by
    unfold powLoop at h
    cases h1 : powMulSel ctx lut base (sqr4 ctx t) (((e >>> 4) &&& 0xF#8).toNat) with
    | none => rw [h1] at h; cases h
    | some t1 =>
      rw [h1] at h
      have l1 := powMulSel_length hP hl hb (sqr4_length hP ht) h1
      cases h2 : powMulSel ctx lut base (sqr4 ctx t1) ((e &&& 0xF#8).toNat) with
      | none => simp only [bind, Option.bind, h2] at h; cases h
      | some t2 =>
        simp only [bind, Option.bind, h2] at h
        exact powLoop_length hl hb es t2 x (powMulSel_length hP hl hb (sqr4_length hP l1) h2) h

theorem pow_length {base e x : List W32} (hb : base.length = 8) (h : mont256Pow ctx base e = some x) : x.length = 8 := by
  unfold mont256Pow at h
  split at h
  · cases h; rfl
  · split at h
    · cases h; rfl
    · have hl := powTable_length hP hb 14 (mont256Sqr ctx base) (redc_length hP (u256Mul_length hb hb))
      dsimp only at h
      generalize powTable ctx base 14 (mont256Sqr ctx base) = lut at hl h
      split at h
      · cases h
      · rename_i e es _
        split at h
        · cases h1 : powSel lut base (((e >>> 4) &&& 0xF#8).toNat) with
          | none => simp only [h1, bind, Option.bind] at h; cases h
          | some t1 =>
            simp only [h1, bind, Option.bind] at h
            cases h2 : powMulSel ctx lut base (sqr4 ctx t1) ((e &&& 0xF#8).toNat) with
            | none => simp only [h2] at h; cases h
            | some t2 =>
              simp only [h2] at h
              exact powLoop_length hP hl hb es t2 x (powMulSel_length hP hl hb (sqr4_length hP (powSel_length hl hb h1)) h2) h
        · cases h1 : powSel lut base ((e &&& 0xF#8).toNat) with
          | none => simp only [h1, bind, Option.bind] at h; cases h
          | some t1 =>
            simp only [h1, bind, Option.bind] at h
            exact powLoop_length hP hl hb es t1 x (powSel_length hl hb h1) h

theorem inv_limb : InPlaceSafe 8 8 8 rd8 (fun m a _ => mont256Inv ctx (rd8 m a)) (memInv ctx) := by
  refine safe_of (g := fun x _ => mont256Inv ctx x) fun L r a b m ha hb => ?_
  unfold memInv
  cases h : mont256Inv ctx (rd8 m a) with
  | none => rfl
  | some v => exact ⟨_, rfl, mem_cpy (show SrcOk' r (.const v) from pow_length hP rfl h) m⟩

omit hP in
theorem shr_spec {r : Nat} {s : Src} (hs : SrcOk r s) (c : W32) : ∀ (n i : Nat) (m : Mem W32), i + n = 7 →
    Wrote m (r + i) (shr1Loop (vals m s i (n + 1)) c) (memShr r s c n i m) ∧
      (shr1Loop (vals m s i (n + 1)) c).length = n + 1
  | 0, i, m, _ => by
    refine ⟨⟨?_, ?_⟩, rfl⟩
    · show [if r + i = r + i then _ else _] = _
      rw [if_pos rfl]; rfl
    · intro x hx
      show (if x = r + i then _ else _) = _
      have hx : ¬ (r + i ≤ x ∧ x < r + i + 1) := hx
      rw [if_neg (by omega)]
  | n + 1, i, m, h => by
    have ih := shr_spec hs c n (i + 1) (upd m (r + i) ((s.get m (i + 1) <<< 31) ||| (s.get m i >>> 1))) (by omega)
    rw [vals_upd hs m _ (n + 1) (i + 1) (by omega) (by omega)] at ih
    obtain ⟨⟨e1, e2⟩, e3⟩ := ih
    refine ⟨⟨?_, ?_⟩, congrArg (· + 1) e3⟩
    · show memShr r s c n (i + 1) _ (r + i) :: rdN _ _ (r + i + 1) = _
      rw [e2 (r + i) (by omega)]
      refine congrArg₂ List.cons ?_ e1
      show (if r + i = r + i then _ else _) = _
      rw [if_pos rfl]
    · intro x hx
      have hl : (shr1Loop (vals m s i (n + 1 + 1)) c).length = (shr1Loop (vals m s (i + 1) (n + 1)) c).length + 1 := rfl
      rw [hl] at hx
      show memShr r s c n (i + 1) _ x = _
      rw [e2 x (by omega)]
      show (if x = r + i then _ else _) = _
      rw [if_neg (by omega)]

omit hP in
theorem shr8 {r : Nat} {s : Src} (hs : SrcOk' r s) (c : W32) (m : Mem W32) :
    W8 m r (shr1Loop (s.val m) c) (memShr r s c 7 0 m) := by
  obtain ⟨⟨e1, e2⟩, e3⟩ := shr_spec hs.ok c 7 0 m rfl
  rw [hs.vals] at e1 e2 e3
  rw [e3] at e1 e2
  exact ⟨e1, e3, e2⟩

theorem div2_limb : InPlaceSafe 8 8 8 rd8 (fun m a _ => some (mont256Div2 ctx (rd8 m a))) (memDiv2 ctx) := by
  refine safe_of (g := fun x _ => some (mont256Div2 ctx x)) fun L r a b m ha hb => ?_
  dsimp only
  have e : mont256Div2 ctx (rd8 m a) = if m a &&& 1 ≠ 0 then
      (shr1Loop (u256AddCarry (rd8 m a) ctx.P).1 (u256AddCarry (rd8 m a) ctx.P).2)
    else shr1Loop (rd8 m a) 0 := rfl
  rw [e]
  unfold memDiv2
  by_cases ho : m a &&& 1 ≠ 0
  · rw [if_pos ho, if_pos ho]
    have h := mem_addCarry (show SrcOk' r (.mem a) from ha) (show SrcOk' r (.const ctx.P) from hP) m
    dsimp only [Src.val] at h ⊢
    generalize memAddCarry r (.mem a) (.const ctx.P) m = p at h ⊢
    obtain ⟨m1, c⟩ := p
    dsimp only at h ⊢
    refine ⟨_, rfl, ?_⟩
    have h2 := shr8 (self_ok r) c m1
    simp only [Src.val, h.1.1] at h2
    rw [← h.2]
    exact h.1.trans h2
  · rw [if_neg ho, if_neg ho]
    exact ⟨_, rfl, shr8 (show SrcOk' r (.mem a) from ha) 0 m⟩

set_option exponentiation.threshold 300 in
include hR in
/-- `sm2_fp_*`, `sm9_fp_*` on limbs are safe in place. -/
theorem level_fp : Level (fpImpl ctx) rd8 (fnF (montOps ctx) fun _ => none) (montOps ctx).eq (montOps ctx).isZero where
  ext m m' a h := rdN_congr 8 a h
  good o := by
    cases o with
    | add => exact add_limb hP
    | sub => exact sub_limb hP
    | mul => exact mul_limb hP
    | sqr => exact sqr_limb hP
    | dbl => exact dbl_limb hP
    | tpl => exact tpl_limb hP
    | neg => exact neg_limb hP
    | inv => exact inv_limb hP
    | cpy => exact safe_of (g := fun x _ => some x) fun _ r a _ m ha _ => ⟨_, rfl, mem_cpy (show SrcOk' r (.mem a) from ha) m⟩
    | one => exact safe_of (g := fun _ _ => some ctx.R) fun _ r _ _ m _ _ =>
        ⟨_, rfl, mem_cpy (show SrcOk' r (.const ctx.R) from hR) m⟩
    | zero => exact safe_of (g := fun _ _ => some u256Zero) fun _ r _ _ m _ _ =>
        ⟨_, rfl, mem_cpy (show SrcOk' r (.const u256Zero) from rfl) m⟩
    | twist => intro L r a b m _ _ _ _ _ _; rfl
  eq_ok _ _ _ := rfl
  isz_ok _ _ := rfl

end
end Verif.Alias
