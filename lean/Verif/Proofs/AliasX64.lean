import Verif.Proofs.Alias
import Verif.Proofs.LimbsX64
import Verif.Model.AliasX64
/-! Helper lemmas for C93: the functions on 64-bit limbs. -/
namespace Verif.X64.Alias
open Verif Verif.Spec.Alias Verif.Alias

/-- The functions of a context on values. -/
def montOps (ctx : Mont256CTX) : FpOps (List W64) where
  add := mont256Add ctx
  sub := mont256Sub ctx
  mul := mont256Mul ctx
  sqr := mont256Sqr ctx
  dbl := mont256Dbl ctx
  tpl := fun a => some (mont256Tpl ctx a)
  neg := mont256Neg ctx
  inv := mont256Inv ctx
  eq := mont256Equal ctx
  isZero := mont256EqualZero ctx
  one := mont256SetOne ctx
  zero := u256Zero

def vals (m : Mem64) (s : Src) : Nat → Nat → List W64
  | _, 0 => []
  | i, n + 1 => s.get m i :: vals m s (i + 1) n

def loopV (step : W64 → W64 → Byte → W64 × Byte) : List W64 → List W64 → Byte → List W64 × Byte
  | a :: as, b :: bs, c =>
    let (r, c) := step a b c
    let (rs, c) := loopV step as bs c
    (r :: rs, c)
  | _, _, c => ([], c)

def SrcOk (r : Nat) : Src → Prop
  | .mem a => SameOrApart r 4 a 4
  | .const _ => True

theorem get_upd {r : Nat} {s : Src} (h : SrcOk r s) {i j : Nat} (hij : i < j) (hj : j < 4) (m : Mem64) (v : W64) :
    s.get (upd m (r + i) v) j = s.get m j := by
  cases s with
  | const l => rfl
  | mem a =>
    have h : SameOrApart r 4 a 4 := h
    unfold SameOrApart at h
    show (if a + j = r + i then v else m (a + j)) = m (a + j)
    rw [if_neg (by omega)]

theorem vals_upd {r : Nat} {s : Src} (h : SrcOk r s) {i : Nat} (m : Mem64) (v : W64) :
    ∀ (n j : Nat), i < j → j + n ≤ 4 → vals (upd m (r + i) v) s j n = vals m s j n
  | 0, _, _, _ => rfl
  | n + 1, j, h1, h2 => by
    show s.get _ j :: vals _ s (j + 1) n = s.get m j :: vals m s (j + 1) n
    rw [get_upd h h1 (by omega), vals_upd h m v n (j + 1) (by omega) (by omega)]

/-- `m'` is `m` with the words `l` at `r`. -/
def Wrote (m : Mem64) (r : Nat) (l : List W64) (m' : Mem64) : Prop :=
  rdN l.length m' r = l ∧ ∀ x, ¬ (r ≤ x ∧ x < r + l.length) → m' x = m x

theorem ripple_spec (step : W64 → W64 → Byte → W64 × Byte) {r : Nat} {a b : Src} (ha : SrcOk r a) (hb : SrcOk r b) :
    ∀ (n i : Nat) (c : Byte) (m : Mem64), i + n = 4 →
      ∃ m', ripple step r a b n i c m = (m', (loopV step (vals m a i n) (vals m b i n) c).2) ∧
        Wrote m (r + i) (loopV step (vals m a i n) (vals m b i n) c).1 m' ∧
        (loopV step (vals m a i n) (vals m b i n) c).1.length = n
  | 0, _, _, m, _ => ⟨m, rfl, ⟨rfl, fun _ _ => rfl⟩, rfl⟩
  | n + 1, i, c, m, h => by
    obtain ⟨m', e1, e2, e3⟩ := ripple_spec step ha hb n (i + 1) (step (a.get m i) (b.get m i) c).2
      (upd m (r + i) (step (a.get m i) (b.get m i) c).1) (by omega)
    rw [vals_upd ha m _ n (i + 1) (by omega) (by omega), vals_upd hb m _ n (i + 1) (by omega) (by omega)] at e1 e2 e3
    refine ⟨m', e1, ⟨?_, ?_⟩, congrArg (· + 1) e3⟩
    · show rdN ((_ : List W64).length + 1) m' (r + i) = _
      show m' (r + i) :: rdN _ m' (r + i + 1) = _
      have h1 := e2.1
      have h2 := e2.2 (r + i) (by omega)
      rw [h2]
      refine congrArg₂ List.cons ?_ h1
      show (if r + i = r + i then _ else _) = _
      rw [if_pos rfl]
    · intro x hx
      have hl : (loopV step (vals m a i (n + 1)) (vals m b i (n + 1)) c).1.length =
        (loopV step (vals m a (i + 1) n) (vals m b (i + 1) n) (step (a.get m i) (b.get m i) c).2).1.length + 1 := rfl
      rw [hl] at hx
      rw [e2.2 x (by omega)]
      show (if x = r + i then _ else _) = _
      rw [if_neg (by omega)]

theorem vals_mem (m : Mem64) (a : Nat) : ∀ (n i : Nat), vals m (.mem a) i n = rdN n m (a + i)
  | 0, _ => rfl
  | n + 1, i => congrArg (m (a + i) :: ·) (vals_mem m a n (i + 1))

theorem vals_const (m : Mem64) : ∀ (l l0 : List W64), vals m (.const (l0 ++ l)) l0.length l.length = l
  | [], _ => rfl
  | x :: l, l0 => by
    have := vals_const m l (l0 ++ [x])
    rw [List.append_assoc, List.length_append] at this
    show (l0 ++ x :: l).getD l0.length 0 :: vals m (.const (l0 ++ x :: l)) (l0.length + 1) l.length = x :: l
    refine congrArg₂ List.cons (by simp) this

theorem loopV_add : ∀ (a b : List W64) (c : Byte), loopV (fun x y c => addcarryU64 c x y) a b c = addLoop a b c
  | [], _, _ => rfl
  | _ :: _, [], _ => rfl
  | a :: as, b :: bs, c => by simp only [loopV, addLoop, loopV_add as bs]
theorem loopV_sub : ∀ (a b : List W64) (c : Byte), loopV (fun x y c => subborrowU64 c x y) a b c = subLoop a b c
  | [], _, _ => rfl
  | _ :: _, [], _ => rfl
  | a :: as, b :: bs, c => by simp only [loopV, subLoop, loopV_sub as bs]
theorem loopV_cpy : ∀ (a : List W64) (c : Byte), (loopV (fun x _ c => (x, c)) a a c).1 = a
  | [], _ => rfl
  | a :: as, c => congrArg (a :: ·) (loopV_cpy as c)

/-- What an operand holds. -/
def Src.val (m : Mem64) : Src → List W64
  | .mem a => rdW m a
  | .const l => l

def SrcOk' (r : Nat) : Src → Prop
  | .mem a => SameOrApart r 4 a 4
  | .const l => l.length = 4

theorem SrcOk'.ok {r : Nat} {s : Src} (h : SrcOk' r s) : SrcOk r s := by
  cases s with
  | mem a => exact h
  | const l => exact trivial

theorem SrcOk'.vals {r : Nat} {s : Src} (h : SrcOk' r s) (m : Mem64) : vals m s 0 4 = s.val m := by
  cases s with
  | mem a => exact vals_mem m a 4 0
  | const l =>
    have := vals_const m l []
    have h : l.length = 4 := h
    rw [h] at this
    exact this

/-- `m'` is `m` with the four words `l` at `r`. -/
def W4 (m : Mem64) (r : Nat) (l : List W64) (m' : Mem64) : Prop :=
  rdW m' r = l ∧ l.length = 4 ∧ ∀ x, ¬ (r ≤ x ∧ x < r + 4) → m' x = m x

theorem W4.trans {m m' m'' : Mem64} {r : Nat} {l l' : List W64} (h : W4 m r l m') (h' : W4 m' r l' m'') :
    W4 m r l' m'' := ⟨h'.1, h'.2.1, fun x hx => (h'.2.2 x hx).trans (h.2.2 x hx)⟩

theorem ripple4 (step : W64 → W64 → Byte → W64 × Byte) {r : Nat} {a b : Src} (ha : SrcOk' r a) (hb : SrcOk' r b)
    (m : Mem64) : W4 m r (loopV step (a.val m) (b.val m) 0).1 (ripple step r a b 4 0 0 m).1 ∧
      (ripple step r a b 4 0 0 m).2 = (loopV step (a.val m) (b.val m) 0).2 := by
  obtain ⟨m', e1, e2, e3⟩ := ripple_spec step ha.ok hb.ok 4 0 0 m rfl
  rw [ha.vals, hb.vals] at e1 e2 e3
  unfold Wrote at e2
  rw [e3] at e2
  rw [e1]
  exact ⟨⟨e2.1, e3, e2.2⟩, rfl⟩

theorem mem_add {r : Nat} {a b : Src} (ha : SrcOk' r a) (hb : SrcOk' r b) (m : Mem64) :
    W4 m r (addLoop (a.val m) (b.val m) 0).1 (memAddChain r a b m).1 ∧
      (memAddChain r a b m).2 = (addLoop (a.val m) (b.val m) 0).2 := by
  have := ripple4 (fun x y c => addcarryU64 c x y) ha hb m
  rwa [loopV_add] at this
theorem mem_sub {r : Nat} {a b : Src} (ha : SrcOk' r a) (hb : SrcOk' r b) (m : Mem64) :
    W4 m r (subLoop (a.val m) (b.val m) 0).1 (memSubChain r a b m).1 ∧
      (memSubChain r a b m).2 = (subLoop (a.val m) (b.val m) 0).2 := by
  have := ripple4 (fun x y c => subborrowU64 c x y) ha hb m
  rwa [loopV_sub] at this
theorem mem_cpy {r : Nat} {a : Src} (ha : SrcOk' r a) (m : Mem64) : W4 m r (a.val m) (memCpy r a m) := by
  have := (ripple4 (fun x _ c => (x, c)) ha ha m).1
  rwa [loopV_cpy] at this

theorem rdN_congr {m m' : Mem64} : ∀ (n a : Nat), (∀ x, a ≤ x → x < a + n → m x = m' x) → rdN n m a = rdN n m' a
  | 0, _, _ => rfl
  | n + 1, a, h => congrArg₂ List.cons (h a (by omega) (by omega))
      (rdN_congr n (a + 1) fun x h1 h2 => h x (by omega) (by omega))

theorem self_ok (r : Nat) : SrcOk' r (.mem r) := Or.inl rfl

/-- The last step of the functions: subtract or add `P` in place. -/
theorem mem_fix (sub : Bool) {m m1 : Mem64} {r : Nat} {l P : List W64} (hP : P.length = 4) (h : W4 m r l m1) (c : Prop)
    [Decidable c] :
    W4 m r (if c ∨ u256Cmp l P ≥ 0 then (if sub then (subLoop l P 0).1 else (addLoop l P 0).1) else l)
      (if c ∨ u256Cmp (rdW m1 r) P ≥ 0 then
        (if sub then (memSubChain r (.mem r) (.const P) m1).1 else (memAddChain r (.mem r) (.const P) m1).1) else m1) := by
  rw [h.1]
  by_cases hc : c ∨ u256Cmp l P ≥ 0
  · rw [if_pos hc, if_pos hc]
    cases sub with
    | true =>
      have := (mem_sub (self_ok r) (show SrcOk' r (.const P) from hP) m1).1
      simp only [Src.val, h.1] at this
      exact h.trans this
    | false =>
      have := (mem_add (self_ok r) (show SrcOk' r (.const P) from hP) m1).1
      simp only [Src.val, h.1] at this
      exact h.trans this
  · rw [if_neg hc, if_neg hc]
    exact h

theorem mem_fixSub {ctx : Mont256CTX} {m m1 : Mem64} {r : Nat} {l : List W64} (hP : ctx.P.length = 4) (h : W4 m r l m1)
    {n : Nat} (c : BitVec n) :
    W4 m r (if c ≠ 0 ∨ u256Cmp l ctx.P ≥ 0 then (subLoop l ctx.P 0).1 else l) (memFixSub ctx r (c != 0) m1) := by
  have := mem_fix true hP h (c ≠ 0)
  unfold memFixSub
  simp only [bne_iff_ne]
  exact this

/-- From a description of what is written to the contract. -/
theorem safe_of {f : MemOp W64} {g : List W64 → List W64 → Option (List W64)}
    (h : ∀ L r a b m, SameOrApart r 4 a 4 → SameOrApart r 4 b 4 →
      match g (rdW m a) (rdW m b) with
      | none => f L r a b m = none
      | some v => ∃ m', f L r a b m = some m' ∧ W4 m r v m') :
    InPlaceSafe 4 4 4 rdW (fun m a b => g (rdW m a) (rdW m b)) f := by
  intro L r a b m hra hrb _ _ _ _
  have := h L r a b m hra hrb
  dsimp only
  cases hg : g (rdW m a) (rdW m b) with
  | none => rw [hg] at this; exact this
  | some v =>
    rw [hg] at this
    obtain ⟨m', e1, e2⟩ := this
    exact ⟨m', e1, e2.1, fun x _ hx => e2.2.2 x hx⟩

section
variable {ctx : Mont256CTX} (hP : ctx.P.length = 4) (hR : ctx.R.length = 4)
include hP

theorem add_w {r a b : Nat} (ha : SameOrApart r 4 a 4) (hb : SameOrApart r 4 b 4) (L : Nat) (m : Mem64) :
    ∃ m', memAdd ctx L r a b m = some m' ∧ W4 m r (mont256Add ctx (rdW m a) (rdW m b)) m' := by
  have h := mem_add (show SrcOk' r (.mem a) from ha) (show SrcOk' r (.mem b) from hb) m
  unfold memAdd mont256Add u256ModAdd
  dsimp only [Src.val] at h ⊢
  generalize memAddChain r (.mem a) (.mem b) m = p at h ⊢
  obtain ⟨m1, c⟩ := p
  dsimp only at h ⊢
  refine ⟨_, rfl, ?_⟩
  rw [← h.2]
  exact mem_fixSub hP h.1 c

theorem add_limb : InPlaceSafe 4 4 4 rdW (fun m a b => some (mont256Add ctx (rdW m a) (rdW m b))) (memAdd ctx) :=
  safe_of (g := fun x y => some (mont256Add ctx x y)) fun L _ _ _ m ha hb => add_w hP ha hb L m

theorem sub_limb : InPlaceSafe 4 4 4 rdW (fun m a b => some (mont256Sub ctx (rdW m a) (rdW m b))) (memSub ctx) := by
  refine safe_of (g := fun x y => some (mont256Sub ctx x y)) fun L r a b m ha hb => ?_
  have h := mem_sub (show SrcOk' r (.mem a) from ha) (show SrcOk' r (.mem b) from hb) m
  dsimp only
  unfold memSub mont256Sub u256ModSub
  dsimp only [Src.val] at h ⊢
  generalize memSubChain r (.mem a) (.mem b) m = p at h ⊢
  obtain ⟨m1, c⟩ := p
  dsimp only at h ⊢
  refine ⟨_, rfl, ?_⟩
  rw [← h.2]
  exact mem_fix false hP h.1 (c ≠ 0)

theorem dbl_w {r a : Nat} (ha : SameOrApart r 4 a 4) (L b : Nat) (m : Mem64) :
    ∃ m', memDbl ctx L r a b m = some m' ∧ W4 m r (mont256Dbl ctx (rdW m a)) m' := by
  have h := mem_add (show SrcOk' r (.mem a) from ha) (show SrcOk' r (.mem a) from ha) m
  unfold memDbl mont256Dbl
  dsimp only [Src.val] at h ⊢
  generalize memAddChain r (.mem a) (.mem a) m = p at h ⊢
  obtain ⟨m1, c⟩ := p
  dsimp only at h ⊢
  refine ⟨_, rfl, ?_⟩
  rw [← h.2]
  exact mem_fixSub hP h.1 c

theorem dbl_limb : InPlaceSafe 4 4 4 rdW (fun m a _ => some (mont256Dbl ctx (rdW m a))) (memDbl ctx) :=
  safe_of (g := fun x _ => some (mont256Dbl ctx x)) fun L _ _ b m ha _ => dbl_w hP ha L b m

theorem tpl_limb : InPlaceSafe 4 4 4 rdW (fun m a _ => some (mont256Tpl ctx (rdW m a))) (memTpl ctx) := by
  intro L r a b m hra _ _ hr ha _
  obtain ⟨m1, e1, w1⟩ := dbl_w hP (r := L) (a := a) (.inr (.inr ha)) (L + 4) a m
  obtain ⟨m2, e2, w2⟩ := add_w hP (r := r) (a := L) (b := a) (.inr (.inl hr)) hra (L + 4) m1
  have ea : rdW m1 a = rdW m a := rdN_congr 4 a fun x _ h2 => w1.2.2 x (by omega)
  rw [w1.1, ea] at w2
  refine ⟨m2, ?_, w2.1, fun x hx hn => (w2.2.2 x hn).trans (w1.2.2 x (by omega))⟩
  unfold memTpl
  rw [e1]
  exact e2

theorem neg_limb : InPlaceSafe 4 4 4 rdW (fun m a _ => some (mont256Neg ctx (rdW m a))) (memNeg ctx) := by
  refine safe_of (g := fun x _ => some (mont256Neg ctx x)) fun L r a b m ha hb => ?_
  refine ⟨_, rfl, ?_⟩
  unfold mont256Neg
  by_cases hz : u256EqualZero (rdW m a) = true
  · rw [if_pos hz, if_pos hz]
    exact mem_cpy (show SrcOk' r (.const u256Zero) from rfl) m
  · rw [if_neg hz, if_neg hz]
    exact (mem_sub (show SrcOk' r (.const ctx.P) from hP) (show SrcOk' r (.mem a) from ha) m).1

omit hP in
theorem mulWord_length {a : List W64} {b : W64} (h : a.length = 4) : (mulWord a b).1.length = 4 := by
  unfold mulWord
  have hl := mulxRow_len a b
  generalize mulxRow a b = p at hl ⊢
  obtain ⟨los, his⟩ := p
  dsimp only at hl ⊢
  rw [h] at hl
  match los, hl with
  | l0 :: ls, hl =>
    dsimp only
    have : (addLoop ls his.dropLast 0).1.length = ls.length :=
      addLoop_len ls his.dropLast 0 (by
        have := hl.1
        rw [List.length_dropLast, hl.2]
        simp only [List.length_cons] at this
        omega)
    rw [List.length_cons, this]
    exact hl.1

theorem redcStep_length (N_ : W64) (s : List W64) (T8 : W64) (hs : 5 ≤ s.length) :
    (redcStep ctx.P N_ s T8).1.length = s.length - 1 := by
  match s, hs with
  | t0 :: s, hs =>
    unfold redcStep
    dsimp only
    have hm := mulWord_length (b := t0 * N_) hP
    generalize mulWord ctx.P (t0 * N_) = p at hm ⊢
    obtain ⟨mp, top⟩ := p
    dsimp only at hm ⊢
    rw [List.length_tail, addLoop_len _ _ _ (by
      simp only [List.length_append, List.length_replicate, List.length_cons, List.length_nil, hm] at hs ⊢
      omega)]

theorem redcLoop_length (N_ : W64) : ∀ (n : Nat) (s : List W64) (t : W64), 4 + n ≤ s.length →
    (redcLoop ctx.P N_ n s t).1.length = s.length - n
  | 0, _, _, _ => rfl
  | n + 1, s, t, h => by
    have h1 := redcStep_length hP N_ s t (by omega)
    unfold redcLoop
    generalize redcStep ctx.P N_ s t = p at h1 ⊢
    obtain ⟨s', c⟩ := p
    dsimp only at h1 ⊢
    rw [redcLoop_length N_ n _ _ (by rw [h1]; omega), h1]
    omega

omit hP in
theorem mulStep_length {a win : List W64} (b : W64) (ha : a.length = 4) (hw : win.length = 4) :
    (mulStep a b win).2.length = 4 := by
  unfold mulStep
  have hl := mulxRow_len a b
  generalize mulxRow a b = p at hl ⊢
  obtain ⟨los, his⟩ := p
  dsimp only at hl ⊢
  have h1 : (addLoop win los 0).1.length = win.length := addLoop_len win los 0 (by omega)
  generalize addLoop win los 0 = q at h1 ⊢
  obtain ⟨w, cf⟩ := q
  dsimp only at h1 ⊢
  have h2 : (w.tail ++ [(addcarryU64 cf 0 0).1]).length = 4 := by
    simp only [List.length_append, List.length_tail, List.length_cons, List.length_nil]
    omega
  rw [addLoop_len _ _ _ (by rw [h2]; omega), h2]

omit hP in
theorem mulSteps_length {a : List W64} (ha : a.length = 4) : ∀ (bs win : List W64), win.length = 4 →
    (mulSteps a bs win).length = bs.length + 4
  | [], win, h => by rw [mulSteps, h]; rfl
  | b :: bs, win, h => by
    unfold mulSteps
    have := mulStep_length b ha h
    generalize mulStep a b win = p at this ⊢
    obtain ⟨r0, w⟩ := p
    dsimp only at this ⊢
    rw [List.length_cons, mulSteps_length ha bs w this, List.length_cons]

omit hP in
theorem u256Mul_length {a b : List W64} (ha : a.length = 4) (hb : b.length = 4) : (u256Mul a b).length = 8 := by
  unfold u256Mul
  match b, hb with
  | b0 :: bs, hb =>
    dsimp only
    have hm := mulWord_length (b := b0) ha
    generalize mulWord a b0 = p at hm ⊢
    obtain ⟨rs, top⟩ := p
    dsimp only at hm ⊢
    rw [List.length_cons, mulSteps_length ha bs _ (by
      simp only [List.length_append, List.length_tail, List.length_cons, List.length_nil]; omega)]
    simp only [List.length_cons] at hb
    omega

theorem redc_limb {r : Nat} {t : List W64} (ht : t.length = 8) (m : Mem64) :
    W4 m r (mont256Redc ctx t) (memRedc ctx r t m) := by
  unfold mont256Redc memRedc
  have hl := redcLoop_length hP ctx.N_ 4 t 0 (by omega)
  generalize redcLoop ctx.P ctx.N_ 4 t 0 = p at hl ⊢
  obtain ⟨t', t8⟩ := p
  dsimp only at hl ⊢
  exact mem_fixSub hP (mem_cpy (show SrcOk' r (.const t') from by rw [ht] at hl; exact hl) m) t8

theorem mul_limb : InPlaceSafe 4 4 4 rdW (fun m a b => some (mont256Mul ctx (rdW m a) (rdW m b))) (memMul ctx) :=
  safe_of (g := fun x y => some (mont256Mul ctx x y)) fun _ _ _ _ m _ _ =>
    ⟨_, rfl, redc_limb hP (u256Mul_length rfl rfl) m⟩

theorem sqr_limb : InPlaceSafe 4 4 4 rdW (fun m a _ => some (mont256Sqr ctx (rdW m a))) (memSqr ctx) :=
  safe_of (g := fun x _ => some (mont256Sqr ctx x)) fun _ _ _ _ m _ _ =>
    ⟨_, rfl, redc_limb hP (u256Mul_length rfl rfl) m⟩

theorem redc_length {t : List W64} (ht : t.length = 8) : (mont256Redc ctx t).length = 4 :=
  (redc_limb hP (r := 0) ht fun _ => 0).2.1

theorem mul_length {a b : List W64} (ha : a.length = 4) (hb : b.length = 4) : (mont256Mul ctx a b).length = 4 :=
  redc_length hP (u256Mul_length ha hb)

theorem sqr4_length {t : List W64} (h : t.length = 4) : (sqr4 ctx t).length = 4 := by
  unfold sqr4 mont256Sqr u256Sqr
  have h1 := redc_length hP (u256Mul_length h h)
  have h2 := redc_length hP (u256Mul_length h1 h1)
  have h3 := redc_length hP (u256Mul_length h2 h2)
  exact redc_length hP (u256Mul_length h3 h3)

theorem powTable_length {base : List W64} (hb : base.length = 4) : ∀ (n : Nat) (prev : List W64), prev.length = 4 →
    ∀ x ∈ powTable ctx base n prev, x.length = 4
  | 0, _, _, x, hx => absurd hx List.not_mem_nil
  | n + 1, prev, h, x, hx => by
    rcases List.mem_cons.1 hx with hx | hx
    · rw [hx]; exact h
    · exact powTable_length hb n _ (mul_length hP h hb) x hx

omit hP in
theorem powSel_length {lut : List (List W64)} {base : List W64} (hl : ∀ x ∈ lut, x.length = 4) (hb : base.length = 4)
    {i : Nat} {x : List W64} (h : powSel lut base i = some x) : x.length = 4 := by
  unfold powSel at h
  split at h
  · cases h; exact hb
  · split at h
    · cases h
    · exact hl x (List.mem_of_getElem? h)

theorem powMulSel_length {lut : List (List W64)} {base t : List W64} (hl : ∀ x ∈ lut, x.length = 4)
    (hb : base.length = 4) (ht : t.length = 4) {i : Nat} {x : List W64} (h : powMulSel ctx lut base t i = some x) :
    x.length = 4 := by
  unfold powMulSel at h
  split at h
  · cases hs : powSel lut base i with
    | none => rw [hs] at h; cases h
    | some y =>
      rw [hs] at h
      cases h
      exact mul_length hP ht (powSel_length hl hb hs)
  · cases h; exact ht

theorem powLoop_length {lut : List (List W64)} {base : List W64} (hl : ∀ x ∈ lut, x.length = 4)
    (hb : base.length = 4) : ∀ (es : List Byte) (t x : List W64), t.length = 4 →
    powLoop ctx lut base es t = some x → x.length = 4
  | [], t, x, ht, h => by cases h; exact ht
  | e :: es, t, x, ht, h => by
    unfold powLoop at h
    cases h1 : powMulSel ctx lut base (sqr4 ctx t) (((e >>> 4) &&& 0xF#8).toNat) with
    | none => rw [h1] at h; cases h
    | some t1 =>
      rw [h1] at h
      have l1 := powMulSel_length hP hl hb (sqr4_length hP ht) h1
      cases h2 : powMulSel ctx lut base (sqr4 ctx t1) ((e &&& 0xF#8).toNat) with
      | none => simp only [bind, Option.bind, h2] at h; cases h
      | some t2 =>
        simp only [bind, Option.bind, h2] at h
        exact powLoop_length hl hb es t2 x (powMulSel_length hP hl hb (sqr4_length hP l1) h2) h

theorem pow_length {base e x : List W64} (hb : base.length = 4) (h : mont256Pow ctx base e = some x) : x.length = 4 := by
  unfold mont256Pow at h
  split at h
  · cases h; rfl
  · split at h
    · cases h; rfl
    · have hl := powTable_length hP hb 14 (mont256Sqr ctx base) (redc_length hP (u256Mul_length hb hb))
      dsimp only at h
      generalize powTable ctx base 14 (mont256Sqr ctx base) = lut at hl h
      split at h
      · cases h
      · rename_i e es _
        split at h
        · cases h1 : powSel lut base (((e >>> 4) &&& 0xF#8).toNat) with
          | none => simp only [h1, bind, Option.bind] at h; cases h
          | some t1 =>
            simp only [h1, bind, Option.bind] at h
            cases h2 : powMulSel ctx lut base (sqr4 ctx t1) ((e &&& 0xF#8).toNat) with
            | none => simp only [h2] at h; cases h
            | some t2 =>
              simp only [h2] at h
              exact powLoop_length hP hl hb es t2 x (powMulSel_length hP hl hb (sqr4_length hP (powSel_length hl hb h1)) h2) h
        · cases h1 : powSel lut base ((e &&& 0xF#8).toNat) with
          | none => simp only [h1, bind, Option.bind] at h; cases h
          | some t1 =>
            simp only [h1, bind, Option.bind] at h
            exact powLoop_length hP hl hb es t1 x (powSel_length hl hb h1) h

theorem inv_limb : InPlaceSafe 4 4 4 rdW (fun m a _ => mont256Inv ctx (rdW m a)) (memInv ctx) := by
  refine safe_of (g := fun x _ => mont256Inv ctx x) fun L r a b m ha hb => ?_
  unfold memInv
  cases h : mont256Inv ctx (rdW m a) with
  | none => rfl
  | some v => exact ⟨_, rfl, mem_cpy (show SrcOk' r (.const v) from pow_length hP rfl h) m⟩

omit hP in
theorem shr_spec {r : Nat} {s : Src} (hs : SrcOk r s) (c : W64) : ∀ (n i : Nat) (m : Mem64), i + n = 3 →
    Wrote m (r + i) (shr1Loop (vals m s i (n + 1)) c) (memShr r s c n i m) ∧
      (shr1Loop (vals m s i (n + 1)) c).length = n + 1
  | 0, i, m, _ => by
    refine ⟨⟨?_, ?_⟩, rfl⟩
    · show [if r + i = r + i then _ else _] = _
      rw [if_pos rfl]; rfl
    · intro x hx
      show (if x = r + i then _ else _) = _
      have hx : ¬ (r + i ≤ x ∧ x < r + i + 1) := hx
      rw [if_neg (by omega)]
  | n + 1, i, m, h => by
    have ih := shr_spec hs c n (i + 1) (upd m (r + i) ((s.get m (i + 1) <<< 63) ||| (s.get m i >>> 1))) (by omega)
    rw [vals_upd hs m _ (n + 1) (i + 1) (by omega) (by omega)] at ih
    obtain ⟨⟨e1, e2⟩, e3⟩ := ih
    refine ⟨⟨?_, ?_⟩, congrArg (· + 1) e3⟩
    · show memShr r s c n (i + 1) _ (r + i) :: rdN _ _ (r + i + 1) = _
      rw [e2 (r + i) (by omega)]
      refine congrArg₂ List.cons ?_ e1
      show (if r + i = r + i then _ else _) = _
      rw [if_pos rfl]
    · intro x hx
      have hl : (shr1Loop (vals m s i (n + 1 + 1)) c).length = (shr1Loop (vals m s (i + 1) (n + 1)) c).length + 1 := rfl
      rw [hl] at hx
      show memShr r s c n (i + 1) _ x = _
      rw [e2 x (by omega)]
      show (if x = r + i then _ else _) = _
      rw [if_neg (by omega)]

omit hP in
theorem shr4 {r : Nat} {s : Src} (hs : SrcOk' r s) (c : W64) (m : Mem64) :
    W4 m r (shr1Loop (s.val m) c) (memShr r s c 3 0 m) := by
  obtain ⟨⟨e1, e2⟩, e3⟩ := shr_spec hs.ok c 3 0 m rfl
  rw [hs.vals] at e1 e2 e3
  rw [e3] at e1 e2
  exact ⟨e1, e3, e2⟩

theorem div2_limb : InPlaceSafe 4 4 4 rdW (fun m a _ => some (mont256Div2 ctx (rdW m a))) (memDiv2 ctx) := by
  refine safe_of (g := fun x _ => some (mont256Div2 ctx x)) fun L r a b m ha hb => ?_
  dsimp only
  have e : mont256Div2 ctx (rdW m a) = if m a &&& 1 ≠ 0 then
      (shr1Loop (u256AddCarry (rdW m a) ctx.P).1 ((u256AddCarry (rdW m a) ctx.P).2.signExtend 64))
    else shr1Loop (rdW m a) 0 := rfl
  rw [e]
  unfold memDiv2
  by_cases ho : m a &&& 1 ≠ 0
  · rw [if_pos ho, if_pos ho]
    have h := mem_add (show SrcOk' r (.mem a) from ha) (show SrcOk' r (.const ctx.P) from hP) m
    unfold u256AddCarry
    dsimp only [Src.val] at h ⊢
    generalize memAddChain r (.mem a) (.const ctx.P) m = p at h ⊢
    obtain ⟨m1, c⟩ := p
    dsimp only at h ⊢
    refine ⟨_, rfl, ?_⟩
    have h2 := shr4 (self_ok r) ((c.setWidth 32 : BitVec 32).signExtend 64) m1
    simp only [Src.val, h.1.1, h.2] at h2
    rw [h.2]
    exact h.1.trans h2
  · rw [if_neg ho, if_neg ho]
    exact ⟨_, rfl, shr4 (show SrcOk' r (.mem a) from ha) 0 m⟩

include hR in
/-- `sm2_fp_*`, `sm9_fp_*` on 64-bit limbs are safe in place. -/
theorem level_fp : Level (fpImpl ctx) rdW (fnF (montOps ctx) fun _ => none) (montOps ctx).eq (montOps ctx).isZero where
  ext m m' a h := rdN_congr 4 a h
  good o := by
    cases o with
    | add => exact add_limb hP
    | sub => exact sub_limb hP
    | mul => exact mul_limb hP
    | sqr => exact sqr_limb hP
    | dbl => exact dbl_limb hP
    | tpl => exact tpl_limb hP
    | neg => exact neg_limb hP
    | inv => exact inv_limb hP
    | cpy => exact safe_of (g := fun x _ => some x) fun _ r a _ m ha _ => ⟨_, rfl, mem_cpy (show SrcOk' r (.mem a) from ha) m⟩
    | one => exact safe_of (g := fun _ _ => some ctx.R) fun _ r _ _ m _ _ =>
        ⟨_, rfl, mem_cpy (show SrcOk' r (.const ctx.R) from hR) m⟩
    | zero => exact safe_of (g := fun _ _ => some u256Zero) fun _ r _ _ m _ _ =>
        ⟨_, rfl, mem_cpy (show SrcOk' r (.const u256Zero) from rfl) m⟩
    | twist => intro L r a b m _ _ _ _ _ _; rfl
  eq_ok _ _ _ := rfl
  isz_ok _ _ := rfl

end
end Verif.X64.Alias
