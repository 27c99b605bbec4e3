import Verif.Model.Alias
import Verif.Spec.Alias
import Mathlib.Tactic.Set
/-! Helper lemmas for C78. -/
namespace Verif.Alias
open Verif Verif.Spec.Alias

/-! # What a level of the tower promises to the level above -/
/-- The functions on memory `I` compute, whichever operands coincide, the functions `fn` of the values that `rd` reads. -/
structure Level {β α : Type} (I : Impl β) (rd : Mem β → Nat → α) (fn : Sym → α → α → Option α) (eqv : α → α → Bool)
    (isz : α → Bool) : Prop where
  /-- `rd` depends on the cells of the element only. -/
  ext : ∀ m m' a, (∀ x, a ≤ x → x < a + I.size → m x = m' x) → rd m a = rd m' a
  good : ∀ o, InPlaceSafe I.size I.size I.size rd (fun m a b => fn o (rd m a) (rd m b)) (I.op o)
  eq_ok : ∀ x y m, I.eq x y m = eqv (rd m x) (rd m y)
  isz_ok : ∀ x m, I.isZero x m = isz (rd m x)

/-- Which names are which, given which of the three addresses coincide. -/
def canon (ar br ba : Bool) : Nm → Nm
  | .loc i => .loc i
  | .R i => .R i
  | .A i => if ar then .R i else .A i
  | .B i => if br then .R i else if ba then .A i else .B i

/-- The calls on a store of named values. -/
def val {α : Type} (f : Sym → α → α → Option α) (ρ : Nm → Nm) : List Ins → (Nm → α) → Option (Nm → α)
  | [], S => some S
  | i :: p, S =>
    match f i.op (S (ρ i.a)) (S (ρ i.b)) with
    | none => none
    | some v => val f ρ p (fun n => if n = ρ i.r then v else S n)

def ok (nl cr ca cb : Nat) : Nm → Bool
  | .loc i => decide (i < nl)
  | .R i => decide (i < cr)
  | .A i => decide (i < ca)
  | .B i => decide (i < cb)

def dst : Nm → Bool
  | .loc _ => true
  | .R _ => true
  | _ => false

def okP (nl cr ca cb : Nat) (p : List Ins) : Bool :=
  p.all fun i => ok nl cr ca cb i.r && ok nl cr ca cb i.a && ok nl cr ca cb i.b && dst i.r

section
variable {β α : Type} {I : Impl β} {rd : Mem β → Nat → α} {fn : Sym → α → α → Option α} {eqv : α → α → Bool}
  {isz : α → Bool}

theorem mul_step {k i j : Nat} (h : i < j) : i * k + k ≤ j * k := by
  have := Nat.mul_le_mul_right k h
  rwa [Nat.succ_mul] at this

theorem blk {k x i j : Nat} : i = j ∨ x + i * k + k ≤ x + j * k ∨ x + j * k + k ≤ x + i * k := by
  rcases Nat.lt_trichotomy i j with h | h | h
  · right; left; have := mul_step (k := k) h; omega
  · left; exact h
  · right; right; have := mul_step (k := k) h; omega

theorem blk2 {k x y c d i j : Nat} (h : x + c * k ≤ y ∨ y + d * k ≤ x) (hi : i < c) (hj : j < d) :
    x + i * k + k ≤ y + j * k ∨ y + j * k + k ≤ x + i * k := by
  have := mul_step (k := k) hi
  have := mul_step (k := k) hj
  omega

/-- Everything about two operands of an instruction. -/
theorem names {k L r a b nl cr ca cb : Nat} (hra : SameOrApart r (cr * k) a (ca * k))
    (hrb : SameOrApart r (cr * k) b (cb * k)) (hab : SameOrApart a (ca * k) b (cb * k)) (hr : r + cr * k ≤ L)
    (ha : a + ca * k ≤ L) (hb : b + cb * k ≤ L) {n n' : Nm} (hn : ok nl cr ca cb n = true)
    (hn' : ok nl cr ca cb n' = true) :
    (canon (decide (a = r)) (decide (b = r)) (decide (b = a)) n =
        canon (decide (a = r)) (decide (b = r)) (decide (b = a)) n' ∧ addr k L r a b n = addr k L r a b n') ∨
      (addr k L r a b n + k ≤ addr k L r a b n' ∨ addr k L r a b n' + k ≤ addr k L r a b n) := by
  have up : ∀ {x c i : Nat}, i < c → x + c * k ≤ L → ∀ j, x + i * k + k ≤ L + j * k := by
    intro x c i hi hx j
    have := mul_step (k := k) hi
    have := Nat.zero_le (j * k)
    omega
  have gen : ∀ {x i j : Nat} {f : Nat → Nm},
      (f i = f j ∧ x + i * k = x + j * k) ∨ (x + i * k + k ≤ x + j * k ∨ x + j * k + k ≤ x + i * k) := by
    intro x i j f
    rcases blk (k := k) (x := x) (i := i) (j := j) with h | h
    · left; subst h; exact ⟨rfl, rfl⟩
    · right; exact h
  have same : ∀ {x y c d i j : Nat} {f : Nat → Nm}, x = y →
      (f i = f j ∧ x + i * k = y + j * k) ∨ (x + i * k + k ≤ y + j * k ∨ y + j * k + k ≤ x + i * k) := by
    intro x y c d i j f h; subst h; exact gen
  have cross : ∀ {x y c d i j : Nat} {P : Prop}, ¬ x = y → SameOrApart x (c * k) y (d * k) → i < c → j < d →
      P ∨ (x + i * k + k ≤ y + j * k ∨ y + j * k + k ≤ x + i * k) := by
    intro x y c d i j P h s hi hj
    rcases s with s | s
    · exact absurd s h
    · exact Or.inr (blk2 s hi hj)
  have symm : ∀ {P Q : Prop}, (P ∨ Q) → P ∨ Q := fun h => h
  have sw : ∀ {x y c d : Nat}, SameOrApart x (c * k) y (d * k) → SameOrApart y (d * k) x (c * k) := by
    intro x y c d h
    rcases h with h | h | h
    · exact Or.inl h.symm
    · exact Or.inr (Or.inr h)
    · exact Or.inr (Or.inl h)
  cases n with
  | loc i =>
    cases n' with
    | loc j => exact gen
    | R j => exact Or.inr (Or.inr (up (by simpa [ok] using hn') hr i))
    | A j => exact Or.inr (Or.inr (up (by simpa [ok] using hn') ha i))
    | B j => exact Or.inr (Or.inr (up (by simpa [ok] using hn') hb i))
  | R i =>
    have hi : i < cr := by simpa [ok] using hn
    cases n' with
    | loc j => exact Or.inr (Or.inl (up hi hr j))
    | R j => exact gen
    | A j =>
      have hj : j < ca := by simpa [ok] using hn'
      by_cases h : a = r
      · subst h
        simp only [canon, addr, decide_true, if_true]
        exact gen
      · exact cross (fun e => h e.symm) hra hi hj
    | B j =>
      have hj : j < cb := by simpa [ok] using hn'
      by_cases h : b = r
      · subst h
        simp only [canon, addr, decide_true, if_true]
        exact gen
      · exact cross (fun e => h e.symm) hrb hi hj
  | A i =>
    have hi : i < ca := by simpa [ok] using hn
    cases n' with
    | loc j => exact Or.inr (Or.inl (up hi ha j))
    | R j =>
      have hj : j < cr := by simpa [ok] using hn'
      by_cases h : a = r
      · subst h
        simp only [canon, addr, decide_true, if_true]
        exact gen
      · exact cross h (sw hra) hi hj
    | A j =>
      simp only [canon, addr]
      exact gen (f := fun i => if decide (a = r) = true then Nm.R i else Nm.A i)
    | B j =>
      have hj : j < cb := by simpa [ok] using hn'
      by_cases h : b = a
      · subst h
        simp only [canon, addr, decide_true, if_true]
        by_cases h' : b = r
        · simp only [h', decide_true, if_true]
          exact gen
        · simp only [h', decide_false, Bool.false_eq_true, if_false]
          exact gen
      · exact cross (fun e => h e.symm) hab hi hj
  | B i =>
    have hi : i < cb := by simpa [ok] using hn
    cases n' with
    | loc j => exact Or.inr (Or.inl (up hi hb j))
    | R j =>
      have hj : j < cr := by simpa [ok] using hn'
      by_cases h : b = r
      · subst h
        simp only [canon, addr, decide_true, if_true]
        exact gen
      · exact cross h (sw hrb) hi hj
    | A j =>
      have hj : j < ca := by simpa [ok] using hn'
      by_cases h : b = a
      · subst h
        simp only [canon, addr, decide_true, if_true]
        by_cases h' : b = r
        · simp only [h', decide_true, if_true]
          exact gen
        · simp only [h', decide_false, Bool.false_eq_true, if_false]
          exact gen
      · exact cross h (sw hab) hi hj
    | B j =>
      simp only [canon, addr]
      exact gen (f := fun i => if decide (b = r) = true then Nm.R i else if decide (b = a) = true then Nm.A i else Nm.B i)

/-- Names that mean the same have the same address. -/
theorem addr_canon {k L r a b : Nat} (n : Nm) :
    addr k L r a b (canon (decide (a = r)) (decide (b = r)) (decide (b = a)) n) = addr k L r a b n := by
  cases n with
  | loc i => rfl
  | R i => rfl
  | A i =>
    by_cases h : a = r
    · rw [show canon (decide (a = r)) (decide (b = r)) (decide (b = a)) (.A i) = .R i by simp [canon, h]]
      simp only [addr, h]
    · rw [show canon (decide (a = r)) (decide (b = r)) (decide (b = a)) (.A i) = .A i by simp [canon, h]]
  | B i =>
    by_cases h : b = r
    · rw [show canon (decide (a = r)) (decide (b = r)) (decide (b = a)) (.B i) = .R i by simp [canon, h]]
      simp only [addr, h]
    · by_cases h' : b = a
      · rw [show canon (decide (a = r)) (decide (b = r)) (decide (b = a)) (.B i) = .A i by
          rw [decide_eq_false h, decide_eq_true h']; rfl]
        simp only [addr, h']
      · rw [show canon (decide (a = r)) (decide (b = r)) (decide (b = a)) (.B i) = .B i by simp [canon, h, h']]

/-- The calls on memory do what the calls on named values do. -/
theorem sim (lv : Level I rd fn eqv isz) {L r a b nl cr ca cb : Nat} (hra : SameOrApart r (cr * I.size) a (ca * I.size))
    (hrb : SameOrApart r (cr * I.size) b (cb * I.size)) (hab : SameOrApart a (ca * I.size) b (cb * I.size))
    (hr : r + cr * I.size ≤ L) (ha : a + ca * I.size ≤ L) (hb : b + cb * I.size ≤ L) :
    ∀ (p : List Ins) (m : Mem β) (S : Nm → α), okP nl cr ca cb p = true →
    (∀ n, ok nl cr ca cb n = true → rd m (addr I.size L r a b n) =
      S (canon (decide (a = r)) (decide (b = r)) (decide (b = a)) n)) →
    match val fn (canon (decide (a = r)) (decide (b = r)) (decide (b = a))) p S with
    | none => exec I (L + nl * I.size) (addr I.size L r a b) p m = none
    | some S' => ∃ m', exec I (L + nl * I.size) (addr I.size L r a b) p m = some m' ∧
        (∀ n, ok nl cr ca cb n = true → rd m' (addr I.size L r a b n) =
          S' (canon (decide (a = r)) (decide (b = r)) (decide (b = a)) n)) ∧
        ∀ x, x < L → ¬ (r ≤ x ∧ x < r + cr * I.size) → m' x = m x
  | [], m, S, _, hS => ⟨m, rfl, hS, fun _ _ _ => rfl⟩
  | i :: p, m, S, hp, hS => by
    unfold okP at hp
    rw [List.all_cons, Bool.and_eq_true] at hp
    obtain ⟨hi, hp⟩ := hp
    simp only [Bool.and_eq_true] at hi
    obtain ⟨⟨⟨o1, o2⟩, o3⟩, o4⟩ := hi
    set ρ := canon (decide (a = r)) (decide (b = r)) (decide (b = a)) with hρ
    set e := addr I.size L r a b with he
    have N : ∀ {n n' : Nm}, ok nl cr ca cb n = true → ok nl cr ca cb n' = true →
        (ρ n = ρ n' ∧ e n = e n') ∨ (e n + I.size ≤ e n' ∨ e n' + I.size ≤ e n) :=
      fun h h' => names (L := L) hra hrb hab hr ha hb h h'
    have sep : ∀ {n n' : Nm}, ok nl cr ca cb n = true → ok nl cr ca cb n' = true →
        SameOrApart (e n) I.size (e n') I.size := by
      intro n n' h h'
      rcases N h h' with h | h
      · exact Or.inl h.2
      · exact Or.inr h
    have top : ∀ {n : Nm}, ok nl cr ca cb n = true → e n + I.size ≤ L + nl * I.size := by
      intro n h
      have := Nat.zero_le (nl * I.size)
      cases n with
      | loc i => have := mul_step (k := I.size) (show i < nl by simpa [ok] using h); simp only [he, addr]; omega
      | R i => have := mul_step (k := I.size) (show i < cr by simpa [ok] using h); simp only [he, addr]; omega
      | A i => have := mul_step (k := I.size) (show i < ca by simpa [ok] using h); simp only [he, addr]; omega
      | B i => have := mul_step (k := I.size) (show i < cb by simpa [ok] using h); simp only [he, addr]; omega
    have G := lv.good i.op (L + nl * I.size) (e i.r) (e i.a) (e i.b) m (sep o1 o2) (sep o1 o3) (sep o2 o3) (top o1)
      (top o2) (top o3)
    dsimp only at G
    rw [hS _ o2, hS _ o3] at G
    unfold val exec
    cases hv : fn i.op (S (ρ i.a)) (S (ρ i.b)) with
    | none => rw [hv] at G; dsimp only at G ⊢; rw [G]
    | some v =>
      rw [hv] at G
      obtain ⟨m', g1, g2, g3⟩ := G
      dsimp only
      rw [g1]
      dsimp only
      have hS' : ∀ n, ok nl cr ca cb n = true → rd m' (e n) = (fun n => if n = ρ i.r then v else S n) (ρ n) := by
        intro n hn
        dsimp only
        rcases N hn o1 with h | h
        · rw [if_pos h.1, h.2, ← g2]
        · by_cases hc : ρ n = ρ i.r
          · -- the same name means the same address
            rw [if_pos hc]
            have : e n = e i.r := by
              show addr I.size L r a b n = addr I.size L r a b i.r
              rw [← addr_canon n, ← addr_canon i.r, ← hρ, hc]
            rw [this, ← g2]
          · rw [if_neg hc, ← hS n hn]
            refine lv.ext _ _ _ fun x x1 x2 => ?_
            have := top hn
            refine g3 x (by omega) ?_
            rintro ⟨h1, h2⟩
            have h' : e n + I.size ≤ e i.r ∨ e i.r + I.size ≤ e n := h
            omega
      have IH := sim lv hra hrb hab hr ha hb p m' (fun n => if n = ρ i.r then v else S n) hp hS'
      have fr : ∀ x, x < L → ¬ (r ≤ x ∧ x < r + cr * I.size) → m' x = m x := by
        intro x x1 x2
        refine g3 x (by omega) ?_
        rintro ⟨h1, h2⟩
        cases hd : i.r with
        | loc j => rw [hd] at h1; simp only [he, addr] at h1; omega
        | R j =>
          rw [hd] at h1 h2 o1
          simp only [he, addr] at h1 h2
          have := mul_step (k := I.size) (show j < cr by simpa [ok] using o1)
          exact x2 ⟨by omega, by omega⟩
        | A j => rw [hd] at o4; exact absurd o4 Bool.false_ne_true
        | B j => rw [hd] at o4; exact absurd o4 Bool.false_ne_true
      rcases hval : val fn ρ p (fun n => if n = ρ i.r then v else S n) with _ | S'
      · rw [hval] at IH
        exact IH
      · rw [hval] at IH
        obtain ⟨m'', q1, q2, q3⟩ := IH
        exact ⟨m'', q1, q2, fun x x1 x2 => by rw [q3 x x1 x2, fr x x1 x2]⟩

/-- The values of the operands on entry. -/
theorem names_init {L r a b : Nat} (m : Mem β) (n : Nm) :
    rd m (addr I.size L r a b n) = (fun q => rd m (addr I.size L r a b q))
      (canon (decide (a = r)) (decide (b = r)) (decide (b = a)) n) := by
  dsimp only
  rw [addr_canon]

/-- A straight function is safe in place if its calls on named values give the right result for every pattern of
coinciding names. -/
theorem call_at (lv : Level I rd fn eqv isz) {γ : Type} (nl cr ca cb : Nat) (p : List Ins) (hp : okP nl cr ca cb p = true)
    (rdR : Mem β → Nat → γ) (out : (Nat → α) → γ) (hrd : ∀ m x (S : Nat → α),
      (∀ i, i < cr → rd m (x + i * I.size) = S i) → rdR m x = out S)
    (g : (Nat → α) → (Nat → α) → Option γ) (g' : Mem β → Nat → Nat → Option γ)
    (hg : ∀ m a b, g' m a b = g (fun i => rd m (a + i * I.size)) (fun i => rd m (b + i * I.size)))
    (L r a b : Nat) (m : Mem β)
    (H : ∀ (S : Nm → α), let ρ := canon (decide (a = r)) (decide (b = r)) (decide (b = a))
      (val fn ρ p S).map (fun S' => out fun i => S' (.R i)) = g (fun i => S (ρ (.A i))) (fun i => S (ρ (.B i))))
    (hra : SameOrApart r (cr * I.size) a (ca * I.size)) (hrb : SameOrApart r (cr * I.size) b (cb * I.size))
    (hab : SameOrApart a (ca * I.size) b (cb * I.size))
    (hr : r + cr * I.size ≤ L) (ha : a + ca * I.size ≤ L) (hb : b + cb * I.size ≤ L) :
    match g' m a b with
    | none => call I nl p L r a b m = none
    | some v => ∃ m', call I nl p L r a b m = some m' ∧ rdR m' r = v ∧
        ∀ x, x < L → ¬ (r ≤ x ∧ x < r + cr * I.size) → m' x = m x := by
  have S := sim lv (nl := nl) hra hrb hab hr ha hb p m (fun q => rd m (addr I.size L r a b q)) hp
    (fun n _ => names_init m n)
  have h := H (fun q => rd m (addr I.size L r a b q))
  have e1 : (fun i => rd m (a + i * I.size)) = fun i => (fun q => rd m (addr I.size L r a b q))
      (canon (decide (a = r)) (decide (b = r)) (decide (b = a)) (.A i)) := by
    funext i; rw [← names_init m (.A i)]; rfl
  have e2 : (fun i => rd m (b + i * I.size)) = fun i => (fun q => rd m (addr I.size L r a b q))
      (canon (decide (a = r)) (decide (b = r)) (decide (b = a)) (.B i)) := by
    funext i; rw [← names_init m (.B i)]; rfl
  rw [hg, e1, e2, ← h]
  rcases hval : val fn (canon (decide (a = r)) (decide (b = r)) (decide (b = a))) p
    (fun q => rd m (addr I.size L r a b q)) with _ | S'
  · rw [hval] at S
    exact S
  · rw [hval] at S
    obtain ⟨m', s1, s2, s3⟩ := S
    refine ⟨m', s1, ?_, s3⟩
    refine hrd m' r _ fun i hi => ?_
    have := s2 (.R i) (by simpa [ok] using hi)
    exact this

theorem call_safe (lv : Level I rd fn eqv isz) {γ : Type} (nl cr ca cb : Nat) (p : List Ins) (hp : okP nl cr ca cb p = true)
    (rdR : Mem β → Nat → γ) (out : (Nat → α) → γ) (hrd : ∀ m x (S : Nat → α),
      (∀ i, i < cr → rd m (x + i * I.size) = S i) → rdR m x = out S)
    (g : (Nat → α) → (Nat → α) → Option γ)
    (H : ∀ (ar br ba : Bool) (S : Nm → α),
      (val fn (canon ar br ba) p S).map (fun S' => out fun i => S' (.R i)) =
        g (fun i => S (canon ar br ba (.A i))) (fun i => S (canon ar br ba (.B i))))
    (g' : Mem β → Nat → Nat → Option γ)
    (hg : ∀ m a b, g' m a b = g (fun i => rd m (a + i * I.size)) (fun i => rd m (b + i * I.size))) :
    InPlaceSafe (cr * I.size) (ca * I.size) (cb * I.size) rdR g' (call I nl p) :=
  fun L r a b m hra hrb hab hr ha hb =>
    call_at lv nl cr ca cb p hp rdR out hrd g g' hg L r a b m (H _ _ _) hra hrb hab hr ha hb

end

/-! ## What the calls compute on named values, for every pattern of coinciding operands -/

def out2 {α : Type} (S : Nat → α) : Fp2 α := ⟨S 0, S 1⟩
def out4 {α : Type} (S : Nat → Fp2 α) : Fp4 α := ⟨S 0, S 1⟩
def out12 {α : Type} (S : Nat → Fp4 α) : Fp12 α := ⟨S 0, S 1, S 2⟩
def outA {α : Type} (S : Nat → α) : EcA α := ⟨S 0, S 1⟩
def outJ {α : Type} (S : Nat → α) : EcJ α := ⟨S 0, S 1, S 2⟩

/-- The calls `p` turn the operands `x`, `y` into `g x y`, whichever names coincide. -/
def Calc {α γ δ ε : Type} (fn : Sym → α → α → Option α) (p : List Ins) (oR : (Nat → α) → γ) (oA : (Nat → α) → δ)
    (oB : (Nat → α) → ε) (g : δ → ε → Option γ) : Prop :=
  ∀ (ar br ba : Bool) (S : Nm → α),
    (val fn (canon ar br ba) p S).map (fun S' => oR fun i => S' (.R i)) =
      g (oA fun i => S (canon ar br ba (.A i))) (oB fun i => S (canon ar br ba (.B i)))

section
variable {α : Type} (F : FpOps α) (tw : α → Option α)

theorem c2_add : Calc (fnF F tw) (both .add) out2 out2 out2 fun a b => some (fp2Add F a b) := by
  intro ar br ba S; cases ar <;> cases br <;> cases ba <;> rfl
theorem c2_sub : Calc (fnF F tw) (both .sub) out2 out2 out2 fun a b => some (fp2Sub F a b) := by
  intro ar br ba S; cases ar <;> cases br <;> cases ba <;> rfl
theorem c2_dbl : Calc (fnF F tw) (both .dbl) out2 out2 out2 fun a _ => some (fp2Dbl F a) := by
  intro ar br ba S; cases ar <;> cases br <;> cases ba <;> rfl
theorem c2_neg : Calc (fnF F tw) (both .neg) out2 out2 out2 fun a _ => some (fp2Neg F a) := by
  intro ar br ba S; cases ar <;> cases br <;> cases ba <;> rfl
theorem c2_cpy : Calc (fnF F tw) (both .cpy) out2 out2 out2 fun a _ => some a := by
  intro ar br ba S; cases ar <;> cases br <;> cases ba <;> rfl
theorem c2_one : Calc (fnF F tw) oneP out2 out2 out2 fun _ _ => some ⟨F.one, F.zero⟩ := by
  intro ar br ba S; cases ar <;> cases br <;> cases ba <;> rfl
theorem c2_zero : Calc (fnF F tw) zeroP out2 out2 out2 fun _ _ => some ⟨F.zero, F.zero⟩ := by
  intro ar br ba S; cases ar <;> cases br <;> cases ba <;> rfl
theorem c2_mul : Calc (fnF F tw) fp2MulP out2 out2 out2 fun a b => some (fp2Mul F a b) := by
  intro ar br ba S; cases ar <;> cases br <;> cases ba <;> rfl
theorem c2_mulU : Calc (fnF F tw) fp2MulUP out2 out2 out2 fun a _ => some (fp2MulU F a) := by
  intro ar br ba S; cases ar <;> cases br <;> cases ba <;> rfl
theorem c2_sqr : Calc (fnF F tw) fp2SqrP out2 out2 out2 fun a _ => some (fp2Sqr F a) := by
  intro ar br ba S; cases ar <;> cases br <;> cases ba <;> rfl
theorem c2_tpl : Calc (fnF F tw) (both .tpl) out2 out2 out2 fun a _ => fp2Tpl F a := by
  intro ar br ba S
  simp only [both, val, i2, fnF, fp2Tpl, out2]
  cases ar <;> cases br <;> cases ba <;> simp [canon] <;> generalize F.tpl _ = o <;> cases o <;>
    generalize F.tpl _ = o <;> cases o <;> rfl
theorem c2_inv : Calc (fnF F tw) fp2InvP out2 out2 out2 fun a _ => fp2Inv F a := by
  intro ar br ba S
  simp only [fp2InvP, val, i1, i2, fnF, fp2Inv, out2]
  cases ar <;> cases br <;> cases ba <;> simp [canon] <;> generalize F.inv _ = o <;> cases o <;> rfl

theorem c4_add : Calc (fn2 F) (both .add) out4 out4 out4 fun a b => some (fp4Add F a b) := by
  intro ar br ba S; cases ar <;> cases br <;> cases ba <;> rfl
theorem c4_sub : Calc (fn2 F) (both .sub) out4 out4 out4 fun a b => some (fp4Sub F a b) := by
  intro ar br ba S; cases ar <;> cases br <;> cases ba <;> rfl
theorem c4_neg : Calc (fn2 F) (both .neg) out4 out4 out4 fun a _ => some (fp4Neg F a) := by
  intro ar br ba S; cases ar <;> cases br <;> cases ba <;> rfl
theorem c4_cpy : Calc (fn2 F) (both .cpy) out4 out4 out4 fun a _ => some a := by
  intro ar br ba S; cases ar <;> cases br <;> cases ba <;> rfl
theorem c4_one : Calc (fn2 F) oneP out4 out4 out4 fun _ _ => some (fp4One F) := by
  intro ar br ba S; cases ar <;> cases br <;> cases ba <;> rfl
theorem c4_zero : Calc (fn2 F) zeroP out4 out4 out4 fun _ _ => some (fp4Zero F) := by
  intro ar br ba S; cases ar <;> cases br <;> cases ba <;> rfl
theorem c4_mul : Calc (fn2 F) fp4MulP out4 out4 out4 fun a b => some (fp4Mul F a b) := by
  intro ar br ba S; cases ar <;> cases br <;> cases ba <;> rfl
theorem c4_mulV : Calc (fn2 F) fp4MulVP out4 out4 out4 fun a _ => some (fp4MulV F a) := by
  intro ar br ba S; cases ar <;> cases br <;> cases ba <;> rfl
theorem c4_sqr : Calc (fn2 F) fp4SqrP out4 out4 out4 fun a _ => some (fp4Sqr F a) := by
  intro ar br ba S; cases ar <;> cases br <;> cases ba <;> rfl
theorem c4_inv : Calc (fn2 F) fp4InvP out4 out4 out4 fun a _ => fp4Inv F a := by
  intro ar br ba S
  simp only [fp4InvP, val, i1, i2, fnF, fp4Inv, out4, fp2Ops]
  cases ar <;> cases br <;> cases ba <;> simp [canon] <;> generalize fp2Inv F _ = o <;> cases o <;> rfl

theorem c12_add : Calc (fn4 F) (three .add) out12 out12 out12 fun a b => some (fp12Add F a b) := by
  intro ar br ba S; cases ar <;> cases br <;> cases ba <;> rfl
theorem c12_sub : Calc (fn4 F) (three .sub) out12 out12 out12 fun a b => some (fp12Sub F a b) := by
  intro ar br ba S; cases ar <;> cases br <;> cases ba <;> rfl
theorem c12_neg : Calc (fn4 F) (three .neg) out12 out12 out12 fun a _ => some (fp12Neg F a) := by
  intro ar br ba S; cases ar <;> cases br <;> cases ba <;> rfl
theorem c12_cpy : Calc (fn4 F) (three .cpy) out12 out12 out12 fun a _ => some a := by
  intro ar br ba S; cases ar <;> cases br <;> cases ba <;> rfl
theorem c12_one : Calc (fn4 F) (oneP ++ [i0 .zero (.R 2)]) out12 out12 out12 fun _ _ => some (fp12One F) := by
  intro ar br ba S; cases ar <;> cases br <;> cases ba <;> rfl
theorem c12_zero : Calc (fn4 F) (zeroP ++ [i0 .zero (.R 2)]) out12 out12 out12 fun _ _ => some (fp12Zero F) := by
  intro ar br ba S; cases ar <;> cases br <;> cases ba <;> rfl
theorem c12_mul : Calc (fn4 F) fp12MulP out12 out12 out12 fun a b => some (fp12Mul F a b) := by
  intro ar br ba S; cases ar <;> cases br <;> cases ba <;> rfl
theorem c12_inv : Calc (fn4 F) fp12InvP out12 out12 out12 fun a _ => fp12Inv F a := by
  intro ar br ba S
  simp only [fp12InvP, val, i1, i2, fn4, fp12Inv, out12]
  cases ar <;> cases br <;> cases ba <;> simp [canon] <;> generalize fp4Inv F _ = o <;> cases o <;> rfl

theorem cA_neg : Calc (fnF F tw) ecANegP outA outA outA fun P _ => some ⟨P.x, F.neg P.y⟩ := by
  intro ar br ba S; cases ar <;> cases br <;> cases ba <;> rfl
theorem cJ_neg : Calc (fnF F tw) ecJNegP outJ outJ outJ fun P _ => some (ecJNeg F P) := by
  intro ar br ba S; cases ar <;> cases br <;> cases ba <;> rfl
theorem cJ_inf : Calc (fnF F tw) ecJInfP outJ outJ outJ fun _ _ => some (ecJInf F) := by
  intro ar br ba S; cases ar <;> cases br <;> cases ba <;> rfl
theorem cJ_fromA : Calc (fnF F tw) ecJFromAP outJ outA outA fun P _ => some (ecJFromA F P) := by
  intro ar br ba S; cases ar <;> cases br <;> cases ba <;> rfl
theorem cJ_toA : Calc (fnF F tw) ecJToAP outA outJ outJ fun P _ => ecJToA F P := by
  intro ar br ba S
  simp only [ecJToAP, val, i1, i2, fnF, ecJToA, outA, outJ]
  cases ar <;> cases br <;> cases ba <;> simp [canon] <;> generalize F.inv _ = o <;> cases o <;> rfl
theorem cJ_normal : Calc (fnF F tw) (ecJToAP ++ [i0 .one (.R 2)]) outJ outJ outJ
    fun P _ => (ecJToA F P).map fun Q => ⟨Q.x, Q.y, F.one⟩ := by
  intro ar br ba S
  simp only [ecJToAP, List.cons_append, List.nil_append, val, i1, i2, i0, fnF, ecJToA, outJ]
  cases ar <;> cases br <;> cases ba <;> simp [canon] <;> generalize F.inv _ = o <;> cases o <;> rfl
theorem cJ_dblSm2 : Calc (fnF F tw) sm2DblP outJ outJ outJ fun P _ => ecJDbl F P := by
  intro ar br ba S
  simp only [sm2DblP, val, i1, i2, fnF, ecJDbl, outJ]
  cases ar <;> cases br <;> cases ba <;> simp [canon] <;> generalize F.tpl _ = o <;> cases o <;> rfl
theorem cJ_dblSm9 : Calc (fnF F tw) sm9DblP outJ outJ outJ fun P _ => ecJDbl0 F P := by
  intro ar br ba S
  simp only [sm9DblP, val, i1, i2, fnF, ecJDbl0, outJ]
  cases ar <;> cases br <;> cases ba <;> simp [canon] <;> generalize F.tpl _ = o <;> cases o <;> rfl
theorem cJ_addA : Calc (fnF F tw) addAP outJ outJ outA fun P Q => some (ecJAddA F P Q) := by
  intro ar br ba S; cases ar <;> cases br <;> cases ba <;> rfl
end

/-! ## From the named values to memory -/

section
variable {β α : Type} {I : Impl β} {rd : Mem β → Nat → α} {fn : Sym → α → α → Option α} {eqv : α → α → Bool}
  {isz : α → Bool}

/-- How an object of several elements is read. -/
def Reads {γ : Type} (k : Nat) (rd : Mem β → Nat → α) (c : Nat) (rd' : Mem β → Nat → γ) (out : (Nat → α) → γ) : Prop :=
  (∀ m x, rd' m x = out fun i => rd m (x + i * k)) ∧
  ∀ S S' : Nat → α, (∀ i, i < c → S i = S' i) → out S = out S'

theorem Calc.safe {γ δ ε : Type} (lv : Level I rd fn eqv isz) {p : List Ins} {oR : (Nat → α) → γ} {oA : (Nat → α) → δ}
    {oB : (Nat → α) → ε} {g : δ → ε → Option γ} (h : Calc fn p oR oA oB g) (nl : Nat) {cr ca cb : Nat}
    {rR : Mem β → Nat → γ} {rA : Mem β → Nat → δ} {rB : Mem β → Nat → ε} (hR : Reads I.size rd cr rR oR)
    (hA : Reads I.size rd ca rA oA) (hB : Reads I.size rd cb rB oB) (hp : okP nl cr ca cb p = true) :
    InPlaceSafe (cr * I.size) (ca * I.size) (cb * I.size) rR (fun m a b => g (rA m a) (rB m b)) (call I nl p) :=
  call_safe lv nl cr ca cb p hp rR oR (fun m x S hS => by rw [hR.1]; exact hR.2 _ _ hS)
    (fun x y => g (oA x) (oB y)) h _ (fun m a b => by rw [hA.1, hB.1])

theorem reads2 : Reads I.size rd 2 (rd2 I.size rd) out2 :=
  ⟨fun m x => by simp only [rd2, out2, Nat.zero_mul, Nat.add_zero, Nat.one_mul],
   fun S S' h => by simp only [out2, h 0 (by decide), h 1 (by decide)]⟩

theorem readsA : Reads I.size rd 2 (rdA I.size rd) outA :=
  ⟨fun m x => by simp only [rdA, outA, Nat.zero_mul, Nat.add_zero, Nat.one_mul],
   fun S S' h => by simp only [outA, h 0 (by decide), h 1 (by decide)]⟩

theorem readsJ : Reads I.size rd 3 (rdJ I.size rd) outJ :=
  ⟨fun m x => by simp only [rdJ, outJ, Nat.zero_mul, Nat.add_zero, Nat.one_mul],
   fun S S' h => by simp only [outJ, h 0 (by decide), h 1 (by decide), h 2 (by decide)]⟩

theorem rd2_ext (lv : Level I rd fn eqv isz) (m m' : Mem β) (a : Nat)
    (h : ∀ x, a ≤ x → x < a + 2 * I.size → m x = m' x) : rd2 I.size rd m a = rd2 I.size rd m' a := by
  unfold rd2
  rw [lv.ext m m' a fun x h1 h2 => h x h1 (by omega),
    lv.ext m m' (a + I.size) fun x h1 h2 => h x (by omega) (by omega)]

theorem level2 {F : FpOps α} {tw : α → Option α} (lv : Level I rd (fnF F tw) F.eq F.isZero) :
    Level (fp2 I) (rd2 I.size rd) (fn2 F) (fp2Ops F).eq (fp2Ops F).isZero where
  ext := rd2_ext lv
  good o := by
    cases o with
    | add => exact (c2_add F tw).safe lv 0 reads2 reads2 reads2 (by decide)
    | sub => exact (c2_sub F tw).safe lv 0 reads2 reads2 reads2 (by decide)
    | mul => exact (c2_mul F tw).safe lv 3 reads2 reads2 reads2 (by decide)
    | sqr => exact (c2_sqr F tw).safe lv 2 reads2 reads2 reads2 (by decide)
    | dbl => exact (c2_dbl F tw).safe lv 0 reads2 reads2 reads2 (by decide)
    | tpl => exact (c2_tpl F tw).safe lv 0 reads2 reads2 reads2 (by decide)
    | neg => exact (c2_neg F tw).safe lv 0 reads2 reads2 reads2 (by decide)
    | inv => exact (c2_inv F tw).safe lv 2 reads2 reads2 reads2 (by decide)
    | cpy => exact (c2_cpy F tw).safe lv 0 reads2 reads2 reads2 (by decide)
    | one => exact (c2_one F tw).safe lv 0 reads2 reads2 reads2 (by decide)
    | zero => exact (c2_zero F tw).safe lv 0 reads2 reads2 reads2 (by decide)
    | twist => exact (c2_mulU F tw).safe lv 1 reads2 reads2 reads2 (by decide)
  eq_ok x y m := by
    show (I.eq x y m && I.eq (x + I.size) (y + I.size) m) = _
    rw [lv.eq_ok, lv.eq_ok]; rfl
  isz_ok x m := by
    show (I.isZero x m && I.isZero (x + I.size) m) = _
    rw [lv.isz_ok, lv.isz_ok]; rfl

theorem reads4 {rd : Mem β → Nat → Fp2 α} : Reads I.size rd 2 (rd4 I.size rd) out4 :=
  ⟨fun m x => by simp only [rd4, out4, Nat.zero_mul, Nat.add_zero, Nat.one_mul],
   fun S S' h => by simp only [out4, h 0 (by decide), h 1 (by decide)]⟩

theorem level4 {F : FpOps α} {rd : Mem β → Nat → Fp2 α} (lv : Level I rd (fn2 F) (fp2Ops F).eq (fp2Ops F).isZero) :
    Level (fp4 I) (rd4 I.size rd) (fn4 F) (fp4Eq F) (fp4IsZero F) where
  ext m m' a h := by
    have h : ∀ x, a ≤ x → x < a + 2 * I.size → m x = m' x := h
    unfold rd4
    rw [lv.ext m m' a fun x h1 h2 => h x h1 (by omega),
      lv.ext m m' (a + I.size) fun x h1 h2 => h x (by omega) (by omega)]
  good o := by
    cases o with
    | add => exact (c4_add F).safe lv 0 reads4 reads4 reads4 (by decide)
    | sub => exact (c4_sub F).safe lv 0 reads4 reads4 reads4 (by decide)
    | mul => exact (c4_mul F).safe lv 3 reads4 reads4 reads4 (by decide)
    | sqr => exact (c4_sqr F).safe lv 2 reads4 reads4 reads4 (by decide)
    | dbl => intro L r a b m _ _ _ _ _ _; rfl
    | tpl => intro L r a b m _ _ _ _ _ _; rfl
    | neg => exact (c4_neg F).safe lv 0 reads4 reads4 reads4 (by decide)
    | inv => exact (c4_inv F).safe lv 2 reads4 reads4 reads4 (by decide)
    | cpy => exact (c4_cpy F).safe lv 0 reads4 reads4 reads4 (by decide)
    | one => exact (c4_one F).safe lv 0 reads4 reads4 reads4 (by decide)
    | zero => exact (c4_zero F).safe lv 0 reads4 reads4 reads4 (by decide)
    | twist => exact (c4_mulV F).safe lv 1 reads4 reads4 reads4 (by decide)
  eq_ok x y m := by
    show (I.eq x y m && I.eq (x + I.size) (y + I.size) m) = _
    rw [lv.eq_ok, lv.eq_ok]; rfl
  isz_ok x m := by
    show (I.isZero x m && I.isZero (x + I.size) m) = _
    rw [lv.isz_ok, lv.isz_ok]; rfl

theorem reads12 {rd : Mem β → Nat → Fp4 α} : Reads I.size rd 3 (rd12 I.size rd) out12 :=
  ⟨fun m x => by simp only [rd12, out12, Nat.zero_mul, Nat.add_zero, Nat.one_mul],
   fun S S' h => by simp only [out12, h 0 (by decide), h 1 (by decide), h 2 (by decide)]⟩

theorem level12 {F : FpOps α} {rd : Mem β → Nat → Fp4 α} (lv : Level I rd (fn4 F) (fp4Eq F) (fp4IsZero F)) :
    Level (fp12 I) (rd12 I.size rd) (fn12 F) (fp12Eq F) (fp12IsZero F) where
  ext m m' a h := by
    have h : ∀ x, a ≤ x → x < a + 3 * I.size → m x = m' x := h
    unfold rd12
    rw [lv.ext m m' a fun x h1 h2 => h x h1 (by omega),
      lv.ext m m' (a + I.size) fun x h1 h2 => h x (by omega) (by omega),
      lv.ext m m' (a + 2 * I.size) fun x h1 h2 => h x (by omega) (by omega)]
  good o := by
    cases o with
    | add => exact (c12_add F).safe lv 0 reads12 reads12 reads12 (by decide)
    | sub => exact (c12_sub F).safe lv 0 reads12 reads12 reads12 (by decide)
    | mul => exact (c12_mul F).safe lv 9 reads12 reads12 reads12 (by decide)
    | sqr =>
      intro L r a b m hra _ _ hr ha _
      exact (c12_mul F).safe lv 9 reads12 reads12 reads12 (by decide) L r a a m hra hra (Or.inl rfl) hr ha ha
    | dbl => intro L r a b m _ _ _ _ _ _; rfl
    | tpl => intro L r a b m _ _ _ _ _ _; rfl
    | neg => exact (c12_neg F).safe lv 0 reads12 reads12 reads12 (by decide)
    | inv => exact (c12_inv F).safe lv 5 reads12 reads12 reads12 (by decide)
    | cpy => exact (c12_cpy F).safe lv 0 reads12 reads12 reads12 (by decide)
    | one => exact (c12_one F).safe lv 0 reads12 reads12 reads12 (by decide)
    | zero => exact (c12_zero F).safe lv 0 reads12 reads12 reads12 (by decide)
    | twist => intro L r a b m _ _ _ _ _ _; rfl
  eq_ok x y m := by
    show (I.eq x y m && I.eq (x + I.size) (y + I.size) m && I.eq (x + 2 * I.size) (y + 2 * I.size) m) = _
    rw [lv.eq_ok, lv.eq_ok, lv.eq_ok]; rfl
  isz_ok x m := by
    show (I.isZero x m && I.isZero (x + I.size) m && I.isZero (x + 2 * I.size) m) = _
    rw [lv.isz_ok, lv.isz_ok, lv.isz_ok]; rfl

/-! ## The point functions that branch -/

section
variable {F : FpOps α} {tw : α → Option α}

theorem normal_safe (lv : Level I rd (fnF F tw) F.eq F.isZero) :
    InPlaceSafe (3 * I.size) (3 * I.size) (3 * I.size) (rdJ I.size rd) (fun m a _ => Verif.ecJNormal F (rdJ I.size rd m a))
      (ecJNormal I) := by
  intro L r a b m hra hrb hab hr ha hb
  unfold ecJNormal Verif.ecJNormal ecJIsInf
  rw [lv.isz_ok]
  dsimp only
  by_cases h : F.isZero (rdJ I.size rd m a).z = true
  · rw [if_pos h, if_pos (show F.isZero (rd m (a + 2 * I.size)) = true from h)]
    exact (cJ_inf F tw).safe lv 0 readsJ readsJ readsJ (by decide) L r a b m hra hrb hab hr ha hb
  · rw [if_neg h, if_neg (show ¬ F.isZero (rd m (a + 2 * I.size)) = true from h)]
    have := (cJ_normal F tw).safe lv 2 readsJ readsJ readsJ (by decide) L r a b m hra hrb hab hr ha hb
    dsimp only [rdJ, ecJToA] at this ⊢
    generalize F.inv (rd m (a + 2 * I.size)) = o at *
    cases o with
    | none => exact this
    | some v => exact this

/-- The result of adding points with different `x`. -/
def addE (F : FpOps α) (P Q : EcJ α) : EcJ α :=
  let z1z1 := F.sqr P.z
  let z2z2 := F.sqr Q.z
  let u1 := F.mul P.x z2z2
  let u2 := F.mul Q.x z1z1
  let s1 := F.mul (F.mul P.y Q.z) z2z2
  let s2 := F.mul (F.mul Q.y P.z) z1z1
  let h := F.sub u2 u1
  let i := F.sqr (F.dbl h)
  let j := F.mul h i
  let r := F.dbl (F.sub s2 s1)
  let v := F.mul u1 i
  let x3 := F.sub (F.sub (F.sub (F.sqr r) j) v) v
  let y3 := F.mul (F.sub v x3) r
  let v := F.dbl (F.mul s1 j)
  ⟨x3, F.sub y3 v, F.mul (F.sub (F.sub (F.sqr (F.add P.z Q.z)) z1z1) z2z2) h⟩

def addG (F : FpOps α) (dbl : EcJ α → Option (EcJ α)) (P Q : EcJ α) : Option (EcJ α) :=
  if F.eq (F.mul P.x (F.sqr Q.z)) (F.mul Q.x (F.sqr P.z)) then
    if F.eq (F.mul (F.mul P.y Q.z) (F.sqr Q.z)) (F.mul (F.mul Q.y P.z) (F.sqr P.z)) then dbl P else some (ecJInf F)
  else some (addE F P Q)

theorem addG_sm2 (P Q : EcJ α) : Verif.ecJAdd F P Q = addG F (ecJDbl F) P Q := rfl
theorem addG_sm9 (P Q : EcJ α) : ecJAdd0 F P Q = addG F (ecJDbl0 F) P Q := rfl

theorem add_calc (ar br ba : Bool) (S : Nm → α) :
    ∃ S1, val (fnF F tw) (canon ar br ba) addP1 S = some S1 ∧
      (∀ n, (∀ i, n ≠ .loc i) → S1 n = S n) ∧
      S1 (.loc 2) = F.mul (S (canon ar br ba (.A 0))) (F.sqr (S (canon ar br ba (.B 2)))) ∧
      S1 (.loc 3) = F.mul (S (canon ar br ba (.B 0))) (F.sqr (S (canon ar br ba (.A 2)))) ∧
      S1 (.loc 4) = F.mul (F.mul (S (canon ar br ba (.A 1))) (S (canon ar br ba (.B 2))))
        (F.sqr (S (canon ar br ba (.B 2)))) ∧
      S1 (.loc 5) = F.mul (F.mul (S (canon ar br ba (.B 1))) (S (canon ar br ba (.A 2))))
        (F.sqr (S (canon ar br ba (.A 2)))) ∧
      (val (fnF F tw) (canon ar br ba) addP2 S1).map (fun S' => outJ fun i => S' (.R i)) =
        some (addE F (outJ fun i => S (canon ar br ba (.A i))) (outJ fun i => S (canon ar br ba (.B i)))) := by
  cases ar <;> cases br <;> cases ba <;>
    exact ⟨_, rfl, fun n h => by
      cases n with
      | loc i => exact absurd rfl (h i)
      | R i => rfl
      | A i => rfl
      | B i => rfl, rfl, rfl, rfl, rfl, rfl⟩

theorem add_safe (lv : Level I rd (fnF F tw) F.eq F.isZero) (dblP : List Ins) (nd : Nat)
    (dbl : EcJ α → Option (EcJ α)) (hd : Calc (fnF F tw) dblP outJ outJ outJ fun P _ => dbl P)
    (hdp : okP nd 3 3 3 dblP = true) :
    InPlaceSafe (3 * I.size) (3 * I.size) (3 * I.size) (rdJ I.size rd)
      (fun m a b => addG F dbl (rdJ I.size rd m a) (rdJ I.size rd m b)) (ecJAdd I dblP nd) := by
  intro L r a b m hra hrb hab hr ha hb
  obtain ⟨S1, v1, vn, v2, v3, v4, v5, v6⟩ := add_calc (F := F) (tw := tw) (decide (a = r)) (decide (b = r)) (decide (b = a))
    (fun q => rd m (addr I.size L r a b q))
  have X1 := sim lv (nl := 11) (cr := 3) (ca := 3) (cb := 3) hra hrb hab hr ha hb addP1 m
    (fun q => rd m (addr I.size L r a b q)) (by decide) (fun n _ => names_init m n)
  rw [v1] at X1
  obtain ⟨m1, e1, e2, e3⟩ := X1
  have nmA : ∀ i, (fun q => rd m (addr I.size L r a b q)) (canon (decide (a = r)) (decide (b = r)) (decide (b = a)) (.A i)) =
      rd m (a + i * I.size) := fun i => (names_init m (.A i)).symm
  have nmB : ∀ i, (fun q => rd m (addr I.size L r a b q)) (canon (decide (a = r)) (decide (b = r)) (decide (b = a)) (.B i)) =
      rd m (b + i * I.size) := fun i => (names_init m (.B i)).symm
  have hA : ∀ i, i < 3 → rd m1 (a + i * I.size) = rd m (a + i * I.size) := by
    intro i hi
    have := e2 (.A i) (by simpa [ok] using hi)
    rw [vn _ (by intro j; simp only [canon]; split <;> simp)] at this
    exact this.trans (nmA i)
  have jA : rdJ I.size rd m1 a = rdJ I.size rd m a := by
    rw [readsJ.1, readsJ.1]; exact (readsJ (I := I) (rd := rd)).2 _ _ hA
  simp only [nmA, nmB] at v2 v3 v4 v5 v6
  rw [← readsJ.1, ← readsJ.1] at v6
  have top : L ≤ L + 11 * I.size := Nat.le_add_right _ _
  have l2 := e2 (.loc 2) (by decide)
  have l3 := e2 (.loc 3) (by decide)
  have l4 := e2 (.loc 4) (by decide)
  have l5 := e2 (.loc 5) (by decide)
  simp only [canon] at l2 l3 l4 l5
  rw [v2] at l2
  rw [v3] at l3
  rw [v4] at l4
  rw [v5] at l5
  unfold ecJAdd
  dsimp only
  rw [e1]
  dsimp only
  rw [lv.eq_ok, lv.eq_ok, l2, l3, l4, l5]
  simp only [Nat.zero_mul, Nat.add_zero, Nat.one_mul]
  by_cases c1 : F.eq (F.mul (rd m a) (F.sqr (rd m (b + 2 * I.size))))
      (F.mul (rd m b) (F.sqr (rd m (a + 2 * I.size)))) = true
  · rw [if_pos c1]
    by_cases c2 : F.eq (F.mul (F.mul (rd m (a + I.size)) (rd m (b + 2 * I.size))) (F.sqr (rd m (b + 2 * I.size))))
        (F.mul (F.mul (rd m (b + I.size)) (rd m (a + 2 * I.size))) (F.sqr (rd m (a + 2 * I.size)))) = true
    · rw [if_pos c2]
      have hv : addG F dbl (rdJ I.size rd m a) (rdJ I.size rd m b) = dbl (rdJ I.size rd m a) :=
        (if_pos c1).trans (if_pos c2)
      rw [hv]
      have D := hd.safe lv nd readsJ readsJ readsJ hdp (L + 11 * I.size) r a a m1 hra hra (Or.inl rfl)
        (Nat.le_trans hr top) (Nat.le_trans ha top) (Nat.le_trans ha top)
      dsimp only at D
      rw [jA] at D
      generalize dbl (rdJ I.size rd m a) = o at D ⊢
      cases o with
      | none => exact D
      | some v =>
        obtain ⟨m', d1, d2, d3⟩ := D
        exact ⟨m', d1, d2, fun x x1 x2 => by rw [d3 x (Nat.lt_of_lt_of_le x1 top) x2, e3 x x1 x2]⟩
    · rw [if_neg c2]
      have hv : addG F dbl (rdJ I.size rd m a) (rdJ I.size rd m b) = some (ecJInf F) :=
        (if_pos c1).trans (if_neg c2)
      rw [hv]
      have D := (cJ_inf F tw).safe lv 0 readsJ readsJ readsJ (by decide) (L + 11 * I.size) r r r m1 (Or.inl rfl) (Or.inl rfl)
        (Or.inl rfl) (Nat.le_trans hr top) (Nat.le_trans hr top) (Nat.le_trans hr top)
      obtain ⟨m', d1, d2, d3⟩ := D
      exact ⟨m', d1, d2, fun x x1 x2 => by rw [d3 x (Nat.lt_of_lt_of_le x1 top) x2, e3 x x1 x2]⟩
  · rw [if_neg c1]
    have hv : addG F dbl (rdJ I.size rd m a) (rdJ I.size rd m b) =
        some (addE F (rdJ I.size rd m a) (rdJ I.size rd m b)) := if_neg c1
    rw [hv]
    have X2 := sim lv (nl := 11) (cr := 3) (ca := 3) (cb := 3) hra hrb hab hr ha hb addP2 m1 S1 (by decide) e2
    rcases hv2 : val (fnF F tw) (canon (decide (a = r)) (decide (b = r)) (decide (b = a))) addP2 S1 with _ | S2
    · rw [hv2] at v6; exact absurd v6 (by simp)
    · rw [hv2] at v6 X2
      obtain ⟨m', d1, d2, d3⟩ := X2
      refine ⟨m', d1, ?_, fun x x1 x2 => by rw [d3 x x1 x2, e3 x x1 x2]⟩
      rw [← Option.some.inj v6]
      refine (readsJ (I := I) (rd := rd)).1 m' r |>.trans (readsJ (I := I) (rd := rd) |>.2 _ _ fun i hi => ?_)
      exact d2 (.R i) (by simpa [ok] using hi)

end

/-- All the point functions of one curve. -/
theorem points_sm2 (lv : Level I rd (fnF F tw) F.eq F.isZero) :
    InPlaceSafe (2 * I.size) (2 * I.size) (2 * I.size) (rdA I.size rd)
      (fun m a _ => some ⟨(rdA I.size rd m a).x, F.neg (rdA I.size rd m a).y⟩) (call I 0 ecANegP) ∧
    InPlaceSafe (3 * I.size) (3 * I.size) (3 * I.size) (rdJ I.size rd) (fun m a _ => some (ecJNeg F (rdJ I.size rd m a)))
      (call I 0 ecJNegP) ∧
    InPlaceSafe (3 * I.size) (3 * I.size) (3 * I.size) (rdJ I.size rd) (fun _ _ _ => some (ecJInf F)) (call I 0 ecJInfP) ∧
    InPlaceSafe (3 * I.size) (2 * I.size) (2 * I.size) (rdJ I.size rd) (fun m a _ => some (ecJFromA F (rdA I.size rd m a)))
      (call I 0 ecJFromAP) ∧
    InPlaceSafe (2 * I.size) (3 * I.size) (3 * I.size) (rdA I.size rd) (fun m a _ => ecJToA F (rdJ I.size rd m a))
      (call I 2 ecJToAP) ∧
    InPlaceSafe (3 * I.size) (3 * I.size) (3 * I.size) (rdJ I.size rd)
      (fun m a _ => Verif.ecJNormal F (rdJ I.size rd m a)) (ecJNormal I) ∧
    InPlaceSafe (3 * I.size) (3 * I.size) (3 * I.size) (rdJ I.size rd) (fun m a _ => ecJDbl F (rdJ I.size rd m a))
      (call I 4 sm2DblP) ∧
    InPlaceSafe (3 * I.size) (3 * I.size) (3 * I.size) (rdJ I.size rd)
      (fun m a b => Verif.ecJAdd F (rdJ I.size rd m a) (rdJ I.size rd m b)) (ecJAdd I sm2DblP 4) ∧
    InPlaceSafe (3 * I.size) (3 * I.size) (2 * I.size) (rdJ I.size rd)
      (fun m a b => some (ecJAddA F (rdJ I.size rd m a) (rdA I.size rd m b))) (call I 9 addAP) :=
  ⟨(cA_neg F tw).safe lv 0 readsA readsA readsA (by decide),
   (cJ_neg F tw).safe lv 0 readsJ readsJ readsJ (by decide),
   (cJ_inf F tw).safe lv 0 readsJ (rA := rdJ I.size rd) readsJ (rB := rdJ I.size rd) readsJ (by decide),
   (cJ_fromA F tw).safe lv 0 readsJ readsA readsA (by decide),
   (cJ_toA F tw).safe lv 2 readsA readsJ readsJ (by decide),
   normal_safe lv,
   (cJ_dblSm2 F tw).safe lv 4 readsJ readsJ readsJ (by decide),
   add_safe lv sm2DblP 4 (ecJDbl F) (cJ_dblSm2 F tw) (by decide),
   (cJ_addA F tw).safe lv 9 readsJ readsJ readsA (by decide)⟩

/-- All the point functions of one curve. -/
theorem points_sm9 (lv : Level I rd (fnF F tw) F.eq F.isZero) :
    InPlaceSafe (2 * I.size) (2 * I.size) (2 * I.size) (rdA I.size rd)
      (fun m a _ => some ⟨(rdA I.size rd m a).x, F.neg (rdA I.size rd m a).y⟩) (call I 0 ecANegP) ∧
    InPlaceSafe (3 * I.size) (3 * I.size) (3 * I.size) (rdJ I.size rd) (fun m a _ => some (ecJNeg F (rdJ I.size rd m a)))
      (call I 0 ecJNegP) ∧
    InPlaceSafe (3 * I.size) (3 * I.size) (3 * I.size) (rdJ I.size rd) (fun _ _ _ => some (ecJInf F)) (call I 0 ecJInfP) ∧
    InPlaceSafe (3 * I.size) (2 * I.size) (2 * I.size) (rdJ I.size rd) (fun m a _ => some (ecJFromA F (rdA I.size rd m a)))
      (call I 0 ecJFromAP) ∧
    InPlaceSafe (2 * I.size) (3 * I.size) (3 * I.size) (rdA I.size rd) (fun m a _ => ecJToA F (rdJ I.size rd m a))
      (call I 2 ecJToAP) ∧
    InPlaceSafe (3 * I.size) (3 * I.size) (3 * I.size) (rdJ I.size rd)
      (fun m a _ => Verif.ecJNormal F (rdJ I.size rd m a)) (ecJNormal I) ∧
    InPlaceSafe (3 * I.size) (3 * I.size) (3 * I.size) (rdJ I.size rd) (fun m a _ => ecJDbl0 F (rdJ I.size rd m a))
      (call I 6 sm9DblP) ∧
    InPlaceSafe (3 * I.size) (3 * I.size) (3 * I.size) (rdJ I.size rd)
      (fun m a b => ecJAdd0 F (rdJ I.size rd m a) (rdJ I.size rd m b)) (ecJAdd I sm9DblP 6) ∧
    InPlaceSafe (3 * I.size) (3 * I.size) (2 * I.size) (rdJ I.size rd)
      (fun m a b => some (ecJAddA F (rdJ I.size rd m a) (rdA I.size rd m b))) (call I 9 addAP) :=
  ⟨(cA_neg F tw).safe lv 0 readsA readsA readsA (by decide),
   (cJ_neg F tw).safe lv 0 readsJ readsJ readsJ (by decide),
   (cJ_inf F tw).safe lv 0 readsJ (rA := rdJ I.size rd) readsJ (rB := rdJ I.size rd) readsJ (by decide),
   (cJ_fromA F tw).safe lv 0 readsJ readsA readsA (by decide),
   (cJ_toA F tw).safe lv 2 readsA readsJ readsJ (by decide),
   normal_safe lv,
   (cJ_dblSm9 F tw).safe lv 6 readsJ readsJ readsJ (by decide),
   add_safe lv sm9DblP 6 (ecJDbl0 F) (cJ_dblSm9 F tw) (by decide),
   (cJ_addA F tw).safe lv 9 readsJ readsJ readsA (by decide)⟩

/-- Products with a factor of one component that does not lie in the result. -/
theorem mulComp_apart {γ : Type} {fn : Sym → α → α → Option α} {eqv : α → α → Bool} {isz : α → Bool}
    (lv : Level I rd fn eqv isz) (c : Nat) (p : List Ins)
    (hp : okP 0 c c 1 p = true) (rR : Mem β → Nat → γ) (out : (Nat → α) → γ) (hR : Reads I.size rd c rR out)
    (g : γ → α → γ) (H : ∀ (ar ba : Bool) (S : Nm → α),
      (val fn (canon ar false ba) p S).map (fun S' => out fun i => S' (.R i)) =
        some (g (out fun i => S (canon ar false ba (.A i))) (S (canon ar false ba (.B 0)))))
    (L r a b : Nat) (m : Mem β) (hn : b ≠ r)
    (hra : SameOrApart r (c * I.size) a (c * I.size)) (hrb : SameOrApart r (c * I.size) b (1 * I.size))
    (hab : SameOrApart a (c * I.size) b (1 * I.size))
    (hr : r + c * I.size ≤ L) (ha : a + c * I.size ≤ L) (hb : b + 1 * I.size ≤ L) :
    ∃ m', call I 0 p L r a b m = some m' ∧ rR m' r = g (rR m a) (rd m b) ∧
      ∀ x, x < L → ¬ (r ≤ x ∧ x < r + c * I.size) → m' x = m x :=
  call_at lv 0 c c 1 p hp rR out (fun m x S hS => by rw [hR.1]; exact hR.2 _ _ hS)
    (fun x y => some (g (out x) (y 0))) (fun m a b => some (g (rR m a) (rd m b)))
    (fun m a b => by rw [hR.1]; simp only [Nat.zero_mul, Nat.add_zero]) L r a b m
    (fun S => by
      have e : decide (b = r) = false := decide_eq_false hn
      simp only [e]
      exact H _ _ S) hra hrb hab hr ha hb

theorem mulComp_calc (ar ba : Bool) (S : Nm → α) :
    (val (fnF F tw) (canon ar false ba) mulCompP S).map (fun S' => out2 fun i => S' (.R i)) =
      some (fp2MulFp F (out2 fun i => S (canon ar false ba (.A i))) (S (canon ar false ba (.B 0)))) := by
  cases ar <;> cases ba <;> rfl
end
end Verif.Alias
