import Verif.Proofs.PairMemLimbs
/-! Helper lemmas for C102: programs of calls of arbitrary functions on memory. -/
namespace Verif.PairMem
open Verif Verif.Alias Verif.Spec.Alias

/-- The functions `ops` of the set `W` on memory compute, whichever operands coincide, the functions `fn` of the values that
`rd` reads, as long as the cells below `lo` are those of `m0`; they do not write there, and those of the set `D` are not
called with a first operand there. -/
structure LevelG {β α ι : Type} (W D : ι → Bool) (k : Nat) (rd : Mem β → Nat → α) (ops : ι → MemOp β) (fn : ι → α → α → Option α) (lo : Nat)
    (m0 : Mem β) : Prop where
  ext : ∀ m m' a, (∀ x, a ≤ x → x < a + k → m x = m' x) → rd m a = rd m' a
  good : ∀ o L r a b m, W o = true → (D o = true → lo ≤ a) → (∀ x, x < lo → m x = m0 x) → lo ≤ r → lo ≤ L → SameOrApart r k a k → SameOrApart r k b k →
    SameOrApart a k b k → r + k ≤ L → a + k ≤ L → b + k ≤ L →
    RunOk k L r rd m (fn o (rd m a) (rd m b)) (ops o L r a b m)

/-- The calls on a store of named values. -/
def valG {α ι : Type} (f : ι → α → α → Option α) (ρ : Nm → Nm) : List (GIns ι) → (Nm → α) → Option (Nm → α)
  | [], S => some S
  | i :: p, S =>
    match f i.op (S (ρ i.a)) (S (ρ i.b)) with
    | none => none
    | some v => valG f ρ p (fun n => if n = ρ i.r then v else S n)

def okPG {ι : Type} (W D : ι → Bool) (nl cr ca cb : Nat) (p : List (GIns ι)) : Bool :=
  p.all fun i => W i.op && (!D i.op || dst i.a) && (ok nl cr ca cb i.r && ok nl cr ca cb i.a && ok nl cr ca cb i.b && dst i.r)

section
variable {β α ι : Type} {W D : ι → Bool} {k : Nat} {rd : Mem β → Nat → α} {ops : ι → MemOp β} {fn : ι → α → α → Option α} {lo : Nat}
  {m0 : Mem β}

/-- The calls on memory do what the calls on named values do. -/
theorem simG (lv : LevelG W D k rd ops fn lo m0) {L r a b nl cr ca cb : Nat} (hlr : lo ≤ r) (hlL : lo ≤ L) (hra : SameOrApart r (cr * k) a (ca * k))
    (hrb : SameOrApart r (cr * k) b (cb * k)) (hab : SameOrApart a (ca * k) b (cb * k))
    (hr : r + cr * k ≤ L) (ha : a + ca * k ≤ L) (hb : b + cb * k ≤ L) :
    ∀ (p : List (GIns ι)) (m : Mem β) (S : Nm → α), okPG W D nl cr ca cb p = true → (∀ x, x < lo → m x = m0 x) →
    (∀ n, ok nl cr ca cb n = true → rd m (addr k L r a b n) =
      S (canon (decide (a = r)) (decide (b = r)) (decide (b = a)) n)) →
    match valG fn (canon (decide (a = r)) (decide (b = r)) (decide (b = a))) p S with
    | none => execG ops (L + nl * k) (addr k L r a b) p m = none
    | some S' => ∃ m', execG ops (L + nl * k) (addr k L r a b) p m = some m' ∧
        (∀ n, ok nl cr ca cb n = true → rd m' (addr k L r a b n) =
          S' (canon (decide (a = r)) (decide (b = r)) (decide (b = a)) n)) ∧
        ∀ x, x < L → ¬ (r ≤ x ∧ x < r + cr * k) → m' x = m x
  | [], m, S, _, _, hS => ⟨m, rfl, hS, fun _ _ _ => rfl⟩
  | i :: p, m, S, hp, hlo, hS => by
    unfold okPG at hp
    rw [List.all_cons, Bool.and_eq_true] at hp
    obtain ⟨hi, hp⟩ := hp
    simp only [Bool.and_eq_true] at hi
    obtain ⟨⟨w1, w2⟩, ⟨⟨o1, o2⟩, o3⟩, o4⟩ := hi
    set ρ := canon (decide (a = r)) (decide (b = r)) (decide (b = a)) with hρ
    set e := addr k L r a b with he
    have N : ∀ {n n' : Nm}, ok nl cr ca cb n = true → ok nl cr ca cb n' = true →
        (ρ n = ρ n' ∧ e n = e n') ∨ (e n + k ≤ e n' ∨ e n' + k ≤ e n) :=
      fun h h' => names (L := L) hra hrb hab hr ha hb h h'
    have sep : ∀ {n n' : Nm}, ok nl cr ca cb n = true → ok nl cr ca cb n' = true →
        SameOrApart (e n) k (e n') k := by
      intro n n' h h'
      rcases N h h' with h | h
      · exact Or.inl h.2
      · exact Or.inr h
    have top : ∀ {n : Nm}, ok nl cr ca cb n = true → e n + k ≤ L + nl * k := by
      intro n h
      have := Nat.zero_le (nl * k)
      cases n with
      | loc i => have := mul_step (k := k) (show i < nl by simpa [ok] using h); simp only [he, addr]; omega
      | R i => have := mul_step (k := k) (show i < cr by simpa [ok] using h); simp only [he, addr]; omega
      | A i => have := mul_step (k := k) (show i < ca by simpa [ok] using h); simp only [he, addr]; omega
      | B i => have := mul_step (k := k) (show i < cb by simpa [ok] using h); simp only [he, addr]; omega
    have lor : lo ≤ e i.r := by
      cases hd : i.r with
      | loc j => simp only [he, addr]; omega
      | R j => simp only [he, addr]; omega
      | A j => rw [hd] at o4; exact absurd o4 Bool.false_ne_true
      | B j => rw [hd] at o4; exact absurd o4 Bool.false_ne_true
    have loa : D i.op = true → lo ≤ e i.a := by
      intro hD
      rw [hD] at w2
      have w2 : dst i.a = true := by simpa using w2
      cases hd : i.a with
      | loc j => simp only [he, addr]; omega
      | R j => simp only [he, addr]; omega
      | A j => rw [hd] at w2; exact absurd w2 Bool.false_ne_true
      | B j => rw [hd] at w2; exact absurd w2 Bool.false_ne_true
    have G := lv.good i.op (L + nl * k) (e i.r) (e i.a) (e i.b) m w1 loa hlo lor (by omega) (sep o1 o2) (sep o1 o3) (sep o2 o3) (top o1)
      (top o2) (top o3)
    rw [hS _ o2, hS _ o3] at G
    unfold valG execG
    cases hv : fn i.op (S (ρ i.a)) (S (ρ i.b)) with
    | none => dsimp only; rw [G.1 hv]
    | some v =>
      obtain ⟨m', g1, g2, g3⟩ := G.2 v hv
      dsimp only
      rw [g1]
      dsimp only
      have hS' : ∀ n, ok nl cr ca cb n = true → rd m' (e n) = (fun n => if n = ρ i.r then v else S n) (ρ n) := by
        intro n hn
        dsimp only
        rcases N hn o1 with h | h
        · rw [if_pos h.1, h.2, ← g2]
        · by_cases hc : ρ n = ρ i.r
          · -- the same name means the same address
            rw [if_pos hc]
            have : e n = e i.r := by
              show addr k L r a b n = addr k L r a b i.r
              rw [← addr_canon n, ← addr_canon i.r, ← hρ, hc]
            rw [this, ← g2]
          · rw [if_neg hc, ← hS n hn]
            refine lv.ext _ _ _ fun x x1 x2 => ?_
            have := top hn
            refine g3 x (by omega) ?_
            rintro ⟨h1, h2⟩
            have h' : e n + k ≤ e i.r ∨ e i.r + k ≤ e n := h
            omega
      have IH := simG lv hlr hlL hra hrb hab hr ha hb p m' (fun n => if n = ρ i.r then v else S n) hp
        (fun x hx => (g3 x (by omega) (by omega)).trans (hlo x hx)) hS'
      have fr : ∀ x, x < L → ¬ (r ≤ x ∧ x < r + cr * k) → m' x = m x := by
        intro x x1 x2
        refine g3 x (by omega) ?_
        rintro ⟨h1, h2⟩
        cases hd : i.r with
        | loc j => rw [hd] at h1; simp only [he, addr] at h1; omega
        | R j =>
          rw [hd] at h1 h2 o1
          simp only [he, addr] at h1 h2
          have := mul_step (k := k) (show j < cr by simpa [ok] using o1)
          exact x2 ⟨by omega, by omega⟩
        | A j => rw [hd] at o4; exact absurd o4 Bool.false_ne_true
        | B j => rw [hd] at o4; exact absurd o4 Bool.false_ne_true
      rcases hval : valG fn ρ p (fun n => if n = ρ i.r then v else S n) with _ | S'
      · rw [hval] at IH
        exact IH
      · rw [hval] at IH
        obtain ⟨m'', q1, q2, q3⟩ := IH
        exact ⟨m'', q1, q2, fun x x1 x2 => by rw [q3 x x1 x2, fr x x1 x2]⟩

/-- A program whose calls on named values give the right result, for the pattern of coinciding names at hand. -/
theorem call_atG (lv : LevelG W D k rd ops fn lo m0) {γ δ ε : Type} (nl cr ca cb : Nat) (p : List (GIns ι))
    (hp : okPG W D nl cr ca cb p = true) {oR : (Nat → α) → γ} {oA : (Nat → α) → δ} {oB : (Nat → α) → ε} {g : δ → ε → Option γ}
    {rR : Mem β → Nat → γ} {rA : Mem β → Nat → δ} {rB : Mem β → Nat → ε}
    (hR : Reads k rd cr rR oR) (hA : Reads k rd ca rA oA) (hB : Reads k rd cb rB oB)
    {L r a b : Nat} {m : Mem β}
    (H : ∀ (S : Nm → α), let ρ := canon (decide (a = r)) (decide (b = r)) (decide (b = a))
      (valG fn ρ p S).map (fun S' => oR fun i => S' (.R i)) = g (oA fun i => S (ρ (.A i))) (oB fun i => S (ρ (.B i))))
    (hlo : ∀ x, x < lo → m x = m0 x) (hlr : lo ≤ r) (hlL : lo ≤ L)
    (hra : SameOrApart r (cr * k) a (ca * k)) (hrb : SameOrApart r (cr * k) b (cb * k))
    (hab : SameOrApart a (ca * k) b (cb * k))
    (hr : r + cr * k ≤ L) (ha : a + ca * k ≤ L) (hb : b + cb * k ≤ L) :
    RunOk (cr * k) L r rR m (g (rA m a) (rB m b)) (callG ops k nl p L r a b m) := by
  have init : ∀ n, rd m (addr k L r a b n) = (fun q => rd m (addr k L r a b q))
      (canon (decide (a = r)) (decide (b = r)) (decide (b = a)) n) := by
    intro n; dsimp only; rw [addr_canon]
  have S := simG lv (nl := nl) hlr hlL hra hrb hab hr ha hb p m (fun q => rd m (addr k L r a b q)) hp hlo
    (fun n _ => init n)
  have h := H (fun q => rd m (addr k L r a b q))
  have e1 : rA m a = oA fun i => (fun q => rd m (addr k L r a b q))
      (canon (decide (a = r)) (decide (b = r)) (decide (b = a)) (.A i)) := by
    rw [hA.1]; congr 1; funext i; rw [← init (.A i)]; rfl
  have e2 : rB m b = oB fun i => (fun q => rd m (addr k L r a b q))
      (canon (decide (a = r)) (decide (b = r)) (decide (b = a)) (.B i)) := by
    rw [hB.1]; congr 1; funext i; rw [← init (.B i)]; rfl
  rw [e1, e2, ← h]
  unfold callG
  rcases hval : valG fn (canon (decide (a = r)) (decide (b = r)) (decide (b = a))) p
    (fun q => rd m (addr k L r a b q)) with _ | S'
  · rw [hval] at S
    exact ⟨fun _ => S, fun v e => by cases e⟩
  · rw [hval] at S
    obtain ⟨m', s1, s2, s3⟩ := S
    refine ⟨fun e => (by cases e), fun v e => ?_⟩
    cases e
    refine ⟨m', s1, ?_, s3⟩
    rw [hR.1]
    exact hR.2 _ _ fun i hi => s2 (.R i) (by simpa [ok] using hi)

/-- What the calls compute, whichever names coincide. -/
def CalcG {γ δ ε : Type} (fn : ι → α → α → Option α) (p : List (GIns ι)) (oR : (Nat → α) → γ) (oA : (Nat → α) → δ)
    (oB : (Nat → α) → ε) (g : δ → ε → Option γ) : Prop :=
  ∀ (ar br ba : Bool) (S : Nm → α),
    (valG fn (canon ar br ba) p S).map (fun S' => oR fun i => S' (.R i)) =
      g (oA fun i => S (canon ar br ba (.A i))) (oB fun i => S (canon ar br ba (.B i)))

theorem CalcG.safe {γ δ ε : Type} (lv : ∀ m0, LevelG W D k rd ops fn 0 m0) {p : List (GIns ι)} {oR : (Nat → α) → γ}
    {oA : (Nat → α) → δ} {oB : (Nat → α) → ε} {g : δ → ε → Option γ} (h : CalcG fn p oR oA oB g) (nl : Nat) {cr ca cb : Nat}
    {rR : Mem β → Nat → γ} {rA : Mem β → Nat → δ} {rB : Mem β → Nat → ε} (hR : Reads k rd cr rR oR)
    (hA : Reads k rd ca rA oA) (hB : Reads k rd cb rB oB) (hp : okPG W D nl cr ca cb p = true) :
    InPlaceSafe (cr * k) (ca * k) (cb * k) rR (fun m a b => g (rA m a) (rB m b)) (callG ops k nl p) :=
  RunOk.safe fun L r a b m hra hrb hab hr ha hb =>
    call_atG (lv m) nl cr ca cb p hp hR hA hB (h _ _ _) (fun x hx => absurd hx (by omega)) (by omega) (by omega)
      hra hrb hab hr ha hb

/-- Functions that are safe in place make such a level. -/
theorem LevelG.of (ext : ∀ m m' a, (∀ x, a ≤ x → x < a + k → m x = m' x) → rd m a = rd m' a)
    (h : ∀ o, W o = true → InPlaceSafe k k k rd (fun m a b => fn o (rd m a) (rd m b)) (ops o)) : LevelG W D k rd ops fn lo m0 :=
  ⟨ext, fun o _ _ _ _ _ hW _ _ _ _ hra hrb hab hr ha hb => RunOk.use (h o hW) hra hrb hab hr ha hb⟩
end
end Verif.PairMem
