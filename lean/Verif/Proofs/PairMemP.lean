import Verif.Proofs.PairMemV
/-! Helper lemmas for C102: the functions of the pairing on memory, over any build. -/
namespace Verif.PairMem
open Verif Verif.Alias Verif.Spec.Alias

section
variable {α : Type} (F : FpOps α) (fb : List Byte → α)

def millerStepV (P : EcA α) (Q nQ : EcA (Fp2 α)) (c : Char) (f : Fp12 α) (T : EcJ (Fp2 α)) : Option (Fp12 α × EcJ (Fp2 α)) := do
  let f := Verif.fp12Sqr F f
  let f0 ← tangentV F T P
  let f := fp12Mul F f f0
  let T ← ecJDbl0 (fp2Ops F) T
  if c = '1' then
    let f0 := lineAV F T Q P
    let f := fp12Mul F f f0
    some (f, ecJAddA (fp2Ops F) T Q)
  else if c = '2' then
    let f0 := lineAV F T nQ P
    let f := fp12Mul F f f0
    some (f, ecJAddA (fp2Ops F) T nQ)
  else some (f, T)

/-- `for (int i = 1; i < naf_len; i++)` (sm9_field.cpp 2295-2320). -/
def millerLoopV (P : EcA α) (Q nQ : EcA (Fp2 α)) : List Char → Fp12 α → EcJ (Fp2 α) → Option (Fp12 α × EcJ (Fp2 α))
  | [], f, T => some (f, T)
  | c :: cs, f, T => do
    let (f, T) ← millerStepV F P Q nQ c f T
    millerLoopV P Q nQ cs f T

/-- `sm9_pairing` (sm9_field.cpp 2281-2333) up to the call of `sm9_pairing_final_exp`. -/
def millerV (P : EcA α) (Q : EcA (Fp2 α)) : Option (Fp12 α) := do
  let f := fp12One F
  let T := ecJFromA (fp2Ops F) Q
  let nQ := (⟨Q.x, (fp2Ops F).neg Q.y⟩ : EcA (Fp2 α))
  let (f, T) ← millerLoopV F P Q nQ Sm9.nafA f T
  let qj := frobAV F fb Q
  let f0 := lineJV F T qj P
  let f := fp12Mul F f f0
  let T ← ecJAdd0 (fp2Ops F) T qj
  let qj := frob2AV F fb Q
  let qj := ecJNeg (fp2Ops F) qj
  let f0 := lineJV F T qj P
  some (fp12Mul F f f0)

/-- `sm9_pairing` (sm9_field.cpp 2281-2333). -/
def pairingV (P : EcA α) (Q : EcA (Fp2 α)) : Option (Fp12 α) := do
  let f ← millerV F fb P Q
  finalV F fb f

end

/-- What a build has to provide. -/
structure BuildOk {β α : Type} (B : Build β) (rd : Mem β → Nat → α) (F : FpOps α) (fb : List Byte → α) : Prop where
  pos : 0 < B.fp.size
  lv : Level B.fp rd (fnF F fun _ => none) F.eq F.isZero
  fb_ok : ∀ bs, bs.length = 32 → InPlaceSafe B.fp.size B.fp.size B.fp.size rd (fun _ _ _ => some (fb bs)) (B.fromBytes bs)

section
variable {β α : Type} {rd : Mem β → Nat → α} {k : Nat}

abbrev rT (k : Nat) (rd : Mem β → Nat → α) : Mem β → Nat → Fp12 α := rd12 (2 * (2 * k)) (rd4 (2 * k) (rd2 k rd))
abbrev rJ2 (k : Nat) (rd : Mem β → Nat → α) : Mem β → Nat → EcJ (Fp2 α) := rdJ (2 * k) (rd2 k rd)
abbrev rA2 (k : Nat) (rd : Mem β → Nat → α) : Mem β → Nat → EcA (Fp2 α) := rdA (2 * k) (rd2 k rd)

theorem readsT : Reads k rd 12 (rT k rd) outT := by
  refine ⟨fun m x => ?_, fun S S' h => ?_⟩
  · unfold rT rd12 rd4 rd2 outT
    congr 1 <;> congr 1 <;> congr 1 <;> congr 1 <;> omega
  · simp only [outT, h 0 (by decide), h 1 (by decide), h 2 (by decide), h 3 (by decide), h 4 (by decide), h 5 (by decide),
      h 6 (by decide), h 7 (by decide), h 8 (by decide), h 9 (by decide), h 10 (by decide), h 11 (by decide)]
theorem readsA2 : Reads k rd 4 (rA2 k rd) outA2 := by
  refine ⟨fun m x => ?_, fun S S' h => ?_⟩
  · unfold rA2 rdA rd2 outA2
    congr 1 <;> congr 1 <;> congr 1 <;> omega
  · simp only [outA2, h 0 (by decide), h 1 (by decide), h 2 (by decide), h 3 (by decide)]
theorem readsJ2 : Reads k rd 6 (rJ2 k rd) outJ2 := by
  refine ⟨fun m x => ?_, fun S S' h => ?_⟩
  · unfold rJ2 rdJ rd2 outJ2
    congr 1 <;> congr 1 <;> congr 1 <;> omega
  · simp only [outJ2, h 0 (by decide), h 1 (by decide), h 2 (by decide), h 3 (by decide), h 4 (by decide), h 5 (by decide)]
theorem readsS : Reads (2 * k) (rd2 k rd) 6 (rT k rd) outS := by
  refine ⟨fun m x => ?_, fun S S' h => ?_⟩
  · unfold rT rd12 rd4 outS
    congr 1 <;> congr 1 <;> congr 1 <;> omega
  · simp only [outS, h 0 (by decide), h 1 (by decide), h 2 (by decide), h 3 (by decide), h 4 (by decide), h 5 (by decide)]
theorem reads1 {rd : Mem β → Nat → Fp12 α} : Reads k rd 1 rd out1 :=
  ⟨fun m x => by simp only [out1, Nat.zero_mul, Nat.add_zero], fun S S' h => h 0 (by decide)⟩
end

section
variable {β α : Type} {B : Build β} {rd : Mem β → Nat → α} {F : FpOps α} {fb : List Byte → α}

theorem BuildOk.lv2 (h : BuildOk B rd F fb) : Level B.fp2 (rd2 B.fp.size rd) (fn2 F) (fp2Ops F).eq (fp2Ops F).isZero := level2 h.lv
theorem BuildOk.lv4 (h : BuildOk B rd F fb) : Level B.fp4 (rd4 (2 * B.fp.size) (rd2 B.fp.size rd)) (fn4 F) (fp4Eq F) (fp4IsZero F) :=
  level4 h.lv2
theorem BuildOk.lv12 (h : BuildOk B rd F fb) : Level B.fp12 (rT B.fp.size rd) (fn12 F) (fp12Eq F) (fp12IsZero F) := level12 h.lv4

theorem BuildOk.lvC (h : BuildOk B rd F fb) (lo : Nat) (m0 : Mem β) :
    LevelG wC (fun _ => false) B.fp.size rd (fOps B) (fnC F fb fun _ => none) lo m0 :=
  LevelG.of h.lv.ext fun o hw => by
    cases o with
    | inl s => exact h.lv.good s
    | inr bs => exact h.fb_ok bs (by simpa [wC] using hw)

theorem size12 (k : Nat) : 3 * (2 * (2 * k)) = 12 * k := by omega

theorem frobs_safe (h : BuildOk B rd F fb) {p : List (GIns FOp)} {g : Fp12 α → Fp12 α} (nl : Nat)
    (hc : CalcG (fnC F fb fun _ => none) p outT outT outT fun a _ => some (g a)) (hp : okPG wC (fun _ => false) nl 12 12 12 p = true) :
    InPlaceSafe B.fp12.size B.fp12.size B.fp12.size (rT B.fp.size rd) (fun m a _ => some (g (rT B.fp.size rd m a)))
      (callG (fOps B) B.fp.size nl p) := by
  have := hc.safe (h.lvC 0) nl readsT readsT readsT hp
  rw [← size12 B.fp.size] at this
  exact this

theorem BuildOk.lvE (h : BuildOk B rd F fb) (lo : Nat) (m0 : Mem β) :
    LevelG (fun _ => true) (fun _ => false) B.fp12.size (rT B.fp.size rd) (eOps B) (fnE F fb) lo m0 :=
  LevelG.of h.lv12.ext fun o _ => by
    cases o with
    | f s => exact h.lv12.good s
    | pow e =>
      have q := fp12Pow_safe h.lv12 (powFn_fn12 F) (zeroV := fp12Zero F) (fun _ _ => rfl) e
      simp only [← fp12Pow_eq] at q
      exact q
    | frob => exact frobs_safe h 13 (cg_frob F fb _) (by decide +kernel)
    | frob2 => exact frobs_safe h 13 (cg_frob2 F fb _) (by decide +kernel)
    | frob3 => exact frobs_safe h 13 (cg_frob3 F fb _) (by decide +kernel)
    | frob6 => exact frobs_safe h 12 (cg_frob6 F fb _) (by decide +kernel)

theorem hard_safe (h : BuildOk B rd F fb) :
    InPlaceSafe B.fp12.size B.fp12.size B.fp12.size (rT B.fp.size rd) (fun m a _ => hardV F fb (rT B.fp.size rd m a))
      (callG (eOps B) B.fp12.size 5 hardP) := by
  have := (cg_hard F fb).safe (h.lvE 0) 5 reads1 reads1 reads1 (by decide +kernel)
  rw [Nat.one_mul] at this
  exact this

theorem BuildOk.lvX (h : BuildOk B rd F fb) (lo : Nat) (m0 : Mem β) :
    LevelG (fun _ => true) (fun _ => false) B.fp12.size (rT B.fp.size rd) (xOps B) (fnX F fb) lo m0 :=
  LevelG.of h.lv12.ext fun o _ => by
    cases o with
    | inl o =>
      refine RunOk.safe fun L r a b m hra hrb hab hr ha hb => ?_
      exact (h.lvE 0 m).good o L r a b m rfl (fun e => nomatch e) (fun _ _ => rfl) (Nat.zero_le _) (Nat.zero_le _) hra hrb hab hr ha hb
    | inr _ => exact hard_safe h

theorem finalExp_safe (h : BuildOk B rd F fb) :
    InPlaceSafe B.fp12.size B.fp12.size B.fp12.size (rT B.fp.size rd) (fun m a _ => finalV F fb (rT B.fp.size rd m a))
      (finalExp B) := by
  have := (cg_final F fb).safe (h.lvX 0) 2 reads1 reads1 reads1 (by decide +kernel)
  rw [Nat.one_mul] at this
  exact this

/-! ## The line functions -/

def dL : LOp → Bool
  | .inl _ => false
  | .inr _ => true

theorem BuildOk.lvL (h : BuildOk B rd F fb) {lo p : Nat} {m0 : Mem β} (hp : p + 2 * B.fp.size ≤ lo) :
    LevelG (fun _ => true) dL (2 * B.fp.size) (rd2 B.fp.size rd) (lOps B p) (fnL F (rdA B.fp.size rd m0 p)) lo m0 where
  ext := h.lv2.ext
  good o L r a b m _ hD hlo hlr hlL hra hrb hab hr ha hb := by
    cases o with
    | inl s => exact RunOk.use (h.lv2.good s) hra hrb hab hr ha hb
    | inr j =>
      have hla := hD rfl
      have key : ∀ q, q + B.fp.size ≤ lo → RunOk (2 * B.fp.size) L r (rd2 B.fp.size rd) m
          (some (fp2MulFp F (rd2 B.fp.size rd m a) (rd m0 q))) (call B.fp 0 mulCompP L r a q m) := by
        intro q hq
        have hk : rd m q = rd m0 q := h.lv.ext _ _ _ fun x _ hx => hlo x (by omega)
        by_cases hz : q = r
        · have : B.fp.size = 0 := by omega
          exact absurd this (by have := h.pos; omega)
        · obtain ⟨m', e1, e2, e3⟩ := mulComp_apart h.lv 2 mulCompP (by decide) (rd2 B.fp.size rd) out2 reads2 (fp2MulFp F)
            (mulComp_calc) L r a q m hz hra (Or.inr (Or.inr (by omega))) (Or.inr (Or.inr (by omega))) hr ha (by omega)
          rw [hk] at e2
          exact ⟨fun e => (by cases e), fun v e => by cases e; exact ⟨m', e1, e2, e3⟩⟩
      cases j with
      | false => exact key p (by omega)
      | true => exact key (p + B.fp.size) (by omega)

/-! ## The loop -/

/-- A calculation with an outcome and the program that follows it: both fail, or the program ends in a state related
to the outcome. -/
def Runs {σ : Type} (g : Option σ) (q : Option (Mem β)) (I : σ → Mem β → Prop) : Prop :=
  (g = none → q = none) ∧ ∀ v, g = some v → ∃ m', q = some m' ∧ I v m'

theorem Runs.ok {σ : Type} {v : σ} {m : Mem β} {I : σ → Mem β → Prop} (h : I v m) : Runs (some v) (some m) I :=
  ⟨fun e => (by cases e), fun _ e => by cases e; exact ⟨m, rfl, h⟩⟩
theorem Runs.bind {σ τ : Type} {g : Option σ} {q : Option (Mem β)} {I : σ → Mem β → Prop} {g' : σ → Option τ}
    {q' : Mem β → Option (Mem β)} {J : τ → Mem β → Prop} (h : Runs g q I) (h' : ∀ v m, I v m → Runs (g' v) (q' m) J) :
    Runs (g >>= g') (q >>= q') J := by
  cases g with
  | none => rw [h.1 rfl]; exact ⟨fun _ => rfl, fun _ e => by cases e⟩
  | some v => obtain ⟨m', e, i⟩ := h.2 v rfl; rw [e]; exact h' v m' i
/-- A step of the program that computes a part of the state. -/
theorem Runs.step {γ τ : Type} {n L r : Nat} {rR : Mem β → Nat → γ} {m : Mem β} {v : γ} {q : Option (Mem β)} {g : Option τ}
    {q' : Mem β → Option (Mem β)} {J : τ → Mem β → Prop} (h : RunOk n L r rR m (some v) q)
    (h' : ∀ m', rR m' r = v → (∀ x, x < L → ¬ (r ≤ x ∧ x < r + n) → m' x = m x) → Runs g (q' m') J) :
    Runs g (q >>= q') J := by
  obtain ⟨m', e, e2, e3⟩ := h.2 v rfl
  rw [e]; exact h' m' e2 e3
theorem Runs.stepG {γ τ : Type} {n L r : Nat} {rR : Mem β → Nat → γ} {m : Mem β} {u : Option γ} {q : Option (Mem β)}
    {g : γ → Option τ} {q' : Mem β → Option (Mem β)} {J : τ → Mem β → Prop} (h : RunOk n L r rR m u q)
    (h' : ∀ v m', rR m' r = v → (∀ x, x < L → ¬ (r ≤ x ∧ x < r + n) → m' x = m x) → Runs (g v) (q' m') J) :
    Runs (u >>= g) (q >>= q') J := by
  cases u with
  | none => rw [h.1 rfl]; exact ⟨fun _ => rfl, fun _ e => by cases e⟩
  | some v => exact Runs.step (g := g v) h fun m' a b => h' v m' a b

/-- The state inside `sm9_pairing`: `f`, `T`, the contents of the union and the caller's memory. -/
structure MS (B : Build β) (rd : Mem β → Nat → α) (L : Nat) (m0 mq : Mem β) (f : Fp12 α) (T : EcJ (Fp2 α)) (m : Mem β) : Prop where
  f : rT B.fp.size rd m (vF B L) = f
  t : rJ2 B.fp.size rd m (vT L) = T
  q : ∀ x, vQ B L ≤ x → x < vF B L → m x = mq x
  low : ∀ x, x < L → m x = m0 x

section
variable {L p q : Nat} {m0 mq m : Mem β} {f : Fp12 α} {T : EcJ (Fp2 α)}

theorem MS.upF (h : BuildOk B rd F fb) (s : MS B rd L m0 mq f T m) {m' : Mem β} {f' : Fp12 α} (e : rT B.fp.size rd m' (vF B L) = f')
    (fr : ∀ x, x < vTop B L → ¬ (vF B L ≤ x ∧ x < vF B L + B.fp12.size) → m' x = m x) : MS B rd L m0 mq f' T m' := by
  have e12 : B.fp12.size = 12 * B.fp.size := size12 _
  have e2 : B.fp2.size = 2 * B.fp.size := rfl
  rw [e12] at fr
  simp only [vF, vTop] at fr
  refine ⟨e, ?_, ?_, ?_⟩
  · rw [← s.t]
    exact rdJ_ext h.lv2 fun x h1 h2 => fr x (by unfold vT at *; omega) (by unfold vT at *; omega)
  · intro x h1 h2
    rw [← s.q x h1 h2]
    unfold vQ at h1; unfold vF at h2
    exact fr x (by omega) (by omega)
  · intro x hx
    rw [← s.low x hx]
    exact fr x (by omega) (by omega)

theorem MS.upT (h : BuildOk B rd F fb) (s : MS B rd L m0 mq f T m) {m' : Mem β} {T' : EcJ (Fp2 α)} (e : rJ2 B.fp.size rd m' (vT L) = T')
    (fr : ∀ x, x < vTop B L → ¬ (vT L ≤ x ∧ x < vT L + 3 * B.fp2.size) → m' x = m x) : MS B rd L m0 mq f T' m' := by
  have e12 : B.fp12.size = 12 * B.fp.size := size12 _
  have e2 : B.fp2.size = 2 * B.fp.size := rfl
  rw [e2] at fr
  simp only [vT, vTop] at fr
  refine ⟨?_, e, ?_, ?_⟩
  · rw [← s.f]
    exact h.lv12.ext _ _ _ fun x h1 h2 => fr x (by unfold vF at *; omega) (by unfold vF at *; omega)
  · intro x h1 h2
    rw [← s.q x h1 h2]
    unfold vQ at h1; unfold vF at h2
    exact fr x (by omega) (by omega)
  · intro x hx
    rw [← s.low x hx]
    exact fr x (by omega) (by omega)

/-- A step that writes above `f` only. -/
theorem MS.above (h : BuildOk B rd F fb) (s : MS B rd L m0 mq f T m) {m' : Mem β}
    (fr : ∀ x, x < vF0 B L → m' x = m x) : MS B rd L m0 mq f T m' := by
  have e12 : B.fp12.size = 12 * B.fp.size := size12 _
  have e2 : B.fp2.size = 2 * B.fp.size := rfl
  simp only [vF0] at fr
  refine ⟨?_, ?_, ?_, ?_⟩
  · rw [← s.f]
    exact h.lv12.ext _ _ _ fun x h1 h2 => fr x (by unfold vF at *; omega)
  · rw [← s.t]
    exact rdJ_ext h.lv2 fun x h1 h2 => fr x (by unfold vT at *; omega)
  · intro x h1 h2
    rw [← s.q x h1 h2]
    unfold vF at h2
    exact fr x (by omega)
  · intro x hx
    rw [← s.low x hx]
    exact fr x (by omega)

/-- A step that fills the union. -/
theorem MS.upQ (h : BuildOk B rd F fb) (s : MS B rd L m0 mq f T m) {m' : Mem β} {n : Nat} (hn : n ≤ 6 * B.fp.size)
    (fr : ∀ x, x < vTop B L → ¬ (vQ B L ≤ x ∧ x < vQ B L + n) → m' x = m x) : MS B rd L m0 m' f T m' := by
  have e12 : B.fp12.size = 12 * B.fp.size := size12 _
  have e2 : B.fp2.size = 2 * B.fp.size := rfl
  simp only [vQ, vTop] at fr
  refine ⟨?_, ?_, fun _ _ _ => rfl, ?_⟩
  · rw [← s.f]
    exact h.lv12.ext _ _ _ fun x h1 h2 => fr x (by unfold vF at *; omega) (by unfold vF at *; omega)
  · rw [← s.t]
    exact rdJ_ext h.lv2 fun x h1 h2 => fr x (by unfold vT at *; omega) (by unfold vT at *; omega)
  · intro x hx
    rw [← s.low x hx]
    exact fr x (by omega) (by omega)

/-- `f = f * f0` and `f = f^2`. -/
theorem MS.op (h : BuildOk B rd F fb) (s : MS B rd L m0 mq f T m) {f0 v : Fp12 α} (e0 : rT B.fp.size rd m (vF0 B L) = f0) (o : Sym)
    (hv : fn12 F o f f0 = some v) : RunOk B.fp12.size (vTop B L) (vF B L) (rT B.fp.size rd) m (some v)
      (B.fp12.op o (vTop B L) (vF B L) (vF B L) (vF0 B L) m) := by
  have e12 : B.fp12.size = 12 * B.fp.size := size12 _
  have R := RunOk.use (h.lv12.good o) (L := vTop B L) (r := vF B L) (a := vF B L) (b := vF0 B L) (m := m) (Or.inl rfl)
    (by unfold SameOrApart vF vF0; omega) (by unfold SameOrApart vF vF0; omega) (by unfold vF vTop; omega)
    (by unfold vF vTop; omega) (by unfold vF0 vTop; omega)
  rw [s.f, e0, hv] at R
  exact R

theorem MS.sqr (h : BuildOk B rd F fb) (s : MS B rd L m0 mq f T m) {v : Fp12 α} (o : Sym)
    (hv : fn12 F o f f = some v) : RunOk B.fp12.size (vTop B L) (vF B L) (rT B.fp.size rd) m (some v)
      (B.fp12.op o (vTop B L) (vF B L) (vF B L) (vF B L) m) := by
  have e12 : B.fp12.size = 12 * B.fp.size := size12 _
  have R := RunOk.use (h.lv12.good o) (L := vTop B L) (r := vF B L) (a := vF B L) (b := vF B L) (m := m) (Or.inl rfl)
    (Or.inl rfl) (Or.inl rfl) (by unfold vF vTop; omega)
    (by unfold vF vTop; omega) (by unfold vF vTop; omega)
  rw [s.f, hv] at R
  exact R

/-- The line functions as `sm9_pairing` calls them. -/
theorem line_run (h : BuildOk B rd F fb) (s : MS B rd L m0 mq f T m) (hp : p + 2 * B.fp.size ≤ L) {cb b : Nat} {ε : Type}
    {pr : List (GIns LOp)} (hpr : okPG (fun _ => true) dL 2 6 3 cb pr = true) {oB : (Nat → Fp2 α) → ε} {rB : Mem β → Nat → ε}
    (hB : Reads (2 * B.fp.size) (rd2 B.fp.size rd) cb rB oB) {g : EcJ (Fp2 α) → ε → Option (Fp12 α)}
    (H : ∀ (ba : Bool) (S : Nm → Fp2 α), (valG (fnL F (rdA B.fp.size rd m0 p)) (canon false false ba) pr S).map
        (fun S' => outS fun i => S' (.R i)) =
      g (outJ fun i => S (canon false false ba (.A i))) (oB fun i => S (canon false false ba (.B i))))
    (hb : b + cb * (2 * B.fp.size) ≤ vF0 B L) (hbr : b ≠ vF0 B L) (hab : SameOrApart (vT L) (3 * (2 * B.fp.size)) b (cb * (2 * B.fp.size))) :
    RunOk B.fp12.size (vD0 B L) (vF0 B L) (rT B.fp.size rd) m (g T (rB m b))
      (callG (lOps B p) B.fp2.size 2 pr (vD0 B L) (vF0 B L) (vT L) b m) := by
  have hpos := h.pos
  have n1 : ¬ (vT L = vF0 B L) := by unfold vT vF0; omega
  have e12 : B.fp12.size = 12 * B.fp.size := size12 _
  have R := call_atG (h.lvL (m0 := m0) hp) 2 6 3 cb pr hpr (g := g) (L := vD0 B L) (r := vF0 B L) (a := vT L) (b := b) (m := m)
    readsS (readsJ (I := B.fp2)) hB
    (by rw [decide_eq_false n1, decide_eq_false hbr]; exact H _) s.low (by unfold vF0; omega) (by unfold vD0; omega)
    (by unfold SameOrApart vT vF0; omega) (Or.inr (Or.inr hb)) hab (by unfold vF0 vD0; omega) (by unfold vT vD0; omega)
    (by unfold vF0 at hb; unfold vD0; omega)
  have ht : rdJ (2 * B.fp.size) (rd2 B.fp.size rd) m (vT L) = T := s.t
  have e6 : 6 * (2 * B.fp.size) = B.fp12.size := by omega
  change RunOk _ _ _ _ _ (g (rdJ (2 * B.fp.size) (rd2 B.fp.size rd) m (vT L)) _) _ at R
  rw [ht, e6] at R
  exact R

theorem line_frame {m m' : Mem β} (fr : ∀ x, x < vD0 B L → ¬ (vF0 B L ≤ x ∧ x < vF0 B L + B.fp12.size) → m' x = m x) :
    ∀ x, x < vF0 B L → m' x = m x := fun x hx => fr x (by unfold vF0 at hx; unfold vD0; omega) (by omega)

theorem tangent_run (h : BuildOk B rd F fb) (s : MS B rd L m0 mq f T m) (hp : p + 2 * B.fp.size ≤ L) :
    RunOk B.fp12.size (vD0 B L) (vF0 B L) (rT B.fp.size rd) m (tangentV F T (rdA B.fp.size rd m0 p))
      (tangent B p (vD0 B L) (vF0 B L) (vT L) (vT L) m) := by
  have hpos := h.pos
  exact line_run h s hp (cb := 3) (b := vT L) (pr := tangentP) (by decide +kernel) (readsJ (I := B.fp2))
    (g := fun T _ => tangentV F T (rdA B.fp.size rd m0 p)) (fun ba S => cg_tangent F _ ba S) (by unfold vT vF0; omega)
    (by unfold vT vF0; omega) (Or.inl rfl)

theorem lineA_run (h : BuildOk B rd F fb) (s : MS B rd L m0 mq f T m) (hp : p + 2 * B.fp.size ≤ L) {b : Nat}
    (hb : b + 4 * B.fp.size ≤ L ∨ b = vQ B L) :
    RunOk B.fp12.size (vD0 B L) (vF0 B L) (rT B.fp.size rd) m
      (some (lineAV F T (rA2 B.fp.size rd m b) (rdA B.fp.size rd m0 p)))
      (lineA B p (vD0 B L) (vF0 B L) (vT L) b m) := by
  have hpos := h.pos
  unfold vQ at hb
  exact line_run h s hp (cb := 2) (b := b) (pr := lineAP) (by decide +kernel) (readsA (I := B.fp2))
    (g := fun T Q => some (lineAV F T Q (rdA B.fp.size rd m0 p))) (fun ba S => cg_lineA F _ ba S) (by unfold vF0; omega)
    (by unfold vF0; omega) (by unfold SameOrApart vT; omega)

theorem lineJ_run (h : BuildOk B rd F fb) (s : MS B rd L m0 mq f T m) (hp : p + 2 * B.fp.size ≤ L) :
    RunOk B.fp12.size (vD0 B L) (vF0 B L) (rT B.fp.size rd) m
      (some (lineJV F T (rJ2 B.fp.size rd m (vQ B L)) (rdA B.fp.size rd m0 p)))
      (lineJ B p (vD0 B L) (vF0 B L) (vT L) (vQ B L) m) := by
  have hpos := h.pos
  exact line_run h s hp (cb := 3) (b := vQ B L) (pr := lineJP) (by decide +kernel) (readsJ (I := B.fp2))
    (g := fun T Q => some (lineJV F T Q (rdA B.fp.size rd m0 p))) (fun ba S => cg_lineJ F _ ba S) (by unfold vQ vF0; omega)
    (by unfold vQ vF0; omega) (by unfold SameOrApart vT vQ; omega)

theorem rA2_ext (h : BuildOk B rd F fb) {m m' : Mem β} {a : Nat} (e : ∀ x, a ≤ x → x < a + 4 * B.fp.size → m x = m' x) :
    rA2 B.fp.size rd m a = rA2 B.fp.size rd m' a :=
  rdA_ext h.lv2 fun x h1 h2 => e x h1 (by have e2 : B.fp2.size = 2 * B.fp.size := rfl; omega)
theorem rJ2_ext (h : BuildOk B rd F fb) {m m' : Mem β} {a : Nat} (e : ∀ x, a ≤ x → x < a + 6 * B.fp.size → m x = m' x) :
    rJ2 B.fp.size rd m a = rJ2 B.fp.size rd m' a :=
  rdJ_ext h.lv2 fun x h1 h2 => e x h1 (by have e2 : B.fp2.size = 2 * B.fp.size := rfl; omega)

/-- The line through `T` and `N`, the multiplication and the addition (sm9_field.cpp 2304-2318). -/
theorem addStep_run (h : BuildOk B rd F fb) (s : MS B rd L m0 mq f T m) (hp : p + 2 * B.fp.size ≤ L) {b : Nat}
    (hb : b + 4 * B.fp.size ≤ L ∨ b = vQ B L) {N : EcA (Fp2 α)}
    (hN : ∀ {f T m}, MS B rd L m0 mq f T m → rA2 B.fp.size rd m b = N) :
    Runs (some (fp12Mul F f (lineAV F T N (rdA B.fp.size rd m0 p)), ecJAddA (fp2Ops F) T N))
      (do
        let m ← lineA B p (vD0 B L) (vF0 B L) (vT L) b m
        let m ← B.fp12.op .mul (vTop B L) (vF B L) (vF B L) (vF0 B L) m
        call B.fp2 9 addAP (vTop B L) (vT L) (vT L) b m) (fun v m' => MS B rd L m0 mq v.1 v.2 m') := by
  have e2 : B.fp2.size = 2 * B.fp.size := rfl
  have R := lineA_run h s hp hb
  rw [hN s] at R
  refine Runs.step R fun m1 a1 a2 => ?_
  have s1 := s.above h (line_frame a2)
  refine Runs.step (s1.op h a1 .mul rfl) fun m2 b1 b2 => ?_
  have s2 := s1.upF h b1 b2
  have Q := RunOk.use ((cJ_addA (fp2Ops F) _).safe h.lv2 9 readsJ readsJ readsA (by decide)) (L := vTop B L) (r := vT L) (a := vT L)
    (b := b) (m := m2) (Or.inl rfl) (by unfold vQ at hb; unfold SameOrApart vT; omega) (by unfold vQ at hb; unfold SameOrApart vT; omega)
    (by unfold vT vTop; omega) (by unfold vT vTop; omega) (by unfold vQ at hb; unfold vTop; omega)
  have ht : rdJ B.fp2.size (rd2 B.fp.size rd) m2 (vT L) = T := s2.t
  have hn : rdA B.fp2.size (rd2 B.fp.size rd) m2 b = N := hN s2
  rw [ht, hn] at Q
  obtain ⟨m3, c1, c2, c3⟩ := Q.2 _ rfl
  rw [c1]
  exact Runs.ok (s2.upT h c2 c3)

theorem millerStep_run (h : BuildOk B rd F fb) (s : MS B rd L m0 mq f T m) (hp : p + 2 * B.fp.size ≤ L)
    (hq : q + 4 * B.fp.size ≤ L) (c : Char) :
    Runs (millerStepV F (rdA B.fp.size rd m0 p) (rA2 B.fp.size rd m0 q) (rA2 B.fp.size rd mq (vQ B L)) c f T)
      (millerStep B L p q c m) (fun v m' => MS B rd L m0 mq v.1 v.2 m') := by
  have e2 : B.fp2.size = 2 * B.fp.size := rfl
  unfold millerStepV millerStep
  refine Runs.step (s.sqr h .sqr rfl) fun m1 a1 a2 => ?_
  have s1 := s.upF h a1 a2
  refine Runs.stepG (tangent_run h s1 hp) fun f0 m2 b1 b2 => ?_
  have s2 := s1.above h (line_frame b2)
  refine Runs.step (s2.op h b1 .mul rfl) fun m3 c1 c2 => ?_
  have s3 := s2.upF h c1 c2
  have Q := RunOk.use ((cJ_dblSm9 (fp2Ops F) _).safe h.lv2 6 readsJ readsJ readsJ (by decide)) (L := vTop B L) (r := vT L) (a := vT L)
    (b := vT L) (m := m3) (Or.inl rfl) (Or.inl rfl) (Or.inl rfl)
    (by unfold vT vTop; omega) (by unfold vT vTop; omega) (by unfold vT vTop; omega)
  have ht : rdJ B.fp2.size (rd2 B.fp.size rd) m3 (vT L) = T := s3.t
  rw [ht] at Q
  refine Runs.stepG Q fun T' m4 d1 d2 => ?_
  have s4 := s3.upT h d1 d2
  by_cases h1 : c = '1'
  · rw [if_pos h1, if_pos h1]
    exact addStep_run h s4 hp (Or.inl hq) fun s => rA2_ext h fun x _ hx => s.low x (by omega)
  · rw [if_neg h1, if_neg h1]
    by_cases h2 : c = '2'
    · rw [if_pos h2, if_pos h2]
      exact addStep_run h s4 hp (Or.inr rfl) fun s => rA2_ext h fun x h1 hx => s.q x h1 (by unfold vQ at hx; unfold vF; omega)
    · rw [if_neg h2, if_neg h2]
      exact Runs.ok s4

theorem millerLoop_run (h : BuildOk B rd F fb) (hp : p + 2 * B.fp.size ≤ L)
    (hq : q + 4 * B.fp.size ≤ L) : ∀ (cs : List Char) (f : Fp12 α) (T : EcJ (Fp2 α)) (m : Mem β), MS B rd L m0 mq f T m →
    Runs (millerLoopV F (rdA B.fp.size rd m0 p) (rA2 B.fp.size rd m0 q) (rA2 B.fp.size rd mq (vQ B L)) cs f T)
      (millerLoop B L p q cs m) (fun v m' => MS B rd L m0 mq v.1 v.2 m')
  | [], f, T, m, s => Runs.ok s
  | c :: cs, f, T, m, s => by
    unfold millerLoopV millerLoop
    exact Runs.bind (millerStep_run h s hp hq c) fun v m' s' => millerLoop_run h hp hq cs v.1 v.2 m' s'

/-- The last additions and the final exponentiation (sm9_field.cpp 2322-2333). -/
theorem tail_run (h : BuildOk B rd F fb) (s : MS B rd L m0 mq f T m) (hp : p + 2 * B.fp.size ≤ L)
    (hq : q + 4 * B.fp.size ≤ L) {r : Nat} (hr : r + B.fp12.size ≤ L) :
    Runs (do
        let qj := frobAV F fb (rA2 B.fp.size rd m0 q)
        let f := fp12Mul F f (lineJV F T qj (rdA B.fp.size rd m0 p))
        let T ← ecJAdd0 (fp2Ops F) T qj
        let qj := ecJNeg (fp2Ops F) (frob2AV F fb (rA2 B.fp.size rd m0 q))
        finalV F fb (fp12Mul F f (lineJV F T qj (rdA B.fp.size rd m0 p))))
      (do
        let m ← callG (fOps B) B.fp.size 0 frobAP (vTop B L) (vQ B L) q q m
        let m ← lineJ B p (vD0 B L) (vF0 B L) (vT L) (vQ B L) m
        let m ← B.fp12.op .mul (vTop B L) (vF B L) (vF B L) (vF0 B L) m
        let m ← Alias.ecJAdd B.fp2 sm9DblP 6 (vTop B L) (vT L) (vT L) (vQ B L) m
        let m ← callG (fOps B) B.fp.size 0 frob2AP (vTop B L) (vQ B L) q q m
        let m ← call B.fp2 0 ecJNegP (vTop B L) (vQ B L) (vQ B L) (vQ B L) m
        let m ← lineJ B p (vD0 B L) (vF0 B L) (vT L) (vQ B L) m
        let m ← B.fp12.op .mul (vTop B L) (vF B L) (vF B L) (vF0 B L) m
        finalExp B (vTop B L) r (vF B L) (vF B L) m)
      (fun v m' => rT B.fp.size rd m' r = v ∧ ∀ x, x < L → ¬ (r ≤ x ∧ x < r + B.fp12.size) → m' x = m0 x) := by
  have e2 : B.fp2.size = 2 * B.fp.size := rfl
  have e12 : B.fp12.size = 12 * B.fp.size := size12 _
  have hA : ∀ {f T m mq}, MS B rd L m0 mq f T m → rA2 B.fp.size rd m q = rA2 B.fp.size rd m0 q :=
    fun s => rA2_ext h fun x _ hx => s.low x (by omega)
  have R := RunOk.use ((cg_frobA F fb _).safe (h.lvC 0) 0 readsJ2 readsA2 readsA2 (by decide +kernel)) (L := vTop B L) (r := vQ B L)
    (a := q) (b := q) (m := m) (by unfold SameOrApart vQ; omega) (by unfold SameOrApart vQ; omega) (Or.inl rfl)
    (by unfold vQ vTop; omega) (by unfold vTop; omega) (by unfold vTop; omega)
  rw [hA s] at R
  refine Runs.step R fun m1 a1 a2 => ?_
  have s1 := s.upQ h (Nat.le_refl _) a2
  have R := lineJ_run h s1 hp
  rw [a1] at R
  refine Runs.step R fun m2 b1 b2 => ?_
  have s2 := s1.above h (line_frame b2)
  refine Runs.step (s2.op h b1 .mul rfl) fun m3 c1 c2 => ?_
  have s3 := s2.upF h c1 c2
  have R := RunOk.use (add_safe h.lv2 sm9DblP 6 (ecJDbl0 (fp2Ops F)) (cJ_dblSm9 (fp2Ops F) _) (by decide)) (L := vTop B L) (r := vT L)
    (a := vT L) (b := vQ B L) (m := m3) (Or.inl rfl) (by unfold SameOrApart vT vQ; omega) (by unfold SameOrApart vT vQ; omega)
    (by unfold vT vTop; omega) (by unfold vT vTop; omega) (by unfold vQ vTop; omega)
  have ht : rdJ B.fp2.size (rd2 B.fp.size rd) m3 (vT L) = T := s3.t
  have hj : rdJ B.fp2.size (rd2 B.fp.size rd) m3 (vQ B L) = frobAV F fb (rA2 B.fp.size rd m0 q) := by
    rw [← a1]
    exact rJ2_ext h fun x h1 hx => s3.q x h1 (by unfold vQ at hx; unfold vF; omega)
  rw [ht, hj, ← addG_sm9] at R
  refine Runs.stepG R fun T' m4 d1 d2 => ?_
  have s4 := s3.upT h d1 d2
  have R := RunOk.use ((cg_frob2A F fb _).safe (h.lvC 0) 0 readsJ2 readsA2 readsA2 (by decide +kernel)) (L := vTop B L) (r := vQ B L)
    (a := q) (b := q) (m := m4) (by unfold SameOrApart vQ; omega) (by unfold SameOrApart vQ; omega) (Or.inl rfl)
    (by unfold vQ vTop; omega) (by unfold vTop; omega) (by unfold vTop; omega)
  rw [hA s4] at R
  refine Runs.step R fun m5 i1 i2 => ?_
  have s5 := s4.upQ h (Nat.le_refl _) i2
  have R := RunOk.use ((cJ_neg (fp2Ops F) _).safe h.lv2 0 readsJ readsJ readsJ (by decide)) (L := vTop B L) (r := vQ B L)
    (a := vQ B L) (b := vQ B L) (m := m5) (Or.inl rfl) (Or.inl rfl) (Or.inl rfl)
    (by unfold vQ vTop; omega) (by unfold vQ vTop; omega) (by unfold vQ vTop; omega)
  have hj : rdJ B.fp2.size (rd2 B.fp.size rd) m5 (vQ B L) = frob2AV F fb (rA2 B.fp.size rd m0 q) := i1
  rw [hj] at R
  refine Runs.step R fun m6 j1 j2 => ?_
  have s6 := s5.upQ h (by omega) j2
  have R := lineJ_run h s6 hp
  have hj : rJ2 B.fp.size rd m6 (vQ B L) = ecJNeg (fp2Ops F) (frob2AV F fb (rA2 B.fp.size rd m0 q)) := j1
  rw [hj] at R
  refine Runs.step R fun m7 k1 k2 => ?_
  have s7 := s6.above h (line_frame k2)
  refine Runs.step (s7.op h k1 .mul rfl) fun m8 l1 l2 => ?_
  have s8 := s7.upF h l1 l2
  have R := RunOk.use (finalExp_safe h) (L := vTop B L) (r := r)
    (a := vF B L) (b := vF B L) (m := m8) (by unfold SameOrApart vF; omega) (by unfold SameOrApart vF; omega) (Or.inl rfl)
    (by unfold vTop; omega) (by unfold vF vTop; omega) (by unfold vF vTop; omega)
  rw [s8.f] at R
  refine ⟨R.1, fun v e => ?_⟩
  obtain ⟨m9, o1, o2, o3⟩ := R.2 v e
  exact ⟨m9, o1, o2, fun x hx hn => (o3 x (by unfold vTop; omega) hn).trans (s8.low x hx)⟩

theorem pairingV_eq (P : EcA α) (Q : EcA (Fp2 α)) : pairingV F fb P Q =
    (millerLoopV F P Q ⟨Q.x, (fp2Ops F).neg Q.y⟩ Sm9.nafA (fp12One F) (ecJFromA (fp2Ops F) Q) >>= fun (v : Fp12 α × EcJ (Fp2 α)) => do
        let qj := frobAV F fb Q
        let f := fp12Mul F v.1 (lineJV F v.2 qj P)
        let T ← ecJAdd0 (fp2Ops F) v.2 qj
        let qj := ecJNeg (fp2Ops F) (frob2AV F fb Q)
        finalV F fb (fp12Mul F f (lineJV F T qj P))) := by
  unfold pairingV millerV
  dsimp only
  generalize millerLoopV F P Q _ _ _ _ = o
  cases o with
  | none => rfl
  | some v =>
    show (ecJAdd0 (fp2Ops F) v.2 (frobAV F fb Q) >>= _) >>= _ = ecJAdd0 (fp2Ops F) v.2 (frobAV F fb Q) >>= _
    generalize ecJAdd0 (fp2Ops F) v.2 (frobAV F fb Q) = o
    cases o <;> rfl

/-- `sm9_pairing(r, P, Q)` on memory is the pairing of the values. -/
theorem pairing_safe (h : BuildOk B rd F fb) :
    InPlaceSafe B.fp12.size (2 * B.fp.size) (4 * B.fp.size) (rT B.fp.size rd)
      (fun m p q => pairingV F fb (rdA B.fp.size rd m p) (rA2 B.fp.size rd m q)) (pairing B) := by
  refine RunOk.safe fun L r p q m hrp hrq hpq hr hp hq => ?_
  have e2 : B.fp2.size = 2 * B.fp.size := rfl
  have e4 : B.fp4.size = 4 * B.fp.size := by show 2 * (2 * B.fp.size) = _; omega
  have e12 : B.fp12.size = 12 * B.fp.size := size12 _
  have s0 : MS B rd L m m (rT B.fp.size rd m (vF B L)) (rJ2 B.fp.size rd m (vT L)) m :=
    ⟨rfl, rfl, fun _ _ _ => rfl, fun _ _ => rfl⟩
  have hA : ∀ {f T m' mq}, MS B rd L m mq f T m' → rA2 B.fp.size rd m' q = rA2 B.fp.size rd m q :=
    fun s => rA2_ext h fun x _ hx => s.low x (by omega)
  rw [pairingV_eq]
  unfold pairing
  refine Runs.step (s0.sqr h .one rfl) fun m1 a1 a2 => ?_
  have s1 := s0.upF h a1 a2
  have R := RunOk.use (h.lv4.good .one) (L := vTop B L) (r := vD B L) (a := vD B L) (b := vD B L) (m := m1)
    (Or.inl rfl) (Or.inl rfl) (Or.inl rfl) (by unfold vD vTop; omega) (by unfold vD vTop; omega) (by unfold vD vTop; omega)
  refine Runs.step (v := fp4One F) R fun m2 b1 b2 => ?_
  have s2 := s1.above h fun x hx => b2 x (by unfold vF0 at hx; unfold vTop; omega) (by unfold vF0 at hx; unfold vD; omega)
  have R := RunOk.use ((cJ_fromA (fp2Ops F) _).safe h.lv2 0 readsJ readsA readsA (by decide)) (L := vTop B L) (r := vT L)
    (a := q) (b := q) (m := m2) (by unfold SameOrApart vT; omega) (by unfold SameOrApart vT; omega) (Or.inl rfl)
    (by unfold vT vTop; omega) (by unfold vTop; omega) (by unfold vTop; omega)
  have hj : rdA B.fp2.size (rd2 B.fp.size rd) m2 q = rA2 B.fp.size rd m q := hA s2
  rw [hj] at R
  refine Runs.step R fun m3 c1 c2 => ?_
  have s3 := s2.upT h c1 c2
  have R := RunOk.use ((cA_neg (fp2Ops F) _).safe h.lv2 0 readsA readsA readsA (by decide)) (L := vTop B L) (r := vQ B L)
    (a := q) (b := q) (m := m3) (by unfold SameOrApart vQ; omega) (by unfold SameOrApart vQ; omega) (Or.inl rfl)
    (by unfold vQ vTop; omega) (by unfold vTop; omega) (by unfold vTop; omega)
  have hj : rdA B.fp2.size (rd2 B.fp.size rd) m3 q = rA2 B.fp.size rd m q := hA s3
  rw [hj] at R
  refine Runs.step R fun m4 d1 d2 => ?_
  have s4 := s3.upQ h (n := 2 * B.fp2.size) (by omega) d2
  have d1' : rA2 B.fp.size rd m4 (vQ B L) = ⟨(rA2 B.fp.size rd m q).x, (fp2Ops F).neg (rA2 B.fp.size rd m q).y⟩ := d1
  rw [← d1']
  exact Runs.bind (millerLoop_run h hp hq Sm9.nafA _ _ m4 s4) fun v m5 s5 => tail_run h s5 hp hq hr

/-- The Frobenius maps of `sm9_ec2_a` into Jacobian coordinates. -/
theorem frobA_safe (h : BuildOk B rd F fb) : InPlaceSafe (6 * B.fp.size) (4 * B.fp.size) (4 * B.fp.size) (rJ2 B.fp.size rd)
    (fun m a _ => some (frobAV F fb (rA2 B.fp.size rd m a))) (callG (fOps B) B.fp.size 0 frobAP) :=
  (cg_frobA F fb _).safe (h.lvC 0) 0 readsJ2 readsA2 readsA2 (by decide +kernel)
theorem frob2A_safe (h : BuildOk B rd F fb) : InPlaceSafe (6 * B.fp.size) (4 * B.fp.size) (4 * B.fp.size) (rJ2 B.fp.size rd)
    (fun m a _ => some (frob2AV F fb (rA2 B.fp.size rd m a))) (callG (fOps B) B.fp.size 0 frob2AP) :=
  (cg_frob2A F fb _).safe (h.lvC 0) 0 readsJ2 readsA2 readsA2 (by decide +kernel)

theorem fb_run (h : BuildOk B rd F fb) (bs : List Byte) (hl : bs.length = 32) {L r : Nat} (m : Mem β) (hr : r + B.fp.size ≤ L) :
    RunOk B.fp.size L r rd m (some (fb bs)) (B.fromBytes bs L r r r m) :=
  RunOk.use (h.fb_ok bs hl) (Or.inl rfl) (Or.inl rfl) (Or.inl rfl) hr hr hr

theorem fb2_run (h : BuildOk B rd F fb) (bs : List Byte) (hl : bs.length = 64) {L r : Nat} (m : Mem β) (hr : r + 2 * B.fp.size ≤ L) :
    RunOk (2 * B.fp.size) L r (rd2 B.fp.size rd) m (some ⟨fb ((bs.drop 32).take 32), fb (bs.take 32)⟩)
      (fp2FromBytes B bs L r r r m) := by
  refine ⟨fun e => (by cases e), fun v e => ?_⟩
  cases e
  obtain ⟨m1, a1, a2, a3⟩ := (fb_run h (bs.take 32) (by rw [List.length_take, hl]; rfl) (L := L) (r := r + B.fp.size) m (by omega)).2 _ rfl
  obtain ⟨m2, b1, b2, b3⟩ := (fb_run h ((bs.drop 32).take 32) (by rw [List.length_take, List.length_drop, hl]; rfl) (L := L) (r := r) m1
    (by omega)).2 _ rfl
  refine ⟨m2, ?_, ?_, fun x h1 h2 => ?_⟩
  · show (B.fromBytes _ L _ _ _ m >>= _) = _
    rw [a1]; exact b1
  · unfold rd2
    rw [b2, h.lv.ext m2 m1 (r + B.fp.size) fun x h1 h2 => b3 x (by omega) (by omega), a2]
  · rw [b3 x h1 (by omega), a3 x h1 (by omega)]

theorem bind_some_eq {σ τ : Type} {o : Option σ} {v : σ} {f : σ → Option τ} (e : o = some v) : (o >>= f) = f v := by
  rw [e]; rfl

theorem pairingP1_safe (h : BuildOk B rd F fb) :
    InPlaceSafe B.fp12.size (4 * B.fp.size) (4 * B.fp.size) (rT B.fp.size rd)
      (fun m q _ => pairingV F fb ⟨fb Sm9.sm9CurveGx, fb Sm9.sm9CurveGy⟩ (rA2 B.fp.size rd m q)) (pairingP1 B) := by
  refine RunOk.safe fun L r q b m hrq _ _ hr hq _ => ?_
  have e12 : B.fp12.size = 12 * B.fp.size := size12 _
  obtain ⟨m1, a1, a2, a3⟩ := (fb_run h Sm9.sm9CurveGx (by decide) (L := L + 2 * B.fp.size) (r := L) m (by omega)).2 _ rfl
  obtain ⟨m2, b1, b2, b3⟩ := (fb_run h Sm9.sm9CurveGy (by decide) (L := L + 2 * B.fp.size) (r := L + B.fp.size) m1 (by omega)).2 _ rfl
  have low : ∀ x, x < L → m2 x = m x := fun x hx => by rw [b3 x (by omega) (by omega), a3 x (by omega) (by omega)]
  have eP : rdA B.fp.size rd m2 L = ⟨fb Sm9.sm9CurveGx, fb Sm9.sm9CurveGy⟩ := by
    unfold rdA
    rw [b2, h.lv.ext m2 m1 L fun x h1 h2 => b3 x (by omega) (by omega), a2]
  have eQ : rA2 B.fp.size rd m2 q = rA2 B.fp.size rd m q := rA2_ext h fun x _ hx => low x (by omega)
  have R := RunOk.use (pairing_safe h) (L := L + 2 * B.fp.size) (r := r) (a := L) (b := q) (m := m2)
    (by unfold SameOrApart; omega) hrq (by unfold SameOrApart; omega) (by omega) (by omega) (by omega)
  rw [eP, eQ] at R
  have e : pairingP1 B L r q b m = pairing B (L + 2 * B.fp.size) r L q m2 := by
    unfold pairingP1
    exact (bind_some_eq a1).trans (bind_some_eq b1)
  rw [e]
  refine ⟨R.1, fun v e => ?_⟩
  obtain ⟨m', c1, c2, c3⟩ := R.2 v e
  exact ⟨m', c1, c2, fun x hx hn => (c3 x (by omega) hn).trans (low x hx)⟩

theorem pairingP2_safe (h : BuildOk B rd F fb) :
    InPlaceSafe B.fp12.size (2 * B.fp.size) (2 * B.fp.size) (rT B.fp.size rd)
      (fun m p _ => pairingV F fb (rdA B.fp.size rd m p)
        ⟨⟨fb ((Sm9.sm9Curve2Gx.drop 32).take 32), fb (Sm9.sm9Curve2Gx.take 32)⟩,
         ⟨fb ((Sm9.sm9Curve2Gy.drop 32).take 32), fb (Sm9.sm9Curve2Gy.take 32)⟩⟩) (pairingP2 B) := by
  refine RunOk.safe fun L r p b m hrp _ _ hr hp _ => ?_
  have e12 : B.fp12.size = 12 * B.fp.size := size12 _
  obtain ⟨m1, a1, a2, a3⟩ := (fb2_run h Sm9.sm9Curve2Gx (by decide) (L := L + 4 * B.fp.size) (r := L) m (by omega)).2 _ rfl
  obtain ⟨m2, b1, b2, b3⟩ := (fb2_run h Sm9.sm9Curve2Gy (by decide) (L := L + 4 * B.fp.size) (r := L + 2 * B.fp.size) m1 (by omega)).2 _ rfl
  have low : ∀ x, x < L → m2 x = m x := fun x hx => by rw [b3 x (by omega) (by omega), a3 x (by omega) (by omega)]
  have eP : rdA B.fp.size rd m2 p = rdA B.fp.size rd m p := rdA_ext h.lv fun x _ hx => low x (by omega)
  have eQ : rA2 B.fp.size rd m2 L = ⟨⟨fb ((Sm9.sm9Curve2Gx.drop 32).take 32), fb (Sm9.sm9Curve2Gx.take 32)⟩,
         ⟨fb ((Sm9.sm9Curve2Gy.drop 32).take 32), fb (Sm9.sm9Curve2Gy.take 32)⟩⟩ := by
    have e2 : B.fp2.size = 2 * B.fp.size := rfl
    unfold rA2 rdA
    rw [b2, h.lv2.ext m2 m1 L fun x h1 h2 => b3 x (by omega) (by omega), a2]
  have R := RunOk.use (pairing_safe h) (L := L + 4 * B.fp.size) (r := r) (a := p) (b := L) (m := m2)
    hrp (by unfold SameOrApart; omega) (by unfold SameOrApart; omega) (by omega) (by omega) (by omega)
  rw [eP, eQ] at R
  have e : pairingP2 B L r p b m = pairing B (L + 4 * B.fp.size) r p L m2 := by
    unfold pairingP2
    exact (bind_some_eq a1).trans (bind_some_eq b1)
  rw [e]
  refine ⟨R.1, fun v e => ?_⟩
  obtain ⟨m', c1, c2, c3⟩ := R.2 v e
  exact ⟨m', c1, c2, fun x hx hn => (c3 x (by omega) hn).trans (low x hx)⟩
end
end
end Verif.PairMem
