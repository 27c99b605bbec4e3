import Verif.Proofs.PairMem
import Verif.Spec.PairMem
/-! Helper lemmas for C101: square roots and point multiplication on memory. -/
namespace Verif.PairMem
open Verif Verif.Alias Verif.Spec.Alias

section
variable {β α : Type} {I : Impl β} {rd : Mem β → Nat → α} {fn : Sym → α → α → Option α} {eqv : α → α → Bool}
  {isz : α → Bool} {mul : α → α → α} {sqr neg : α → α}

def sqrt2V (P : List Byte → α → Option α) (sqr : α → α) (eqv : α → α → Bool) (a : α) : Option (Option α) :=
  match P Sm2.pSub3Div4Add1 a with
  | none => none
  | some t => if !eqv a (sqr t) then some none else some (some t)

theorem sqrt2_safe (lv : Level I rd fn eqv isz) (h : PowFn fn mul sqr) {pow : List Byte → MemOp β}
    {P : List Byte → α → Option α}
    (hp : ∀ e, InPlaceSafe I.size I.size I.size rd (fun m a _ => P e (rd m a)) (pow e)) :
    SqrtSafe I.size rd (sqrt2V P sqr eqv) (sqrt2 I pow) := by
  intro L r a m hra hr ha
  have p1 := hp Sm2.pSub3Div4Add1 (L + 2 * I.size) L a a m (Or.inr (Or.inr ha)) (Or.inr (Or.inr ha)) (Or.inl rfl)
    (by omega) (by omega) (by omega)
  unfold sqrt2V sqrt2
  dsimp only at p1 ⊢
  cases hv : P Sm2.pSub3Div4Add1 (rd m a) with
  | none => rw [hv] at p1; simp only [p1]
  | some t =>
    rw [hv] at p1
    obtain ⟨m1, a1, a2, a3⟩ := p1
    have p2 := lv.good .sqr (L + 2 * I.size) (L + I.size) L L m1 (Or.inr (Or.inr (Nat.le_refl _)))
      (Or.inr (Or.inr (Nat.le_refl _))) (Or.inl rfl) (by omega) (by omega) (by omega)
    dsimp only at p2
    rw [h.s, a2] at p2
    obtain ⟨m2, b1, b2, b3⟩ := p2
    simp only [a1, b1, lv.eq_ok, b2]
    have ea : rd m2 a = rd m a := lv.ext _ _ _ fun x h1 h2 => by rw [b3 x (by omega) (by omega), a3 x (by omega) (by omega)]
    have et : rd m2 L = t := (lv.ext _ _ _ fun x h1 h2 => b3 x (by omega) (by omega)).trans a2
    rw [ea]
    cases hc : eqv (rd m a) (sqr t) with
    | false =>
      exact ⟨m2, rfl, fun x hx => by rw [b3 x (by omega) (by omega), a3 x (by omega) (by omega)]⟩
    | true =>
      have p3 := lv.good .cpy (L + 2 * I.size) r L L m2 (Or.inr (Or.inl hr)) (Or.inr (Or.inl hr)) (Or.inl rfl)
        (by omega) (by omega) (by omega)
      dsimp only at p3
      rw [h.c, et] at p3
      obtain ⟨m3, c1, c2, c3⟩ := p3
      refine ⟨m3, ?_, c2, fun x hx hn => by
        rw [c3 x (by omega) hn, b3 x (by omega) (by omega), a3 x (by omega) (by omega)]⟩
      simp only [Bool.not_true, Bool.false_eq_true, if_false, c1, Option.map_some]

def sqrt9V (P : List Byte → α → Option α) (mul : α → α → α) (eqv : α → α → Bool) (isOneV : α → Bool) (neg1 : α)
    (fb : List Byte → α) (a : α) : Option (Option α) :=
  match P Sm9.uMul2Add1 a with
  | none => none
  | some z =>
    if !isOneV z && !eqv z neg1 then some none
    else
      match P Sm9.uAdd1 a with
      | none => none
      | some r => if eqv z neg1 then some (some (mul r (fb Sm9.twoPow2u1Data))) else some (some r)

theorem sqrt9_safe (lv : Level I rd fn eqv isz) (h : PowFn fn mul sqr) {oneV neg1 : α}
    (h1 : ∀ a b, fn .one a b = some oneV) (hn : ∀ b, fn .neg oneV b = some neg1) {pow : List Byte → MemOp β}
    {P : List Byte → α → Option α}
    (hp : ∀ e, InPlaceSafe I.size I.size I.size rd (fun m a _ => P e (rd m a)) (pow e))
    {isOne : Nat → Mem β → Bool} {isOneV : α → Bool} (ho : ∀ x m, isOne x m = isOneV (rd m x))
    {fromB : List Byte → MemOp β} {fb : List Byte → α}
    (hf : InPlaceSafe I.size I.size I.size rd (fun _ _ _ => some (fb Sm9.twoPow2u1Data)) (fromB Sm9.twoPow2u1Data)) :
    SqrtSafe I.size rd (sqrt9V P mul eqv isOneV neg1 fb) (sqrt9 I pow isOne fromB) := by
  intro L r a m hra hr ha
  have p1 := lv.good .one (L + 2 * I.size) (L + I.size) (L + I.size) (L + I.size) m (Or.inl rfl) (Or.inl rfl) (Or.inl rfl)
    (by omega) (by omega) (by omega)
  dsimp only at p1
  rw [h1] at p1
  obtain ⟨m1, a1, a2, a3⟩ := p1
  have p2 := lv.good .neg (L + 2 * I.size) (L + I.size) (L + I.size) (L + I.size) m1 (Or.inl rfl) (Or.inl rfl) (Or.inl rfl)
    (by omega) (by omega) (by omega)
  dsimp only at p2
  rw [a2, hn] at p2
  obtain ⟨m2, b1, b2, b3⟩ := p2
  have p3 := hp Sm9.uMul2Add1 (L + 2 * I.size) L a a m2 (Or.inr (Or.inr ha)) (Or.inr (Or.inr ha)) (Or.inl rfl)
    (by omega) (by omega) (by omega)
  have f2 : ∀ x, x < L → m2 x = m x := fun x hx => by rw [b3 x (by omega) (by omega), a3 x (by omega) (by omega)]
  have e2 : rd m2 a = rd m a := lv.ext _ _ _ fun x _ _ => f2 x (by omega)
  unfold sqrt9V sqrt9
  dsimp only at p3 ⊢
  rw [e2] at p3
  simp only [a1, b1]
  cases hv : P Sm9.uMul2Add1 (rd m a) with
  | none => rw [hv] at p3; simp only [p3]
  | some z =>
    rw [hv] at p3
    obtain ⟨m3, c1, c2, c3⟩ := p3
    have f3 : ∀ x, x < L → m3 x = m x := fun x hx => by rw [c3 x (by omega) (by omega), f2 x hx]
    have e3 : rd m3 a = rd m a := lv.ext _ _ _ fun x _ _ => f3 x (by omega)
    have n3 : rd m3 (L + I.size) = neg1 := (lv.ext _ _ _ fun x h1 h2 => c3 x (by omega) (by omega)).trans b2
    simp only [c1, ho, lv.eq_ok, c2, n3]
    by_cases hc : (!isOneV z && !eqv z neg1) = true
    · simp only [if_pos hc]
      exact ⟨m3, rfl, f3⟩
    · simp only [if_neg hc]
      have p4 := hp Sm9.uAdd1 (L + 2 * I.size) r a a m3 hra hra (Or.inl rfl) (by omega) (by omega) (by omega)
      dsimp only at p4
      rw [e3] at p4
      cases hw : P Sm9.uAdd1 (rd m a) with
      | none => rw [hw] at p4; simp only [p4]
      | some w =>
        rw [hw] at p4
        obtain ⟨m4, d1, d2, d3⟩ := p4
        have z4 : rd m4 L = z := (lv.ext _ _ _ fun x h1 h2 => d3 x (by omega) (by omega)).trans c2
        have n4 : rd m4 (L + I.size) = neg1 := (lv.ext _ _ _ fun x h1 h2 => d3 x (by omega) (by omega)).trans n3
        simp only [d1, z4, n4]
        cases hq : eqv z neg1 with
        | false =>
          exact ⟨m4, rfl, d2, fun x hx hn => by rw [d3 x (by omega) hn, f3 x hx]⟩
        | true =>
          obtain ⟨m5, g1, g2, g3⟩ := hf (L + 2 * I.size) L L L m4 (Or.inl rfl) (Or.inl rfl) (Or.inl rfl)
            (by omega) (by omega) (by omega)
          have r5 : rd m5 r = w := (lv.ext _ _ _ fun x h1 h2 => g3 x (by omega) (by omega)).trans d2
          have p6 := lv.good .mul (L + 2 * I.size) r r L m5 (Or.inl rfl) (Or.inr (Or.inl hr)) (Or.inr (Or.inl hr))
            (by omega) (by omega) (by omega)
          dsimp only at p6
          rw [h.m, r5, g2] at p6
          obtain ⟨m6, k1, k2, k3⟩ := p6
          refine ⟨m6, ?_, k2, fun x hx hn => by
            rw [k3 x (by omega) hn, g3 x (by omega) (by omega), d3 x (by omega) hn, f3 x hx]⟩
          simp only [if_true, g1, k1, Option.map_some]
end

/-! # Point multiplication -/

section
variable {α : Type} (F : FpOps α) (dbl : EcJ α → Option (EcJ α)) (bits : Nat → Option (Bool × Bool)) (P N : EcA α)

def mulStepV (i : Nat) (T : EcJ α) : Option (EcJ α) :=
  match dbl T with
  | none => none
  | some T =>
    match bits i with
    | none => none
    | some (ei, e3i) =>
      if e3i = true ∧ ei = false then some (ecJAddA F T P)
      else if e3i = false ∧ ei = true then some (ecJAddA F T N)
      else some T

def mulLoopV : Nat → EcJ α → Option (EcJ α)
  | 0, T => some T
  | i + 1, T =>
    match mulStepV F dbl bits P N (i + 1) T with
    | none => none
    | some T => mulLoopV i T

def mulBodyV (c : CInt) (topBit : Option Nat) (P : EcA α) : Option (EcJ α) :=
  if c = 1 then mulLoopV F dbl bits P ⟨P.x, F.neg P.y⟩ 255 (ecJFromA F P)
  else if c = 2 then
    match dbl (ecJFromA F P) with
    | none => none
    | some T => mulLoopV F dbl bits P ⟨P.x, F.neg P.y⟩ 255 T
  else
    match topBit with
    | none => none
    | some i => mulLoopV F dbl bits P ⟨P.x, F.neg P.y⟩ (i - 1) (ecJFromA F P)

theorem cJ_cpy (tw : α → Option α) : Calc (fnF F tw) ecJCpyP outJ outJ outJ fun P _ => some P := by
  intro ar br ba S; cases ar <;> cases br <;> cases ba <;> rfl
end

section
variable {β α : Type} {I : Impl β} {rd : Mem β → Nat → α} {F : FpOps α} {tw : α → Option α}

theorem rdA_ext (lv : Level I rd (fnF F tw) F.eq F.isZero) {m m' : Mem β} {a : Nat}
    (h : ∀ x, a ≤ x → x < a + 2 * I.size → m x = m' x) : rdA I.size rd m a = rdA I.size rd m' a := by
  unfold rdA
  rw [lv.ext m m' a fun x h1 h2 => h x h1 (by omega),
    lv.ext m m' (a + I.size) fun x h1 h2 => h x (by omega) (by omega)]

theorem rdJ_ext (lv : Level I rd (fnF F tw) F.eq F.isZero) {m m' : Mem β} {a : Nat}
    (h : ∀ x, a ≤ x → x < a + 3 * I.size → m x = m' x) : rdJ I.size rd m a = rdJ I.size rd m' a := by
  unfold rdJ
  rw [lv.ext m m' a fun x h1 h2 => h x h1 (by omega),
    lv.ext m m' (a + I.size) fun x h1 h2 => h x (by omega) (by omega),
    lv.ext m m' (a + 2 * I.size) fun x h1 h2 => h x (by omega) (by omega)]

/-- What holds during the loop. -/
structure MulInv (I : Impl β) (rd : Mem β → Nat → α) (L : Nat) (m0 m : Mem β) (N : EcA α) (T : EcJ α) : Prop where
  t : rdJ I.size rd m L = T
  n : rdA I.size rd m (L + 3 * I.size) = N
  low : ∀ x, x < L → m x = m0 x

variable {dblP : List Ins} {nd : Nat} {dbl : EcJ α → Option (EcJ α)} {bits : Nat → Option (Bool × Bool)} {L p : Nat}
  {m0 : Mem β} {P N : EcA α}

/-- After a function that writes `T` only. -/
theorem MulInv.write (lv : Level I rd (fnF F tw) F.eq F.isZero) {m m' : Mem β} {T T' : EcJ α}
    (h : MulInv I rd L m0 m N T) (ht : rdJ I.size rd m' L = T')
    (hf : ∀ x, x < L + 5 * I.size → ¬ (L ≤ x ∧ x < L + 3 * I.size) → m' x = m x) : MulInv I rd L m0 m' N T' :=
  ⟨ht, (rdA_ext lv fun x h1 h2 => hf x (by omega) (by omega)).trans h.n, fun x hx => by
    rw [hf x (by omega) (by omega), h.low x hx]⟩

theorem mulDbl (lv : Level I rd (fnF F tw) F.eq F.isZero) (hd : Calc (fnF F tw) dblP outJ outJ outJ fun P _ => dbl P)
    (hdp : okP nd 3 3 3 dblP = true) {m : Mem β} {T : EcJ α} (h : MulInv I rd L m0 m N T) :
    match dbl T with
    | none => call I nd dblP (L + 5 * I.size) L L L m = none
    | some T' => ∃ m', call I nd dblP (L + 5 * I.size) L L L m = some m' ∧ MulInv I rd L m0 m' N T' := by
  have := hd.safe lv nd readsJ readsJ readsJ hdp (L + 5 * I.size) L L L m (Or.inl rfl) (Or.inl rfl) (Or.inl rfl)
    (by omega) (by omega) (by omega)
  dsimp only at this
  rw [h.t] at this
  cases hv : dbl T with
  | none => rw [hv] at this; exact this
  | some T' =>
    rw [hv] at this
    obtain ⟨m', a1, a2, a3⟩ := this
    exact ⟨m', a1, h.write lv a2 a3⟩

theorem mulAdd (lv : Level I rd (fnF F tw) F.eq F.isZero) {m : Mem β} {T : EcJ α} (h : MulInv I rd L m0 m N T) {q : Nat}
    {Q : EcA α} (hq : rdA I.size rd m q = Q) (hs : q + 2 * I.size ≤ L ∨ q = L + 3 * I.size) :
    ∃ m', call I 9 addAP (L + 5 * I.size) L L q m = some m' ∧ MulInv I rd L m0 m' N (ecJAddA F T Q) := by
  have sa : SameOrApart L (3 * I.size) q (2 * I.size) := by
    rcases hs with hs | hs
    · exact Or.inr (Or.inr hs)
    · exact Or.inr (Or.inl (by omega))
  have := (cJ_addA F tw).safe lv 9 readsJ readsJ readsA (by decide) (L + 5 * I.size) L L q m (Or.inl rfl) sa sa
    (by omega) (by omega) (by omega)
  dsimp only at this
  rw [h.t, hq] at this
  obtain ⟨m', a1, a2, a3⟩ := this
  exact ⟨m', a1, h.write lv a2 a3⟩

theorem mulStep_ok (lv : Level I rd (fnF F tw) F.eq F.isZero)
    (hd : Calc (fnF F tw) dblP outJ outJ outJ fun P _ => dbl P) (hdp : okP nd 3 3 3 dblP = true)
    (hp : p + 2 * I.size ≤ L) (hP : rdA I.size rd m0 p = P) (i : Nat) {m : Mem β} {T : EcJ α}
    (h : MulInv I rd L m0 m N T) :
    match mulStepV F dbl bits P N i T with
    | none => mulAStep I dblP nd (L + 5 * I.size) L p (L + 3 * I.size) bits i m = none
    | some T' => ∃ m', mulAStep I dblP nd (L + 5 * I.size) L p (L + 3 * I.size) bits i m = some m' ∧
        MulInv I rd L m0 m' N T' := by
  have D := mulDbl lv hd hdp h
  unfold mulStepV mulAStep
  cases hv : dbl T with
  | none => rw [hv] at D; dsimp only at D ⊢; rw [D]
  | some T1 =>
    rw [hv] at D
    obtain ⟨m1, d1, d2⟩ := D
    rw [d1]
    dsimp only
    cases bits i with
    | none => rfl
    | some b =>
      obtain ⟨ei, e3i⟩ := b
      dsimp only
      by_cases c1 : e3i = true ∧ ei = false
      · rw [if_pos c1, if_pos c1]
        exact mulAdd lv d2 ((rdA_ext lv fun x _ _ => d2.low x (by omega)).trans hP) (Or.inl hp)
      · rw [if_neg c1, if_neg c1]
        by_cases c2 : e3i = false ∧ ei = true
        · rw [if_pos c2, if_pos c2]
          exact mulAdd lv d2 d2.n (Or.inr rfl)
        · rw [if_neg c2, if_neg c2]
          exact ⟨m1, rfl, d2⟩

theorem mulLoop_ok (lv : Level I rd (fnF F tw) F.eq F.isZero)
    (hd : Calc (fnF F tw) dblP outJ outJ outJ fun P _ => dbl P) (hdp : okP nd 3 3 3 dblP = true)
    (hp : p + 2 * I.size ≤ L) (hP : rdA I.size rd m0 p = P) : ∀ (i : Nat) {m : Mem β} {T : EcJ α},
    MulInv I rd L m0 m N T →
    match mulLoopV F dbl bits P N i T with
    | none => mulALoop I dblP nd (L + 5 * I.size) L p (L + 3 * I.size) bits i m = none
    | some T' => ∃ m', mulALoop I dblP nd (L + 5 * I.size) L p (L + 3 * I.size) bits i m = some m' ∧
        MulInv I rd L m0 m' N T'
  | 0, m, _, h => ⟨m, rfl, h⟩
  | i + 1, m, T, h => by
    have D := mulStep_ok (bits := bits) lv hd hdp hp hP (i + 1) h
    unfold mulLoopV mulALoop
    cases hv : mulStepV F dbl bits P N (i + 1) T with
    | none => rw [hv] at D; dsimp only at D ⊢; rw [D]
    | some T1 =>
      rw [hv] at D
      obtain ⟨m1, d1, d2⟩ := D
      rw [d1]
      exact mulLoop_ok lv hd hdp hp hP i d2

theorem mulMid_ok (lv : Level I rd (fnF F tw) F.eq F.isZero)
    (hd : Calc (fnF F tw) dblP outJ outJ outJ fun P _ => dbl P) (hdp : okP nd 3 3 3 dblP = true)
    (hp : p + 2 * I.size ≤ L) (c : CInt) (topBit : Option Nat) {m m2 : Mem β}
    (J : MulInv I rd L m m2 ⟨(rdA I.size rd m p).x, F.neg (rdA I.size rd m p).y⟩ (ecJFromA F (rdA I.size rd m p))) :
    match mulBodyV F dbl bits c topBit (rdA I.size rd m p) with
    | none => mulAMid I dblP nd (L + 5 * I.size) L p (L + 3 * I.size) bits c topBit m2 = none
    | some T' => ∃ m', mulAMid I dblP nd (L + 5 * I.size) L p (L + 3 * I.size) bits c topBit m2 = some m' ∧
        MulInv I rd L m m' ⟨(rdA I.size rd m p).x, F.neg (rdA I.size rd m p).y⟩ T' := by
  unfold mulAMid
  unfold mulBodyV
  by_cases c1 : c = 1
  · rw [if_pos c1, if_pos c1]
    exact mulLoop_ok lv hd hdp hp rfl 255 J
  · rw [if_neg c1, if_neg c1]
    by_cases c2 : c = 2
    · rw [if_pos c2, if_pos c2]
      have D := mulDbl lv hd hdp J
      cases hv : dbl (ecJFromA F (rdA I.size rd m p)) with
      | none => rw [hv] at D; dsimp only at D ⊢; rw [D]
      | some T1 =>
        rw [hv] at D
        obtain ⟨m3, d1, d2⟩ := D
        rw [d1]
        exact mulLoop_ok lv hd hdp hp rfl 255 d2
    · rw [if_neg c2, if_neg c2]
      cases topBit with
      | none => rfl
      | some i => exact mulLoop_ok lv hd hdp hp rfl (i - 1) J

theorem mulBody_safe (lv : Level I rd (fnF F tw) F.eq F.isZero)
    (hd : Calc (fnF F tw) dblP outJ outJ outJ fun P _ => dbl P) (hdp : okP nd 3 3 3 dblP = true) (c : CInt)
    (topBit : Option Nat) : InPlaceSafe (3 * I.size) (2 * I.size) (2 * I.size) (rdJ I.size rd)
      (fun m p _ => mulBodyV F dbl bits c topBit (rdA I.size rd m p)) (mulABody I dblP nd bits c topBit) := by
  intro L r p b m _ _ _ hr hp _
  obtain ⟨m1, a1, a2, a3⟩ := (cJ_fromA F tw).safe lv 0 readsJ readsA readsA (by decide) (L + 5 * I.size) L p p m
    (Or.inr (Or.inr hp)) (Or.inr (Or.inr hp)) (Or.inl rfl) (by omega) (by omega) (by omega)
  obtain ⟨m2, b1, b2, b3⟩ := (cA_neg F tw).safe lv 0 readsA readsA readsA (by decide) (L + 5 * I.size) (L + 3 * I.size) p p m1
    (Or.inr (Or.inr (by omega))) (Or.inr (Or.inr (by omega))) (Or.inl rfl) (by omega) (by omega) (by omega)
  have e1 : rdA I.size rd m1 p = rdA I.size rd m p := rdA_ext lv fun x h1 h2 => a3 x (by omega) (by omega)
  rw [e1] at b2
  have J : MulInv I rd L m m2 ⟨(rdA I.size rd m p).x, F.neg (rdA I.size rd m p).y⟩ (ecJFromA F (rdA I.size rd m p)) :=
    ⟨(rdJ_ext lv fun x h1 h2 => b3 x (by omega) (by omega)).trans a2, b2,
      fun x hx => by rw [b3 x (by omega) (by omega), a3 x (by omega) (by omega)]⟩
  have M := mulMid_ok (bits := bits) lv hd hdp hp c topBit J
  unfold mulABody
  dsimp only
  rw [a1]
  dsimp only
  rw [b1]
  dsimp only
  cases hv : mulBodyV F dbl bits c topBit (rdA I.size rd m p) with
  | none => rw [hv] at M; dsimp only at M ⊢; rw [M]
  | some T' =>
    rw [hv] at M
    obtain ⟨m', h1, h2⟩ := M
    rw [h1]
    obtain ⟨m3, c1, c2, c3⟩ := (cJ_cpy F tw).safe lv 0 readsJ readsJ readsJ (by decide) (L + 5 * I.size) r L L m'
      (Or.inr (Or.inl hr)) (Or.inr (Or.inl hr)) (Or.inl rfl) (by omega) (by omega) (by omega)
    exact ⟨m3, c1, c2.trans h2.t, fun x x1 x2 => by rw [c3 x (by omega) x2, h2.low x x1]⟩
end

end Verif.PairMem
