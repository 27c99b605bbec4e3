import Verif.Model.PairMem
import Verif.Proofs.Alias
/-! Helper lemmas for C101: powers, square roots, point multiplication. -/
namespace Verif.PairMem
open Verif Verif.Spec.Alias Verif.Alias

/-! # Powers on values, for any multiplication -/
section
variable {α : Type} (mul : α → α → α) (sqr : α → α)

/-- The entries of the table. -/
def tab (a : α) : Nat → α
  | 0 => sqr a
  | j + 1 => mul (tab a j) a

def selV (a : α) (index : Nat) : Option α :=
  if index = 1 then some a else if index < 2 then none else if index < 16 then some (tab mul sqr a (index - 2)) else none

def mulSelV (a t : α) (index : Nat) : Option α :=
  if index ≠ 0 then (selV mul sqr a index).map (mul t) else some t

def sqr4V (t : α) : α := sqr (sqr (sqr (sqr t)))

def powLoopV (a : α) : List Byte → α → Option α
  | [], t => some t
  | e :: es, t => do
    let t ← mulSelV mul sqr a (sqr4V sqr t) (((e >>> 4) &&& 0xF#8).toNat)
    let t ← mulSelV mul sqr a (sqr4V sqr t) ((e &&& 0xF#8).toNat)
    powLoopV a es t

def headV (a : α) (b : Byte) : Option α :=
  if b > 0xF#8 then do
    let t ← selV mul sqr a (((b >>> 4) &&& 0xF#8).toNat)
    mulSelV mul sqr a (sqr4V sqr t) ((b &&& 0xF#8).toNat)
  else selV mul sqr a ((b &&& 0xF#8).toNat)

def tailV (a : α) (b : Byte) (es : List Byte) : Option α := do
  let t ← headV mul sqr a b
  powLoopV mul sqr a es t
end

/-! # The same calls on named values -/
section
variable {α : Type} {mul : α → α → α} {sqr : α → α} {fn : Sym → α → α → Option α}

/-- What the powers need of the functions. -/
structure PowFn (fn : Sym → α → α → Option α) (mul : α → α → α) (sqr : α → α) : Prop where
  m : ∀ a b, fn .mul a b = some (mul a b)
  s : ∀ a b, fn .sqr a b = some (sqr a)
  c : ∀ a b, fn .cpy a b = some a

theorem val_append (fn : Sym → α → α → Option α) (ρ : Nm → Nm) :
    ∀ (p q : List Ins) (S : Nm → α), val fn ρ (p ++ q) S = (val fn ρ p S).bind (val fn ρ q)
  | [], _, _ => rfl
  | i :: p, q, S => by
    show (match fn i.op (S (ρ i.a)) (S (ρ i.b)) with | none => none | some v => val fn ρ (p ++ q) _) =
      Option.bind (match fn i.op (S (ρ i.a)) (S (ρ i.b)) with | none => none | some v => val fn ρ p _) _
    cases fn i.op (S (ρ i.a)) (S (ρ i.b)) with
    | none => rfl
    | some v => exact val_append fn ρ p q _

theorem okP_append {nl cr ca cb : Nat} {p q : List Ins} (hp : okP nl cr ca cb p = true) (hq : okP nl cr ca cb q = true) :
    okP nl cr ca cb (p ++ q) = true := by
  unfold okP at *
  rw [List.all_append, hp, hq]; rfl

variable {ar br ba : Bool}

/-- The store after a call. -/
def st (S : Nm → α) (n : Nm) (v : α) : Nm → α := fun q => if q = n then v else S q

theorem canonA (i : Nat) (j : Nat) : canon ar br ba (.A i) ≠ .loc j := by
  cases ar <;> simp [canon]

theorem canonB (i : Nat) (j : Nat) : canon ar br ba (.B i) ≠ .loc j := by
  cases br <;> cases ba <;> simp [canon]

theorem val_mul (h : PowFn fn mul sqr) (ρ : Nm → Nm) (r a b : Nm) (p : List Ins) (S : Nm → α) :
    val fn ρ (i2 .mul r a b :: p) S = val fn ρ p (st S (ρ r) (mul (S (ρ a)) (S (ρ b)))) := by
  show (match fn .mul (S (ρ a)) (S (ρ b)) with | none => none | some v => val fn ρ p _) = _
  rw [h.m]; rfl
theorem val_sqr (h : PowFn fn mul sqr) (ρ : Nm → Nm) (r a : Nm) (p : List Ins) (S : Nm → α) :
    val fn ρ (i1 .sqr r a :: p) S = val fn ρ p (st S (ρ r) (sqr (S (ρ a)))) := by
  show (match fn .sqr (S (ρ a)) (S (ρ a)) with | none => none | some v => val fn ρ p _) = _
  rw [h.s]; rfl
theorem val_cpy (h : PowFn fn mul sqr) (ρ : Nm → Nm) (r a : Nm) (p : List Ins) (S : Nm → α) :
    val fn ρ (i1 .cpy r a :: p) S = val fn ρ p (st S (ρ r) (S (ρ a))) := by
  show (match fn .cpy (S (ρ a)) (S (ρ a)) with | none => none | some v => val fn ρ p _) = _
  rw [h.c]; rfl

/-- The loop that fills the table. -/
theorem val_tab (h : PowFn fn mul sqr) : ∀ (n s : Nat) (S : Nm → α) (a : α), S (canon ar br ba (.A 0)) = a →
    (∀ j, j ≤ s → S (.loc (j + 1)) = tab mul sqr a j) →
    ∃ S', val fn (canon ar br ba) ((List.range' s n).map fun j => i2 .mul (.loc (j + 2)) (.loc (j + 1)) (.A 0)) S = some S' ∧
      (∀ q, (∀ i, q ≠ .loc i) → S' q = S q) ∧ ∀ j, j ≤ s + n → S' (.loc (j + 1)) = tab mul sqr a j
  | 0, s, S, a, _, hT => ⟨S, rfl, fun _ _ => rfl, hT⟩
  | n + 1, s, S, a, hA, hT => by
    rw [List.range'_succ, List.map_cons, val_mul h]
    have e1 : canon ar br ba (.loc (s + 2)) = .loc (s + 2) := rfl
    have e2 : canon ar br ba (.loc (s + 1)) = .loc (s + 1) := rfl
    rw [e1, e2, hA, hT s (Nat.le_refl _)]
    obtain ⟨S', h1, h2, h3⟩ := val_tab h n (s + 1) (st S (.loc (s + 2)) (mul (tab mul sqr a s) a)) a
      (by unfold st; rw [if_neg (canonA 0 _), hA])
      (fun j hj => by
        unfold st
        by_cases hc : j = s + 1
        · subst hc; rw [if_pos rfl]; rfl
        · rw [if_neg (by simp; omega), hT j (by omega)])
    refine ⟨S', h1, fun q hq => ?_, fun j hj => h3 j (by omega)⟩
    rw [h2 q hq]; unfold st; rw [if_neg (hq _)]

/-- The table is there, and the base. -/
structure Tabled (S : Nm → α) (ρ : Nm → Nm) (mul : α → α → α) (sqr : α → α) (a : α) : Prop where
  base : S (ρ (.A 0)) = a
  lut : ∀ j, j < 14 → S (.loc (j + 1)) = tab mul sqr a j

theorem tabP_val (h : PowFn fn mul sqr) (S : Nm → α) :
    ∃ S', val fn (canon ar br ba) tabP S = some S' ∧ (∀ q, (∀ i, q ≠ .loc i) → S' q = S q) ∧
      Tabled S' (canon ar br ba) mul sqr (S (canon ar br ba (.A 0))) := by
  unfold tabP
  rw [val_sqr h, List.range_eq_range']
  obtain ⟨S', h1, h2, h3⟩ := val_tab h (ar := ar) (br := br) (ba := ba) 13 0
    (st S (canon ar br ba (.loc 1)) (sqr (S (canon ar br ba (.A 0))))) (S (canon ar br ba (.A 0)))
    (if_neg (canonA 0 1)) (fun j hj => by
      obtain rfl : j = 0 := by omega
      exact if_pos rfl)
  have h2' : ∀ q, (∀ i, q ≠ .loc i) → S' q = S q := fun q hq => (h2 q hq).trans (if_neg (hq 1))
  exact ⟨S', h1, h2', ⟨h2' _ (canonA 0), fun j hj => h3 j (by omega)⟩⟩

/-- Everything but `t` stays. -/
def Keeps (S S' : Nm → α) : Prop := ∀ q, q ≠ .loc 0 → S' q = S q

theorem Tabled.keeps {S S' : Nm → α} {a : α} (h : Tabled S (canon ar br ba) mul sqr a) (k : Keeps S S') :
    Tabled S' (canon ar br ba) mul sqr a :=
  ⟨by rw [k _ (canonA 0 0), h.base], fun j hj => by rw [k _ (by simp), h.lut j hj]⟩

theorem sel_ok {S : Nm → α} {a : α} (hT : Tabled S (canon ar br ba) mul sqr a) (index : Nat) :
    match selV mul sqr a index with
    | none => selN index = none
    | some v => ∃ n, selN index = some n ∧ S (canon ar br ba n) = v ∧ ok 15 1 1 1 n = true := by
  unfold selV selN
  by_cases h1 : index = 1
  · rw [if_pos h1, if_pos h1]; exact ⟨_, rfl, hT.base, rfl⟩
  · rw [if_neg h1, if_neg h1]
    by_cases h2 : index < 2
    · rw [if_pos h2, if_pos h2]
    · rw [if_neg h2, if_neg h2]
      by_cases h3 : index < 16
      · rw [if_pos h3, if_pos h3]
        refine ⟨_, rfl, ?_, by simp [ok]; omega⟩
        have := hT.lut (index - 2) (by omega)
        rwa [show index - 2 + 1 = index - 1 by omega] at this
      · rw [if_neg h3, if_neg h3]

theorem mulSel_ok (h : PowFn fn mul sqr) {S : Nm → α} {a t : α} (hT : Tabled S (canon ar br ba) mul sqr a)
    (ht : S (.loc 0) = t) (index : Nat) :
    match mulSelV mul sqr a t index with
    | none => mulSelP index = none
    | some v => ∃ p S', mulSelP index = some p ∧ okP 15 1 1 1 p = true ∧ val fn (canon ar br ba) p S = some S' ∧
        Keeps S S' ∧ S' (.loc 0) = v := by
  unfold mulSelV mulSelP
  by_cases h0 : index ≠ 0
  · rw [if_pos h0, if_pos h0]
    have := sel_ok hT index
    cases hs : selV mul sqr a index with
    | none => rw [hs] at this; rw [show selN index = none from this]; rfl
    | some v =>
      rw [hs] at this
      obtain ⟨n, n1, n2, n3⟩ := this
      rw [n1]
      refine ⟨_, st S (.loc 0) (mul t v), rfl, ?_, ?_, ?_, ?_⟩
      · unfold okP
        simp only [List.all_cons, List.all_nil, Bool.and_true, i2]
        rw [n3]; rfl
      · rw [val_mul h]
        show val fn _ [] (st S (.loc 0) (mul (S (.loc 0)) (S (canon ar br ba n)))) = _
        rw [ht, n2]; rfl
      · intro q hq; unfold st; rw [if_neg hq]
      · unfold st; rw [if_pos rfl]
  · rw [if_neg h0, if_neg h0]
    exact ⟨[], S, rfl, rfl, rfl, fun _ _ => rfl, ht⟩

theorem sqr4_ok (h : PowFn fn mul sqr) {S : Nm → α} {t : α} (ht : S (.loc 0) = t) :
    ∃ S', val fn (canon ar br ba) sqr4P S = some S' ∧ Keeps S S' ∧ S' (.loc 0) = sqr4V sqr t := by
  refine ⟨st (st (st (st S (.loc 0) (sqr t)) (.loc 0) (sqr (sqr t))) (.loc 0) (sqr (sqr (sqr t)))) (.loc 0) (sqr4V sqr t),
    ?_, ?_, ?_⟩
  · unfold sqr4P
    simp only [List.replicate]
    rw [val_sqr h, val_sqr h, val_sqr h, val_sqr h]
    have e : canon ar br ba (.loc 0) = .loc 0 := rfl
    have es : ∀ (S : Nm → α) v, st S (.loc 0) v (.loc 0) = v := fun _ _ => if_pos rfl
    simp only [e, es, ht]
    rfl
  · intro q hq; unfold st; simp only [if_neg hq]
  · unfold st; simp only [if_pos]

theorem Keeps.trans {S S' S'' : Nm → α} (h : Keeps S S') (h' : Keeps S' S'') : Keeps S S'' :=
  fun q hq => (h' q hq).trans (h q hq)

theorem powLoop_ok (h : PowFn fn mul sqr) : ∀ (es : List Byte) {S : Nm → α} {a t : α},
    Tabled S (canon ar br ba) mul sqr a → S (.loc 0) = t →
    match powLoopV mul sqr a es t with
    | none => powLoopP es = none
    | some v => ∃ p S', powLoopP es = some p ∧ okP 15 1 1 1 p = true ∧ val fn (canon ar br ba) p S = some S' ∧
        Keeps S S' ∧ S' (.loc 0) = v
  | [], S, a, t, _, ht => ⟨[], S, rfl, rfl, rfl, fun _ _ => rfl, ht⟩
  | e :: es, S, a, t, hT, ht => by
    unfold powLoopV powLoopP
    obtain ⟨S1, a1, a2, a3⟩ := sqr4_ok h (ar := ar) (br := br) (ba := ba) ht
    have M1 := mulSel_ok h (hT.keeps a2) a3 (((e >>> 4) &&& 0xF#8).toNat)
    cases hv1 : mulSelV mul sqr a (sqr4V sqr t) (((e >>> 4) &&& 0xF#8).toNat) with
    | none => rw [hv1] at M1; rw [show mulSelP (((e >>> 4) &&& 0xF#8).toNat) = none from M1]; rfl
    | some v1 =>
      rw [hv1] at M1
      obtain ⟨p1, S2, b1, b2, b3, b4, b5⟩ := M1
      rw [b1]
      obtain ⟨S3, c1, c2, c3⟩ := sqr4_ok h (ar := ar) (br := br) (ba := ba) b5
      have M2 := mulSel_ok h (((hT.keeps a2).keeps b4).keeps c2) c3 ((e &&& 0xF#8).toNat)
      simp only [Option.bind_eq_bind, Option.bind_some]
      cases hv2 : mulSelV mul sqr a (sqr4V sqr v1) ((e &&& 0xF#8).toNat) with
      | none => rw [hv2] at M2; rw [show mulSelP ((e &&& 0xF#8).toNat) = none from M2]; rfl
      | some v2 =>
        rw [hv2] at M2
        obtain ⟨p2, S4, d1, d2, d3, d4, d5⟩ := M2
        rw [d1]
        have IH := powLoop_ok h es ((((hT.keeps a2).keeps b4).keeps c2).keeps d4) d5
        simp only [Option.bind_some]
        cases hv3 : powLoopV mul sqr a es v2 with
        | none => rw [hv3] at IH; rw [show powLoopP es = none from IH]
        | some v3 =>
          rw [hv3] at IH
          obtain ⟨p3, S5, f1, f2, f3, f4, f5⟩ := IH
          rw [f1]
          refine ⟨_, S5, rfl, ?_, ?_, ((((a2.trans b4).trans c2).trans d4).trans f4), f5⟩
          · exact okP_append (okP_append (okP_append (by decide) b2) (okP_append (by decide) d2)) f2
          · simp only [val_append, a1, Option.bind_some, b3, c1, d3, f3]

theorem head_ok (h : PowFn fn mul sqr) {S : Nm → α} {a : α} (hT : Tabled S (canon ar br ba) mul sqr a) (b : Byte) :
    match headV mul sqr a b with
    | none => headP b = none
    | some v => ∃ p S', headP b = some p ∧ okP 15 1 1 1 p = true ∧ val fn (canon ar br ba) p S = some S' ∧
        Keeps S S' ∧ S' (.loc 0) = v := by
  unfold headV headP
  have one : ∀ n, ok 15 1 1 1 n = true → okP 15 1 1 1 [i1 .cpy (.loc 0) n] = true := by
    intro n hn
    unfold okP
    simp only [List.all_cons, List.all_nil, Bool.and_true, i1]
    rw [hn]; rfl
  by_cases hb : b > 0xF#8
  · rw [if_pos hb, if_pos hb]
    have s1 := sel_ok hT (((b >>> 4) &&& 0xF#8).toNat)
    cases hs : selV mul sqr a (((b >>> 4) &&& 0xF#8).toNat) with
    | none => rw [hs] at s1; rw [show selN _ = none from s1]; rfl
    | some v =>
      rw [hs] at s1
      obtain ⟨n, n1, n2, n3⟩ := s1
      rw [n1]
      have k0 : Keeps S (st S (.loc 0) v) := fun q hq => if_neg hq
      obtain ⟨S1, a1, a2, a3⟩ := sqr4_ok h (ar := ar) (br := br) (ba := ba) (S := st S (.loc 0) v) (t := v) (if_pos rfl)
      have M := mulSel_ok h ((hT.keeps k0).keeps a2) a3 ((b &&& 0xF#8).toNat)
      simp only [Option.bind_eq_bind, Option.bind_some]
      cases hv : mulSelV mul sqr a (sqr4V sqr v) ((b &&& 0xF#8).toNat) with
      | none => rw [hv] at M; rw [show mulSelP _ = none from M]
      | some w =>
        rw [hv] at M
        obtain ⟨p, S2, b1, b2, b3, b4, b5⟩ := M
        rw [b1]
        refine ⟨_, S2, rfl, ?_, ?_, (k0.trans a2).trans b4, b5⟩
        · exact okP_append (p := [i1 .cpy (.loc 0) n] ++ sqr4P) (okP_append (one n n3) (by decide)) b2
        · show val fn _ (i1 .cpy (.loc 0) n :: (sqr4P ++ p)) S = _
          rw [val_cpy h, n2, val_append]
          show (val fn _ sqr4P (st S (.loc 0) v)).bind _ = _
          rw [a1]
          exact b3
  · rw [if_neg hb, if_neg hb]
    have s1 := sel_ok hT ((b &&& 0xF#8).toNat)
    cases hs : selV mul sqr a ((b &&& 0xF#8).toNat) with
    | none => rw [hs] at s1; rw [show selN _ = none from s1]; rfl
    | some v =>
      rw [hs] at s1
      obtain ⟨n, n1, n2, n3⟩ := s1
      rw [n1]
      refine ⟨_, st S (.loc 0) v, rfl, one n n3, ?_, fun q hq => if_neg hq, if_pos rfl⟩
      rw [val_cpy h, n2]; rfl

theorem tail_ok (h : PowFn fn mul sqr) {S : Nm → α} {a : α} (hT : Tabled S (canon ar br ba) mul sqr a) (b : Byte)
    (es : List Byte) :
    match tailV mul sqr a b es with
    | none => tailP b es = none
    | some v => ∃ p S', tailP b es = some p ∧ okP 15 1 1 1 p = true ∧ val fn (canon ar br ba) p S = some S' ∧
        S' (.R 0) = v := by
  unfold tailV tailP
  have H := head_ok h hT b
  cases hv : headV mul sqr a b with
  | none => rw [hv] at H; rw [show headP b = none from H]; rfl
  | some t =>
    rw [hv] at H
    obtain ⟨p, S1, a1, a2, a3, a4, a5⟩ := H
    rw [a1]
    have Lp := powLoop_ok h es (hT.keeps a4) a5
    simp only [Option.bind_eq_bind, Option.bind_some]
    cases hl : powLoopV mul sqr a es t with
    | none => rw [hl] at Lp; rw [show powLoopP es = none from Lp]
    | some v =>
      rw [hl] at Lp
      obtain ⟨q, S2, b1, b2, b3, b4, b5⟩ := Lp
      rw [b1]
      refine ⟨_, st S2 (.R 0) v, rfl, okP_append (okP_append a2 b2) (by decide), ?_, if_pos rfl⟩
      rw [val_append, val_append, a3]
      simp only [Option.bind_some]
      rw [b3]
      simp only [Option.bind_some]
      rw [val_cpy h]
      show val fn _ [] (st S2 (.R 0) (S2 (.loc 0))) = _
      rw [b5]; rfl
end

/-! # Powers on memory -/
section
variable {β α : Type} {I : Impl β} {rd : Mem β → Nat → α} {fn : Sym → α → α → Option α} {eqv : α → α → Bool}
  {isz : α → Bool} {mul : α → α → α} {sqr : α → α}

/-- The part of the functions from the table on. -/
def body (I : Impl β) (ex : Mem β → Option (Byte × List Byte)) : MemOp β := fun L r a b m =>
  match exec I (L + 15 * I.size) (addr I.size L r a b) tabP m with
  | none => none
  | some m =>
    match ex m with
    | none => none
    | some (c, es) =>
      match tailP c es with
      | none => none
      | some p => exec I (L + 15 * I.size) (addr I.size L r a b) p m

theorem body_safe (lv : Level I rd fn eqv isz) (h : PowFn fn mul sqr) (ex : Mem β → Option (Byte × List Byte))
    {L r a b : Nat} {m : Mem β} (hex : ∀ m1, rd m1 b = rd m b → ex m1 = ex m)
    (hra : SameOrApart r I.size a I.size) (hrb : SameOrApart r I.size b I.size) (hab : SameOrApart a I.size b I.size)
    (hr : r + I.size ≤ L) (ha : a + I.size ≤ L) (hb : b + I.size ≤ L) :
    match (ex m).bind fun x => tailV mul sqr (rd m a) x.1 x.2 with
    | none => body I ex L r a b m = none
    | some v => ∃ m', body I ex L r a b m = some m' ∧ rd m' r = v ∧
        ∀ x, x < L → ¬ (r ≤ x ∧ x < r + I.size) → m' x = m x := by
  have one : 1 * I.size = I.size := Nat.one_mul _
  rw [← one] at hra hrb hab hr ha hb
  obtain ⟨S1, v1, vn, hT⟩ := tabP_val h (ar := decide (a = r)) (br := decide (b = r)) (ba := decide (b = a))
    (fun q => rd m (addr I.size L r a b q))
  have X1 := sim lv (nl := 15) (cr := 1) (ca := 1) (cb := 1) (by simpa using hra) (by simpa using hrb)
    (by simpa using hab) (by simpa using hr) (by simpa using ha) (by simpa using hb) tabP m
    (fun q => rd m (addr I.size L r a b q)) (by decide) (fun n _ => names_init m n)
  rw [v1] at X1
  obtain ⟨m1, e1, e2, e3⟩ := X1
  rw [addr_canon] at hT
  have hA : rd m (addr I.size L r a b (.A 0)) = rd m a := by simp [addr]
  have hB : rd m1 b = rd m b := by
    have q := e2 (.B 0) (by decide)
    rw [vn _ (canonB 0), addr_canon] at q
    simpa [addr] using q
  rw [hA] at hT
  unfold body
  rw [e1]
  dsimp only
  rw [hex m1 hB]
  cases hx : ex m with
  | none => rfl
  | some x =>
    obtain ⟨c, es⟩ := x
    dsimp only [Option.bind_some]
    have T := tail_ok h hT c es
    cases hv : tailV mul sqr (rd m a) c es with
    | none => rw [hv] at T; rw [show tailP c es = none from T]
    | some v =>
      rw [hv] at T
      obtain ⟨p, S2, t1, t2, t3, t4⟩ := T
      rw [t1]
      dsimp only
      have X2 := sim lv (nl := 15) (cr := 1) (ca := 1) (cb := 1) (by simpa using hra) (by simpa using hrb)
        (by simpa using hab) (by simpa using hr) (by simpa using ha) (by simpa using hb) p m1 S1 t2 e2
      rw [t3] at X2
      obtain ⟨m2, f1, f2, f3⟩ := X2
      refine ⟨m2, f1, ?_, fun x x1 x2 => ?_⟩
      · have := f2 (.R 0) (by decide)
        rw [show canon (decide (a = r)) (decide (b = r)) (decide (b = a)) (.R 0) = .R 0 from rfl, t4] at this
        simpa [addr] using this
      · rw [f3 x x1 (by simpa using x2), e3 x x1 (by simpa using x2)]

/-- The first octet and the rest. -/
def first : List Byte → Option (Byte × List Byte)
  | [] => none
  | c :: es => some (c, es)

/-- `mont256_pow`. -/
theorem powOn_safe (lv : Level I rd fn eqv isz) (h : PowFn fn mul sqr) {zeroV oneV : α} (hz : ∀ a b, fn .zero a b = some zeroV)
    {set1 : MemOp β} (h1 : InPlaceSafe I.size I.size I.size rd (fun _ _ _ => some oneV) set1)
    (ez : Mem β → Bool) (eb : Mem β → List Byte) {L r a b : Nat} {m : Mem β}
    (hex : ∀ m1, rd m1 b = rd m b → eb m1 = eb m)
    (hra : SameOrApart r I.size a I.size) (hrb : SameOrApart r I.size b I.size) (hab : SameOrApart a I.size b I.size)
    (hr : r + I.size ≤ L) (ha : a + I.size ≤ L) (hb : b + I.size ≤ L) :
    match (if isz (rd m a) then some zeroV else if ez m then some oneV else
      match (eb m).dropWhile (· == 0) with
      | [] => none
      | c :: es => tailV mul sqr (rd m a) c es) with
    | none => powOn I set1 ez eb L r a b m = none
    | some v => ∃ m', powOn I set1 ez eb L r a b m = some m' ∧ rd m' r = v ∧
        ∀ x, x < L → ¬ (r ≤ x ∧ x < r + I.size) → m' x = m x := by
  by_cases c1 : isz (rd m a) = true
  · rw [if_pos c1]
    have e : powOn I set1 ez eb L r a b m = I.op .zero L r r r m := by
      unfold powOn
      rw [lv.isz_ok, if_pos c1]
    rw [e]
    have := lv.good .zero L r r r m (Or.inl rfl) (Or.inl rfl) (Or.inl rfl) hr hr hr
    dsimp only at this
    rwa [hz] at this
  · rw [if_neg c1]
    by_cases c2 : ez m = true
    · rw [if_pos c2]
      have e : powOn I set1 ez eb L r a b m = set1 L r r r m := by
        unfold powOn
        rw [lv.isz_ok, if_neg c1, if_pos c2]
      rw [e]
      exact h1 L r r r m (Or.inl rfl) (Or.inl rfl) (Or.inl rfl) hr hr hr
    · rw [if_neg c2]
      have B := body_safe lv h (fun m => first ((eb m).dropWhile (· == 0))) (L := L) (r := r) (a := a) (b := b) (m := m)
        (fun m1 e => by rw [hex m1 e]) hra hrb hab hr ha hb
      have E : powOn I set1 ez eb L r a b m = body I (fun m => first ((eb m).dropWhile (· == 0))) L r a b m := by
        unfold powOn body
        rw [lv.isz_ok, if_neg c1, if_neg c2]
        cases exec I (L + 15 * I.size) (addr I.size L r a b) tabP m with
        | none => rfl
        | some m1 =>
          dsimp only
          cases (eb m1).dropWhile (· == 0) with
          | nil => rfl
          | cons c es => dsimp only [first]; cases tailP c es <;> rfl
      rw [E]
      cases hd : (eb m).dropWhile (· == 0) with
      | nil => rw [hd] at B; exact B
      | cons c es => rw [hd] at B; exact B

/-- `sm9_fp12_pow`. -/
theorem fp12Pow_safe (lv : Level I rd fn eqv isz) (h : PowFn fn mul sqr) {zeroV : α} (hz : ∀ a b, fn .zero a b = some zeroV)
    (e : List Byte) :
    InPlaceSafe I.size I.size I.size rd (fun m a _ => if isz (rd m a) then some zeroV else
      match e[(e.takeWhile (· == 0)).length]? with
      | none => none
      | some c => tailV mul sqr (rd m a) c ((e.take 32).drop ((e.takeWhile (· == 0)).length + 1))) (fp12Pow I e) := by
  intro L r a b m hra hrb hab hr ha hb
  dsimp only
  by_cases c1 : isz (rd m a) = true
  · rw [if_pos c1]
    have e' : fp12Pow I e L r a b m = I.op .zero L r r r m := by
      unfold fp12Pow
      rw [lv.isz_ok, if_pos c1]
    rw [e']
    have := lv.good .zero L r r r m (Or.inl rfl) (Or.inl rfl) (Or.inl rfl) hr hr hr
    dsimp only at this
    rwa [hz] at this
  · rw [if_neg c1]
    have B := body_safe lv h (fun _ => (e[(e.takeWhile (· == 0)).length]?).map fun c =>
      (c, (e.take 32).drop ((e.takeWhile (· == 0)).length + 1))) (L := L) (r := r) (a := a) (b := b) (m := m)
      (fun _ _ => rfl) hra hrb hab hr ha hb
    have E : fp12Pow I e L r a b m = body I (fun _ => (e[(e.takeWhile (· == 0)).length]?).map fun c =>
      (c, (e.take 32).drop ((e.takeWhile (· == 0)).length + 1))) L r a b m := by
      unfold fp12Pow body
      rw [lv.isz_ok, if_neg c1]
      cases exec I (L + 15 * I.size) (addr I.size L r a b) tabP m with
      | none => rfl
      | some m1 =>
        dsimp only
        cases e[(e.takeWhile (· == 0)).length]? with
        | none => rfl
        | some c =>
          dsimp only [Option.map_some]
          cases tailP c ((e.take 32).drop ((e.takeWhile (· == 0)).length + 1)) <;> rfl
    rw [E]
    cases hd : e[(e.takeWhile (· == 0)).length]? with
    | none => rw [hd] at B; exact B
    | some c => rw [hd] at B; exact B
end

/-! # What a run does, without a case distinction -/

/-- The run `q` from `m` does what `g` says. -/
def RunOk {β γ : Type} (n L r : Nat) (rd : Mem β → Nat → γ) (m : Mem β) (g : Option γ) (q : Option (Mem β)) : Prop :=
  (g = none → q = none) ∧
  ∀ v, g = some v → ∃ m', q = some m' ∧ rd m' r = v ∧ ∀ x, x < L → ¬ (r ≤ x ∧ x < r + n) → m' x = m x

theorem RunOk.of {β γ : Type} {n L r : Nat} {rd : Mem β → Nat → γ} {m : Mem β} {g : Option γ} {q : Option (Mem β)}
    (h : match g with
      | none => q = none
      | some v => ∃ m', q = some m' ∧ rd m' r = v ∧ ∀ x, x < L → ¬ (r ≤ x ∧ x < r + n) → m' x = m x) :
    RunOk n L r rd m g q := by
  cases g with
  | none => exact ⟨fun _ => h, fun v e => by cases e⟩
  | some v => exact ⟨fun e => (by cases e), fun w e => by cases e; exact h⟩

theorem RunOk.safe {β γ : Type} {nr na nb : Nat} {rd : Mem β → Nat → γ} {g : Mem β → Nat → Nat → Option γ} {f : MemOp β}
    (h : ∀ L r a b m, SameOrApart r nr a na → SameOrApart r nr b nb → SameOrApart a na b nb → r + nr ≤ L → a + na ≤ L →
      b + nb ≤ L → RunOk nr L r rd m (g m a b) (f L r a b m)) : InPlaceSafe nr na nb rd g f := by
  intro L r a b m h1 h2 h3 h4 h5 h6
  have := h L r a b m h1 h2 h3 h4 h5 h6
  cases hg : g m a b with
  | none => exact this.1 hg
  | some v => exact this.2 v hg

theorem RunOk.use {β γ : Type} {nr na nb : Nat} {rd : Mem β → Nat → γ} {g : Mem β → Nat → Nat → Option γ} {f : MemOp β}
    (h : InPlaceSafe nr na nb rd g f) {L r a b : Nat} {m : Mem β} (h1 : SameOrApart r nr a na) (h2 : SameOrApart r nr b nb)
    (h3 : SameOrApart a na b nb) (h4 : r + nr ≤ L) (h5 : a + na ≤ L) (h6 : b + nb ≤ L) :
    RunOk nr L r rd m (g m a b) (f L r a b m) := RunOk.of (h L r a b m h1 h2 h3 h4 h5 h6)

/-! # The value-level models are these powers -/

theorem tab_get {α : Type} {mul : α → α → α} {sqr : α → α} (a : α) (T : Nat → α → List α)
    (h0 : ∀ p, T 0 p = []) (h1 : ∀ n p, T (n + 1) p = p :: T n (mul p a)) :
    ∀ (n j k : Nat), (T n (tab mul sqr a k))[j]? = if j < n then some (tab mul sqr a (k + j)) else none
  | 0, j, k => by rw [h0]; simp
  | n + 1, 0, k => by rw [h1]; simp
  | n + 1, j + 1, k => by
    rw [h1, List.getElem?_cons_succ]
    have := tab_get (sqr := sqr) a T h0 h1 n j (k + 1)
    rw [show tab mul sqr a (k + 1) = mul (tab mul sqr a k) a from rfl] at this
    rw [this]
    simp [Nat.add_right_comm, Nat.add_assoc]

theorem sel_eq {α : Type} {mul : α → α → α} {sqr : α → α} (a : α) (lut : List α)
    (h : ∀ j, lut[j]? = if j < 14 then some (tab mul sqr a j) else none) (index : Nat) :
    (if index = 1 then some a else if index < 2 then none else lut[index - 2]?) = selV mul sqr a index := by
  unfold selV
  by_cases h1 : index = 1
  · rw [if_pos h1, if_pos h1]
  · rw [if_neg h1, if_neg h1]
    by_cases h2 : index < 2
    · rw [if_pos h2, if_pos h2]
    · rw [if_neg h2, if_neg h2, h]
      by_cases h3 : index < 16
      · rw [if_pos h3, if_pos (by omega)]
      · rw [if_neg h3, if_neg (by omega)]

section
variable {α : Type} (F : FpOps α)

theorem fp12Table_get (a : Fp12 α) (j : Nat) : (fp12Table F a 14 (Verif.fp12Sqr F a))[j]? =
    if j < 14 then some (tab (fp12Mul F) (Verif.fp12Sqr F) a j) else none := by
  have := tab_get (mul := fp12Mul F) (sqr := Verif.fp12Sqr F) a (fp12Table F a) (fun _ => rfl) (fun _ _ => rfl) 14 j 0
  rw [Nat.zero_add] at this
  exact this

theorem fp12MulSel_eq (a t : Fp12 α) (index : Nat) :
    fp12MulSel F (fp12Table F a 14 (Verif.fp12Sqr F a)) a t index = mulSelV (fp12Mul F) (Verif.fp12Sqr F) a t index := by
  unfold fp12MulSel mulSelV fp12Sel
  rw [sel_eq a _ (fp12Table_get F a)]

theorem fp12PowLoop_eq (a : Fp12 α) : ∀ (es : List Byte) (t : Fp12 α),
    fp12PowLoop F (fp12Table F a 14 (Verif.fp12Sqr F a)) a es t = powLoopV (fp12Mul F) (Verif.fp12Sqr F) a es t
  | [], _ => rfl
  | e :: es, t => by
    unfold fp12PowLoop powLoopV
    simp only [fp12MulSel_eq, fp12PowLoop_eq a es]
    rfl

theorem fp12Pow_eq (a : Fp12 α) (e : List Byte) : Verif.fp12Pow F a e = if fp12IsZero F a then some (fp12Zero F) else
      match e[(e.takeWhile (· == 0)).length]? with
      | none => none
      | some c => tailV (fp12Mul F) (Verif.fp12Sqr F) a c ((e.take 32).drop ((e.takeWhile (· == 0)).length + 1)) := by
  unfold Verif.fp12Pow
  by_cases c1 : fp12IsZero F a = true
  · rw [if_pos c1, if_pos c1]
  · rw [if_neg c1, if_neg c1]
    dsimp only
    cases e[(e.takeWhile (· == 0)).length]? with
    | none => rfl
    | some c =>
      dsimp only
      unfold tailV headV fp12Sel
      simp only [sel_eq a _ (fp12Table_get F a), fp12MulSel_eq, fp12PowLoop_eq]
      by_cases hb : c > 0xF#8
      · simp only [if_pos hb]
        cases selV _ _ a _ <;> rfl
      · simp only [if_neg hb]
end

theorem pow32_get (ctx : Mont256CTX) (a : List W32) (j : Nat) : (powTable ctx a 14 (mont256Sqr ctx a))[j]? =
    if j < 14 then some (tab (mont256Mul ctx) (mont256Sqr ctx) a j) else none := by
  have := tab_get (mul := mont256Mul ctx) (sqr := mont256Sqr ctx) a (powTable ctx a) (fun _ => rfl) (fun _ _ => rfl) 14 j 0
  rw [Nat.zero_add] at this
  exact this

theorem pow32_mulSel (ctx : Mont256CTX) (a t : List W32) (index : Nat) :
    powMulSel ctx (powTable ctx a 14 (mont256Sqr ctx a)) a t index =
      mulSelV (mont256Mul ctx) (mont256Sqr ctx) a t index := by
  unfold powMulSel mulSelV powSel
  rw [sel_eq a _ (pow32_get ctx a)]

theorem pow32_sqr4 (ctx : Mont256CTX) : sqr4 ctx = sqr4V (mont256Sqr ctx) := by
  funext t
  unfold sqr4 sqr4V
  generalize mont256Sqr ctx = f
  rfl

theorem pow32_loop (ctx : Mont256CTX) (a : List W32) : ∀ (es : List Byte) (t : List W32),
    powLoop ctx (powTable ctx a 14 (mont256Sqr ctx a)) a es t = powLoopV (mont256Mul ctx) (mont256Sqr ctx) a es t
  | [], _ => rfl
  | e :: es, t => by
    unfold powLoop powLoopV
    simp only [pow32_mulSel, pow32_loop ctx a es, pow32_sqr4]

theorem pow32_eq (ctx : Mont256CTX) (a x : List W32) : mont256Pow ctx a x = if u256EqualZero a then some u256Zero else
    if u256EqualZero x then some u256One else
      match (u256ToBytes x).dropWhile (· == 0) with
      | [] => none
      | c :: es => tailV (mont256Mul ctx) (mont256Sqr ctx) a c es := by
  unfold mont256Pow
  by_cases c1 : u256EqualZero a = true
  · rw [if_pos c1, if_pos c1]
  · rw [if_neg c1, if_neg c1]
    by_cases c2 : u256EqualZero x = true
    · rw [if_pos c2, if_pos c2]
    · rw [if_neg c2, if_neg c2]
      dsimp only
      cases (u256ToBytes x).dropWhile (· == 0) with
      | nil => rfl
      | cons c es =>
        dsimp only
        unfold tailV headV powSel
        simp only [sel_eq a _ (pow32_get ctx a), pow32_mulSel, pow32_loop, pow32_sqr4]
        by_cases hb : c > 0xF#8
        · simp only [if_pos hb]
          generalize mont256Sqr ctx = sq
          generalize mont256Mul ctx = mu
          cases selV mu sq a _ <;> rfl
        · simp only [if_neg hb]

end Verif.PairMem
