import Verif.Proofs.PairMemG
/-! Helper lemmas for C102: what the functions of the pairing compute on named values, over any base field. -/
namespace Verif.PairMem
open Verif Verif.Alias Verif.Spec.Alias

section
variable {α : Type} (F : FpOps α) (fb : List Byte → α)

/-! The functions of `Verif.Model.Sm9Pairing` over `F`, with `fb` for `sm9_fp_from_bytes`. -/

def conj2V (a : Fp2 α) : Fp2 α := ⟨a.c0, F.neg a.c1⟩
def conj4V (a : Fp4 α) : Fp4 α := ⟨a.c0, fp2Neg F a.c1⟩
def frobV (x : Fp12 α) : Fp12 α :=
  ⟨⟨conj2V F x.c0.c0, fp2MulFp F (conj2V F x.c0.c1) (fb Sm9.sm9Alpha3Data)⟩,
   ⟨fp2MulFp F (conj2V F x.c1.c0) (fb Sm9.sm9Alpha1Data), fp2MulFp F (conj2V F x.c1.c1) (fb Sm9.sm9Alpha4Data)⟩,
   ⟨fp2MulFp F (conj2V F x.c2.c0) (fb Sm9.sm9Alpha2Data), fp2MulFp F (conj2V F x.c2.c1) (fb Sm9.sm9Alpha5Data)⟩⟩
def frob2V (x : Fp12 α) : Fp12 α :=
  ⟨conj4V F x.c0, fp4MulFp F (conj4V F x.c1) (fb Sm9.sm9Alpha2Data), fp4MulFp F (conj4V F x.c2) (fb Sm9.sm9Alpha4Data)⟩
def frob3V (x : Fp12 α) : Fp12 α :=
  ⟨⟨conj2V F x.c0.c0, fp2Neg F (fp2MulFp F (conj2V F x.c0.c1) (fb Sm9.sm9BetaData))⟩,
   ⟨fp2MulFp F (conj2V F x.c1.c0) (fb Sm9.sm9BetaData), conj2V F x.c1.c1⟩,
   ⟨fp2Neg F (conj2V F x.c2.c0), fp2MulFp F (conj2V F x.c2.c1) (fb Sm9.sm9BetaData)⟩⟩
def frob6V (x : Fp12 α) : Fp12 α := ⟨conj4V F x.c0, fp4Neg F (conj4V F x.c1), conj4V F x.c2⟩
def frobAV (Q : EcA (Fp2 α)) : EcJ (Fp2 α) := ⟨conj2V F Q.x, conj2V F Q.y, ⟨fb Sm9.cL1835, F.zero⟩⟩
def frob2AV (Q : EcA (Fp2 α)) : EcJ (Fp2 α) := ⟨Q.x, Q.y, ⟨fb Sm9.cL1850, F.zero⟩⟩

/-- The functions of the base field and the constants. -/
def fnC (tw : α → Option α) : FOp → α → α → Option α
  | .inl s => fnF F tw s
  | .inr bs => fun _ _ => some (fb bs)
/-- The functions that are meant. -/
def wC : FOp → Bool
  | .inl _ => true
  | .inr bs => bs.length == 32

def outT (S : Nat → α) : Fp12 α :=
  ⟨⟨⟨S 0, S 1⟩, ⟨S 2, S 3⟩⟩, ⟨⟨S 4, S 5⟩, ⟨S 6, S 7⟩⟩, ⟨⟨S 8, S 9⟩, ⟨S 10, S 11⟩⟩⟩
def outA2 (S : Nat → α) : EcA (Fp2 α) := ⟨⟨S 0, S 1⟩, ⟨S 2, S 3⟩⟩
def outJ2 (S : Nat → α) : EcJ (Fp2 α) := ⟨⟨S 0, S 1⟩, ⟨S 2, S 3⟩, ⟨S 4, S 5⟩⟩
def outS (S : Nat → Fp2 α) : Fp12 α := ⟨⟨S 0, S 1⟩, ⟨S 2, S 3⟩, ⟨S 4, S 5⟩⟩

theorem cg_frob (tw) : CalcG (fnC F fb tw) frobP outT outT outT fun a _ => some (frobV F fb a) := by
  intro ar br ba S; cases ar <;> cases br <;> cases ba <;> rfl
theorem cg_frob2 (tw) : CalcG (fnC F fb tw) frob2P outT outT outT fun a _ => some (frob2V F fb a) := by
  intro ar br ba S; cases ar <;> cases br <;> cases ba <;> rfl
theorem cg_frob3 (tw) : CalcG (fnC F fb tw) frob3P outT outT outT fun a _ => some (frob3V F fb a) := by
  intro ar br ba S; cases ar <;> cases br <;> cases ba <;> rfl
theorem cg_frob6 (tw) : CalcG (fnC F fb tw) frob6P outT outT outT fun a _ => some (frob6V F a) := by
  intro ar br ba S; cases ar <;> cases br <;> cases ba <;> rfl
theorem cg_frobA (tw) : CalcG (fnC F fb tw) frobAP outJ2 outA2 outA2 fun a _ => some (frobAV F fb a) := by
  intro ar br ba S; cases ar <;> cases br <;> cases ba <;> rfl
theorem cg_frob2A (tw) : CalcG (fnC F fb tw) frob2AP outJ2 outA2 outA2 fun a _ => some (frob2AV F fb a) := by
  intro ar br ba S; cases ar <;> cases br <;> cases ba <;> rfl

/-! ## The line functions -/

def sparseV (a0 a1 a4 : Fp2 α) : Fp12 α := ⟨⟨a0, a1⟩, ⟨(fp2Ops F).zero, (fp2Ops F).zero⟩, ⟨a4, (fp2Ops F).zero⟩⟩

def tangentV (T : EcJ (Fp2 α)) (P : EcA α) : Option (Fp12 α) := do
  let t0 := (fp2Ops F).sqr T.z
  let t1 := (fp2Ops F).mul t0 T.z
  let b1 := (fp2Ops F).mul t1 T.y
  let b1 := (fp2Ops F).dbl b1
  let t2 := fp2MulFp F b1 P.y
  let a1 := (fp2Ops F).neg t2
  let t1 := (fp2Ops F).sqr T.x
  let t0 := (fp2Ops F).mul t0 t1
  let t0 := fp2MulFp F t0 P.x
  let a4 ← (fp2Ops F).tpl t0
  let t1 := (fp2Ops F).mul t1 T.x
  let t1 ← (fp2Ops F).tpl t1
  let t0 := (fp2Ops F).sqr T.y
  let t0 := (fp2Ops F).dbl t0
  let a0 := (fp2Ops F).sub t0 t1
  some (sparseV F a0 a1 a4)

def lineJV (T Q : EcJ (Fp2 α)) (P : EcA α) : Fp12 α :=
  let t0 := (fp2Ops F).sqr Q.z
  let t1 := (fp2Ops F).mul t0 T.x
  let t0 := (fp2Ops F).mul t0 Q.z
  let t2 := (fp2Ops F).sqr T.z
  let t3 := (fp2Ops F).mul t2 Q.x
  let t2 := (fp2Ops F).mul t2 T.z
  let t2 := (fp2Ops F).mul t2 Q.y
  let t1 := (fp2Ops F).sub t1 t3
  let t1 := (fp2Ops F).mul t1 T.z
  let t1 := (fp2Ops F).mul t1 Q.z
  let b1 := (fp2Ops F).mul t1 t0
  let t1 := (fp2Ops F).mul t1 Q.y
  let t3 := (fp2Ops F).mul t0 T.y
  let t3 := (fp2Ops F).sub t3 t2
  let t0 := (fp2Ops F).mul t0 t3
  let t0 := fp2MulFp F t0 P.x
  let a4 := t0
  let t3 := (fp2Ops F).mul t3 Q.x
  let t3 := (fp2Ops F).mul t3 Q.z
  let t1 := (fp2Ops F).sub t1 t3
  let a0 := t1
  let t2 := fp2MulFp F b1 P.y
  let t2 := (fp2Ops F).neg t2
  let a1 := t2
  sparseV F a0 a1 a4

def lineAV (T : EcJ (Fp2 α)) (Q : EcA (Fp2 α)) (P : EcA α) : Fp12 α :=
  let t2 := (fp2Ops F).sqr T.z
  let t3 := (fp2Ops F).mul t2 Q.x
  let t2 := (fp2Ops F).mul t2 T.z
  let t2 := (fp2Ops F).mul t2 Q.y
  let t1 := (fp2Ops F).sub T.x t3
  let t1 := (fp2Ops F).mul t1 T.z
  let b1 := t1
  let t1 := (fp2Ops F).mul t1 Q.y
  let t3 := T.y
  let t3 := (fp2Ops F).sub t3 t2
  let t0 := fp2MulFp F t3 P.x
  let a4 := t0
  let t3 := (fp2Ops F).mul t3 Q.x
  let t1 := (fp2Ops F).sub t1 t3
  let a0 := t1
  let t2 := fp2MulFp F b1 P.y
  let t2 := (fp2Ops F).neg t2
  let a1 := t2
  sparseV F a0 a1 a4

/-- The functions `sm9_fp2_*` and the products with the coordinates of `P`. -/
def fnL (P : EcA α) : LOp → Fp2 α → Fp2 α → Option (Fp2 α)
  | .inl s => fn2 F s
  | .inr j => fun a _ => some (fp2MulFp F a (if j then P.y else P.x))

theorem cg_tangent (P : EcA α) (ba : Bool) (S : Nm → Fp2 α) :
    (valG (fnL F P) (canon false false ba) tangentP S).map (fun S' => outS fun i => S' (.R i)) =
      tangentV F (outJ fun i => S (canon false false ba (.A i))) P := by
  simp only [tangentP, valG, l2, l1, l0, lx, ly, fnL, fnF, tangentV, outS, outJ]
  cases ba <;> simp [canon] <;> generalize (fp2Ops F).tpl _ = o <;> cases o <;> try rfl
  all_goals (simp; generalize (fp2Ops F).tpl _ = o <;> cases o <;> rfl)
theorem cg_lineJ (P : EcA α) (ba : Bool) (S : Nm → Fp2 α) :
    (valG (fnL F P) (canon false false ba) lineJP S).map (fun S' => outS fun i => S' (.R i)) =
      some (lineJV F (outJ fun i => S (canon false false ba (.A i))) (outJ fun i => S (canon false false ba (.B i))) P) := by
  cases ba <;> rfl
theorem cg_lineA (P : EcA α) (ba : Bool) (S : Nm → Fp2 α) :
    (valG (fnL F P) (canon false false ba) lineAP S).map (fun S' => outS fun i => S' (.R i)) =
      some (lineAV F (outJ fun i => S (canon false false ba (.A i))) (outA fun i => S (canon false false ba (.B i))) P) := by
  cases ba <;> rfl

/-! ## The final exponentiation -/

def hardV (f : Fp12 α) : Option (Fp12 α) := do
  let t0 ← Verif.fp12Pow F f Sm9.a3
  let t0 ← fp12Inv F t0
  let t1 := frobV F fb t0
  let t1 := fp12Mul F t0 t1
  let t0 := fp12Mul F t0 t1
  let t2 := frobV F fb f
  let t3 := fp12Mul F t2 f
  let t4 := Verif.fp12Sqr F t3
  let t4 := Verif.fp12Sqr F t4
  let t4 := Verif.fp12Sqr F t4
  let t3 := fp12Mul F t4 t3
  let t0 := fp12Mul F t0 t3
  let t3 := Verif.fp12Sqr F f
  let t3 := Verif.fp12Sqr F t3
  let t0 := fp12Mul F t0 t3
  let t2 := Verif.fp12Sqr F t2
  let t2 := fp12Mul F t2 t1
  let t1 := frob2V F fb f
  let t1 := fp12Mul F t1 t2
  let t2 ← Verif.fp12Pow F t1 Sm9.a2
  let t0 := fp12Mul F t2 t0
  let t1 := frob3V F fb f
  let t1 := fp12Mul F t1 t0
  some t1

def finalV (f : Fp12 α) : Option (Fp12 α) := do
  let t0 := frob6V F f
  let t1 ← fp12Inv F f
  let t0 := fp12Mul F t0 t1
  let t1 := frob2V F fb t0
  let t0 := fp12Mul F t0 t1
  hardV F fb t0

/-- The functions of the final exponentiation. -/
def fnE : EOp → Fp12 α → Fp12 α → Option (Fp12 α)
  | .f s => fn12 F s
  | .pow e => fun a _ => Verif.fp12Pow F a e
  | .frob => fun a _ => some (frobV F fb a)
  | .frob2 => fun a _ => some (frob2V F fb a)
  | .frob3 => fun a _ => some (frob3V F fb a)
  | .frob6 => fun a _ => some (frob6V F a)
def fnX : EOp ⊕ Unit → Fp12 α → Fp12 α → Option (Fp12 α)
  | .inl o => fnE F fb o
  | .inr _ => fun a _ => hardV F fb a

def out1 (S : Nat → Fp12 α) : Fp12 α := S 0

theorem cg_hard : CalcG (fnE F fb) hardP out1 out1 out1 fun a _ => hardV F fb a := by
  intro ar br ba S
  simp only [hardP, valG, e1, e2, fnE, fn12, hardV, out1]
  cases ar <;> cases br <;> cases ba <;> simp [canon] <;> generalize Verif.fp12Pow F _ Sm9.a3 = o <;> cases o <;> try rfl
  all_goals (simp; generalize fp12Inv F _ = o; cases o <;> try rfl)
  all_goals (simp; generalize Verif.fp12Pow F _ Sm9.a2 = o; cases o <;> rfl)
theorem cg_final : CalcG (fnX F fb) finalP out1 out1 out1 fun a _ => finalV F fb a := by
  intro ar br ba S
  simp only [finalP, valG, x1, x2, fnX, fnE, fn12, finalV, out1]
  cases ar <;> cases br <;> cases ba <;> simp [canon] <;> generalize fp12Inv F _ = o <;> cases o <;> try rfl
  all_goals (simp; generalize hardV F fb _ = o; cases o <;> rfl)
end
end Verif.PairMem
