import Verif.Proofs.AliasLimbs
/-!
# C78: the arithmetic functions may be called in place

`InPlaceSafe` (`Verif.Spec.Alias`) quantifies over every memory, every stack pointer and every three addresses that are
pairwise equal or apart.  The value-level functions on the right are those of `Verif.Model.Limbs`, `Sm9Field`, `Sm2Ec`,
`Sm9Ec`, which get and return values and are the subject of C20-C26, C33 and others; so those theorems hold for in-place
calls too.
-/
namespace Verif.Props
open Verif Verif.Spec.Alias Verif.Alias

private theorem lvSm2 : Level sm2Fp rd8 (fnF Sm2.fp fun _ => none) Sm2.fp.eq Sm2.fp.isZero :=
  level_fp (ctx := Sm2.fpCtx) (by decide) (by decide)
private theorem lvSm9 : Level sm9Fp rd8 (fnF Sm9.fp fun _ => none) Sm9.fp.eq Sm9.fp.isZero :=
  level_fp (ctx := Sm9.fpCtx) (by decide) (by decide)
private theorem lvFp2 : Level sm9Fp2 rdFp2 (fn2 Sm9.fp) Sm9.fp2.eq Sm9.fp2.isZero := level2 lvSm9
private theorem lvFp4 : Level sm9Fp4 rdFp4 (fn4 Sm9.fp) (fp4Eq Sm9.fp) (fp4IsZero Sm9.fp) := level4 lvFp2
private theorem lvFp12 : Level sm9Fp12 rdFp12 (fn12 Sm9.fp) (fp12Eq Sm9.fp) (fp12IsZero Sm9.fp) := level12 lvFp4

/-- C78, base fields: every `sm2_fp_*` (add, sub, mul, sqr, dbl, tpl, neg, inv, cpy, set_one, set_zero) called as
`f(r, a, b)` on 8-word operands leaves at `r` what the function on values makes of the operands as they were on entry,
whichever of `r`, `a`, `b` are the same array, and touches nothing else. -/
theorem C78_sm2_field (o : Sym) : InPlaceSafe 8 8 8 rd8
    (fun m a b => fnF Sm2.fp (fun _ => none) o (rd8 m a) (rd8 m b)) (sm2Fp.op o) := lvSm2.good o

/-- The same for `sm9_fp_*`. -/
theorem C78_sm9_field (o : Sym) : InPlaceSafe 8 8 8 rd8
    (fun m a b => fnF Sm9.fp (fun _ => none) o (rd8 m a) (rd8 m b)) (sm9Fp.op o) := lvSm9.good o

/-- C78, halving: `mont256_div2(ctx, r, a)` with the contexts of SM2 and SM9, which moves bits from limb to limb. -/
theorem C78_div2 :
    InPlaceSafe 8 8 8 rd8 (fun m a _ => some (mont256Div2 Sm2.fpCtx (rd8 m a))) (memDiv2 Sm2.fpCtx) ∧
    InPlaceSafe 8 8 8 rd8 (fun m a _ => some (mont256Div2 Sm9.fpCtx (rd8 m a))) (memDiv2 Sm9.fpCtx) :=
  ⟨div2_limb (by decide), div2_limb (by decide)⟩

/-- C78, `sm9_fp2_*` (with `sm9_fp2_mul_u`) on 16-word operands. -/
theorem C78_sm9_fp2 (o : Sym) : InPlaceSafe 16 16 16 rdFp2
    (fun m a b => fn2 Sm9.fp o (rdFp2 m a) (rdFp2 m b)) (sm9Fp2.op o) := lvFp2.good o

/-- C78, `sm9_fp4_*` (with `sm9_fp4_mul_v`) on 32-word operands. -/
theorem C78_sm9_fp4 (o : Sym) : InPlaceSafe 32 32 32 rdFp4
    (fun m a b => fn4 Sm9.fp o (rdFp4 m a) (rdFp4 m b)) (sm9Fp4.op o) := lvFp4.good o

/-- C78, `sm9_fp12_*` on 96-word operands. -/
theorem C78_sm9_fp12 (o : Sym) : InPlaceSafe 96 96 96 rdFp12
    (fun m a b => fn12 Sm9.fp o (rdFp12 m a) (rdFp12 m b)) (sm9Fp12.op o) := lvFp12.good o

/-- C78, points of the SM2 curve: affine negation, negation, infinity, `_from_a`, `_to_a`, `_normal`, doubling, addition
and addition of an affine point.  An affine point may be the first two components of the Jacobian one. -/
theorem C78_sm2_points :
    InPlaceSafe 16 16 16 rdEcA (fun m a _ => some ⟨(rdEcA m a).x, Sm2.fp.neg (rdEcA m a).y⟩) (call sm2Fp 0 ecANegP) ∧
    InPlaceSafe 24 24 24 rdEcJ (fun m a _ => some (ecJNeg Sm2.fp (rdEcJ m a))) (call sm2Fp 0 ecJNegP) ∧
    InPlaceSafe 24 24 24 rdEcJ (fun _ _ _ => some (ecJInf Sm2.fp)) (call sm2Fp 0 ecJInfP) ∧
    InPlaceSafe 24 16 16 rdEcJ (fun m a _ => some (ecJFromA Sm2.fp (rdEcA m a))) (call sm2Fp 0 ecJFromAP) ∧
    InPlaceSafe 16 24 24 rdEcA (fun m a _ => ecJToA Sm2.fp (rdEcJ m a)) (call sm2Fp 2 ecJToAP) ∧
    InPlaceSafe 24 24 24 rdEcJ (fun m a _ => Verif.ecJNormal Sm2.fp (rdEcJ m a)) (Alias.ecJNormal sm2Fp) ∧
    InPlaceSafe 24 24 24 rdEcJ (fun m a _ => ecJDbl Sm2.fp (rdEcJ m a)) (call sm2Fp 4 sm2DblP) ∧
    InPlaceSafe 24 24 24 rdEcJ (fun m a b => Verif.ecJAdd Sm2.fp (rdEcJ m a) (rdEcJ m b)) (Alias.ecJAdd sm2Fp sm2DblP 4) ∧
    InPlaceSafe 24 24 16 rdEcJ (fun m a b => some (ecJAddA Sm2.fp (rdEcJ m a) (rdEcA m b))) (call sm2Fp 9 addAP) :=
  points_sm2 lvSm2

/-- The same for the points of the SM9 curve over the base field. -/
theorem C78_sm9_points :
    InPlaceSafe 16 16 16 rdEcA (fun m a _ => some ⟨(rdEcA m a).x, Sm9.fp.neg (rdEcA m a).y⟩) (call sm9Fp 0 ecANegP) ∧
    InPlaceSafe 24 24 24 rdEcJ (fun m a _ => some (ecJNeg Sm9.fp (rdEcJ m a))) (call sm9Fp 0 ecJNegP) ∧
    InPlaceSafe 24 24 24 rdEcJ (fun _ _ _ => some (ecJInf Sm9.fp)) (call sm9Fp 0 ecJInfP) ∧
    InPlaceSafe 24 16 16 rdEcJ (fun m a _ => some (ecJFromA Sm9.fp (rdEcA m a))) (call sm9Fp 0 ecJFromAP) ∧
    InPlaceSafe 16 24 24 rdEcA (fun m a _ => ecJToA Sm9.fp (rdEcJ m a)) (call sm9Fp 2 ecJToAP) ∧
    InPlaceSafe 24 24 24 rdEcJ (fun m a _ => Verif.ecJNormal Sm9.fp (rdEcJ m a)) (Alias.ecJNormal sm9Fp) ∧
    InPlaceSafe 24 24 24 rdEcJ (fun m a _ => ecJDbl0 Sm9.fp (rdEcJ m a)) (call sm9Fp 6 sm9DblP) ∧
    InPlaceSafe 24 24 24 rdEcJ (fun m a b => ecJAdd0 Sm9.fp (rdEcJ m a) (rdEcJ m b)) (Alias.ecJAdd sm9Fp sm9DblP 6) ∧
    InPlaceSafe 24 24 16 rdEcJ (fun m a b => some (ecJAddA Sm9.fp (rdEcJ m a) (rdEcA m b))) (call sm9Fp 9 addAP) :=
  points_sm9 lvSm9

/-- The same for the points of the SM9 twist, over `sm9_fp2_*`. -/
theorem C78_sm9_points2 :
    InPlaceSafe 32 32 32 rdEc2A (fun m a _ => some ⟨(rdEc2A m a).x, Sm9.fp2.neg (rdEc2A m a).y⟩) (call sm9Fp2 0 ecANegP) ∧
    InPlaceSafe 48 48 48 rdEc2J (fun m a _ => some (ecJNeg Sm9.fp2 (rdEc2J m a))) (call sm9Fp2 0 ecJNegP) ∧
    InPlaceSafe 48 48 48 rdEc2J (fun _ _ _ => some (ecJInf Sm9.fp2)) (call sm9Fp2 0 ecJInfP) ∧
    InPlaceSafe 48 32 32 rdEc2J (fun m a _ => some (ecJFromA Sm9.fp2 (rdEc2A m a))) (call sm9Fp2 0 ecJFromAP) ∧
    InPlaceSafe 32 48 48 rdEc2A (fun m a _ => ecJToA Sm9.fp2 (rdEc2J m a)) (call sm9Fp2 2 ecJToAP) ∧
    InPlaceSafe 48 48 48 rdEc2J (fun m a _ => Verif.ecJNormal Sm9.fp2 (rdEc2J m a)) (Alias.ecJNormal sm9Fp2) ∧
    InPlaceSafe 48 48 48 rdEc2J (fun m a _ => ecJDbl0 Sm9.fp2 (rdEc2J m a)) (call sm9Fp2 6 sm9DblP) ∧
    InPlaceSafe 48 48 48 rdEc2J (fun m a b => ecJAdd0 Sm9.fp2 (rdEc2J m a) (rdEc2J m b))
      (Alias.ecJAdd sm9Fp2 sm9DblP 6) ∧
    InPlaceSafe 48 48 32 rdEc2J (fun m a b => some (ecJAddA Sm9.fp2 (rdEc2J m a) (rdEc2A m b))) (call sm9Fp2 9 addAP) :=
  points_sm9 lvFp2

/-! Non-vacuity: one array for the result and both operands meets the hypotheses, and the functions on values do return:
the generator of SM2 (`z = 1`) at address 0, added to itself in place. -/

private theorem allSame {β γ : Type} {n : Nat} {rd : (Nat → β) → Nat → γ} {g : (Nat → β) → Nat → Nat → Option γ}
    {f : Nat → Nat → Nat → Nat → (Nat → β) → Option (Nat → β)} (h : InPlaceSafe n n n rd g f) {m : Nat → β} {v : γ}
    (hv : g m 0 0 = some v) : ∃ m', f n 0 0 0 m = some m' ∧ rd m' 0 = v := by
  have := h n 0 0 0 m (.inl rfl) (.inl rfl) (.inl rfl) (by omega) (by omega) (by omega)
  rw [hv] at this
  obtain ⟨m', h1, h2, _⟩ := this
  exact ⟨m', h1, h2⟩

/-- The coordinates of the generator of SM2 in Montgomery form, then the stack. -/
private def genMem : Mem W32 := fun x =>
  (Sm2.fpFromBytes Sm2.sm2CurveGx ++ Sm2.fpFromBytes Sm2.sm2CurveGy ++ Sm2.fp.one).getD x 0

private theorem addSame (m : Mem W32) (v : EcJ (List W32)) (hv : Verif.ecJAdd Sm2.fp (rdEcJ m 0) (rdEcJ m 0) = some v) :
    ∃ m', Alias.ecJAdd sm2Fp sm2DblP 4 24 0 0 0 m = some m' ∧ rdEcJ m' 0 = v :=
  @allSame _ _ _ _ _ _ (@And.left _ _ C78_sm2_points.2.2.2.2.2.2.2) _ _ hv

example : SameOrApart 0 24 0 24 ∧ 0 + 24 ≤ 24 := ⟨.inl rfl, Nat.le_refl _⟩
example : (Verif.ecJAdd Sm2.fp (rdEcJ genMem 0) (rdEcJ genMem 0)).isSome = true := by decide +kernel
example : ∃ m', Alias.ecJAdd sm2Fp sm2DblP 4 24 0 0 0 genMem = some m' ∧
    some (rdEcJ m' 0) = ecJDbl Sm2.fp (rdEcJ genMem 0) ∧ rdEcJ m' 0 ≠ rdEcJ genMem 0 := by
  have e : Verif.ecJAdd Sm2.fp (rdEcJ genMem 0) (rdEcJ genMem 0) = ecJDbl Sm2.fp (rdEcJ genMem 0) := by decide +kernel
  have s : (ecJDbl Sm2.fp (rdEcJ genMem 0)).isSome = true := by decide +kernel
  have n : ecJDbl Sm2.fp (rdEcJ genMem 0) ≠ some (rdEcJ genMem 0) := by decide +kernel
  generalize genMem = m at *
  cases d : ecJDbl Sm2.fp (rdEcJ m 0) with
  | none => rw [d] at s; cases s
  | some v =>
    have hv := e.trans d
    obtain ⟨m', h1, h2⟩ := addSame m v hv
    exact ⟨m', h1, by rw [h2], fun c => n (by rw [d, ← c, h2])⟩

/-! ## Operands of different sizes -/

/-- C78 fails for `sm9_fp2_mul_fp(r, r, r[0])`, where the factor is the first component of the operand: it is overwritten
before the second product is formed.  (`2 + u` times `2` gives `4 + 4u`.)  No caller in the library does this. -/
theorem C78_fp2_mul_fp_violated : ∃ (m m' : Mem W32), call sm9Fp 0 mulCompP 16 0 0 0 m = some m' ∧
    rdFp2 m 0 = ⟨mont256Dbl Sm9.fpCtx Sm9.fp.one, Sm9.fp.one⟩ ∧
    fp2MulFp Sm9.fp (rdFp2 m 0) (rd8 m 0) =
      ⟨mont256Dbl Sm9.fpCtx (mont256Dbl Sm9.fpCtx Sm9.fp.one), mont256Dbl Sm9.fpCtx Sm9.fp.one⟩ ∧
    rdFp2 m' 0 = ⟨mont256Dbl Sm9.fpCtx (mont256Dbl Sm9.fpCtx Sm9.fp.one),
      mont256Dbl Sm9.fpCtx (mont256Dbl Sm9.fpCtx Sm9.fp.one)⟩ ∧
    rdFp2 m' 0 ≠ fp2MulFp Sm9.fp (rdFp2 m 0) (rd8 m 0) := by
  refine ⟨fun x => (mont256Dbl Sm9.fpCtx Sm9.fp.one ++ Sm9.fp.one).getD x 0, _, rfl, ?_, ?_, ?_, ?_⟩ <;> decide +kernel


/-- C78 for `sm9_fp2_mul_fp`: safe when the factor does not lie in the result (missing: the factor being a component of the
result, see above).  The factor may be a component of the operand. -/
theorem C78_fp2_mul_fp_partial (L r a b : Nat) (m : Mem W32) (hra : SameOrApart r 16 a 16)
    (hrb : r + 16 ≤ b ∨ b + 8 ≤ r) (hab : SameOrApart a 16 b 8)
    (hr : r + 16 ≤ L) (ha : a + 16 ≤ L) (hb : b + 8 ≤ L) :
    ∃ m', call sm9Fp 0 mulCompP L r a b m = some m' ∧ rdFp2 m' r = fp2MulFp Sm9.fp (rdFp2 m a) (rd8 m b) ∧
      ∀ x, x < L → ¬ (r ≤ x ∧ x < r + 16) → m' x = m x :=
  mulComp_apart lvSm9 2 mulCompP (by decide) rdFp2 out2 reads2 (fp2MulFp Sm9.fp)
    (fun ar ba S => by cases ar <;> cases ba <;> rfl) L r a b m (by omega) hra (.inr hrb) hab hr ha hb

/-- The same for `sm9_fp4_mul_fp2`. -/
theorem C78_fp4_mul_fp2_partial (L r a b : Nat) (m : Mem W32) (hra : SameOrApart r 32 a 32)
    (hrb : r + 32 ≤ b ∨ b + 16 ≤ r) (hab : SameOrApart a 32 b 16)
    (hr : r + 32 ≤ L) (ha : a + 32 ≤ L) (hb : b + 16 ≤ L) :
    ∃ m', call sm9Fp2 0 mulCompP L r a b m = some m' ∧ rdFp4 m' r = fp4MulFp2 Sm9.fp (rdFp4 m a) (rdFp2 m b) ∧
      ∀ x, x < L → ¬ (r ≤ x ∧ x < r + 32) → m' x = m x :=
  mulComp_apart lvFp2 2 mulCompP (by decide) rdFp4 out4 reads4 (fp4MulFp2 Sm9.fp)
    (fun ar ba S => by cases ar <;> cases ba <;> rfl) L r a b m (by omega) hra (.inr hrb) hab hr ha hb

/-- The same for `sm9_fp12_mul_fp4`. -/
theorem C78_fp12_mul_fp4_partial (L r a b : Nat) (m : Mem W32) (hra : SameOrApart r 96 a 96)
    (hrb : r + 96 ≤ b ∨ b + 32 ≤ r) (hab : SameOrApart a 96 b 32)
    (hr : r + 96 ≤ L) (ha : a + 96 ≤ L) (hb : b + 32 ≤ L) :
    ∃ m', call sm9Fp4 0 fp12MulFp4P L r a b m = some m' ∧ rdFp12 m' r = fp12MulFp4 Sm9.fp (rdFp12 m a) (rdFp4 m b) ∧
      ∀ x, x < L → ¬ (r ≤ x ∧ x < r + 96) → m' x = m x :=
  mulComp_apart lvFp4 3 fp12MulFp4P (by decide) rdFp12 out12 reads12 (fp12MulFp4 Sm9.fp)
    (fun ar ba S => by cases ar <;> cases ba <;> rfl) L r a b m (by omega) hra (.inr hrb) hab hr ha hb

/-- The same for `sm9_fp4_mul_fp`, whose four products are in the base field. -/
theorem C78_fp4_mul_fp_partial (L r a b : Nat) (m : Mem W32) (hra : SameOrApart r 32 a 32)
    (hrb : r + 32 ≤ b ∨ b + 8 ≤ r) (hab : SameOrApart a 32 b 8)
    (hr : r + 32 ≤ L) (ha : a + 32 ≤ L) (hb : b + 8 ≤ L) :
    ∃ m', call sm9Fp 0 fp4MulFpP L r a b m = some m' ∧ rdFp4 m' r = fp4MulFp Sm9.fp (rdFp4 m a) (rd8 m b) ∧
      ∀ x, x < L → ¬ (r ≤ x ∧ x < r + 32) → m' x = m x :=
  mulComp_apart lvSm9 4 fp4MulFpP (by decide) rdFp4 (fun S => ⟨⟨S 0, S 1⟩, ⟨S 2, S 3⟩⟩) 
    ⟨fun m x => rfl, fun S S' h => by simp only [h 0 (by decide), h 1 (by decide), h 2 (by decide), h 3 (by decide)]⟩ (fp4MulFp Sm9.fp)
    (fun ar ba S => by cases ar <;> cases ba <;> rfl) L r a b m (by omega) hra (.inr hrb) hab hr ha hb

/-! Non-vacuity: `sm9_fp2_mul_fp(r, r, b)` with `b` behind `r`, as the pairing calls it (sm9_field.cpp 2119). -/
example : SameOrApart 0 16 0 16 ∧ (0 + 16 ≤ 16 ∨ 16 + 8 ≤ 0) ∧ SameOrApart 0 16 16 8 ∧ 16 + 8 ≤ 24 :=
  ⟨.inl rfl, .inl (by decide), .inr (.inl (by decide)), by decide⟩

end Verif.Props
