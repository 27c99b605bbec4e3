import Verif.Proofs.AliasX64
/-!
# C93: the arithmetic functions may be called in place in the build with 64-bit limbs

`InPlaceSafe` (`Verif.Spec.Alias`) is the contract of C78.  The value-level functions on the right are those of
`Verif.Model.LimbsX64`, `MontX64` and the shared tower and point formulas over them, which get and return values and are
the subject of C70-C73 and others; so those theorems hold for in-place calls too.
-/
namespace Verif.X64.Props
open Verif.Alias hiding sm2Fp sm9Fp sm9Fp2 sm9Fp4 sm9Fp12 rdFp2 rdFp4 rdFp12 rdEcA rdEcJ rdEc2A rdEc2J memDiv2

open Verif Verif.Spec.Alias Verif.X64.Alias

private theorem lvSm2 : Level sm2Fp rdW (fnF Sm2.fp fun _ => none) Sm2.fp.eq Sm2.fp.isZero :=
  level_fp (ctx := sm2FpCtx) (by decide) (by decide)
private theorem lvSm9 : Level sm9Fp rdW (fnF Sm9.fp fun _ => none) Sm9.fp.eq Sm9.fp.isZero :=
  level_fp (ctx := sm9FpCtx) (by decide) (by decide)
private theorem lvFp2 : Level sm9Fp2 rdFp2 (fn2 Sm9.fp) Sm9.fp2.eq Sm9.fp2.isZero := level2 lvSm9
private theorem lvFp4 : Level sm9Fp4 rdFp4 (fn4 Sm9.fp) (fp4Eq Sm9.fp) (fp4IsZero Sm9.fp) := level4 lvFp2
private theorem lvFp12 : Level sm9Fp12 rdFp12 (fn12 Sm9.fp) (fp12Eq Sm9.fp) (fp12IsZero Sm9.fp) := level12 lvFp4

/-- C93, base fields: every `sm2_fp_*` (add, sub, mul, sqr, dbl, tpl, neg, inv, cpy, set_one, set_zero) called as
`f(r, a, b)` on 4-word operands leaves at `r` what the function on values makes of the operands as they were on entry,
whichever of `r`, `a`, `b` are the same array, and touches nothing else. -/
theorem C93_x64_sm2_field (o : Sym) : InPlaceSafe 4 4 4 rdW
    (fun m a b => fnF Sm2.fp (fun _ => none) o (rdW m a) (rdW m b)) (sm2Fp.op o) := lvSm2.good o

/-- The same for `sm9_fp_*`. -/
theorem C93_x64_sm9_field (o : Sym) : InPlaceSafe 4 4 4 rdW
    (fun m a b => fnF Sm9.fp (fun _ => none) o (rdW m a) (rdW m b)) (sm9Fp.op o) := lvSm9.good o

/-- C93, halving: `mont256_div2(ctx, r, a)` with the contexts of SM2 and SM9, which moves bits from limb to limb. -/
theorem C93_x64_div2 :
    InPlaceSafe 4 4 4 rdW (fun m a _ => some (mont256Div2 sm2FpCtx (rdW m a))) (memDiv2 sm2FpCtx) ∧
    InPlaceSafe 4 4 4 rdW (fun m a _ => some (mont256Div2 sm9FpCtx (rdW m a))) (memDiv2 sm9FpCtx) :=
  ⟨div2_limb (by decide), div2_limb (by decide)⟩

/-- C93, `sm9_fp2_*` (with `sm9_fp2_mul_u`) on 8-word operands. -/
theorem C93_x64_sm9_fp2 (o : Sym) : InPlaceSafe 8 8 8 rdFp2
    (fun m a b => fn2 Sm9.fp o (rdFp2 m a) (rdFp2 m b)) (sm9Fp2.op o) := lvFp2.good o

/-- C93, `sm9_fp4_*` (with `sm9_fp4_mul_v`) on 16-word operands. -/
theorem C93_x64_sm9_fp4 (o : Sym) : InPlaceSafe 16 16 16 rdFp4
    (fun m a b => fn4 Sm9.fp o (rdFp4 m a) (rdFp4 m b)) (sm9Fp4.op o) := lvFp4.good o

/-- C93, `sm9_fp12_*` on 48-word operands. -/
theorem C93_x64_sm9_fp12 (o : Sym) : InPlaceSafe 48 48 48 rdFp12
    (fun m a b => fn12 Sm9.fp o (rdFp12 m a) (rdFp12 m b)) (sm9Fp12.op o) := lvFp12.good o

/-- C93, points of the SM2 curve: affine negation, negation, infinity, `_from_a`, `_to_a`, `_normal`, doubling, addition
and addition of an affine point.  An affine point may be the first two components of the Jacobian one. -/
theorem C93_x64_sm2_points :
    InPlaceSafe 8 8 8 rdEcA (fun m a _ => some ⟨(rdEcA m a).x, Sm2.fp.neg (rdEcA m a).y⟩) (call sm2Fp 0 ecANegP) ∧
    InPlaceSafe 12 12 12 rdEcJ (fun m a _ => some (ecJNeg Sm2.fp (rdEcJ m a))) (call sm2Fp 0 ecJNegP) ∧
    InPlaceSafe 12 12 12 rdEcJ (fun _ _ _ => some (ecJInf Sm2.fp)) (call sm2Fp 0 ecJInfP) ∧
    InPlaceSafe 12 8 8 rdEcJ (fun m a _ => some (ecJFromA Sm2.fp (rdEcA m a))) (call sm2Fp 0 ecJFromAP) ∧
    InPlaceSafe 8 12 12 rdEcA (fun m a _ => ecJToA Sm2.fp (rdEcJ m a)) (call sm2Fp 2 ecJToAP) ∧
    InPlaceSafe 12 12 12 rdEcJ (fun m a _ => Verif.ecJNormal Sm2.fp (rdEcJ m a)) (Verif.Alias.ecJNormal sm2Fp) ∧
    InPlaceSafe 12 12 12 rdEcJ (fun m a _ => ecJDbl Sm2.fp (rdEcJ m a)) (call sm2Fp 4 sm2DblP) ∧
    InPlaceSafe 12 12 12 rdEcJ (fun m a b => Verif.ecJAdd Sm2.fp (rdEcJ m a) (rdEcJ m b)) (Verif.Alias.ecJAdd sm2Fp sm2DblP 4) ∧
    InPlaceSafe 12 12 8 rdEcJ (fun m a b => some (ecJAddA Sm2.fp (rdEcJ m a) (rdEcA m b))) (call sm2Fp 9 addAP) :=
  points_sm2 lvSm2

/-- The same for the points of the SM9 curve over the base field. -/
theorem C93_x64_sm9_points :
    InPlaceSafe 8 8 8 rdEcA (fun m a _ => some ⟨(rdEcA m a).x, Sm9.fp.neg (rdEcA m a).y⟩) (call sm9Fp 0 ecANegP) ∧
    InPlaceSafe 12 12 12 rdEcJ (fun m a _ => some (ecJNeg Sm9.fp (rdEcJ m a))) (call sm9Fp 0 ecJNegP) ∧
    InPlaceSafe 12 12 12 rdEcJ (fun _ _ _ => some (ecJInf Sm9.fp)) (call sm9Fp 0 ecJInfP) ∧
    InPlaceSafe 12 8 8 rdEcJ (fun m a _ => some (ecJFromA Sm9.fp (rdEcA m a))) (call sm9Fp 0 ecJFromAP) ∧
    InPlaceSafe 8 12 12 rdEcA (fun m a _ => ecJToA Sm9.fp (rdEcJ m a)) (call sm9Fp 2 ecJToAP) ∧
    InPlaceSafe 12 12 12 rdEcJ (fun m a _ => Verif.ecJNormal Sm9.fp (rdEcJ m a)) (Verif.Alias.ecJNormal sm9Fp) ∧
    InPlaceSafe 12 12 12 rdEcJ (fun m a _ => ecJDbl0 Sm9.fp (rdEcJ m a)) (call sm9Fp 6 sm9DblP) ∧
    InPlaceSafe 12 12 12 rdEcJ (fun m a b => ecJAdd0 Sm9.fp (rdEcJ m a) (rdEcJ m b)) (Verif.Alias.ecJAdd sm9Fp sm9DblP 6) ∧
    InPlaceSafe 12 12 8 rdEcJ (fun m a b => some (ecJAddA Sm9.fp (rdEcJ m a) (rdEcA m b))) (call sm9Fp 9 addAP) :=
  points_sm9 lvSm9

/-- The same for the points of the SM9 twist, over `sm9_fp2_*`. -/
theorem C93_x64_sm9_points2 :
    InPlaceSafe 16 16 16 rdEc2A (fun m a _ => some ⟨(rdEc2A m a).x, Sm9.fp2.neg (rdEc2A m a).y⟩) (call sm9Fp2 0 ecANegP) ∧
    InPlaceSafe 24 24 24 rdEc2J (fun m a _ => some (ecJNeg Sm9.fp2 (rdEc2J m a))) (call sm9Fp2 0 ecJNegP) ∧
    InPlaceSafe 24 24 24 rdEc2J (fun _ _ _ => some (ecJInf Sm9.fp2)) (call sm9Fp2 0 ecJInfP) ∧
    InPlaceSafe 24 16 16 rdEc2J (fun m a _ => some (ecJFromA Sm9.fp2 (rdEc2A m a))) (call sm9Fp2 0 ecJFromAP) ∧
    InPlaceSafe 16 24 24 rdEc2A (fun m a _ => ecJToA Sm9.fp2 (rdEc2J m a)) (call sm9Fp2 2 ecJToAP) ∧
    InPlaceSafe 24 24 24 rdEc2J (fun m a _ => Verif.ecJNormal Sm9.fp2 (rdEc2J m a)) (Verif.Alias.ecJNormal sm9Fp2) ∧
    InPlaceSafe 24 24 24 rdEc2J (fun m a _ => ecJDbl0 Sm9.fp2 (rdEc2J m a)) (call sm9Fp2 6 sm9DblP) ∧
    InPlaceSafe 24 24 24 rdEc2J (fun m a b => ecJAdd0 Sm9.fp2 (rdEc2J m a) (rdEc2J m b))
      (Verif.Alias.ecJAdd sm9Fp2 sm9DblP 6) ∧
    InPlaceSafe 24 24 16 rdEc2J (fun m a b => some (ecJAddA Sm9.fp2 (rdEc2J m a) (rdEc2A m b))) (call sm9Fp2 9 addAP) :=
  points_sm9 lvFp2

/-! Non-vacuity: one array for the result and both operands meets the hypotheses, and the functions on values do return:
the generator of SM2 (`z = 1`) at address 0, added to itself in place. -/

private theorem allSame {β γ : Type} {n : Nat} {rd : (Nat → β) → Nat → γ} {g : (Nat → β) → Nat → Nat → Option γ}
    {f : Nat → Nat → Nat → Nat → (Nat → β) → Option (Nat → β)} (h : InPlaceSafe n n n rd g f) {m : Nat → β} {v : γ}
    (hv : g m 0 0 = some v) : ∃ m', f n 0 0 0 m = some m' ∧ rd m' 0 = v := by
  have := h n 0 0 0 m (.inl rfl) (.inl rfl) (.inl rfl) (by omega) (by omega) (by omega)
  rw [hv] at this
  obtain ⟨m', h1, h2, _⟩ := this
  exact ⟨m', h1, h2⟩

/-- The coordinates of the generator of SM2 in Montgomery form, then the stack. -/
private def genMem : Mem64 := fun x =>
  (Sm2.fpFromBytes Verif.Sm2.sm2CurveGx ++ Sm2.fpFromBytes Verif.Sm2.sm2CurveGy ++ Sm2.fp.one).getD x 0

private theorem addSame (m : Mem64) (v : EcJ (List W64)) (hv : Verif.ecJAdd Sm2.fp (rdEcJ m 0) (rdEcJ m 0) = some v) :
    ∃ m', Verif.Alias.ecJAdd sm2Fp sm2DblP 4 12 0 0 0 m = some m' ∧ rdEcJ m' 0 = v :=
  @allSame _ _ _ _ _ _ (@And.left _ _ C93_x64_sm2_points.2.2.2.2.2.2.2) _ _ hv

example : SameOrApart 0 12 0 12 ∧ 0 + 12 ≤ 12 := ⟨.inl rfl, Nat.le_refl _⟩
example : (Verif.ecJAdd Sm2.fp (rdEcJ genMem 0) (rdEcJ genMem 0)).isSome = true := by decide +kernel
example : ∃ m', Verif.Alias.ecJAdd sm2Fp sm2DblP 4 12 0 0 0 genMem = some m' ∧
    some (rdEcJ m' 0) = ecJDbl Sm2.fp (rdEcJ genMem 0) ∧ rdEcJ m' 0 ≠ rdEcJ genMem 0 := by
  have e : Verif.ecJAdd Sm2.fp (rdEcJ genMem 0) (rdEcJ genMem 0) = ecJDbl Sm2.fp (rdEcJ genMem 0) := by decide +kernel
  have s : (ecJDbl Sm2.fp (rdEcJ genMem 0)).isSome = true := by decide +kernel
  have n : ecJDbl Sm2.fp (rdEcJ genMem 0) ≠ some (rdEcJ genMem 0) := by decide +kernel
  generalize genMem = m at *
  cases d : ecJDbl Sm2.fp (rdEcJ m 0) with
  | none => rw [d] at s; cases s
  | some v =>
    have hv := e.trans d
    obtain ⟨m', h1, h2⟩ := addSame m v hv
    exact ⟨m', h1, by rw [h2], fun c => n (by rw [d, ← c, h2])⟩

/-! ## Operands of different sizes -/

/-- C93 fails for `sm9_fp2_mul_fp(r, r, r[0])`, where the factor is the first component of the operand: it is overwritten
before the second product is formed.  (`2 + u` times `2` gives `4 + 4u`.)  No caller in the library does this. -/
theorem C93_x64_fp2_mul_fp_violated : ∃ (m m' : Mem64), call sm9Fp 0 mulCompP 8 0 0 0 m = some m' ∧
    rdFp2 m 0 = ⟨mont256Dbl sm9FpCtx Sm9.fp.one, Sm9.fp.one⟩ ∧
    fp2MulFp Sm9.fp (rdFp2 m 0) (rdW m 0) =
      ⟨mont256Dbl sm9FpCtx (mont256Dbl sm9FpCtx Sm9.fp.one), mont256Dbl sm9FpCtx Sm9.fp.one⟩ ∧
    rdFp2 m' 0 = ⟨mont256Dbl sm9FpCtx (mont256Dbl sm9FpCtx Sm9.fp.one),
      mont256Dbl sm9FpCtx (mont256Dbl sm9FpCtx Sm9.fp.one)⟩ ∧
    rdFp2 m' 0 ≠ fp2MulFp Sm9.fp (rdFp2 m 0) (rdW m 0) := by
  refine ⟨fun x => (mont256Dbl sm9FpCtx Sm9.fp.one ++ Sm9.fp.one).getD x 0, _, rfl, ?_, ?_, ?_, ?_⟩ <;> decide +kernel


/-- C93 for `sm9_fp2_mul_fp`: safe when the factor does not lie in the result (missing: the factor being a component of the
result, see above).  The factor may be a component of the operand. -/
theorem C93_x64_fp2_mul_fp_partial (L r a b : Nat) (m : Mem64) (hra : SameOrApart r 8 a 8)
    (hrb : r + 8 ≤ b ∨ b + 4 ≤ r) (hab : SameOrApart a 8 b 4)
    (hr : r + 8 ≤ L) (ha : a + 8 ≤ L) (hb : b + 4 ≤ L) :
    ∃ m', call sm9Fp 0 mulCompP L r a b m = some m' ∧ rdFp2 m' r = fp2MulFp Sm9.fp (rdFp2 m a) (rdW m b) ∧
      ∀ x, x < L → ¬ (r ≤ x ∧ x < r + 8) → m' x = m x :=
  mulComp_apart lvSm9 2 mulCompP (by decide) rdFp2 out2 reads2 (fp2MulFp Sm9.fp)
    (fun ar ba S => by cases ar <;> cases ba <;> rfl) L r a b m (by omega) hra (.inr hrb) hab hr ha hb

/-- The same for `sm9_fp4_mul_fp2`. -/
theorem C93_x64_fp4_mul_fp2_partial (L r a b : Nat) (m : Mem64) (hra : SameOrApart r 16 a 16)
    (hrb : r + 16 ≤ b ∨ b + 8 ≤ r) (hab : SameOrApart a 16 b 8)
    (hr : r + 16 ≤ L) (ha : a + 16 ≤ L) (hb : b + 8 ≤ L) :
    ∃ m', call sm9Fp2 0 mulCompP L r a b m = some m' ∧ rdFp4 m' r = fp4MulFp2 Sm9.fp (rdFp4 m a) (rdFp2 m b) ∧
      ∀ x, x < L → ¬ (r ≤ x ∧ x < r + 16) → m' x = m x :=
  mulComp_apart lvFp2 2 mulCompP (by decide) rdFp4 out4 reads4 (fp4MulFp2 Sm9.fp)
    (fun ar ba S => by cases ar <;> cases ba <;> rfl) L r a b m (by omega) hra (.inr hrb) hab hr ha hb

/-- The same for `sm9_fp12_mul_fp4`. -/
theorem C93_x64_fp12_mul_fp4_partial (L r a b : Nat) (m : Mem64) (hra : SameOrApart r 48 a 48)
    (hrb : r + 48 ≤ b ∨ b + 16 ≤ r) (hab : SameOrApart a 48 b 16)
    (hr : r + 48 ≤ L) (ha : a + 48 ≤ L) (hb : b + 16 ≤ L) :
    ∃ m', call sm9Fp4 0 fp12MulFp4P L r a b m = some m' ∧ rdFp12 m' r = fp12MulFp4 Sm9.fp (rdFp12 m a) (rdFp4 m b) ∧
      ∀ x, x < L → ¬ (r ≤ x ∧ x < r + 48) → m' x = m x :=
  mulComp_apart lvFp4 3 fp12MulFp4P (by decide) rdFp12 out12 reads12 (fp12MulFp4 Sm9.fp)
    (fun ar ba S => by cases ar <;> cases ba <;> rfl) L r a b m (by omega) hra (.inr hrb) hab hr ha hb

/-- The same for `sm9_fp4_mul_fp`, whose four products are in the base field. -/
theorem C93_x64_fp4_mul_fp_partial (L r a b : Nat) (m : Mem64) (hra : SameOrApart r 16 a 16)
    (hrb : r + 16 ≤ b ∨ b + 4 ≤ r) (hab : SameOrApart a 16 b 4)
    (hr : r + 16 ≤ L) (ha : a + 16 ≤ L) (hb : b + 4 ≤ L) :
    ∃ m', call sm9Fp 0 fp4MulFpP L r a b m = some m' ∧ rdFp4 m' r = fp4MulFp Sm9.fp (rdFp4 m a) (rdW m b) ∧
      ∀ x, x < L → ¬ (r ≤ x ∧ x < r + 16) → m' x = m x :=
  mulComp_apart lvSm9 4 fp4MulFpP (by decide) rdFp4 (fun S => ⟨⟨S 0, S 1⟩, ⟨S 2, S 3⟩⟩) 
    ⟨fun m x => rfl, fun S S' h => by simp only [h 0 (by decide), h 1 (by decide), h 2 (by decide), h 3 (by decide)]⟩ (fp4MulFp Sm9.fp)
    (fun ar ba S => by cases ar <;> cases ba <;> rfl) L r a b m (by omega) hra (.inr hrb) hab hr ha hb

/-! Non-vacuity: `sm9_fp2_mul_fp(r, r, b)` with `b` behind `r`, as the pairing calls it (sm9_field.cpp 2119). -/
example : SameOrApart 0 8 0 8 ∧ (0 + 8 ≤ 8 ∨ 8 + 4 ≤ 0) ∧ SameOrApart 0 8 8 4 ∧ 8 + 4 ≤ 12 :=
  ⟨.inl rfl, .inl (by decide), .inr (.inl (by decide)), by decide⟩

end Verif.X64.Props
