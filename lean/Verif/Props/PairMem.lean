import Verif.Proofs.PairMemLimbs
/-!
# C101: exponentiation, square roots and point multiplication on the caller's memory

`InPlaceSafe` (`Verif.Spec.Alias`) and `SqrtSafe` (`Verif.Spec.PairMem`) quantify over every memory, every stack pointer
and every address of the result and the operands that are pairwise equal or apart.  The programs on memory
(`Verif.Model.PairMem`) have their tables, accumulators and negated points above the stack pointer and call the functions
of C78; the functions on values on the right are the subject of C20-C26, C33 and others.
-/
namespace Verif.Props
open Verif Verif.Spec.Alias Verif.Alias Verif.PairMem

private theorem lvSm2 : Level sm2Fp rd8 (fnF Sm2.fp fun _ => none) Sm2.fp.eq Sm2.fp.isZero :=
  level_fp (ctx := Sm2.fpCtx) (by decide) (by decide)
private theorem lvSm9 : Level sm9Fp rd8 (fnF Sm9.fp fun _ => none) Sm9.fp.eq Sm9.fp.isZero :=
  level_fp (ctx := Sm9.fpCtx) (by decide) (by decide)
private theorem lvFp2 : Level sm9Fp2 rdFp2 (fn2 Sm9.fp) Sm9.fp2.eq Sm9.fp2.isZero := level2 lvSm9
private theorem lvFp4 : Level sm9Fp4 rdFp4 (fn4 Sm9.fp) (fp4Eq Sm9.fp) (fp4IsZero Sm9.fp) := level4 lvFp2
private theorem lvFp12 : Level sm9Fp12 rdFp12 (fn12 Sm9.fp) (fp12Eq Sm9.fp) (fp12IsZero Sm9.fp) := level12 lvFp4

/-- C101, powers: `mont256_pow(ctx, r, a, x)` leaves at `r` the power of the number at `a` by the number at `x` as they were
on entry, whichever of `r`, `a` and `x` are the same array, and touches nothing else.  `ctx` is any context whose modulus
and `R mod P` have eight limbs, so each of those of the library. -/
theorem C101_pow {ctx : Mont256CTX} (hP : ctx.P.length = 8) (hR : ctx.R.length = 8) :
    InPlaceSafe 8 8 8 rd8 (fun m a x => mont256Pow ctx (rd8 m a) (rd8 m x)) (memPowAt ctx) := pow32_mem hP hR

/-- The same for `mont256_inv(ctx, r, a)`. -/
theorem C101_inv {ctx : Mont256CTX} (hP : ctx.P.length = 8) (hR : ctx.R.length = 8) :
    InPlaceSafe 8 8 8 rd8 (fun m a _ => mont256Inv ctx (rd8 m a)) (memInvP ctx) := inv32 hP hR

/-- C101, square roots: `sm2_fp_sqrt(r, a)` and `sm9_fp_sqrt(r, a)` store the root at `r` and report success, or report
failure and change nothing of the caller's memory, also when `r` is `a`. -/
theorem C101_sqrt : SqrtSafe 8 rd8 Sm2.fpSqrt sm2Sqrt ∧ SqrtSafe 8 rd8 Sm9.fpSqrt sm9Sqrt :=
  ⟨sqrt32_sm2 lvSm2, sqrt32_sm9 lvSm9⟩

/-- C101, `sm9_fp12_pow(r, a, e)` on 96-word operands, for all octets `e`. -/
theorem C101_fp12_pow (e : List Byte) : InPlaceSafe 96 96 96 rdFp12
    (fun m a _ => Verif.fp12Pow Sm9.fp (rdFp12 m a) e) (PairMem.fp12Pow sm9Fp12 e) := by
  have h := fp12Pow_safe lvFp12 (powFn_fn12 Sm9.fp) (zeroV := fp12Zero Sm9.fp) (fun _ _ => rfl) e
  simp only [← fp12Pow_eq] at h
  exact h

/-- C101, point multiplication `sm2_ec_j_mul_a(r, k, p)`: the affine point may be the first two components of the result. -/
theorem C101_sm2_mul (k : List Byte) : InPlaceSafe 24 16 16 rdEcJ
    (fun m p _ => Sm2.jMulA k (rdEcA m p)) (mulA sm2Fp sm2DblP 4 Sm2.nLimbs k) :=
  mulA32 lvSm2 (cJ_dblSm2 Sm2.fp _) (by decide) (g := ecJMulA Sm2.fp) mulA32_sm2 _ k

/-- The same for `sm9_ec_j_mul_a` and `sm9_ec2_j_mul_a`. -/
theorem C101_sm9_mul (k : List Byte) :
    InPlaceSafe 24 16 16 rdEcJ (fun m p _ => Sm9.jMulA k (rdEcA m p)) (mulA sm9Fp sm9DblP 6 Sm9.nLimbs k) ∧
    InPlaceSafe 48 32 32 rdEc2J (fun m p _ => Sm9.j2MulA k (rdEc2A m p)) (mulA sm9Fp2 sm9DblP 6 Sm9.nLimbs k) :=
  ⟨mulA32 lvSm9 (cJ_dblSm9 Sm9.fp _) (by decide) (g := ecJMulA0 Sm9.fp) mulA32_sm9 _ k,
   mulA32 lvFp2 (cJ_dblSm9 Sm9.fp2 _) (by decide) (g := ecJMulA0 Sm9.fp2) mulA32_sm9 _ k⟩

/-! Non-vacuity: the contexts of the library meet the hypotheses; one array for the result, the base and the exponent;
roots taken in place; the generator of SM2 doubled into the array it lies in. -/

example : Sm2.fpCtx.P.length = 8 ∧ Sm2.fpCtx.R.length = 8 ∧ Sm2.fnCtx.P.length = 8 ∧ Sm2.fnCtx.R.length = 8 ∧
    Sm9.fpCtx.P.length = 8 ∧ Sm9.fpCtx.R.length = 8 := by decide

private theorem oneArray {β γ : Type} {nr na nb : Nat} {rd : (Nat → β) → Nat → γ} {g : (Nat → β) → Nat → Nat → Option γ}
    {f : Nat → Nat → Nat → Nat → (Nat → β) → Option (Nat → β)} (h : InPlaceSafe nr na nb rd g f) (hn : na ≤ nr)
    (hb : nb ≤ nr) {m : Nat → β} {v : γ} (hv : g m 0 0 = some v) : ∃ m', f nr 0 0 0 m = some m' ∧ rd m' 0 = v := by
  have := h nr 0 0 0 m (.inl rfl) (.inl rfl) (.inl rfl) (by omega) (by omega) (by omega)
  rw [hv] at this
  obtain ⟨m', h1, h2, _⟩ := this
  exact ⟨m', h1, h2⟩

/-- The coordinates of the generator of SM2 in Montgomery form, then the stack. -/
private def genMem : Mem W32 := fun x =>
  (Sm2.fpFromBytes Sm2.sm2CurveGx ++ Sm2.fpFromBytes Sm2.sm2CurveGy ++ Sm2.fp.one).getD x 0
private def k2 : List Byte := List.replicate 31 0 ++ [2]

/-- A small number that is both the base and the exponent. -/
private def fiveMem : Mem W32 := fun x => if x = 0 then 5 else 0

example : ∃ m', memPowAt Sm2.fpCtx 8 0 0 0 fiveMem = some m' ∧
    some (rd8 m' 0) = mont256Pow Sm2.fpCtx (rd8 fiveMem 0) (rd8 fiveMem 0) ∧ rd8 m' 0 ≠ rd8 fiveMem 0 := by
  have s : (mont256Pow Sm2.fpCtx (rd8 fiveMem 0) (rd8 fiveMem 0)).isSome = true := by decide +kernel
  have n : mont256Pow Sm2.fpCtx (rd8 fiveMem 0) (rd8 fiveMem 0) ≠ some (rd8 fiveMem 0) := by decide +kernel
  generalize fiveMem = m at *
  cases d : mont256Pow Sm2.fpCtx (rd8 m 0) (rd8 m 0) with
  | none => rw [d] at s; cases s
  | some v =>
    obtain ⟨m', h1, h2⟩ := oneArray (C101_pow (ctx := Sm2.fpCtx) (by decide) (by decide)) (Nat.le_refl 8) (Nat.le_refl 8) d
    exact ⟨m', h1, by rw [h2], fun c => n (by rw [d, ← c, h2])⟩

private theorem found {β γ : Type} {k : Nat} {rd : (Nat → β) → Nat → γ} {g : γ → Option (Option γ)}
    {f : Nat → Nat → Nat → (Nat → β) → Option (Bool × (Nat → β))} (h : SqrtSafe k rd g f) {m : Nat → β} {v : γ}
    (hv : g (rd m 0) = some (some v)) : ∃ m', f k 0 0 m = some (true, m') ∧ rd m' 0 = v := by
  have := h k 0 0 m (.inl rfl) (by omega) (by omega)
  rw [hv] at this
  obtain ⟨m', h1, h2, _⟩ := this
  exact ⟨m', h1, h2⟩
private theorem refused {β γ : Type} {k : Nat} {rd : (Nat → β) → Nat → γ} {g : γ → Option (Option γ)}
    {f : Nat → Nat → Nat → (Nat → β) → Option (Bool × (Nat → β))} (h : SqrtSafe k rd g f) {m : Nat → β}
    (hv : g (rd m 0) = some none) : ∃ m', f k 0 0 m = some (false, m') ∧ ∀ x, x < k → m' x = m x := by
  have := h k 0 0 m (.inl rfl) (by omega) (by omega)
  rw [hv] at this
  exact this

private theorem root2 : Sm2.fpSqrt (rd8 (fun _ => 0) 0) = some (some Sm2.fp.zero) := by decide +kernel
private theorem root9 : Sm9.fpSqrt (rd8 (fun _ => 0) 0) = some none := by decide +kernel

/-- A root that is found and one that is refused, both with the result over the operand (the roots of the non-zero squares
are found too, C55 for SM9). -/
example : (∃ m', sm2Sqrt 8 0 0 (fun _ => 0) = some (true, m') ∧ rd8 m' 0 = Sm2.fp.zero) ∧
    ∃ m', sm9Sqrt 8 0 0 (fun _ => 0) = some (false, m') ∧ ∀ x, x < 8 → m' x = 0 :=
  ⟨found C101_sqrt.1 root2, refused C101_sqrt.2 root9⟩

private theorem dblSome : (Sm2.jMulA k2 (rdEcA genMem 0)).isSome = true := by decide +kernel
private theorem dblMoves : ((Sm2.jMulA k2 (rdEcA genMem 0)).map EcJ.x == some (rdEcA genMem 0).x) = false := by
  decide +kernel

private theorem moved {γ : Type} [BEq γ] [LawfulBEq γ] {A : Type} {J : Type} {xJ : J → γ} {xA : A → γ}
    {β : Type} {rdA : (Nat → β) → Nat → A} {rdJ : (Nat → β) → Nat → J} {nr na : Nat} {g : A → Option J}
    {f : Nat → Nat → Nat → Nat → (Nat → β) → Option (Nat → β)}
    (h : InPlaceSafe nr na na rdJ (fun m p _ => g (rdA m p)) f) (hn : na ≤ nr)
    (hx : ∀ m, xJ (rdJ m 0) = xA (rdA m 0)) {m : Nat → β} (s : (g (rdA m 0)).isSome = true)
    (n : ((g (rdA m 0)).map xJ == some (xA (rdA m 0))) = false) :
    ∃ m', f nr 0 0 0 m = some m' ∧ some (rdJ m' 0) = g (rdA m 0) ∧ rdA m' 0 ≠ rdA m 0 := by
  cases d : g (rdA m 0) with
  | none => rw [d] at s; cases s
  | some v =>
    obtain ⟨m', h1, h2⟩ := oneArray h hn hn (m := m) d
    refine ⟨m', h1, by rw [h2], fun c => ?_⟩
    have e : xJ v = xA (rdA m 0) := by rw [← c, ← h2, hx]
    rw [d, Option.map_some, e, beq_self_eq_true] at n
    cases n

example : ∃ m', mulA sm2Fp sm2DblP 4 Sm2.nLimbs k2 24 0 0 0 genMem = some m' ∧
    some (rdEcJ m' 0) = Sm2.jMulA k2 (rdEcA genMem 0) ∧ rdEcA m' 0 ≠ rdEcA genMem 0 :=
  moved (xJ := EcJ.x) (xA := EcA.x) (C101_sm2_mul k2) (by decide) (fun _ => rfl) dblSome dblMoves

example : (Verif.fp12Pow Sm9.fp (fp12One Sm9.fp) k2).isSome = true := by decide +kernel
example : (Sm9.jMulA k2 Sm9.p1).isSome = true ∧ (Sm9.j2MulA k2 Sm9.p2).isSome = true := by decide +kernel

end Verif.Props
