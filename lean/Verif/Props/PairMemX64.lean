import Verif.Proofs.PairMemX64
/-!
# C101 with 64-bit limbs: exponentiation, square roots and point multiplication on the caller's memory

`InPlaceSafe` (`Verif.Spec.Alias`) and `SqrtSafe` (`Verif.Spec.PairMem`) quantify over every memory, every stack pointer
and every address of the result and the operands that are pairwise equal or apart.  The programs on memory
(`Verif.Model.PairMemX64`) have their tables, accumulators and negated points above the stack pointer and call the functions
of C93; the functions on values on the right are the subject of C70-C73 and others.
-/
namespace Verif.X64.Props
open Verif.Alias hiding sm2Fp sm9Fp sm9Fp2 sm9Fp4 sm9Fp12 rdFp2 rdFp4 rdFp12 rdEcA rdEcJ rdEc2A rdEc2J memDiv2
open Verif.PairMem hiding memFromBytes memPow memPowAt memInvP sm9Sqrt sm2Sqrt mulA const_safe
open Verif Verif.Spec.Alias Verif.X64.Alias Verif.X64.PairMem

private theorem lvSm2 : Level Verif.X64.Alias.sm2Fp rdW (fnF Sm2.fp fun _ => none) Sm2.fp.eq Sm2.fp.isZero :=
  level_fp (ctx := sm2FpCtx) (by decide) (by decide)
private theorem lvSm9 : Level Verif.X64.Alias.sm9Fp rdW (fnF Sm9.fp fun _ => none) Sm9.fp.eq Sm9.fp.isZero :=
  level_fp (ctx := sm9FpCtx) (by decide) (by decide)
private theorem lvFp2 : Level Verif.X64.Alias.sm9Fp2 rdFp2 (fn2 Sm9.fp) Sm9.fp2.eq Sm9.fp2.isZero := level2 lvSm9
private theorem lvFp4 : Level Verif.X64.Alias.sm9Fp4 rdFp4 (fn4 Sm9.fp) (fp4Eq Sm9.fp) (fp4IsZero Sm9.fp) := level4 lvFp2
private theorem lvFp12 : Level Verif.X64.Alias.sm9Fp12 rdFp12 (fn12 Sm9.fp) (fp12Eq Sm9.fp) (fp12IsZero Sm9.fp) := level12 lvFp4

/-- C101, powers: `mont256_pow(ctx, r, a, x)` leaves at `r` the power of the number at `a` by the number at `x` as they were
on entry, whichever of `r`, `a` and `x` are the same array, and touches nothing else.  `ctx` is any context whose modulus
and `R mod P` have four limbs, so each of those of the library. -/
theorem C101_x64_pow {ctx : Mont256CTX} (hP : ctx.P.length = 4) (hR : ctx.R.length = 4) :
    InPlaceSafe 4 4 4 rdW (fun m a x => mont256Pow ctx (rdW m a) (rdW m x)) (memPowAt ctx) := pow64_mem hP hR

/-- The same for `mont256_inv(ctx, r, a)`. -/
theorem C101_x64_inv {ctx : Mont256CTX} (hP : ctx.P.length = 4) (hR : ctx.R.length = 4) :
    InPlaceSafe 4 4 4 rdW (fun m a _ => mont256Inv ctx (rdW m a)) (memInvP ctx) := inv64 hP hR

/-- C101, square roots: `sm2_fp_sqrt(r, a)` and `sm9_fp_sqrt(r, a)` store the root at `r` and report success, or report
failure and change nothing of the caller's memory, also when `r` is `a`. -/
theorem C101_x64_sqrt : SqrtSafe 4 rdW Sm2.fpSqrt sm2Sqrt ∧ SqrtSafe 4 rdW Sm9.fpSqrt sm9Sqrt :=
  ⟨sqrt64_sm2 lvSm2, sqrt64_sm9 lvSm9⟩

/-- C101, `sm9_fp12_pow(r, a, e)` on 48-word operands, for all octets `e`. -/
theorem C101_x64_fp12_pow (e : List Byte) : InPlaceSafe 48 48 48 rdFp12
    (fun m a _ => Verif.fp12Pow Sm9.fp (rdFp12 m a) e) (Verif.PairMem.fp12Pow sm9Fp12 e) := by
  have h := fp12Pow_safe lvFp12 (powFn_fn12 Sm9.fp) (zeroV := fp12Zero Sm9.fp) (fun _ _ => rfl) e
  simp only [← fp12Pow_eq] at h
  exact h

/-- C101, point multiplication `sm2_ec_j_mul_a(r, k, p)`: the affine point may be the first two components of the result. -/
theorem C101_x64_sm2_mul (k : List Byte) : InPlaceSafe 12 8 8 rdEcJ
    (fun m p _ => Sm2.jMulA k (rdEcA m p)) (mulA sm2Fp sm2DblP 4 Sm2.nLimbs k) :=
  mulA64 lvSm2 (cJ_dblSm2 Sm2.fp _) (by decide) (g := Sm2.ecJMulA Sm2.fp) mulA64_sm2 _ k

/-- The same for `sm9_ec_j_mul_a` and `sm9_ec2_j_mul_a`. -/
theorem C101_x64_sm9_mul (k : List Byte) :
    InPlaceSafe 12 8 8 rdEcJ (fun m p _ => Sm9.jMulA k (rdEcA m p)) (mulA sm9Fp sm9DblP 6 Sm9.nLimbs k) ∧
    InPlaceSafe 24 16 16 rdEc2J (fun m p _ => Sm9.j2MulA k (rdEc2A m p)) (mulA sm9Fp2 sm9DblP 6 Sm9.nLimbs k) :=
  ⟨mulA64 lvSm9 (cJ_dblSm9 Sm9.fp _) (by decide) (g := Sm9.ecJMulA0 Sm9.fp) mulA64_sm9 _ k,
   mulA64 lvFp2 (cJ_dblSm9 Sm9.fp2 _) (by decide) (g := Sm9.ecJMulA0 Sm9.fp2) mulA64_sm9 _ k⟩

/-! Non-vacuity: the contexts of the library meet the hypotheses; one array for the result, the base and the exponent;
roots taken in place; the generator of SM2 doubled into the array it lies in. -/

example : sm2FpCtx.P.length = 4 ∧ sm2FpCtx.R.length = 4 ∧ sm2FnCtx.P.length = 4 ∧ sm2FnCtx.R.length = 4 ∧
    sm9FpCtx.P.length = 4 ∧ sm9FpCtx.R.length = 4 := by decide

private theorem oneArray {β γ : Type} {nr na nb : Nat} {rd : (Nat → β) → Nat → γ} {g : (Nat → β) → Nat → Nat → Option γ}
    {f : Nat → Nat → Nat → Nat → (Nat → β) → Option (Nat → β)} (h : InPlaceSafe nr na nb rd g f) (hn : na ≤ nr)
    (hb : nb ≤ nr) {m : Nat → β} {v : γ} (hv : g m 0 0 = some v) : ∃ m', f nr 0 0 0 m = some m' ∧ rd m' 0 = v := by
  have := h nr 0 0 0 m (.inl rfl) (.inl rfl) (.inl rfl) (by omega) (by omega) (by omega)
  rw [hv] at this
  obtain ⟨m', h1, h2, _⟩ := this
  exact ⟨m', h1, h2⟩

/-- The coordinates of the generator of SM2 in Montgomery form, then the stack. -/
private def genMem : Verif.Alias.Mem W64 := fun x =>
  (Sm2.fpFromBytes Verif.Sm2.sm2CurveGx ++ Sm2.fpFromBytes Verif.Sm2.sm2CurveGy ++ Sm2.fp.one).getD x 0
private def k2 : List Byte := List.replicate 31 0 ++ [2]

/-- A small number that is both the base and the exponent. -/
private def fiveMem : Verif.Alias.Mem W64 := fun x => if x = 0 then 5 else 0

example : ∃ m', memPowAt sm2FpCtx 4 0 0 0 fiveMem = some m' ∧
    some (rdW m' 0) = mont256Pow sm2FpCtx (rdW fiveMem 0) (rdW fiveMem 0) ∧ rdW m' 0 ≠ rdW fiveMem 0 := by
  have s : (mont256Pow sm2FpCtx (rdW fiveMem 0) (rdW fiveMem 0)).isSome = true := by decide +kernel
  have n : mont256Pow sm2FpCtx (rdW fiveMem 0) (rdW fiveMem 0) ≠ some (rdW fiveMem 0) := by decide +kernel
  generalize fiveMem = m at *
  cases d : mont256Pow sm2FpCtx (rdW m 0) (rdW m 0) with
  | none => rw [d] at s; cases s
  | some v =>
    obtain ⟨m', h1, h2⟩ := oneArray (C101_x64_pow (ctx := sm2FpCtx) (by decide) (by decide)) (Nat.le_refl 4) (Nat.le_refl 4) d
    exact ⟨m', h1, by rw [h2], fun c => n (by rw [d, ← c, h2])⟩

private theorem found {β γ : Type} {k : Nat} {rd : (Nat → β) → Nat → γ} {g : γ → Option (Option γ)}
    {f : Nat → Nat → Nat → (Nat → β) → Option (Bool × (Nat → β))} (h : SqrtSafe k rd g f) {m : Nat → β} {v : γ}
    (hv : g (rd m 0) = some (some v)) : ∃ m', f k 0 0 m = some (true, m') ∧ rd m' 0 = v := by
  have := h k 0 0 m (.inl rfl) (by omega) (by omega)
  rw [hv] at this
  obtain ⟨m', h1, h2, _⟩ := this
  exact ⟨m', h1, h2⟩
private theorem refused {β γ : Type} {k : Nat} {rd : (Nat → β) → Nat → γ} {g : γ → Option (Option γ)}
    {f : Nat → Nat → Nat → (Nat → β) → Option (Bool × (Nat → β))} (h : SqrtSafe k rd g f) {m : Nat → β}
    (hv : g (rd m 0) = some none) : ∃ m', f k 0 0 m = some (false, m') ∧ ∀ x, x < k → m' x = m x := by
  have := h k 0 0 m (.inl rfl) (by omega) (by omega)
  rw [hv] at this
  exact this

private theorem root2 : Sm2.fpSqrt (rdW (fun _ => 0) 0) = some (some Sm2.fp.zero) := by decide +kernel
private theorem root9 : Sm9.fpSqrt (rdW (fun _ => 0) 0) = some none := by decide +kernel

/-- A root that is found and one that is refused, both with the result over the operand (the roots of the non-zero squares
are found too, C55 for SM9). -/
example : (∃ m', sm2Sqrt 4 0 0 (fun _ => 0) = some (true, m') ∧ rdW m' 0 = Sm2.fp.zero) ∧
    ∃ m', sm9Sqrt 4 0 0 (fun _ => 0) = some (false, m') ∧ ∀ x, x < 4 → m' x = 0 :=
  ⟨found C101_x64_sqrt.1 root2, refused C101_x64_sqrt.2 root9⟩

private theorem dblSome : (Sm2.jMulA k2 (rdEcA genMem 0)).isSome = true := by decide +kernel
private theorem dblMoves : ((Sm2.jMulA k2 (rdEcA genMem 0)).map EcJ.x == some (rdEcA genMem 0).x) = false := by
  decide +kernel

private theorem moved {γ : Type} [BEq γ] [LawfulBEq γ] {A : Type} {J : Type} {xJ : J → γ} {xA : A → γ}
    {β : Type} {rdA : (Nat → β) → Nat → A} {rdJ : (Nat → β) → Nat → J} {nr na : Nat} {g : A → Option J}
    {f : Nat → Nat → Nat → Nat → (Nat → β) → Option (Nat → β)}
    (h : InPlaceSafe nr na na rdJ (fun m p _ => g (rdA m p)) f) (hn : na ≤ nr)
    (hx : ∀ m, xJ (rdJ m 0) = xA (rdA m 0)) {m : Nat → β} (s : (g (rdA m 0)).isSome = true)
    (n : ((g (rdA m 0)).map xJ == some (xA (rdA m 0))) = false) :
    ∃ m', f nr 0 0 0 m = some m' ∧ some (rdJ m' 0) = g (rdA m 0) ∧ rdA m' 0 ≠ rdA m 0 := by
  cases d : g (rdA m 0) with
  | none => rw [d] at s; cases s
  | some v =>
    obtain ⟨m', h1, h2⟩ := oneArray h hn hn (m := m) d
    refine ⟨m', h1, by rw [h2], fun c => ?_⟩
    have e : xJ v = xA (rdA m 0) := by rw [← c, ← h2, hx]
    rw [d, Option.map_some, e, beq_self_eq_true] at n
    cases n

example : ∃ m', mulA Verif.X64.Alias.sm2Fp sm2DblP 4 Sm2.nLimbs k2 12 0 0 0 genMem = some m' ∧
    some (rdEcJ m' 0) = Sm2.jMulA k2 (rdEcA genMem 0) ∧ rdEcA m' 0 ≠ rdEcA genMem 0 :=
  moved (xJ := EcJ.x) (xA := EcA.x) (C101_x64_sm2_mul k2) (by decide) (fun _ => rfl) dblSome dblMoves

example : (Verif.fp12Pow Sm9.fp (fp12One Sm9.fp) k2).isSome = true := by decide +kernel
example : (Sm9.jMulA k2 Sm9.p1).isSome = true ∧ (Sm9.j2MulA k2 Sm9.p2).isSome = true := by decide +kernel

end Verif.X64.Props
