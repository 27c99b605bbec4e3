import Verif.Proofs.PairMemI64
import Verif.Props.Sm9X64
/-!
# C102 with 64-bit limbs: the pairing on the caller's memory

`sm9_pairing` and what it calls as programs on memory (`Verif.Model.PairMem`, `Verif.Model.PairMemX64`): the line functions keep intermediate values
in components of their result and read the point `P` while they write it, the Frobenius maps and the final exponentiation
work in local copies, the doubled and the negated point share a union.  `InPlaceSafe` (`Verif.Spec.Alias`) quantifies over
every memory, every stack pointer and every address of the result and the operands that are pairwise equal or apart.  The
functions on values on the right are the subject of C80.
-/
namespace Verif.X64.Props
open Verif.Alias hiding sm2Fp sm9Fp sm9Fp2 sm9Fp4 sm9Fp12 rdFp2 rdFp4 rdFp12 rdEcA rdEcJ rdEc2A rdEc2J memDiv2
open Verif.PairMem hiding memFromBytes memPow memPowAt memInvP sm9Sqrt sm2Sqrt mulA const_safe
open Verif Verif.Spec.Alias Verif.X64.Alias Verif.X64.PairMem
attribute [local irreducible] Sm9.pairing pairingV Sm9.finalExp finalV Sm9.finalExpHard hardV

/-- **C102** `sm9_pairing(r, P, Q)` leaves at `r` the pairing of the points at `P` and `Q` as they were on entry, also when
the result starts where `P` or `Q` does, and changes no other cell of the caller. -/
theorem C102_x64_pairing : InPlaceSafe 48 8 16 rdFp12 (fun m p q => Sm9.pairing (rdEcA m p) (rdEc2A m q)) (pairing build64) := by
  have h := pairing_safe build64_ok
  rw [pairing_eq] at h
  exact h

/-- The same for `sm9_pairing_P1_Q(r, Q)` and `sm9_pairing_P_P2(r, P)`, which keep the generator in a local variable. -/
theorem C102_x64_pairing_gen :
    InPlaceSafe 48 16 16 rdFp12 (fun m q _ => Sm9.pairingP1 (rdEc2A m q)) (pairingP1 build64) ∧
    InPlaceSafe 48 8 8 rdFp12 (fun m p _ => Sm9.pairingP2 (rdEcA m p)) (pairingP2 build64) := by
  have h := pairingP1_safe build64_ok
  have h' := pairingP2_safe build64_ok
  rw [pairing_eq] at h h'
  exact ⟨h, h'⟩

/-- The final exponentiation and its hard part, in place or not. -/
theorem C102_x64_final_exp :
    InPlaceSafe 48 48 48 rdFp12 (fun m a _ => Sm9.finalExp (rdFp12 m a)) (finalExp build64) ∧
    InPlaceSafe 48 48 48 rdFp12 (fun m a _ => Sm9.finalExpHard (rdFp12 m a)) (callG (eOps build64) 48 5 hardP) := by
  have h := finalExp_safe build64_ok
  have h' := hard_safe build64_ok
  rw [final_eq] at h
  rw [hard_eq] at h'
  exact ⟨h, h'⟩

/-- The four Frobenius maps of the field of the pairing, in place or not. -/
theorem C102_x64_frobenius :
    InPlaceSafe 48 48 48 rdFp12 (fun m a _ => some (Sm9.fp12Frob (rdFp12 m a))) (callG (fOps build64) 4 13 frobP) ∧
    InPlaceSafe 48 48 48 rdFp12 (fun m a _ => some (Sm9.fp12Frob2 (rdFp12 m a))) (callG (fOps build64) 4 13 frob2P) ∧
    InPlaceSafe 48 48 48 rdFp12 (fun m a _ => some (Sm9.fp12Frob3 (rdFp12 m a))) (callG (fOps build64) 4 13 frob3P) ∧
    InPlaceSafe 48 48 48 rdFp12 (fun m a _ => some (Sm9.fp12Frob6 (rdFp12 m a))) (callG (fOps build64) 4 12 frob6P) := by
  have h1 := frobs_safe build64_ok 13 (cg_frob _ _ _) (by decide +kernel)
  have h2 := frobs_safe build64_ok 13 (cg_frob2 _ _ _) (by decide +kernel)
  have h3 := frobs_safe build64_ok 13 (cg_frob3 _ _ _) (by decide +kernel)
  have h6 := frobs_safe build64_ok 12 (cg_frob6 _ _ _) (by decide +kernel)
  rw [frob_eq] at h1; rw [frob2_eq] at h2; rw [frob3_eq] at h3; rw [frob6_eq] at h6
  exact ⟨h1, h2, h3, h6⟩

/-- The maps `sm9_ec2_j_frobenius_a`, `sm9_ec2_j_frobenius2_a`; the affine point may be the first two coordinates of the
result. -/
theorem C102_x64_frobenius_point :
    InPlaceSafe 24 16 16 rdEc2J (fun m a _ => some (Sm9.j2FrobA (rdEc2A m a))) (callG (fOps build64) 4 0 frobAP) ∧
    InPlaceSafe 24 16 16 rdEc2J (fun m a _ => some (Sm9.j2Frob2A (rdEc2A m a))) (callG (fOps build64) 4 0 frob2AP) := by
  have h := frobA_safe build64_ok
  have h' := frob2A_safe build64_ok
  rw [frobA_eq] at h; rw [frob2A_eq] at h'
  exact ⟨h, h'⟩

section
open Verif.Spec
variable {K : Type} [Field K] [Algebra (ZMod sm9p) K] [DecidableEq K] {w : K} (hw : w ^ 12 = -2)
include hw

/-- **C102, with C80** for all reduced coordinates `sm9_pairing` returns with a reduced result, wherever that lies. -/
theorem C102_x64_pairing_returns (L r p q : Nat) (m : Verif.Alias.Mem W64) (h1 : SameOrApart r 48 p 8) (h2 : SameOrApart r 48 q 16)
    (h3 : SameOrApart p 8 q 16) (hr : r + 48 ≤ L) (hp : p + 8 ≤ L) (hq : q + 16 ≤ L)
    (px : X64.Reduced sm9p (rdEcA m p).x) (py : X64.Reduced sm9p (rdEcA m p).y)
    (qx : All2 (X64.Reduced sm9p) (rdEc2A m q).x) (qy : All2 (X64.Reduced sm9p) (rdEc2A m q).y) :
    ∃ m', pairing build64 L r p q m = some m' ∧ All12 (X64.Reduced sm9p) (rdFp12 m' r) ∧
      ∀ x, x < L → ¬ (r ≤ x ∧ x < r + 48) → m' x = m x := by
  obtain ⟨v, e, hv⟩ := C80_x64_pairing_total hw _ _ px py qx qy
  have h := RunOk.use C102_x64_pairing h1 h2 h3 hr hp hq (m := m)
  obtain ⟨m', a, b, c⟩ := h.2 v e
  exact ⟨m', a, by rw [b]; exact hv, c⟩

/-- **C102, with C80** there is one `g ≠ 1` with `g ^ N = 1` such that, with `[a]P1` stored at `p` and `[b]P2` at `q`,
`sm9_pairing` leaves `g ^ (a b)` at `r`, wherever `r` lies, and nothing else changes. -/
theorem C102_x64_pairing_value : ∃ g : K, g ≠ 1 ∧ g ^ sm9n = 1 ∧ ∀ a b : Nat, 1 ≤ a → a < sm9n →
    ∀ (L r p q : Nat) (m : Verif.Alias.Mem W64), SameOrApart r 48 p 8 → SameOrApart r 48 q 16 → SameOrApart p 8 q 16 →
      r + 48 ≤ L → p + 8 ≤ L → q + 16 ≤ L →
      X64.Sm9IsAffine (rdEcA m p) (a • sm9G) → X64.Sm9IsAffine2 w (rdEc2A m q) (b • sm9G2 hw) →
      ∃ m', pairing build64 L r p q m = some m' ∧ X64.fp12Den w (rdFp12 m' r) = g ^ (a * b) ∧
        ∀ x, x < L → ¬ (r ≤ x ∧ x < r + 48) → m' x = m x := by
  obtain ⟨g, g1, g2, H⟩ := C80_x64_pairing hw
  refine ⟨g, g1, g2, fun a b a1 a2 L r p q m h1 h2 h3 hr hp hq hP hQ => ?_⟩
  obtain ⟨v, e, _, hv⟩ := H a b a1 a2 _ _ hP hQ
  have h := RunOk.use C102_x64_pairing h1 h2 h3 hr hp hq (m := m)
  obtain ⟨m', i, j, c⟩ := h.2 v e
  exact ⟨m', i, by rw [j]; exact hv, c⟩
end

/-! Non-vacuity: the generators in memory, the result over the first of them. -/

private def genMem : Verif.Alias.Mem W64 := fun x =>
  (Sm9.p1.x ++ Sm9.p1.y ++ List.replicate 40 0 ++ Sm9.p2.x.c0 ++ Sm9.p2.x.c1 ++ Sm9.p2.y.c0 ++ Sm9.p2.y.c1).getD x 0
private theorem gen1 : rdEcA genMem 0 = Sm9.p1 := by decide +kernel
private theorem gen2 : rdEc2A genMem 48 = Sm9.p2 := by decide +kernel

example {K : Type} [Field K] [Algebra (ZMod Spec.sm9p) K] [DecidableEq K] {w : K} (hw : w ^ 12 = -2) :
    SameOrApart 0 48 0 8 ∧ SameOrApart 0 48 48 16 ∧ SameOrApart 0 8 48 16 ∧
    Verif.Spec.X64.Sm9IsAffine (rdEcA genMem 0) (1 • sm9G) ∧
    Verif.Spec.X64.Sm9IsAffine2 w (rdEc2A genMem 48) (1 • sm9G2 hw) := by
  rw [gen1, gen2, one_nsmul, one_nsmul]
  exact ⟨.inl rfl, by unfold SameOrApart; omega, by unfold SameOrApart; omega, (x_affine p1_sim).mp p1_ok,
    (x_affine2 p2_sim).mp (p2_ok hw)⟩

/-- A Frobenius map in place moves the element. -/
private def twoMem : Verif.Alias.Mem W64 := fun x => if x = 20 then 1 else 0
private theorem frobMoves : ((Sm9.fp12Frob (rdFp12 twoMem 0)).c1.c0.c1 == (rdFp12 twoMem 0).c1.c0.c1) = false := by
  decide +kernel
example : ∃ m', callG (fOps build64) 4 13 frobP 48 0 0 0 twoMem = some m' ∧ rdFp12 m' 0 = Sm9.fp12Frob (rdFp12 twoMem 0) ∧
    rdFp12 m' 0 ≠ rdFp12 twoMem 0 := by
  have h := C102_x64_frobenius.1 48 0 0 0 twoMem (.inl rfl) (.inl rfl) (.inl rfl) (by omega) (by omega) (by omega)
  obtain ⟨m', a, b, _⟩ := h
  refine ⟨m', a, b, fun c => ?_⟩
  have f := frobMoves
  rw [← b, c, beq_self_eq_true] at f
  cases f

end Verif.X64.Props
