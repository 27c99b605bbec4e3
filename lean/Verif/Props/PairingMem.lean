import Verif.Proofs.PairMemI
import Verif.Props.Sm9
/-!
# C102: the pairing on the caller's memory

`sm9_pairing` and what it calls as programs on memory (`Verif.Model.PairMem`): the line functions keep intermediate values
in components of their result and read the point `P` while they write it, the Frobenius maps and the final exponentiation
work in local copies, the doubled and the negated point share a union.  `InPlaceSafe` (`Verif.Spec.Alias`) quantifies over
every memory, every stack pointer and every address of the result and the operands that are pairwise equal or apart.  The
functions on values on the right are the subject of C51 and C66.
-/
namespace Verif.Props
open Verif Verif.Spec.Alias Verif.Alias Verif.PairMem
attribute [local irreducible] Sm9.pairing pairingV Sm9.finalExp finalV Sm9.finalExpHard hardV

/-- **C102** `sm9_pairing(r, P, Q)` leaves at `r` the pairing of the points at `P` and `Q` as they were on entry, also when
the result starts where `P` or `Q` does, and changes no other cell of the caller. -/
theorem C102_pairing : InPlaceSafe 96 16 32 rdFp12 (fun m p q => Sm9.pairing (rdEcA m p) (rdEc2A m q)) (pairing build32) := by
  have h := pairing_safe build32_ok
  rw [pairing_eq] at h
  exact h

/-- The same for `sm9_pairing_P1_Q(r, Q)` and `sm9_pairing_P_P2(r, P)`, which keep the generator in a local variable. -/
theorem C102_pairing_gen :
    InPlaceSafe 96 32 32 rdFp12 (fun m q _ => Sm9.pairingP1 (rdEc2A m q)) (pairingP1 build32) ∧
    InPlaceSafe 96 16 16 rdFp12 (fun m p _ => Sm9.pairingP2 (rdEcA m p)) (pairingP2 build32) := by
  have h := pairingP1_safe build32_ok
  have h' := pairingP2_safe build32_ok
  rw [pairing_eq] at h h'
  exact ⟨h, h'⟩

/-- The final exponentiation and its hard part, in place or not. -/
theorem C102_final_exp :
    InPlaceSafe 96 96 96 rdFp12 (fun m a _ => Sm9.finalExp (rdFp12 m a)) (finalExp build32) ∧
    InPlaceSafe 96 96 96 rdFp12 (fun m a _ => Sm9.finalExpHard (rdFp12 m a)) (callG (eOps build32) 96 5 hardP) := by
  have h := finalExp_safe build32_ok
  have h' := hard_safe build32_ok
  rw [final_eq] at h
  rw [hard_eq] at h'
  exact ⟨h, h'⟩

/-- The four Frobenius maps of the field of the pairing, in place or not. -/
theorem C102_frobenius :
    InPlaceSafe 96 96 96 rdFp12 (fun m a _ => some (Sm9.fp12Frob (rdFp12 m a))) (callG (fOps build32) 8 13 frobP) ∧
    InPlaceSafe 96 96 96 rdFp12 (fun m a _ => some (Sm9.fp12Frob2 (rdFp12 m a))) (callG (fOps build32) 8 13 frob2P) ∧
    InPlaceSafe 96 96 96 rdFp12 (fun m a _ => some (Sm9.fp12Frob3 (rdFp12 m a))) (callG (fOps build32) 8 13 frob3P) ∧
    InPlaceSafe 96 96 96 rdFp12 (fun m a _ => some (Sm9.fp12Frob6 (rdFp12 m a))) (callG (fOps build32) 8 12 frob6P) := by
  have h1 := frobs_safe build32_ok 13 (cg_frob _ _ _) (by decide +kernel)
  have h2 := frobs_safe build32_ok 13 (cg_frob2 _ _ _) (by decide +kernel)
  have h3 := frobs_safe build32_ok 13 (cg_frob3 _ _ _) (by decide +kernel)
  have h6 := frobs_safe build32_ok 12 (cg_frob6 _ _ _) (by decide +kernel)
  rw [frob_eq] at h1; rw [frob2_eq] at h2; rw [frob3_eq] at h3; rw [frob6_eq] at h6
  exact ⟨h1, h2, h3, h6⟩

/-- The maps `sm9_ec2_j_frobenius_a`, `sm9_ec2_j_frobenius2_a`; the affine point may be the first two coordinates of the
result. -/
theorem C102_frobenius_point :
    InPlaceSafe 48 32 32 rdEc2J (fun m a _ => some (Sm9.j2FrobA (rdEc2A m a))) (callG (fOps build32) 8 0 frobAP) ∧
    InPlaceSafe 48 32 32 rdEc2J (fun m a _ => some (Sm9.j2Frob2A (rdEc2A m a))) (callG (fOps build32) 8 0 frob2AP) := by
  have h := frobA_safe build32_ok
  have h' := frob2A_safe build32_ok
  rw [frobA_eq] at h; rw [frob2A_eq] at h'
  exact ⟨h, h'⟩

section
open Verif.Spec
variable {K : Type} [Field K] [Algebra (ZMod sm9p) K] [DecidableEq K] {w : K} (hw : w ^ 12 = -2)
include hw

/-- **C102, with C66** for all reduced coordinates `sm9_pairing` returns with a reduced result, wherever that lies. -/
theorem C102_pairing_returns (L r p q : Nat) (m : Alias.Mem W32) (h1 : SameOrApart r 96 p 16) (h2 : SameOrApart r 96 q 32)
    (h3 : SameOrApart p 16 q 32) (hr : r + 96 ≤ L) (hp : p + 16 ≤ L) (hq : q + 32 ≤ L)
    (px : Reduced sm9p (rdEcA m p).x) (py : Reduced sm9p (rdEcA m p).y)
    (qx : All2 (Reduced sm9p) (rdEc2A m q).x) (qy : All2 (Reduced sm9p) (rdEc2A m q).y) :
    ∃ m', pairing build32 L r p q m = some m' ∧ All12 (Reduced sm9p) (rdFp12 m' r) ∧
      ∀ x, x < L → ¬ (r ≤ x ∧ x < r + 96) → m' x = m x := by
  obtain ⟨v, e, hv⟩ := C66_pairing_total hw _ _ px py qx qy
  have h := RunOk.use C102_pairing h1 h2 h3 hr hp hq (m := m)
  obtain ⟨m', a, b, c⟩ := h.2 v e
  exact ⟨m', a, by rw [b]; exact hv, c⟩

/-- **C102, with C66, partial** there is one `g ≠ 1` of order `N` such that, with `[a]P1` stored at `p` and `[b]P2` at `q`,
`sm9_pairing` leaves `g ^ (a b)` at `r`.  Missing, as in C66: the points `PairRight` excludes. -/
theorem C102_pairing_value_partial : ∃ g : K, g ≠ 1 ∧ g ^ sm9n = 1 ∧ ∀ a b : Nat, 1 ≤ a → a < sm9n →
    ∀ (L r p q : Nat) (m : Alias.Mem W32), SameOrApart r 96 p 16 → SameOrApart r 96 q 32 → SameOrApart p 16 q 32 →
      r + 96 ≤ L → p + 16 ≤ L → q + 32 ≤ L →
      Sm9IsAffine (rdEcA m p) (a • sm9G) → Sm9IsAffine2 w (rdEc2A m q) (b • sm9G2 hw) →
      PairRight w (rdEcA m p) (rdEc2A m q) →
      ∃ m', pairing build32 L r p q m = some m' ∧ fp12Den w (rdFp12 m' r) = g ^ (a * b) ∧
        ∀ x, x < L → ¬ (r ≤ x ∧ x < r + 96) → m' x = m x := by
  obtain ⟨g, g1, g2, H⟩ := C66_pairing_partial hw
  refine ⟨g, g1, g2, fun a b a1 a2 L r p q m h1 h2 h3 hr hp hq hP hQ hR => ?_⟩
  obtain ⟨v, e, _, hv⟩ := H a b a1 a2 _ _ hP hQ hR
  have h := RunOk.use C102_pairing h1 h2 h3 hr hp hq (m := m)
  obtain ⟨m', i, j, c⟩ := h.2 v e
  exact ⟨m', i, by rw [j]; exact hv, c⟩
end

/-! Non-vacuity: the generators in memory, the result over the first of them. -/

private def genMem : Alias.Mem W32 := fun x =>
  (Sm9.p1.x ++ Sm9.p1.y ++ List.replicate 80 0 ++ Sm9.p2.x.c0 ++ Sm9.p2.x.c1 ++ Sm9.p2.y.c0 ++ Sm9.p2.y.c1).getD x 0
private theorem gen1 : rdEcA genMem 0 = Sm9.p1 := by decide +kernel
private theorem gen2 : rdEc2A genMem 96 = Sm9.p2 := by decide +kernel

example {K : Type} [Field K] [Algebra (ZMod Spec.sm9p) K] [DecidableEq K] {w : K} (hw : w ^ 12 = -2) :
    SameOrApart 0 96 0 16 ∧ SameOrApart 0 96 96 32 ∧ SameOrApart 0 16 96 32 ∧
    Spec.Sm9IsAffine (rdEcA genMem 0) (1 • sm9G) ∧ Spec.Sm9IsAffine2 w (rdEc2A genMem 96) (1 • sm9G2 hw) ∧
    Spec.PairRight w (rdEcA genMem 0) (rdEc2A genMem 96) := by
  rw [gen1, gen2, one_nsmul, one_nsmul]
  exact ⟨.inl rfl, by unfold SameOrApart; omega, by unfold SameOrApart; omega, p1_ok, p2_ok hw, genPts_right hw p1_ok (p2_ok hw)⟩

/-- A Frobenius map in place moves the element. -/
private def twoMem : Alias.Mem W32 := fun x => if x = 40 then 1 else 0
private theorem frobMoves : ((Sm9.fp12Frob (rdFp12 twoMem 0)).c1.c0.c1 == (rdFp12 twoMem 0).c1.c0.c1) = false := by
  decide +kernel
example : ∃ m', callG (fOps build32) 8 13 frobP 96 0 0 0 twoMem = some m' ∧ rdFp12 m' 0 = Sm9.fp12Frob (rdFp12 twoMem 0) ∧
    rdFp12 m' 0 ≠ rdFp12 twoMem 0 := by
  have h := C102_frobenius.1 96 0 0 0 twoMem (.inl rfl) (.inl rfl) (.inl rfl) (by omega) (by omega) (by omega)
  obtain ⟨m', a, b, _⟩ := h
  refine ⟨m', a, b, fun c => ?_⟩
  have f := frobMoves
  rw [← b, c, beq_self_eq_true] at f
  cases f

end Verif.Props
