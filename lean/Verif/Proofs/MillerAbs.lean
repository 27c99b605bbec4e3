import Mathlib.Algebra.Module.Basic
import Mathlib.Tactic.Module
import Mathlib.Tactic.LinearCombination
import Mathlib.Tactic.Ring
import Mathlib.Tactic.Abel
/-!
# Miller functions as cocycles of the integers

`γ m n` stands for the value of the line through `m • Q` and `n • Q` after the final exponentiation (written additively).
The optimal-ate combination of a cocycle is linear, by the congruence `L + p - p² + p³ ≡ 0 (mod N)`.
-/
namespace Verif

section
variable {V : Type} [AddCommGroup V]

/-- A normalised symmetric cocycle of the integers. -/
structure Coc (γ : ℤ → ℤ → V) : Prop where
  comm : ∀ m n, γ m n = γ n m
  assoc : ∀ l m n, γ l m + γ (l + m) n = γ m n + γ l (m + n)
  zero : ∀ n, γ 0 n = 0
  neg : ∀ m, γ m (-m) = 0

/-- The Miller function on naturals. -/
def millN (γ : ℤ → ℤ → V) : ℕ → V
  | 0 => 0
  | n + 1 => millN γ n + γ n 1

/-- The Miller function on integers. -/
def mill (γ : ℤ → ℤ → V) : ℤ → V
  | .ofNat n => millN γ n
  | .negSucc n => -millN γ (n + 1)

theorem mill_zero (γ : ℤ → ℤ → V) : mill γ 0 = 0 := rfl

theorem Coc.one {γ : ℤ → ℤ → V} (h : Coc γ) : mill γ 1 = 0 := by
  show millN γ 0 + γ ((0 : ℕ) : ℤ) 1 = 0
  rw [Nat.cast_zero, h.zero, add_zero]; rfl

theorem Coc.step {γ : ℤ → ℤ → V} (h : Coc γ) (m : ℤ) : mill γ (m + 1) = mill γ m + γ m 1 := by
  cases m with
  | ofNat n => rfl
  | negSucc k =>
    have e1 : Int.negSucc k + 1 = -(k : ℤ) := by omega
    have e2 : mill γ (-(k : ℤ)) = -millN γ k := by
      cases k with
      | zero => show millN γ 0 = -millN γ 0; simp [millN]
      | succ k => rfl
    have e3 : mill γ (Int.negSucc k) = -(millN γ k + γ k 1) := rfl
    have a := h.assoc (Int.negSucc k) 1 k
    have e4 : Int.negSucc k = -(1 + (k : ℤ)) := by omega
    have n1 : γ (Int.negSucc k + 1) k = 0 := by
      rw [e1, h.comm, h.neg]
    have n2 : γ (Int.negSucc k) (1 + (k : ℤ)) = 0 := by
      rw [e4, h.comm, h.neg]
    rw [n1, n2, add_zero, add_zero] at a
    rw [e1, e2, e3, a, h.comm 1]
    abel

theorem Coc.add {γ : ℤ → ℤ → V} (h : Coc γ) (m n : ℤ) : mill γ (m + n) = mill γ m + mill γ n + γ m n := by
  have h0 : ∀ m, γ m 0 = 0 := fun m => by rw [h.comm, h.zero]
  induction n using Int.induction_on with
  | zero => rw [add_zero, mill_zero, h0, add_zero, add_zero]
  | succ n ih =>
    have a := h.assoc m n 1
    rw [← add_assoc, h.step, ih, h.step]
    linear_combination (norm := module) a
  | pred n ih =>
    have a := h.assoc m (-(n : ℤ) - 1) 1
    have e : -(n : ℤ) - 1 + 1 = -(n : ℤ) := by ring
    have s1 := h.step (m + (-(n : ℤ) - 1))
    have s2 := h.step (-(n : ℤ) - 1)
    rw [add_assoc, e] at s1
    rw [e] at s2 a
    rw [s1] at ih
    rw [s2] at ih
    linear_combination (norm := module) ih - a

theorem Coc.negV {γ : ℤ → ℤ → V} (h : Coc γ) (m : ℤ) : mill γ (-m) = -mill γ m := by
  have a := h.add m (-m)
  rw [add_neg_cancel, mill_zero, h.neg, add_zero] at a
  exact (neg_eq_of_add_eq_zero_right a.symm).symm

/-- An additive function is multiplication. -/
theorem addi_eq (G : ℤ → V) (h : ∀ m n, G (m + n) = G m + G n) (m : ℤ) : G m = m • G 1 := by
  have := map_zsmul (AddMonoidHom.mk' G h) m 1
  simpa using this

/-- Two functions with the same defect and the same value at `1`. -/
theorem Coc.uniq {γ : ℤ → ℤ → V} (h : Coc γ) (G : ℤ → V) (hG : ∀ m n, G (m + n) = G m + G n + γ m n) (m : ℤ) :
    mill γ m = G m - m • G 1 := by
  have := addi_eq (fun k => mill γ k - G k) (fun a b => by
    simp only [h.add, hG]; abel) m
  simp only [h.one] at this
  rw [zero_sub, smul_neg] at this
  linear_combination (norm := module) this

theorem Coc.scale {γ : ℤ → ℤ → V} (h : Coc γ) (b : ℤ) : Coc (fun m n => γ (b * m) (b * n)) :=
  ⟨fun m n => h.comm _ _, fun l m n => by
    have := h.assoc (b * l) (b * m) (b * n)
    rwa [← mul_add, ← mul_add] at this,
    fun n => by show γ (b * 0) _ = 0; rw [mul_zero, h.zero],
    fun m => by show γ _ (b * -m) = 0; rw [mul_neg, h.neg]⟩

theorem Coc.mill_scale {γ : ℤ → ℤ → V} (h : Coc γ) (b m : ℤ) :
    mill (fun m n => γ (b * m) (b * n)) m = mill γ (b * m) - m • mill γ b := by
  have := (h.scale b).uniq (fun k => mill γ (b * k)) (fun m n => by
    show mill γ (b * (m + n)) = _; rw [mul_add, h.add]) m
  simpa using this

/-- The optimal-ate combination. -/
def optA (γ : ℤ → ℤ → V) (L p : ℤ) : V := mill γ L + γ L p + γ (L + p) (-(p * p))

theorem Coc.optA_eq {γ : ℤ → ℤ → V} (h : Coc γ) (L p : ℤ) :
    optA γ L p = mill γ (L + p + -(p * p)) - mill γ p + mill γ (p * p) := by
  have a1 := h.add L p
  have a2 := h.add (L + p) (-(p * p))
  rw [h.negV] at a2
  unfold optA
  linear_combination (norm := module) -a2 - a1

/-- **Linearity in the second point.** -/
theorem Coc.optA_scale {γ : ℤ → ℤ → V} (h : Coc γ) {L p N : ℤ} (hL : N ∣ L + p - p ^ 2 + p ^ 3)
    (hper : ∀ m n, γ (m + N) n = γ m n) (hfr : ∀ m n, γ (p * m) (p * n) = p • γ m n) (hN : ∀ m n, N • γ m n = 0)
    (b : ℤ) : optA (fun m n => γ (b * m) (b * n)) L p = b • optA γ L p := by
  have hp : ∀ m, mill γ (m * p) = p • mill γ m + m • mill γ p := fun m => by
    have := addi_eq (fun k => mill γ (p * k) - p • mill γ k) (fun a b => by
      simp only [mul_add, h.add, hfr, smul_add]; abel) m
    simp only [h.one, mul_one, smul_zero, sub_zero] at this
    rw [mul_comm]
    linear_combination (norm := module) this
  have hperk : ∀ (k : ℕ) n, γ (k * N) n = 0 := fun k n => by
    induction k with
    | zero => rw [Nat.cast_zero, zero_mul, h.zero]
    | succ k ih => rw [Nat.cast_succ, add_mul, one_mul, hper, ih]
  have hperz : ∀ (k : ℤ) n, γ (k * N) n = 0 := fun k n => by
    cases k with
    | ofNat k => exact hperk k n
    | negSucc k =>
      have : ∀ j : ℕ, γ (Int.negSucc k * N + j * N) n = γ (Int.negSucc k * N) n := fun j => by
        induction j with
        | zero => rw [Nat.cast_zero, zero_mul, add_zero]
        | succ j ih => rw [Nat.cast_succ, add_mul, one_mul, ← add_assoc, hper, ih]
      rw [← this (k + 1), ← add_mul]
      have e : (Int.negSucc k + ((k + 1 : ℕ) : ℤ)) = 0 := by omega
      rw [e, zero_mul, h.zero]
  have hmN : ∀ k : ℤ, mill γ (k * N) = k • mill γ N := fun k => by
    have := addi_eq (fun k => mill γ (k * N)) (fun a b => by
      simp only [add_mul, h.add, hperz, add_zero]) k
    simpa using this
  have hNF : ∀ m, N • mill γ m = 0 := fun m => by
    have := addi_eq (fun k => N • mill γ k) (fun a b => by
      simp only [h.add, smul_add, hN, add_zero]) m
    simpa [h.one] using this
  obtain ⟨k, hk⟩ := hL
  -- the value for the point `b • Q` in terms of `F b`, `F N` and `F p`
  have main : ∀ b : ℤ, optA (fun m n => γ (b * m) (b * n)) L p =
      b • (k • mill γ N) - (3 * p ^ 2 * b) • mill γ p - b • mill γ p + (2 * p * b) • mill γ p := fun b => by
    rw [(h.scale b).optA_eq, h.mill_scale, h.mill_scale, h.mill_scale]
    have e1 : b * (L + p + -(p * p)) = (b * k) * N + -(b * (p * (p * p))) := by linear_combination b * hk
    have q1 := hp b
    have q2 : mill γ (b * (p * p)) = p • mill γ (b * p) + (b * p) • mill γ p := by rw [← mul_assoc, hp]
    have q3 : mill γ (b * (p * (p * p))) = p • mill γ (b * (p * p)) + (b * (p * p)) • mill γ p := by
      rw [← hp (b * (p * p))]; congr 1; ring
    have hz : (L + p - p ^ 2 + p ^ 3) • mill γ b = 0 := by rw [hk, mul_comm, mul_smul, hNF, smul_zero]
    rw [e1, h.add, hperz, h.negV, hmN, q3, q2, q1]
    linear_combination (norm := module) -hz
  rw [main]
  have m1 := main 1
  simp only [one_mul] at m1
  show _ = b • optA (fun m n => γ m n) L p
  rw [m1]
  module

/-- **Linearity in the first point.** -/
theorem Coc.optA_add {γ γ' δ : ℤ → ℤ → V} (h : Coc γ) (h' : Coc γ') (hδ : Coc δ) {L p N : ℤ}
    (hL : N ∣ L + p - p ^ 2 + p ^ 3) (κ : ℤ → V) (hκ : ∀ m n, γ m n + γ' m n = δ m n + κ m + κ n - κ (m + n))
    (hper : ∀ m, κ (m + N) = κ m) (hfr : ∀ m, κ (p * m) = p • κ m) (hneg : ∀ m, κ (-m) = -κ m)
    (hN : N • κ 1 = 0) : optA γ L p + optA γ' L p = optA δ L p := by
  have hs : ∀ m, mill γ m + mill γ' m = mill δ m - κ m + m • κ 1 := fun m => by
    have := hδ.uniq (fun k => mill γ k + mill γ' k + κ k) (fun a b => by
      have := hκ a b
      simp only [h.add, h'.add]
      linear_combination (norm := module) this) m
    simp only [h.one, h'.one] at this
    rw [this, zero_add, zero_add]
    module
  have hperk : ∀ (k : ℕ) m, κ (m + k * N) = κ m := fun k m => by
    induction k with
    | zero => rw [Nat.cast_zero, zero_mul, add_zero]
    | succ k ih => rw [Nat.cast_succ, add_mul, one_mul, ← add_assoc, hper, ih]
  have hperz : ∀ (k : ℤ) m, κ (m + k * N) = κ m := fun k m => by
    cases k with
    | ofNat k => exact hperk k m
    | negSucc k =>
      rw [← hperk (k + 1)]
      congr 1
      have e : Int.negSucc k = -((k + 1 : ℕ) : ℤ) := by omega
      rw [e]; ring
  obtain ⟨k, hk⟩ := hL
  have e1 : L + p + -(p * p) = -(p * (p * (p * 1))) + k * N := by linear_combination hk
  have k1 : κ (L + p + -(p * p)) = -(p • p • p • κ 1) := by rw [e1, hperz, hneg, hfr, hfr, hfr]
  have k2 : κ (p * p) = p • p • κ 1 := by rw [← mul_one p, mul_assoc, one_mul, hfr, hfr, mul_one]
  have k3 : κ p = p • κ 1 := by rw [← hfr, mul_one]
  rw [h.optA_eq, h'.optA_eq, hδ.optA_eq]
  have s1 := hs (L + p + -(p * p))
  have s2 := hs p
  have s3 := hs (p * p)
  rw [k1] at s1
  rw [k3] at s2
  rw [k2] at s3
  have hz : (L + p - p ^ 2 + p ^ 3) • κ 1 = 0 := by rw [hk, mul_comm, mul_smul, hN, smul_zero]
  linear_combination (norm := module) s1 - s2 + s3 + hz

end
end Verif
