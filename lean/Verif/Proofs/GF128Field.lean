import Verif.Proofs.Ghash2
import Mathlib.FieldTheory.Finite.Basic
import Mathlib.RingTheory.PowerBasis
/-!
# `X^128 + X^7 + X^2 + X + 1` is irreducible over GF(2)

Rabin's criterion: modulo the polynomial, `x^(2^128) = x` and `x^(2^64) + x` has an inverse.
-/
namespace Verif.Ghash
open Verif.Spec Verif.Spec.GF128 Polynomial

def sq (v : BitVec 128) : BitVec 128 := Gcm.mul v v

/-- `x` as a bit string. -/
def bx : BitVec 128 := 0x40000000000000000000000000000000#128

/-- `x^(2^64)`. -/
def bx64 : BitVec 128 := sq^[64] bx

theorem sq_pow (n : Nat) (v : BitVec 128) : p128 (sq^[n] v) = p128 v ^ 2 ^ n := by
  induction n with
  | zero => simp
  | succ n ih =>
    rw [Function.iterate_succ_apply']
    show p128 (Gcm.mul _ _) = _
    rw [p128_mul, ih, ← pow_add, pow_succ 2 n, Nat.mul_two]

theorem sq128 : sq^[128] bx = bx := by decide +kernel

theorem inv64 : Gcm.mul (sq^[64] bx ^^^ bx) 0x180da934bf53158251c13dbb149f5279#128 = 0x80000000000000000000000000000000#128 := by
  decide +kernel

theorem getMsb_pow (k i : Nat) (hk : k < 128) (hi : i < 128) : (BitVec.ofNat 128 (2 ^ (127 - k))).getMsbD i = decide (i = k) := by
  rw [BitVec.getMsbD_eq_getLsbD, BitVec.getLsbD_ofNat, Nat.testBit_two_pow]
  simp only [hi, decide_true, Bool.true_and]
  rw [Bool.eq_iff_iff]
  simp only [Bool.and_eq_true, decide_eq_true_eq]
  omega

theorem p128_pow (k : Nat) (hk : k < 128) : p128 (BitVec.ofNat 128 (2 ^ (127 - k))) = x ^ k := by
  unfold p128
  rw [Finset.sum_eq_single k]
  · rw [getMsb_pow k k hk hk]; simp
  · intro i hi hik
    rw [getMsb_pow k i hk (by simpa using hi)]; simp [hik]
  · intro h; exact absurd (Finset.mem_range.mpr hk) h

theorem p128_bx : p128 bx = x := by
  have := p128_pow 1 (by decide)
  rw [pow_one] at this
  exact this

theorem p128_one : p128 0x80000000000000000000000000000000#128 = 1 := by
  have := p128_pow 0 (by decide)
  rw [pow_zero] at this
  exact this

theorem x_frob128 : x ^ 2 ^ 128 = x := by
  have := sq_pow 128 bx
  rwa [sq128, p128_bx, eq_comm] at this

theorem x_frob64 : ∃ u : GF, (x ^ 2 ^ 64 + x) * u = 1 := by
  have := p128_mul (sq^[64] bx ^^^ bx) 0x180da934bf53158251c13dbb149f5279#128
  rw [inv64, p128_one, p128_xor, sq_pow, p128_bx] at this
  exact ⟨_, this.symm⟩

theorem dvd_128 {d : Nat} (h : d ∣ 128) (h' : ¬ d ∣ 64) : d = 128 := by
  obtain ⟨k, hk, rfl⟩ := (Nat.dvd_prime_pow Nat.prime_two (m := 7)).mp h
  by_cases h7 : k = 7
  · rw [h7]; rfl
  · exact absurd (pow_dvd_pow 2 (show k ≤ 6 by omega)) h'

theorem modulus_irreducible : Irreducible modulus := by
  have hdeg : modulus.natDegree = 128 := modulus_natDegree
  have hu : ¬ IsUnit modulus := by
    intro h
    have := natDegree_eq_zero_of_isUnit h
    omega
  obtain ⟨g, hg, hdvd⟩ := WfDvdMonoid.exists_irreducible_factor hu modulus_ne_zero
  have : Fact (Irreducible g) := ⟨hg⟩
  have : Fact (Nat.Prime 2) := ⟨Nat.prime_two⟩
  let ψ : GF →+* AdjoinRoot g := AdjoinRoot.lift (AdjoinRoot.of g) (AdjoinRoot.root g) (by
    obtain ⟨k, hk⟩ := hdvd
    rw [hk, eval₂_mul, AdjoinRoot.eval₂_root, zero_mul])
  have hx : ψ x = AdjoinRoot.root g := AdjoinRoot.lift_root _
  have h128 : (AdjoinRoot.root g) ^ 2 ^ 128 = AdjoinRoot.root g := by
    rw [← hx, ← map_pow, x_frob128]
  have h64 : (AdjoinRoot.root g) ^ 2 ^ 64 ≠ AdjoinRoot.root g := by
    intro h
    obtain ⟨u, hu⟩ := x_frob64
    have := congrArg ψ hu
    rw [map_mul, map_add, map_pow, hx, h, ← hx, ← map_add, add_self, map_zero, zero_mul, map_one] at this
    exact zero_ne_one this
  let pb := AdjoinRoot.powerBasis hg.ne_zero
  have : Module.Finite (ZMod 2) (AdjoinRoot g) := pb.finite
  have : Finite (AdjoinRoot g) := Module.finite_of_finite (ZMod 2)
  have hord := FiniteField.orderOf_frobeniusAlgHom (ZMod 2) (AdjoinRoot g)
  have hfr : Module.finrank (ZMod 2) (AdjoinRoot g) = g.natDegree := by
    rw [pb.finrank, AdjoinRoot.powerBasis_dim]
  rw [hfr] at hord
  have happ : ∀ n, (FiniteField.frobeniusAlgHom (ZMod 2) (AdjoinRoot g) ^ n) (AdjoinRoot.root g) = AdjoinRoot.root g ^ 2 ^ n := by
    intro n
    rw [AlgHom.coe_pow, FiniteField.coe_frobeniusAlgHom, pow_iterate, ZMod.card]
  have d128 : g.natDegree ∣ 128 := by
    rw [← hord]
    apply orderOf_dvd_of_pow_eq_one
    apply AdjoinRoot.algHom_ext
    rw [happ, h128]; rfl
  have d64 : ¬ g.natDegree ∣ 64 := by
    intro h
    rw [← hord] at h
    have := orderOf_dvd_iff_pow_eq_one.mp h
    apply h64
    rw [← happ, this]; rfl
  have hd := dvd_128 d128 d64
  obtain ⟨k, hk⟩ := hdvd
  have hk0 : k ≠ 0 := by
    rintro rfl
    exact modulus_ne_zero (by rw [hk, mul_zero])
  have : k.natDegree = 0 := by
    have := congrArg natDegree hk
    rw [natDegree_mul hg.ne_zero hk0, hdeg, hd] at this
    omega
  have hku : IsUnit k := by
    rw [Polynomial.isUnit_iff_degree_eq_zero, degree_eq_natDegree hk0, this]; rfl
  rw [hk]
  exact (irreducible_mul_isUnit hku).mpr hg

instance : Fact (Irreducible modulus) := ⟨modulus_irreducible⟩

end Verif.Ghash
