import Mathlib.NumberTheory.LucasPrimality
import Mathlib.Tactic.NormNum.Prime
import Mathlib.FieldTheory.Finite.Basic
/-! # Primality certificates (Lucas and Pocklington) checked by kernel arithmetic -/
namespace Verif

/-- `acc * a ^ e % n` by repeated squaring, at most `fuel` bits. -/
def powMod (n : Nat) : Nat → Nat → Nat → Nat → Nat
  | 0, _, _, acc => acc
  | f + 1, a, e, acc =>
    match e with
    | 0 => acc
    | e' + 1 => powMod n f (a * a % n) ((e' + 1) / 2) (if (e' + 1) % 2 = 1 then acc * a % n else acc)

theorem powMod_spec (n : Nat) : ∀ (f a e acc : Nat), e < 2 ^ f →
    (powMod n f a e acc : ZMod n) = (acc : ZMod n) * (a : ZMod n) ^ e
  | 0, a, e, acc, h => by
    have : e = 0 := by simpa using h
    subst this; simp [powMod]
  | f + 1, a, 0, acc, _ => by simp [powMod]
  | f + 1, a, e + 1, acc, h => by
    unfold powMod
    dsimp only
    rw [powMod_spec n f _ _ _ (by rw [pow_succ] at h; omega)]
    have key : (a : ZMod n) ^ (e + 1) = ((a : ZMod n) * a) ^ ((e + 1) / 2) * (a : ZMod n) ^ ((e + 1) % 2) := by
      rw [← pow_two, ← pow_mul, ← pow_add, Nat.div_add_mod]
    rw [key]
    rcases Nat.mod_two_eq_zero_or_one (e + 1) with c | c
    · rw [if_neg (by omega), c]; simp
    · rw [if_pos c, c]; simp; ring

/-- Lucas check for `n`, base `a`, prime factors `fs` of `n - 1` with multiplicity. -/
def lucasCheck (n a : Nat) (fs : List Nat) : Bool :=
  decide (1 < n) && decide (n < 2 ^ 256) && fs.foldr (· * ·) 1 == n - 1 && powMod n 256 a (n - 1) 1 % n == 1 &&
    fs.all fun q => powMod n 256 a ((n - 1) / q) 1 % n != 1

theorem lucas_cert (n a : Nat) (fs : List Nat) (hp : ∀ q ∈ fs, q.Prime) (h : lucasCheck n a fs = true) :
    n.Prime := by
  simp only [lucasCheck, Bool.and_eq_true, decide_eq_true_eq, beq_iff_eq, List.all_eq_true, bne_iff_ne] at h
  obtain ⟨⟨⟨⟨h1, h2⟩, h3⟩, h4⟩, h5⟩ := h
  have one_cast : ∀ x : Nat, (x : ZMod n) = 1 → x % n = 1 := by
    intro x hx
    have := (ZMod.natCast_eq_natCast_iff' x 1 n).mp (by simpa using hx)
    rwa [Nat.mod_eq_of_lt h1] at this
  apply lucas_primality n (a : ZMod n)
  · have := powMod_spec n 256 a (n - 1) 1 (by omega)
    rw [Nat.cast_one, one_mul] at this
    rw [← this, ← ZMod.natCast_mod, h4, Nat.cast_one]
  · intro q hq hd hc
    rw [← h3] at hd
    have hmem : q ∈ fs := by
      have := (hq.prime.dvd_prod_iff (L := fs)).mp (by rwa [List.prod])
      obtain ⟨r, hr, hqr⟩ := this
      have := (Nat.prime_dvd_prime_iff_eq hq (hp r hr)).mp hqr
      rwa [this]
    apply h5 q hmem
    apply one_cast
    rw [powMod_spec n 256 a _ 1 (lt_of_le_of_lt (Nat.div_le_self _ _) (by omega)), Nat.cast_one, one_mul]
    exact hc

/-- Pocklington check: `q` divides `n - 1`, `q² > n`. -/
def pockCheck (n a q : Nat) : Bool :=
  decide (1 < n) && decide (n < 2 ^ 256) && (n - 1) % q == 0 && decide (n < q * q) &&
    powMod n 256 a (n - 1) 1 % n == 1 && Nat.gcd (powMod n 256 a ((n - 1) / q) 1 + (n - 1)) n == 1

theorem pock_cert (n a q : Nat) (hq : q.Prime) (h : pockCheck n a q = true) : n.Prime := by
  simp only [pockCheck, Bool.and_eq_true, decide_eq_true_eq, beq_iff_eq] at h
  obtain ⟨⟨⟨⟨⟨h1, h2⟩, h3⟩, h4⟩, h5⟩, h6⟩ := h
  have hdvd : q ∣ n - 1 := Nat.dvd_of_mod_eq_zero h3
  rw [Nat.prime_def_minFac]
  refine ⟨h1, ?_⟩
  by_contra hne
  have hlt : n.minFac < n := lt_of_le_of_ne (Nat.minFac_le (by omega)) hne
  have hmp : n.minFac.Prime := Nat.minFac_prime (by omega)
  have hsq : n.minFac ^ 2 ≤ n := Nat.minFac_sq_le_self (by omega) (fun hp => hne (Nat.Prime.minFac_eq hp))
  have hmd : n.minFac ∣ n := Nat.minFac_dvd n
  generalize n.minFac = p at *
  have : Fact p.Prime := ⟨hmp⟩
  have cast1 : ∀ x y : Nat, x % n = y % n → (x : ZMod p) = y := by
    intro x y hxy
    rw [ZMod.natCast_eq_natCast_iff]
    exact Nat.ModEq.of_dvd hmd hxy
  have toP : ∀ e : Nat, e < 2 ^ 256 → ((powMod n 256 a e 1 : Nat) : ZMod p) = (a : ZMod p) ^ e := by
    intro e he
    have := powMod_spec n 256 a e 1 he
    rw [Nat.cast_one, one_mul, ← Nat.cast_pow] at this
    rw [← Nat.cast_pow]
    exact cast1 _ _ ((ZMod.natCast_eq_natCast_iff' _ _ n).mp this)
  have e1 : (a : ZMod p) ^ (n - 1) = 1 := by
    rw [← toP (n - 1) (by omega)]
    have := cast1 (powMod n 256 a (n - 1) 1) 1 (by rw [h5, Nat.mod_eq_of_lt h1])
    simpa using this
  have e2 : (a : ZMod p) ^ ((n - 1) / q) ≠ 1 := by
    intro hc
    rw [← toP _ (lt_of_le_of_lt (Nat.div_le_self _ _) (by omega))] at hc
    have : (p : Nat) ∣ powMod n 256 a ((n - 1) / q) 1 + (n - 1) := by
      rw [← ZMod.natCast_eq_zero_iff, Nat.cast_add, hc]
      have : ((1 + (n - 1) : Nat) : ZMod p) = 0 := by
        rw [ZMod.natCast_eq_zero_iff, show 1 + (n - 1) = n by omega]; exact hmd
      simpa using this
    have := Nat.dvd_gcd this hmd
    rw [h6] at this
    exact hmp.one_lt.ne' (Nat.dvd_one.mp this)
  have a0 : (a : ZMod p) ≠ 0 := by
    intro hc
    rw [hc, zero_pow (by omega)] at e1
    exact zero_ne_one e1
  -- the order of a^((n-1)/q) is q
  have hord : orderOf ((a : ZMod p) ^ ((n - 1) / q)) = q := by
    have : Fact q.Prime := ⟨hq⟩
    apply orderOf_eq_prime
    · rw [← pow_mul, Nat.div_mul_cancel hdvd]; exact e1
    · exact e2
  have : q ∣ p - 1 := by
    rw [← hord]
    apply orderOf_dvd_of_pow_eq_one
    exact ZMod.pow_card_sub_one_eq_one (pow_ne_zero _ a0)
  have := Nat.le_of_dvd (by have := hmp.one_lt; omega) this
  have : q * q ≤ p * p := Nat.mul_self_le_mul_self (by omega)
  rw [pow_two] at hsq
  omega

end Verif
