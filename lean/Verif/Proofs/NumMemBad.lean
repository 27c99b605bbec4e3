import Verif.Proofs.NumMem
/-!
# Lemmas for `Props/NumMem.lean`: what a carry chain computes when the result begins inside an operand
-/
namespace Verif.NumMem
open Verif Verif.Spec

variable {w : Nat} {γ : Type}

/-- The memory full of ones. -/
def ones : Mem w := fun _ => 1

theorem words_ones (a n : Nat) : words (ones : Mem w) a n = List.replicate n 1 := by
  induction n generalizing a with
  | zero => rfl
  | succ n ih => rw [words, ih]; rfl

theorem chain_same (step : BitVec w → BitVec w → γ → BitVec w × γ) (n r : Nat) (a b : Opd w) (c : γ) (m : Mem w) :
    Same m (chain step n r a b c m).1 r n := by
  induction n generalizing r a b c m with
  | zero => exact fun y _ => rfl
  | succ n ih =>
    intro y hy
    simp only [chain]
    rw [ih (r + 1) _ _ _ _ y (by omega), put_ne _ _ _ (by omega)]

theorem chain_split (step : BitVec w → BitVec w → γ → BitVec w × γ) (d k r a b : Nat) (c : γ) (m : Mem w) :
    chain step (d + k) r (.mem a) (.mem b) c m =
      chain step k (r + d) (.mem (a + d)) (.mem (b + d)) (chain step d r (.mem a) (.mem b) c m).2
        (chain step d r (.mem a) (.mem b) c m).1 := by
  induction d generalizing r a b c m with
  | zero => simp [chain]
  | succ d ih =>
    rw [show d + 1 + k = d + k + 1 by omega]
    simp only [chain, Opd.tl]
    rw [ih, show r + 1 + d = r + (d + 1) by omega, show a + 1 + d = a + (d + 1) by omega,
      show b + 1 + d = b + (d + 1) by omega]

theorem vloop_ones (step : BitVec w → BitVec w → γ → BitVec w × γ) (u : BitVec w) (c : γ) (h : step 1 1 c = (u, c))
    (n : Nat) : vloop step (List.replicate n 1) (List.replicate n 1) c = (List.replicate n u, c) := by
  induction n with
  | zero => rfl
  | succ n ih => simp only [List.replicate_succ, vloop, h, ih]

/-- Word `d` of the result on the memory of ones: an operand that begins `d` words below the result gives the first word
of the result. -/
theorem chain_ones (step : BitVec w → BitVec w → γ → BitVec w × γ) (u : BitVec w) (c : γ) (h : step 1 1 c = (u, c))
    (n r a b d : Nat) (hd : 0 < d) (hdn : d < n) (ha : a + d ≤ r ∨ r ≤ a) (hb : b + d ≤ r ∨ r ≤ b) :
    (chain step n r (.mem a) (.mem b) c ones).1 (r + d) =
      (step (if a + d = r then u else 1) (if b + d = r then u else 1) c).1 := by
  obtain ⟨k, rfl⟩ : ∃ k, n = d + (k + 1) := ⟨n - d - 1, by omega⟩
  obtain ⟨h1, h2, h3⟩ := chain_spec step d r (.mem a) (.mem b) c ones (by simp only [Fwd]; omega)
    (by simp only [Fwd]; omega)
  rw [Opd.words_mem, Opd.words_mem, words_ones, words_ones, vloop_ones step u c h] at h1 h2
  rw [chain_split]
  simp only [chain]
  rw [chain_same step k (r + d + 1) _ _ _ _ (r + d) (by omega), put_same, h1]
  have hw : ∀ z, z + d ≤ r ∨ r ≤ z →
      (Opd.mem (z + d) : Opd w).hd (chain step d r (.mem a) (.mem b) c ones).1 = if z + d = r then u else 1 := by
    intro z hz
    simp only [Opd.hd]
    split
    · next e =>
      rw [e]
      have := words_get (chain step d r (.mem a) (.mem b) c ones).1 r d 0 hd
      rw [h2, List.getElem?_replicate, if_pos hd, Nat.add_zero] at this
      exact (Option.some.inj this).symm
    · next e =>
      rw [h3 (z + d) (by omega)]
      rfl
  rw [hw a ha, hw b hb]

theorem val_replicate_double (n : Nat) (hw : 2 ≤ w) :
    val (List.replicate n (2 : BitVec w)) = val (List.replicate n (1 : BitVec w)) + val (List.replicate n (1 : BitVec w)) := by
  have h4 : 2 ^ 2 ≤ 2 ^ w := Nat.pow_le_pow_right (by omega) hw
  have h2 : (2 : BitVec w).toNat = 2 := by
    change (BitVec.ofNat w 2).toNat = 2
    rw [BitVec.toNat_ofNat]; exact Nat.mod_eq_of_lt (by omega)
  have h1 : (1 : BitVec w).toNat = 1 := by
    change (BitVec.ofNat w 1).toNat = 1
    rw [BitVec.toNat_ofNat]; exact Nat.mod_eq_of_lt (by omega)
  induction n with
  | zero => rfl
  | succ n ih =>
    simp only [List.replicate_succ, val]
    rw [ih, h1, h2]
    ring

/-- Right results on the memory of ones leave twos, for addition. -/
theorem all_two (hw : 2 ≤ w) (n r : Nat) (m : Mem w) (c : Nat)
    (h : val (words m r n) + 2 ^ (w * n) * c = val (List.replicate n (1 : BitVec w)) + val (List.replicate n (1 : BitVec w)))
    (d : Nat) (hd : d < n) : m (r + d) = 2 := by
  rw [← val_replicate_double n hw] at h
  have hlt := val_lt (List.replicate n (2 : BitVec w))
  rw [List.length_replicate] at hlt
  have hc : c = 0 := by
    rcases Nat.eq_zero_or_pos c with h0 | h0
    · exact h0
    · have := Nat.le_mul_of_pos_right (2 ^ (w * n)) h0
      omega
  rw [hc, Nat.mul_zero, Nat.add_zero] at h
  have he := val_inj _ _ (by simp) h
  have := words_get m r n d hd
  rw [he, List.getElem?_replicate, if_pos hd] at this
  exact (Option.some.inj this).symm

/-- Right results on the memory of ones leave zeros, for subtraction. -/
theorem all_zero (n r : Nat) (m : Mem w) (c : Int) (h : (val (words m r n) : Int) + 2 ^ (w * n) * c = 0)
    (d : Nat) (hd : d < n) : m (r + d) = 0 := by
  have hlt := val_lt (words m r n)
  rw [words_len] at hlt
  have hv : val (words m r n) = 0 := by
    have hdvd : (2 ^ (w * n) : Int) ∣ (val (words m r n) : Int) := ⟨-c, by linarith⟩
    have hdvd' : 2 ^ (w * n) ∣ val (words m r n) := by exact_mod_cast hdvd
    exact Nat.eq_zero_of_dvd_of_lt hdvd' hlt
  have he := val_inj (words m r n) (List.replicate n 0) (by simp) (by rw [hv, val_replicate_zero])
  have := words_get m r n d hd
  rw [he, List.getElem?_replicate, if_pos hd] at this
  exact (Option.some.inj this).symm

/-- An operand that the result begins inside of; the nearest one comes first. -/
theorem nearest (r a b n : Nat) (h : ¬ ((r ≤ a ∨ a + n ≤ r) ∧ (r ≤ b ∨ b + n ≤ r))) :
    ∃ d, 0 < d ∧ d < n ∧ (a + d ≤ r ∨ r ≤ a) ∧ (b + d ≤ r ∨ r ≤ b) ∧ (a + d = r ∨ b + d = r) := by
  by_cases ha : r ≤ a ∨ a + n ≤ r
  · exact ⟨r - b, by omega, by omega, by omega, by omega, by omega⟩
  · by_cases hb : r ≤ b ∨ b + n ≤ r
    · exact ⟨r - a, by omega, by omega, by omega, by omega, by omega⟩
    · rcases Nat.le_total a b with hle | hle
      · exact ⟨r - b, by omega, by omega, by omega, by omega, by omega⟩
      · exact ⟨r - a, by omega, by omega, by omega, by omega, by omega⟩

/-- Addition into the middle of an operand: some word is not two. -/
theorem bad_add (step : BitVec w → BitVec w → γ → BitVec w × γ) (c : γ) (h11 : step 1 1 c = (2, c))
    (h12 : (step 1 2 c).1 ≠ 2) (h21 : (step 2 1 c).1 ≠ 2) (h22 : (step 2 2 c).1 ≠ 2) (n r a b : Nat)
    (h : ¬ ((r ≤ a ∨ a + n ≤ r) ∧ (r ≤ b ∨ b + n ≤ r))) :
    ∃ d < n, (chain step n r (.mem a) (.mem b) c ones).1 (r + d) ≠ 2 := by
  obtain ⟨d, h1, h2, h3, h4, h5⟩ := nearest r a b n h
  refine ⟨d, h2, ?_⟩
  rw [chain_ones step 2 c h11 n r a b d h1 h2 h3 h4]
  rcases h5 with h5 | h5
  · rw [if_pos h5]; split <;> assumption
  · rw [if_pos h5]; split <;> assumption

/-- Subtraction of two different arrays into the middle of one of them: some word is not zero. -/
theorem bad_sub (step : BitVec w → BitVec w → γ → BitVec w × γ) (c : γ) (h11 : step 1 1 c = (0, c))
    (h10 : (step 1 0 c).1 ≠ 0) (h01 : (step 0 1 c).1 ≠ 0) (n r a b : Nat) (hne : a ≠ b)
    (h : ¬ ((r ≤ a ∨ a + n ≤ r) ∧ (r ≤ b ∨ b + n ≤ r))) :
    ∃ d < n, (chain step n r (.mem a) (.mem b) c ones).1 (r + d) ≠ 0 := by
  obtain ⟨d, h1, h2, h3, h4, h5⟩ := nearest r a b n h
  refine ⟨d, h2, ?_⟩
  rw [chain_ones step 0 c h11 n r a b d h1 h2 h3 h4]
  rcases h5 with h5 | h5
  · rw [if_pos h5, if_neg (by omega)]; exact h01
  · rw [if_neg (by omega), if_pos h5]; exact h10

/-- The difference of an array and itself. -/
theorem chain_self (step : BitVec w → BitVec w → γ → BitVec w × γ) (c : γ) (h : ∀ x, step x x c = (0, c))
    (n r a : Nat) (m : Mem w) :
    words (chain step n r (.mem a) (.mem a) c m).1 r n = List.replicate n 0 ∧
    (chain step n r (.mem a) (.mem a) c m).2 = c := by
  induction n generalizing r a m with
  | zero => exact ⟨rfl, rfl⟩
  | succ n ih =>
    simp only [chain, Opd.hd, Opd.tl, h]
    obtain ⟨h1, h2⟩ := ih (r + 1) (a + 1) (put m r 0)
    refine ⟨?_, h2⟩
    rw [words, h1, chain_same step n (r + 1) _ _ _ _ r (by omega), put_same, List.replicate_succ]

theorem subBorrow_self (x : W32) : subBorrow x x 0 = (0, 0) := by
  unfold subBorrow
  simp

end Verif.NumMem
