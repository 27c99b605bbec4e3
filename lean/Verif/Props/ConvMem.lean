import Verif.Proofs.ConvMem
/-!
# Property C106: conversions between integers and octets in one buffer

A conversion that gets the place `p` and stores to the place `r`, with `n` limbs of `s` octets, is right whatever the
memory holds exactly if the arrays have at most one limb in common, that is `p + s * (n - 1) ≤ r` or
`r + s * (n - 1) ≤ p`.  In place a 256-bit conversion is right only if the octets read the same in both directions.
-/
namespace Verif.Props
open Verif Verif.Spec Verif.ConvMem

/-- The `N` octets from `a` up. -/
def octetsAt (m : Nat → Byte) (a N : Nat) : List Byte := (List.range N).map fun k => m (a + k)

/-- The integer stored at `r` is the number written big-endian at `p`, and nothing else has changed. -/
def FromRight (m m' : Nat → Byte) (r p N : Nat) : Prop :=
  leVal (octetsAt m' r N) = beVal (octetsAt m p N) ∧ ∀ y, (y < r ∨ r + N ≤ y) → m' y = m y

/-- The octets stored at `r` are the integer at `p` written big-endian, and nothing else has changed. -/
def ToRight (m m' : Nat → Byte) (r p N : Nat) : Prop :=
  beVal (octetsAt m' r N) = leVal (octetsAt m p N) ∧ ∀ y, (y < r ∨ r + N ≤ y) → m' y = m y

namespace ConvMemAux

theorem len (m : Nat → Byte) (a N : Nat) : (octetsAt m a N).length = N := by simp [octetsAt]

theorem turned (m m' : Nat → Byte) (r p N : Nat) :
    octetsAt m' r N = (octetsAt m p N).reverse ↔ ∀ k, k < N → m' (r + k) = m (p + (N - 1 - k)) := by
  constructor
  · intro h k hk
    have := congrArg (fun l => l[k]?) h
    rw [List.getElem?_reverse (by rw [len]; exact hk), len] at this
    simp only [octetsAt, List.getElem?_map, List.getElem?_range hk, List.getElem?_range (show N - 1 - k < N by omega),
      Option.map_some, Option.some.injEq] at this
    exact this
  · intro h
    apply List.ext_getElem (by rw [List.length_reverse, len, len])
    intro k h1 h2
    rw [len] at h1
    rw [List.getElem_reverse]
    simp only [octetsAt, List.getElem_map, List.getElem_range, List.length_map, List.length_range]
    exact h k h1

theorem from_rev (m m' : Nat → Byte) (r p N : Nat) : FromRight m m' r p N ↔ Rev m m' r p N := by
  unfold FromRight Rev
  refine and_congr ?_ Iff.rfl
  rw [← turned, ← leVal_reverse]
  exact ⟨fun h => MemUtil.leVal_inj (by rw [List.length_reverse, len, len]) h, fun h => by rw [h]⟩

theorem to_rev (m m' : Nat → Byte) (r p N : Nat) : ToRight m m' r p N ↔ Rev m m' r p N := by
  unfold ToRight Rev
  refine and_congr ?_ Iff.rfl
  rw [← turned]
  have e : leVal (octetsAt m p N) = beVal (octetsAt m p N).reverse := by
    rw [← leVal_reverse, List.reverse_reverse]
  rw [e]
  exact ⟨fun h => beVal_inj _ _ (by rw [List.length_reverse, len, len]) h, fun h => by rw [h]⟩

end ConvMemAux
open ConvMemAux

/-- `mpz_from_bytes`, 32-bit limbs. -/
theorem C106_from_bytes (n r p : Nat) (hn : 0 < n) :
    (∀ m, FromRight m (ConvMem.mpzFromBytes n r p m) r p (4 * n)) ↔ (p + 4 * (n - 1) ≤ r ∨ r + 4 * (n - 1) ≤ p) := by
  rw [← from_iff (.inl rfl) hn]
  refine forall_congr' fun m => ?_
  rw [ConvMem.mpzFromBytes, if_neg (by omega), load32_mv, from_rev]

/-- `mpz_to_bytes`, 32-bit limbs. -/
theorem C106_to_bytes (n r p : Nat) (hn : 0 < n) :
    (∀ m, ToRight m (ConvMem.mpzToBytes n r p m) r p (4 * n)) ↔ (p + 4 * (n - 1) ≤ r ∨ r + 4 * (n - 1) ≤ p) := by
  rw [← to_iff (.inl rfl) hn]
  refine forall_congr' fun m => ?_
  rw [ConvMem.mpzToBytes, if_neg (by omega), store32_mv, to_rev]

/-- `uint256_from_bytes` and `uint256_to_bytes`, 32-bit limbs. -/
theorem C106_uint256 (r p : Nat) :
    ((∀ m, FromRight m (ConvMem.u256FromBytes r p m) r p 32) ↔ (p + 28 ≤ r ∨ r + 28 ≤ p)) ∧
    ((∀ m, ToRight m (ConvMem.u256ToBytes r p m) r p 32) ↔ (p + 28 ≤ r ∨ r + 28 ≤ p)) := by
  refine ⟨(forall_congr' fun m => ?_).trans (from_iff (s := 4) (n := 8) (.inl rfl) (by decide)),
    (forall_congr' fun m => ?_).trans (to_iff (s := 4) (n := 8) (.inl rfl) (by decide))⟩
  · rw [u256From_eq, from_rev]
  · rw [u256To_eq, to_rev]

/-- In place: half of the octets stay, the other half becomes their mirror image. -/
theorem C106_in_place (r k : Nat) (m : Nat → Byte) (hk : k < 32) :
    ConvMem.u256FromBytes r r m (r + k) = (if 16 ≤ k then m (r + (31 - k)) else m (r + k)) ∧
    ConvMem.u256ToBytes r r m (r + k) = (if k < 16 then m (r + (31 - k)) else m (r + k)) := by
  constructor
  · rw [u256From_eq, from_place (.inl rfl) 4 m 8 (by decide) k hk]
    congr 1
    simp
  · rw [u256To_eq, to_place (.inl rfl) 4 m 8 (by decide) k hk]
    refine if_congr ?_ rfl rfl
    omega

/-- In place the conversions are right only for octets that read the same in both directions. -/
theorem C106_in_place_exact (r : Nat) (m : Nat → Byte) :
    (FromRight m (ConvMem.u256FromBytes r r m) r r 32 ↔ ∀ k, k < 32 → m (r + k) = m (r + (31 - k))) ∧
    (ToRight m (ConvMem.u256ToBytes r r m) r r 32 ↔ ∀ k, k < 32 → m (r + k) = m (r + (31 - k))) := by
  constructor
  · rw [from_rev]
    constructor
    · rintro ⟨h, -⟩ k hk
      by_cases c : 16 ≤ k
      · have h1 := h (31 - k) (by omega)
        rw [(C106_in_place r (31 - k) m (by omega)).1, if_neg (by omega)] at h1
        rw [h1]; congr 1; omega
      · have h1 := h k hk
        rw [(C106_in_place r k m hk).1, if_neg c] at h1
        rw [h1]
    · intro h
      refine ⟨fun k hk => ?_, fun y hy => ?_⟩
      · rw [(C106_in_place r k m hk).1]
        split
        · rfl
        · exact h k hk
      · rw [u256From_eq]; exact from_out (.inl rfl) m 8 (Nat.le_refl _) y (by simpa using hy)
  · rw [to_rev]
    constructor
    · rintro ⟨h, -⟩ k hk
      by_cases c : k < 16
      · have h1 := h (31 - k) (by omega)
        rw [(C106_in_place r (31 - k) m (by omega)).2, if_neg (by omega)] at h1
        rw [h1]; congr 1; omega
      · have h1 := h k hk
        rw [(C106_in_place r k m hk).2, if_neg c] at h1
        rw [h1]
    · intro h
      refine ⟨fun k hk => ?_, fun y hy => ?_⟩
      · rw [(C106_in_place r k m hk).2]
        split
        · rfl
        · exact h k hk
      · rw [u256To_eq]; exact to_out (.inl rfl) m 8 (Nat.le_refl _) y hy

/-- Conversions there and back between two arrays that have one limb in common. -/
example (m : Nat → Byte) : FromRight m (ConvMem.u256FromBytes 28 0 m) 28 0 32 := (C106_uint256 28 0).1.mpr (by decide) m
example (m : Nat → Byte) : ToRight m (ConvMem.mpzToBytes 3 100 200 m) 100 200 12 := (C106_to_bytes 3 100 200 (by decide)).mpr (by decide) m
/-- The number 1 converted in place becomes 0. -/
example : leVal (octetsAt (ConvMem.u256FromBytes 0 0 fun y => if y = 31 then 1 else 0) 0 32) = 0 := by decide +kernel
example : ¬∀ m, FromRight m (ConvMem.u256FromBytes 0 4 m) 0 4 32 := fun h => by
  have := (C106_uint256 0 4).1.mp h; omega

end Verif.Props

namespace Verif.X64.Props
open Verif Verif.Spec Verif.ConvMem Verif.Props Verif.Props.ConvMemAux

/-- `mpz_from_bytes` and `mpz_to_bytes`, 64-bit limbs. -/
theorem C106_x64_mpz (n r p : Nat) (hn : 0 < n) :
    ((∀ m, FromRight m (mpzFromBytes64 n r p m) r p (8 * n)) ↔ (p + 8 * (n - 1) ≤ r ∨ r + 8 * (n - 1) ≤ p)) ∧
    ((∀ m, ToRight m (mpzToBytes64 n r p m) r p (8 * n)) ↔ (p + 8 * (n - 1) ≤ r ∨ r + 8 * (n - 1) ≤ p)) := by
  constructor
  · rw [← from_iff (.inr rfl) hn]
    refine forall_congr' fun m => ?_
    rw [mpzFromBytes64, if_neg (by omega), load64_mv, from_rev]
  · rw [← to_iff (.inr rfl) hn]
    refine forall_congr' fun m => ?_
    rw [mpzToBytes64, if_neg (by omega), store64_mv, to_rev]

/-- `uint256_from_bytes` and `uint256_to_bytes`, 64-bit limbs. -/
theorem C106_x64_uint256 (r p : Nat) :
    ((∀ m, FromRight m (u256FromBytes64 r p m) r p 32) ↔ (p + 24 ≤ r ∨ r + 24 ≤ p)) ∧
    ((∀ m, ToRight m (u256ToBytes64 r p m) r p 32) ↔ (p + 24 ≤ r ∨ r + 24 ≤ p)) := by
  refine ⟨(forall_congr' fun m => ?_).trans (to_iff (s := 8) (n := 4) (.inr rfl) (by decide)),
    (forall_congr' fun m => ?_).trans (from_iff (s := 8) (n := 4) (.inr rfl) (by decide))⟩
  · rw [u256From64_eq, from_rev]
  · rw [u256To64_eq, to_rev]

/-- In place, 64-bit limbs: the other half stays than in the portable build. -/
theorem C106_x64_in_place (r k : Nat) (m : Nat → Byte) (hk : k < 32) :
    u256FromBytes64 r r m (r + k) = (if k < 16 then m (r + (31 - k)) else m (r + k)) ∧
    u256ToBytes64 r r m (r + k) = (if 16 ≤ k then m (r + (31 - k)) else m (r + k)) := by
  constructor
  · rw [u256From64_eq, to_place (.inr rfl) 2 m 4 (by decide) k hk]
    refine if_congr ?_ rfl rfl
    omega
  · rw [u256To64_eq, from_place (.inr rfl) 2 m 4 (by decide) k hk]
    congr 1
    simp

/-- The number 1 converted in place. -/
example : leVal (octetsAt (u256FromBytes64 0 0 fun y => if y = 31 then 1 else 0) 0 32) = 1 + 256 ^ 31 := by decide +kernel
example (m : Nat → Byte) : FromRight m (u256FromBytes64 0 24 m) 0 24 32 := (C106_x64_uint256 0 24).1.mpr (by decide) m

end Verif.X64.Props
