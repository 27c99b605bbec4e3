import Verif.Model.ConvMem
import Verif.Spec.Le
import Verif.Proofs.Limbs
import Verif.Proofs.MontCtx
import Verif.Props.EndianMovbe
/-! # Lemmas for C106 -/
namespace Verif.ConvMem
open Verif Verif.Spec EndianMovbe Verif.Props.Movbe

/-- Moving `s` octets and turning them round. -/
def mv (s : Nat) (m : Mem) (d a : Nat) : Mem := fun y => if d ≤ y ∧ y < d + s then m (a + (s - 1 - (y - d))) else m y

theorem mem32_load (a b c d : Byte) : mem32 (memLoad32BE a b c d) = [d, c, b, a] := by
  have h0 := a.isLt
  have h1 := b.isLt
  have h2 := c.isLt
  have h3 := d.isLt
  have e := memLoad_toNat a b c d
  unfold mem32
  congr 1
  · apply BitVec.eq_of_toNat_eq; rw [byte_val, e]; omega
  congr 1
  · apply BitVec.eq_of_toNat_eq; rw [byte_val, e]; omega
  congr 1
  · apply BitVec.eq_of_toNat_eq; rw [byte_val, e]; omega
  congr 1
  · apply BitVec.eq_of_toNat_eq; rw [byte_val, e]; omega

theorem store_host32 (a b c d : Byte) : memStore32BE (host32 a b c d) = [d, c, b, a] := by
  rw [← store_load d c b a]
  congr 1
  have h0 := a.isLt
  have h1 := b.isLt
  have h2 := c.isLt
  have h3 := d.isLt
  apply BitVec.eq_of_toNat_eq
  rw [memLoad_toNat]
  unfold host32
  rw [app_val, app_val, app_val]
  norm_num

theorem mem64_load (a b c d e f g h : Byte) : mem64 (X64.memLoad64BE a b c d e f g h) = [h, g, f, e, d, c, b, a] := by
  unfold mem64 X64.memLoad64BE
  rw [show (7 : Nat) = 0 + 1 + 1 + 1 + 1 + 1 + 1 + 1 from rfl, show (6 : Nat) = 0 + 1 + 1 + 1 + 1 + 1 + 1 from rfl,
    show (5 : Nat) = 0 + 1 + 1 + 1 + 1 + 1 from rfl, show (4 : Nat) = 0 + 1 + 1 + 1 + 1 from rfl,
    show (3 : Nat) = 0 + 1 + 1 + 1 from rfl, show (2 : Nat) = 0 + 1 + 1 from rfl, show (1 : Nat) = 0 + 1 from rfl]
  simp only [byte_app0, byte_app_succ, byte_one]

theorem store_host64 (a b c d e f g h : Byte) :
    X64.memStore64BE (host64 a b c d e f g h) = [h, g, f, e, d, c, b, a] := by
  have e0 : X64.memStore64BE (host64 a b c d e f g h) =
      (mem64 (host64 a b c d e f g h)).reverse := rfl
  rw [e0, show host64 a b c d e f g h = X64.memLoad64BE h g f e d c b a from rfl, mem64_load]
  rfl

theorem st_four (m : Mem) (d a : Nat) : st m d [m (a + 3), m (a + 2), m (a + 1), m a] = mv 4 m d a := by
  funext y
  unfold st mv
  by_cases h : d ≤ y ∧ y < d + 4
  · rw [if_pos (by simpa using h), if_pos h]
    obtain ⟨k, rfl⟩ : ∃ k, y = d + k := ⟨y - d, by omega⟩
    have : k < 4 := by omega
    rw [Nat.add_sub_cancel_left]
    interval_cases k <;> rfl
  · rw [if_neg (by simpa using h), if_neg h]

theorem st_eight (m : Mem) (d a : Nat) :
    st m d [m (a + 7), m (a + 6), m (a + 5), m (a + 4), m (a + 3), m (a + 2), m (a + 1), m a] = mv 8 m d a := by
  funext y
  unfold st mv
  by_cases h : d ≤ y ∧ y < d + 8
  · rw [if_pos (by simpa using h), if_pos h]
    obtain ⟨k, rfl⟩ : ∃ k, y = d + k := ⟨y - d, by omega⟩
    have : k < 8 := by omega
    rw [Nat.add_sub_cancel_left]
    interval_cases k <;> rfl
  · rw [if_neg (by simpa using h), if_neg h]

theorem load32_mv : load32 = mv 4 := by
  funext m d a; rw [load32, mem32_load, st_four]
theorem store32_mv : store32 = mv 4 := by
  funext m d a; rw [store32, store_host32, st_four]
theorem load64_mv : load64 = mv 8 := by
  funext m d a; rw [load64, mem64_load, st_eight]
theorem store64_mv : store64 = mv 8 := by
  funext m d a; rw [store64, store_host64, st_eight]

/-- Octets turned round. -/
def Rev (m m' : Mem) (r p N : Nat) : Prop :=
  (∀ k, k < N → m' (r + k) = m (p + (N - 1 - k))) ∧ ∀ y, (y < r ∨ r + N ≤ y) → m' y = m y

section loops
variable {s n r p : Nat} (hs : s = 4 ∨ s = 8)
include hs

/-! ## The loop that stores from the top down -/

theorem from_out (m : Mem) : ∀ i, i ≤ n → ∀ y, (y < r + s * (n - i) ∨ r + s * n ≤ y) →
    fromLoop (mv s) s n r p i m y = m y
  | 0, _, y, _ => rfl
  | i + 1, h, y, hy => by
    rw [fromLoop, mv, if_neg]
    · apply from_out m i (by omega)
      rcases hs with rfl | rfl <;> omega
    · rcases hs with rfl | rfl <;> omega

theorem from_keep (m : Mem) (i y : Nat) (hy : r + s * (n - i) ≤ y) : ∀ j, i + j ≤ n →
    fromLoop (mv s) s n r p (i + j) m y = fromLoop (mv s) s n r p i m y
  | 0, _ => rfl
  | j + 1, h => by
    rw [← Nat.add_assoc, fromLoop, mv, if_neg, from_keep m i y hy j (by omega)]
    rcases hs with rfl | rfl <;> omega

theorem from_step (m : Mem) (i k : Nat) (hi : i < n) (hk : k < s) :
    fromLoop (mv s) s n r p n m (r + s * (n - 1 - i) + k) = fromLoop (mv s) s n r p i m (p + s * i + (s - 1 - k)) := by
  have := from_keep (n := n) (r := r) (p := p) hs m (i + 1) (r + s * (n - 1 - i) + k) (by rcases hs with rfl | rfl <;> omega) (n - (i + 1))
    (by omega)
  rw [show i + 1 + (n - (i + 1)) = n by omega] at this
  rw [this, fromLoop, mv, if_pos (by omega)]
  congr 2
  omega

theorem from_safe (m : Mem) (h : p + s * (n - 1) ≤ r ∨ r + s * (n - 1) ≤ p) :
    Rev m (fromLoop (mv s) s n r p n m) r p (s * n) := by
  refine ⟨fun k hk => ?_, fun y hy => from_out hs m n (Nat.le_refl n) y (by simpa using hy)⟩
  have hi : k / s < n := by rcases hs with rfl | rfl <;> omega
  have hk' : k % s < s := Nat.mod_lt _ (by omega)
  have e := from_step (n := n) (r := r) (p := p) hs m (n - 1 - k / s) (k % s) (by rcases hs with rfl | rfl <;> omega) hk'
  have ek : r + s * (n - 1 - (n - 1 - k / s)) + k % s = r + k := by rcases hs with rfl | rfl <;> omega
  rw [ek] at e
  rw [e, from_out hs m _ (by rcases hs with rfl | rfl <;> omega)]
  · congr 1; rcases hs with rfl | rfl <;> omega
  · rcases hs with rfl | rfl <;> omega

theorem from_unsafe (hn : 0 < n) (h : ¬(p + s * (n - 1) ≤ r ∨ r + s * (n - 1) ≤ p)) :
    ∃ m, ¬Rev m (fromLoop (mv s) s n r p n m) r p (s * n) := by
  by_cases hr : p ≤ r
  · refine ⟨fun y => if y = r then 1 else 0, fun ⟨h1, _⟩ => ?_⟩
    generalize hm : (fun y => if y = r then (1 : Byte) else 0) = m at h1
    have e := from_step (n := n) (r := r) (p := p) hs m (n - 1) 0 (by omega) (by omega)
    have q : p + s * (n - 1) + (s - 1 - 0) = p + s * n - 1 := by rcases hs with rfl | rfl <;> omega
    rw [q, show r + s * (n - 1 - (n - 1)) + 0 = r + 0 by simp, h1 0 (by rcases hs with rfl | rfl <;> omega)] at e
    have kk := from_keep (p := p) (r := r) (n := n) hs m (n - 1) (p + s * n - 1)
      (by rcases hs with rfl | rfl <;> omega) 1 (by omega)
    rw [show n - 1 + 1 = n by omega] at kk
    have h2 := h1 (p + s * n - 1 - r) (by rcases hs with rfl | rfl <;> omega)
    rw [show r + (p + s * n - 1 - r) = p + s * n - 1 by rcases hs with rfl | rfl <;> omega, kk, ← e,
      show p + (s * n - 1 - (p + s * n - 1 - r)) = r by rcases hs with rfl | rfl <;> omega, ← hm] at h2
    simp only [if_true] at h2
    rw [if_neg (by rcases hs with rfl | rfl <;> omega)] at h2
    exact absurd h2 (by decide)
  · refine ⟨fun y => if y = p then 1 else 0, fun ⟨h1, _⟩ => ?_⟩
    generalize hm : (fun y => if y = p then (1 : Byte) else 0) = m at h1
    have hj : (r + s * n - 1 - p) / s < n ∧ 1 ≤ (r + s * n - 1 - p) / s := by rcases hs with rfl | rfl <;> omega
    have e := from_step (n := n) (r := r) (p := p) hs m ((r + s * n - 1 - p) / s) (s - 1 - (r + s * n - 1 - p) % s) hj.1 (by omega)
    have hmod : (r + s * n - 1 - p) % s < s := Nat.mod_lt _ (by omega)
    rw [show p + s * ((r + s * n - 1 - p) / s) + (s - 1 - (s - 1 - (r + s * n - 1 - p) % s)) = r + s * n - 1 by
        rcases hs with rfl | rfl <;> omega,
      show r + s * (n - 1 - (r + s * n - 1 - p) / s) + (s - 1 - (r + s * n - 1 - p) % s) =
        r + (s * n - 1 - (r + s * n - 1 - p)) by rcases hs with rfl | rfl <;> omega,
      h1 _ (by rcases hs with rfl | rfl <;> omega)] at e
    have kk := from_keep (p := p) (r := r) (n := n) hs m ((r + s * n - 1 - p) / s) (r + s * n - 1)
      (by rcases hs with rfl | rfl <;> omega) (n - (r + s * n - 1 - p) / s) (by omega)
    rw [show (r + s * n - 1 - p) / s + (n - (r + s * n - 1 - p) / s) = n by omega, ← e] at kk
    have h2 := h1 (s * n - 1) (by rcases hs with rfl | rfl <;> omega)
    rw [show r + (s * n - 1) = r + s * n - 1 by rcases hs with rfl | rfl <;> omega, kk, ← hm] at h2
    simp only [Nat.sub_self, Nat.add_zero, if_true] at h2
    rw [if_neg (by rcases hs with rfl | rfl <;> omega)] at h2
    exact absurd h2 (by decide)

theorem from_iff (hn : 0 < n) :
    (∀ m, Rev m (fromLoop (mv s) s n r p n m) r p (s * n)) ↔ (p + s * (n - 1) ≤ r ∨ r + s * (n - 1) ≤ p) := by
  refine ⟨fun h => ?_, fun h m => from_safe hs m h⟩
  by_contra c
  obtain ⟨m, hm⟩ := from_unsafe hs hn c
  exact hm (h m)

/-! ## The loop that stores from the bottom up -/

theorem to_out (m : Mem) : ∀ i, i ≤ n → ∀ y, (y < r ∨ r + s * i ≤ y) → toLoop (mv s) s n r p i m y = m y
  | 0, _, y, _ => rfl
  | i + 1, h, y, hy => by
    rw [toLoop, mv, if_neg]
    · apply to_out m i (by omega)
      rcases hs with rfl | rfl <;> omega
    · rcases hs with rfl | rfl <;> omega

theorem to_keep (m : Mem) (i y : Nat) (hy : y < r + s * i) : ∀ j, i + j ≤ n →
    toLoop (mv s) s n r p (i + j) m y = toLoop (mv s) s n r p i m y
  | 0, _ => rfl
  | j + 1, h => by
    rw [← Nat.add_assoc, toLoop, mv, if_neg, to_keep m i y hy j (by omega)]
    rcases hs with rfl | rfl <;> omega

theorem to_step (m : Mem) (i k : Nat) (hi : i < n) (hk : k < s) :
    toLoop (mv s) s n r p n m (r + s * i + k) = toLoop (mv s) s n r p i m (p + s * (n - 1 - i) + (s - 1 - k)) := by
  have := to_keep (n := n) (r := r) (p := p) hs m (i + 1) (r + s * i + k) (by rcases hs with rfl | rfl <;> omega) (n - (i + 1)) (by omega)
  rw [show i + 1 + (n - (i + 1)) = n by omega] at this
  rw [this, toLoop, mv, if_pos (by omega)]
  congr 2
  omega

theorem to_safe (m : Mem) (h : p + s * (n - 1) ≤ r ∨ r + s * (n - 1) ≤ p) :
    Rev m (toLoop (mv s) s n r p n m) r p (s * n) := by
  refine ⟨fun k hk => ?_, fun y hy => to_out hs m n (Nat.le_refl n) y hy⟩
  have hi : k / s < n := by rcases hs with rfl | rfl <;> omega
  have e := to_step (n := n) (r := r) (p := p) hs m (k / s) (k % s) hi (Nat.mod_lt _ (by omega))
  have ek : r + s * (k / s) + k % s = r + k := by rcases hs with rfl | rfl <;> omega
  have hk' : k % s < s := Nat.mod_lt _ (by omega)
  rw [ek] at e
  rw [e, to_out hs m _ (by omega)]
  · congr 1; rcases hs with rfl | rfl <;> omega
  · rcases hs with rfl | rfl <;> omega

theorem to_unsafe (hn : 0 < n) (h : ¬(p + s * (n - 1) ≤ r ∨ r + s * (n - 1) ≤ p)) :
    ∃ m, ¬Rev m (toLoop (mv s) s n r p n m) r p (s * n) := by
  by_cases hr : r ≤ p
  · refine ⟨fun y => if y = p then 1 else 0, fun ⟨h1, _⟩ => ?_⟩
    generalize hm : (fun y => if y = p then (1 : Byte) else 0) = m at h1
    have e := to_step (n := n) (r := r) (p := p) hs m (n - 1) (s - 1) (by omega) (by omega)
    rw [show p + s * (n - 1 - (n - 1)) + (s - 1 - (s - 1)) = p by simp,
      show r + s * (n - 1) + (s - 1) = r + (s * n - 1) by rcases hs with rfl | rfl <;> omega,
      h1 _ (by rcases hs with rfl | rfl <;> omega)] at e
    have kk := to_keep (p := p) (r := r) (n := n) hs m (n - 1) p (by rcases hs with rfl | rfl <;> omega) 1 (by omega)
    rw [show n - 1 + 1 = n by omega, ← e] at kk
    have h2 := h1 (p - r) (by rcases hs with rfl | rfl <;> omega)
    rw [show r + (p - r) = p by omega, kk, ← hm] at h2
    simp only [Nat.sub_self, Nat.add_zero, if_true] at h2
    rw [if_neg (by rcases hs with rfl | rfl <;> omega)] at h2
    exact absurd h2 (by decide)
  · refine ⟨fun y => if y = r then 1 else 0, fun ⟨h1, _⟩ => ?_⟩
    generalize hm : (fun y => if y = r then (1 : Byte) else 0) = m at h1
    have hj : n - 1 - (r - p) / s < n ∧ 1 ≤ n - 1 - (r - p) / s := by rcases hs with rfl | rfl <;> omega
    have hmod : (r - p) % s < s := Nat.mod_lt _ (by omega)
    have e := to_step (n := n) (r := r) (p := p) hs m (n - 1 - (r - p) / s) (s - 1 - (r - p) % s) hj.1 (by omega)
    rw [show p + s * (n - 1 - (n - 1 - (r - p) / s)) + (s - 1 - (s - 1 - (r - p) % s)) = r by
        rcases hs with rfl | rfl <;> omega,
      show r + s * (n - 1 - (r - p) / s) + (s - 1 - (r - p) % s) = r + (s * n - 1 - (r - p)) by
        rcases hs with rfl | rfl <;> omega,
      h1 _ (by rcases hs with rfl | rfl <;> omega)] at e
    have kk := to_keep (p := p) (r := r) (n := n) hs m (n - 1 - (r - p) / s) r
      (by rcases hs with rfl | rfl <;> omega) (n - (n - 1 - (r - p) / s)) (by omega)
    rw [show n - 1 - (r - p) / s + (n - (n - 1 - (r - p) / s)) = n by omega, ← e] at kk
    have h2 := h1 0 (by rcases hs with rfl | rfl <;> omega)
    rw [Nat.add_zero, kk, ← hm] at h2
    simp only [] at h2
    rw [if_pos (by rcases hs with rfl | rfl <;> omega), if_neg (by rcases hs with rfl | rfl <;> omega)] at h2
    exact absurd h2 (by decide)

theorem to_iff (hn : 0 < n) :
    (∀ m, Rev m (toLoop (mv s) s n r p n m) r p (s * n)) ↔ (p + s * (n - 1) ≤ r ∨ r + s * (n - 1) ≤ p) := by
  refine ⟨fun h => ?_, fun h m => to_safe hs m h⟩
  by_contra c
  obtain ⟨m, hm⟩ := to_unsafe hs hn c
  exact hm (h m)

/-! ## In place -/

theorem from_place (h : ℕ) (m : Mem) : ∀ i, i ≤ 2 * h → ∀ k, k < s * (2 * h) →
    fromLoop (mv s) s (2 * h) r r i m (r + k) =
      if s * h ≤ k ∧ s * (2 * h - i) ≤ k then m (r + (s * (2 * h) - 1 - k)) else m (r + k)
  | 0, _, k, hk => by rw [fromLoop, if_neg]; simp only [Nat.sub_zero]; omega
  | i + 1, hi, k, hk => by
    rw [fromLoop, mv]
    split
    · rename_i hd
      rw [Nat.add_assoc, from_place h m i (by omega) _ (by rcases hs with rfl | rfl <;> omega)]
      rcases hs with rfl | rfl
      · split
        · rw [if_neg (by omega)]; congr 1; omega
        · rw [if_pos (by omega)]; congr 1; omega
      · split
        · rw [if_neg (by omega)]; congr 1; omega
        · rw [if_pos (by omega)]; congr 1; omega
    · rename_i hd
      rw [from_place h m i (by omega) k hk]
      rcases hs with rfl | rfl
      · split
        · rw [if_pos (by omega)]
        · rw [if_neg (by omega)]
      · split
        · rw [if_pos (by omega)]
        · rw [if_neg (by omega)]

theorem to_place (h : ℕ) (m : Mem) : ∀ i, i ≤ 2 * h → ∀ k, k < s * (2 * h) →
    toLoop (mv s) s (2 * h) r r i m (r + k) =
      if k < s * h ∧ k < s * i then m (r + (s * (2 * h) - 1 - k)) else m (r + k)
  | 0, _, k, hk => by rw [toLoop, if_neg]; omega
  | i + 1, hi, k, hk => by
    rw [toLoop, mv]
    split
    · rename_i hd
      rw [Nat.add_assoc, to_place h m i (by omega) _ (by rcases hs with rfl | rfl <;> omega)]
      rcases hs with rfl | rfl
      · split
        · rw [if_neg (by omega)]; congr 1; omega
        · rw [if_pos (by omega)]; congr 1; omega
      · split
        · rw [if_neg (by omega)]; congr 1; omega
        · rw [if_pos (by omega)]; congr 1; omega
    · rename_i hd
      rw [to_place h m i (by omega) k hk]
      rcases hs with rfl | rfl
      · split
        · rw [if_pos (by omega)]
        · rw [if_neg (by omega)]
      · split
        · rw [if_pos (by omega)]
        · rw [if_neg (by omega)]

end loops

theorem u256From_eq (r p : Nat) (m : Mem) : u256FromBytes r p m = fromLoop (mv 4) 4 8 r p 8 m := by
  unfold u256FromBytes
  rw [load32_mv]
  generalize mv 4 = W
  rfl
theorem u256To_eq (r p : Nat) (m : Mem) : u256ToBytes r p m = toLoop (mv 4) 4 8 r p 8 m := by
  unfold u256ToBytes
  rw [store32_mv]
  generalize mv 4 = W
  rfl
theorem u256From64_eq (r p : Nat) (m : Mem) : u256FromBytes64 r p m = toLoop (mv 8) 8 4 r p 4 m := by
  unfold u256FromBytes64
  rw [load64_mv]
  generalize mv 8 = W
  rfl
theorem u256To64_eq (r p : Nat) (m : Mem) : u256ToBytes64 r p m = fromLoop (mv 8) 8 4 r p 4 m := by
  unfold u256ToBytes64
  rw [store64_mv]
  generalize mv 8 = W
  rfl

/-! ## Numbers -/

theorem leVal_reverse : ∀ l : List Byte, leVal l.reverse = beVal l := by
  have h : ∀ l : List Byte, leVal l = beVal l.reverse := by
    intro l
    induction l with
    | nil => rfl
    | cons b l ih => rw [leVal, List.reverse_cons, beVal_snoc, ih]; omega
  intro l
  rw [h, List.reverse_reverse]

end Verif.ConvMem
