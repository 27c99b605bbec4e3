import Verif.Spec.Sm3Coll
import Verif.Proofs.Sm3
import Verif.Proofs.MontCtx
/-! # Lemmas for C92: the Merkle-Damgård argument for SM3 -/
namespace Verif.Sm3
open Verif.Spec Verif.Spec.SM3

theorem W_congr {B B' : Nat → Spec.SM3.Word} (h : ∀ j < 16, B j = B' j) (j : Nat) : W B j = W B' j := by
  induction j using Nat.strong_induction_on with
  | _ j ih =>
    rw [W.eq_1 B j, W.eq_1 B' j]
    split_ifs with hj
    · exact h j hj
    · rw [ih (j - 16) (by omega), ih (j - 9) (by omega), ih (j - 3) (by omega), ih (j - 13) (by omega), ih (j - 6) (by omega)]

theorem CF_congr {B B' : Nat → Spec.SM3.Word} (h : ∀ j < 16, B j = B' j) (v : State) : CF v B = CF v B' := by
  have hr : ∀ n s, rounds B n s = rounds B' n s := by
    intro n s
    induction n with
    | zero => rfl
    | succ n ih => simp only [rounds, ih, Spec.SM3.round, W', W_congr h]
  rw [CF, CF, hr]

theorem V_succ (m : List Byte) (i : Nat) : V (pad m) (i + 1) = cf (cfIn m i) := by
  rw [V, cf, cfIn]
  refine CF_congr (fun j hj => ?_) _
  simp only [hj, dif_pos]

theorem toBE4_inj {a b : BitVec 32} (h : toBE 4 a.toNat = toBE 4 b.toNat) : a = b := by
  have e := congrArg beVal h
  rw [beVal_toBE, beVal_toBE] at e
  have ha := a.isLt
  have hb := b.isLt
  apply BitVec.eq_of_toNat_eq
  omega

theorem state_bytes_inj {a b : State} (h : a.bytes = b.bytes) : a = b := by
  simp only [State.bytes, List.flatMap_cons, List.flatMap_nil] at h
  have l : ∀ w : Spec.SM3.Word, ∀ w' : Spec.SM3.Word, (toBE 4 w.toNat).length = (toBE 4 w'.toNat).length := fun _ _ => by
    rw [toBE_len, toBE_len]
  obtain ⟨h1, h⟩ := List.append_inj h (l _ _)
  obtain ⟨h2, h⟩ := List.append_inj h (l _ _)
  obtain ⟨h3, h⟩ := List.append_inj h (l _ _)
  obtain ⟨h4, h⟩ := List.append_inj h (l _ _)
  obtain ⟨h5, h⟩ := List.append_inj h (l _ _)
  obtain ⟨h6, h⟩ := List.append_inj h (l _ _)
  obtain ⟨h7, h⟩ := List.append_inj h (l _ _)
  obtain ⟨h8, -⟩ := List.append_inj h (l _ _)
  cases a; cases b
  simp only [State.mk.injEq]
  exact ⟨toBE4_inj h1, toBE4_inj h2, toBE4_inj h3, toBE4_inj h4, toBE4_inj h5, toBE4_inj h6, toBE4_inj h7, toBE4_inj h8⟩

theorem pad_len64 (m : List Byte) : (pad m).length = 64 * nBlocks m ∧ 0 < nBlocks m := by
  have h1 := pad_len m
  have h2 := padZeros_minimal m.length
  unfold nBlocks
  omega

/-- Four bytes are determined by their word. -/
theorem wordAt_inj {p q : List Byte} {i j : Nat} (hp : i + 4 ≤ p.length)
    (hj : j + 4 ≤ q.length) (h : wordAt p i = wordAt q j) : (p.drop i).take 4 = (q.drop j).take 4 := by
  have l1 : ((p.drop i).take 4).length = 4 := by rw [List.length_take, List.length_drop]; omega
  have l2 : ((q.drop j).take 4).length = 4 := by rw [List.length_take, List.length_drop]; omega
  have b1 := beVal_lt ((p.drop i).take 4)
  have b2 := beVal_lt ((q.drop j).take 4)
  rw [l1] at b1
  rw [l2] at b2
  refine beVal_inj _ _ (l1.trans l2.symm) ?_
  have e := congrArg BitVec.toNat h
  rw [wordAt, wordAt, BitVec.toNat_ofNat, BitVec.toNat_ofNat] at e
  omega

theorem ext4 {p q : List Byte} (n : Nat) (hp : p.length = 4 * n) (hq : q.length = 4 * n)
    (h : ∀ k < n, (p.drop (4 * k)).take 4 = (q.drop (4 * k)).take 4) : p = q := by
  induction n generalizing p q with
  | zero =>
    rw [List.length_eq_zero_iff.mp (by omega : p.length = 0), List.length_eq_zero_iff.mp (by omega : q.length = 0)]
  | succ n ih =>
    have h0 := h 0 (by omega)
    rw [Nat.mul_zero, List.drop_zero, List.drop_zero] at h0
    have h1 : p.drop 4 = q.drop 4 := by
      refine ih (by rw [List.length_drop]; omega) (by rw [List.length_drop]; omega) (fun k hk => ?_)
      rw [List.drop_drop, List.drop_drop, show 4 + 4 * k = 4 * (k + 1) by ring]
      exact h (k + 1) (by omega)
    rw [← List.take_append_drop 4 p, ← List.take_append_drop 4 q, h0, h1]

/-- The last two words of a padded message give its length. -/
theorem pad_tail (m : List Byte) : (pad m).drop (64 * (nBlocks m - 1) + 4 * 14) = toBE 8 (8 * m.length) := by
  obtain ⟨h1, h2⟩ := pad_len64 m
  have h3 := pad_len m
  have e : 64 * (nBlocks m - 1) + 4 * 14 = (m ++ [0x80] ++ List.replicate (padZeros m.length) 0).length := by
    simp only [List.length_append, List.length_replicate, List.length_cons, List.length_nil]
    omega
  rw [e, pad]
  exact List.drop_left

theorem len_of_last {m m' : List Byte} (hm : 8 * m.length < 2 ^ 64) (hm' : 8 * m'.length < 2 ^ 64)
    (h : (cfIn m (nBlocks m - 1)).2 = (cfIn m' (nBlocks m' - 1)).2) : m.length = m'.length := by
  obtain ⟨a1, a2⟩ := pad_len64 m
  obtain ⟨b1, b2⟩ := pad_len64 m'
  have w : ∀ k < 16, ((pad m).drop (64 * (nBlocks m - 1) + 4 * k)).take 4 =
      ((pad m').drop (64 * (nBlocks m' - 1) + 4 * k)).take 4 := by
    intro k hk
    have := congrFun h ⟨k, hk⟩
    have l1 : 64 * (nBlocks m - 1) + 4 * k + 4 ≤ (pad m).length := by omega
    have l2 : 64 * (nBlocks m' - 1) + 4 * k + 4 ≤ (pad m').length := by omega
    exact wordAt_inj l1 l2 this
  have t : toBE 8 (8 * m.length) = toBE 8 (8 * m'.length) := by
    refine ext4 2 (toBE_len _ _) (toBE_len _ _) (fun k hk => ?_)
    have := w (14 + k) (by omega)
    have a : ∀ x : List Byte, (pad x).drop (64 * (nBlocks x - 1) + 4 * (14 + k)) = (toBE 8 (8 * x.length)).drop (4 * k) := by
      intro x
      rw [← pad_tail, List.drop_drop]
      congr 1
      omega
    rw [a, a] at this
    exact this
  have e := congrArg beVal t
  rw [beVal_toBE, beVal_toBE] at e
  omega

/-- Without a collision, equal chaining values at the end mean equal inputs all the way back. -/
theorem back {m m' : List Byte} (hc : ¬ CFCollision m m') (hn : nBlocks m = nBlocks m')
    (hv : V (pad m) (nBlocks m) = V (pad m') (nBlocks m')) :
    ∀ k, k < nBlocks m → cfIn m (nBlocks m - 1 - k) = cfIn m' (nBlocks m - 1 - k) := by
  have step : ∀ i < nBlocks m, V (pad m) (i + 1) = V (pad m') (i + 1) → cfIn m i = cfIn m' i := by
    intro i hi e
    by_contra hne
    exact hc ⟨i, hi, i, hn ▸ hi, hne, by rw [← V_succ, ← V_succ, e]⟩
  intro k
  induction k with
  | zero =>
    intro h
    refine step _ (by omega) ?_
    rw [Nat.sub_zero, Nat.sub_add_cancel h]
    rw [hv, hn]
  | succ k ih =>
    intro h
    refine step _ (by omega) ?_
    have e := congrArg Prod.fst (ih (by omega))
    rw [show nBlocks m - 1 - (k + 1) + 1 = nBlocks m - 1 - k by omega]
    exact e

theorem md {m m' : List Byte} (hm : 8 * m.length < 2 ^ 64) (hm' : 8 * m'.length < 2 ^ 64) (h : Spec.SM3.hash m = Spec.SM3.hash m')
    (hc : ¬ CFCollision m m') : m = m' := by
  obtain ⟨a1, a2⟩ := pad_len64 m
  obtain ⟨b1, b2⟩ := pad_len64 m'
  have hv : V (pad m) (nBlocks m) = V (pad m') (nBlocks m') := state_bytes_inj h
  have hl : cfIn m (nBlocks m - 1) = cfIn m' (nBlocks m' - 1) := by
    by_contra hne
    refine hc ⟨_, by omega, _, by omega, hne, ?_⟩
    rw [← V_succ, ← V_succ, Nat.sub_add_cancel a2, Nat.sub_add_cancel b2, hv]
  have hlen := len_of_last hm hm' (congrArg Prod.snd hl)
  have pl : (pad m).length = (pad m').length := by rw [pad_len, pad_len, hlen]
  have hn : nBlocks m = nBlocks m' := by omega
  have hb := back hc hn hv
  have hp : pad m = pad m' := by
    refine ext4 (16 * nBlocks m) (by omega) (by omega) (fun k hk => ?_)
    have e := congrFun (congrArg Prod.snd (hb (nBlocks m - 1 - k / 16) (by omega))) ⟨k % 16, by omega⟩
    rw [show nBlocks m - 1 - (nBlocks m - 1 - k / 16) = k / 16 by omega] at e
    simp only [cfIn] at e
    rw [show 64 * (k / 16) + 4 * (k % 16) = 4 * k by omega] at e
    exact wordAt_inj (by omega) (by omega) e
  have := congrArg (List.take m.length) hp
  rw [pad, pad, List.append_assoc, List.append_assoc, List.take_left, hlen, List.append_assoc, List.append_assoc,
    List.take_left] at this
  exact this

end Verif.Sm3
