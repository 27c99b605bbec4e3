import Verif.Model.Hash
import Mathlib.Tactic.Ring
/-! # Helper lemmas: streaming through `Hash<64>` -/
namespace Verif

namespace Outcome
@[simp] theorem ok_bind {α β} (a : α) (f : α → Outcome β) : (Outcome.ok a >>= f) = f a := rfl
@[simp] theorem throw_bind {α β} (f : α → Outcome β) : ((Outcome.throw : Outcome α) >>= f) = .throw := rfl
@[simp] theorem ub_bind {α β} (f : α → Outcome β) : ((Outcome.ub : Outcome α) >>= f) = .ub := rfl
@[simp] theorem pure_eq {α} (a : α) : (pure a : Outcome α) = .ok a := rfl

instance : LawfulMonad Outcome := LawfulMonad.mk'
  (id_map := by intro α x; cases x <;> rfl)
  (pure_bind := by intros; rfl)
  (bind_assoc := by intro α β γ x f g; cases x <;> rfl)
end Outcome

/-- What a block function must satisfy for buffering to be transparent. -/
structure HashImpl.Lawful {S} (BS : Nat) (I : HashImpl S) : Prop where
  zero : ∀ s d, I.updateBlocks s d 0 = .ok s
  split : ∀ s d m n, (m + n) * BS ≤ d.length →
    I.updateBlocks s d (m + n) = (I.updateBlocks s d m >>= fun s' => I.updateBlocks s' (d.drop (m * BS)) n)
  pre : ∀ s d e n, n * BS ≤ d.length → I.updateBlocks s (d ++ e) n = I.updateBlocks s d n

/-- State after absorbing the whole message `m` at once. -/
def absorb {S} (BS : Nat) (I : HashImpl S) (s : S) (m : List Byte) : Outcome (HashObj S) :=
  I.updateBlocks s m (m.length / BS) >>= fun st => .ok ⟨m.drop (m.length / BS * BS), st⟩

theorem hashAbsorb_eq {S} {BS : Nat} (hBS : 0 < BS) (I : HashImpl S) (s : S) (m : List Byte) :
    hashAbsorb BS I s m (m.length / BS) = absorb BS I s m := by
  have h1 : m.length / BS * BS ≤ m.length := Nat.div_mul_le_self _ _
  have h2 : m.length - m.length / BS * BS = m.length % BS := by
    have := Nat.div_add_mod m.length BS
    rw [Nat.mul_comm] at this
    omega
  have h3 := Nat.mod_lt m.length hBS
  unfold hashAbsorb absorb
  rw [if_neg (by omega)]
  cases I.updateBlocks s m (m.length / BS) with
  | throw => rfl
  | ub => rfl
  | ok st =>
    simp only [Outcome.ok_bind, List.length_drop, h2]
    split_ifs with h
    · rw [List.drop_eq_nil_of_le (by omega)]
    · unfold memcpyBuf
      rw [if_pos (by simp only [List.length_nil, List.length_drop]; omega)]
      rfl

theorem absorb_append {S} (I : HashImpl S) (L : I.Lawful 64) (s : S) (m x : List Byte) :
    (absorb 64 I s m >>= fun h => hashUpdate 64 I h x) = absorb 64 I s (m ++ x) := by
  have key : ∀ k, (m.length / 64 + k) * 64 ≤ m.length + x.length →
      I.updateBlocks s (m ++ x) (m.length / 64 + k) =
        (I.updateBlocks s m (m.length / 64) >>= fun s' =>
          I.updateBlocks s' (m.drop (m.length / 64 * 64) ++ x) k) := by
    intro k hk
    rw [L.split _ _ _ _ (by rw [List.length_append]; exact hk), L.pre _ _ _ _ (Nat.div_mul_le_self _ _),
      List.drop_append_of_le_length (Nat.div_mul_le_self _ _)]
  have hlen : ∃ k, (m ++ x).length / 64 = m.length / 64 + k ∧ (m.length / 64 + k) * 64 ≤ m.length + x.length
      ∧ m.length + x.length < (m.length / 64 + k) * 64 + 64 := by
    refine ⟨(m ++ x).length / 64 - m.length / 64, ?_⟩
    rw [List.length_append]; omega
  obtain ⟨k, hk1, hk2, hk3⟩ := hlen
  have hR : absorb 64 I s (m ++ x) = (I.updateBlocks s m (m.length / 64) >>= fun s' =>
      I.updateBlocks s' (m.drop (m.length / 64 * 64) ++ x) k >>= fun st =>
        .ok ⟨(m.drop (m.length / 64 * 64) ++ x).drop (k * 64), st⟩) := by
    unfold absorb
    rw [hk1, key k hk2, bind_assoc]
    congr 1; funext s'; congr 1; funext st
    rw [Nat.add_mul, ← List.drop_drop, List.drop_append_of_le_length (Nat.div_mul_le_self _ _)]
  rw [hR]
  unfold absorb
  rw [bind_assoc]
  congr 1; funext st
  simp only [Outcome.ok_bind]
  have hbl : (m.drop (m.length / 64 * 64)).length = m.length % 64 := by
    rw [List.length_drop]; omega
  generalize m.drop (m.length / 64 * 64) = b at hbl
  have hb : b.length < 64 := by omega
  have hk : (b ++ x).length / 64 = k := by rw [List.length_append]; omega
  clear hR key hk1 hk2 hk3
  unfold hashUpdate
  by_cases hx : x.length = 0
  · rw [if_pos hx]
    have : x = [] := List.length_eq_zero_iff.mp hx
    subst this
    have : k = 0 := by rw [← hk]; simp; omega
    subst this
    rw [L.zero]; simp
  rw [if_neg hx]
  by_cases hb0 : b.length = 0
  · rw [if_pos hb0]
    have : b = [] := List.length_eq_zero_iff.mp hb0
    subst this
    simp only [List.nil_append] at *
    rw [hashAbsorb_eq (by decide), absorb, hk]
  · rw [if_neg hb0]
    dsimp only
    by_cases hs : 64 - b.length > x.length
    · rw [if_pos hs]
      have : k = 0 := by rw [← hk, List.length_append]; omega
      subst this
      unfold memcpyBuf
      rw [List.take_length, if_pos (by omega), Outcome.ok_bind, if_neg (by rw [List.length_append]; omega), L.zero]
      simp
    · rw [if_neg hs]
      unfold memcpyBuf
      have htl : (x.take (64 - b.length)).length = 64 - b.length := by rw [List.length_take]; omega
      rw [htl, if_pos (by omega), Outcome.ok_bind, if_pos (by rw [List.length_append, htl]; omega)]
      have hfl : (b ++ x.take (64 - b.length)).length = 64 := by rw [List.length_append, htl]; omega
      have hbx : b ++ x = (b ++ x.take (64 - b.length)) ++ x.drop (64 - b.length) := by
        rw [List.append_assoc, List.take_append_drop]
      have hdl : (x.drop (64 - b.length)).length = x.length - (64 - b.length) := List.length_drop
      obtain ⟨k', rfl⟩ : ∃ k', k = 1 + k' := ⟨k - 1, by rw [List.length_append] at hk; omega⟩
      rw [hbx] at hk ⊢
      generalize b ++ x.take (64 - b.length) = f at *
      generalize x.drop (64 - b.length) = y at *
      rw [List.length_append, hfl] at hk
      have hk' : y.length / 64 = k' := by omega
      rw [L.split _ _ _ _ (by rw [List.length_append, hfl]; omega), L.pre _ _ _ _ (by omega), bind_assoc]
      congr 1; funext st'
      rw [List.drop_append_of_le_length (by omega), List.drop_eq_nil_of_le (by omega : f.length ≤ 1 * 64),
        List.nil_append]
      have hd : (f ++ y).drop ((1 + k') * 64) = y.drop (k' * 64) := by
        rw [Nat.add_mul, ← List.drop_drop, List.drop_append_of_le_length (by omega),
          List.drop_eq_nil_of_le (by omega : f.length ≤ 1 * 64), List.nil_append]
      rw [hd]
      split_ifs with hy
      · have : y = [] := List.length_eq_zero_iff.mp hy
        subst this
        have : k' = 0 := by rw [← hk']; simp
        subst this
        rw [L.zero]; simp
      · rw [hashAbsorb_eq (by decide), absorb, hk']

theorem absorb_nil {S} (I : HashImpl S) (L : I.Lawful 64) (s : S) : absorb 64 I s [] = .ok ⟨[], s⟩ := by
  unfold absorb; rw [show ([] : List Byte).length / 64 = 0 from rfl, L.zero]; rfl

/-- Any sequence of updates is one update with the concatenation. -/
theorem updates_eq {S} (I : HashImpl S) (L : I.Lawful 64) (s : S) (cs : List (List Byte)) (m : List Byte) :
    (absorb 64 I s m >>= fun h => cs.foldlM (hashUpdate 64 I) h) = absorb 64 I s (m ++ cs.flatten) := by
  induction cs generalizing m with
  | nil => simp only [List.foldlM_nil, bind_pure, List.flatten_nil, List.append_nil]
  | cons c cs ih =>
    simp only [List.foldlM_cons, List.flatten_cons]
    rw [← List.append_assoc, ← ih, ← absorb_append I L, bind_assoc]

end Verif
