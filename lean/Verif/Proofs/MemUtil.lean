import Verif.Model.MemUtil
import Verif.Proofs.Modes
import Verif.Proofs.MontCtx
import Verif.Spec.Le
/-! # memxor and endian helpers -/
namespace Verif.MemUtil
open Verif.Spec

/-- Forward chunked processing of `n` bytes never reads a byte of `a` that it has already overwritten. -/
def Fwd (out a n : Nat) : Prop := out ≤ a ∨ a + n ≤ out

theorem xorBytes_len {a b : List Byte} (h : a.length = b.length) : (xorBytes a b).length = a.length := by
  unfold xorBytes; rw [List.length_zipWith, h, Nat.min_self]

theorem xorBytes_append {a b c d : List Byte} (h : a.length = b.length) :
    xorBytes (a ++ c) (b ++ d) = xorBytes a b ++ xorBytes c d := by
  unfold xorBytes; exact List.zipWith_append h

theorem chunk_split {m : Mem} {out a b k n : Nat} (ho : out + (k + n) ≤ m.length) (ha : a + (k + n) ≤ m.length)
    (hb : b + (k + n) ≤ m.length) (fa : Fwd out a (k + n)) (fb : Fwd out b (k + n)) :
    chunk n (chunk k m out a b) (out + k) (a + k) (b + k) = chunk (k + n) m out a b := by
  have la : (rdm m a k).length = k := rdm_len (by omega)
  have lb : (rdm m b k).length = k := rdm_len (by omega)
  have la' : (rdm m (a + k) n).length = n := rdm_len (by omega)
  have lb' : (rdm m (b + k) n).length = n := rdm_len (by omega)
  have lx : (xorBytes (rdm m a k) (rdm m b k)).length = k := by rw [xorBytes_len (by rw [la, lb]), la]
  have lx' : (xorBytes (rdm m (a + k) n) (rdm m (b + k) n)).length = n := by rw [xorBytes_len (by rw [la', lb']), la']
  unfold chunk
  rw [rdm_wrm_disj (by rw [lx]; omega) (by rw [lx]; rcases fa with h | h <;> omega),
    rdm_wrm_disj (by rw [lx]; omega) (by rw [lx]; rcases fb with h | h <;> omega)]
  have h := wrm_wrm (m := m) (o := out) (a := xorBytes (rdm m a k) (rdm m b k))
    (b := xorBytes (rdm m (a + k) n) (rdm m (b + k) n)) (by rw [lx, lx']; omega)
  rw [lx] at h
  rw [h, rdm_append, rdm_append, xorBytes_append (by rw [la, lb])]

theorem chunk_len {m : Mem} {out a b k : Nat} (ho : out + k ≤ m.length) (ha : a + k ≤ m.length)
    (hb : b + k ≤ m.length) : (chunk k m out a b).length = m.length := by
  unfold chunk
  rw [wrm_len]
  rw [xorBytes_len (by rw [rdm_len ha, rdm_len hb]), rdm_len ha]; exact ho

theorem chunk_zero (m : Mem) (out a b : Nat) : chunk 0 m out a b = m := by
  unfold chunk rdm xorBytes
  simp [wrm_nil]

theorem chunks_eq (w : Nat) : ∀ (n : Nat) {m : Mem} {out a b : Nat}, out + n * w ≤ m.length → a + n * w ≤ m.length →
    b + n * w ≤ m.length → Fwd out a (n * w) → Fwd out b (n * w) → chunks w n m out a b = chunk (n * w) m out a b := by
  intro n
  induction n with
  | zero => intro m out a b _ _ _ _ _; rw [Nat.zero_mul, chunk_zero]; rfl
  | succ n ih =>
    intro m out a b ho ha hb fa fb
    have e : (n + 1) * w = w + n * w := by rw [Nat.succ_mul, Nat.add_comm]
    rw [e] at ho ha hb fa fb ⊢
    have hl := chunk_len (m := m) (out := out) (a := a) (b := b) (k := w) (by omega) (by omega) (by omega)
    rw [chunks, ih (by omega) (by omega) (by omega) (by rcases fa with h | h; left; omega; right; omega)
      (by rcases fb with h | h; left; omega; right; omega), chunk_split ho ha hb fa fb]

/-- `f` computes the bytewise xor of `size` bytes in one go. -/
def Xors (f : Mem → Nat → Nat → Nat → Nat → Mem) (size : Nat) : Prop :=
  ∀ (m : Mem) (out a b : Nat), out + size ≤ m.length → a + size ≤ m.length → b + size ≤ m.length →
    Fwd out a size → Fwd out b size → f m out a b size = chunk size m out a b

/-- `k` bytes in one go, and then the other `r` bytes. -/
theorem xors_step {f : Mem → Nat → Nat → Nat → Nat → Mem} {r : Nat} (h : Xors f r) (k : Nat) {m : Mem} {out a b : Nat}
    (ho : out + (k + r) ≤ m.length) (ha : a + (k + r) ≤ m.length) (hb : b + (k + r) ≤ m.length)
    (fa : Fwd out a (k + r)) (fb : Fwd out b (k + r)) :
    f (chunk k m out a b) (out + k) (a + k) (b + k) r = chunk (k + r) m out a b := by
  have hl := chunk_len (m := m) (out := out) (a := a) (b := b) (k := k) (by omega) (by omega) (by omega)
  rw [h _ _ _ _ (by omega) (by omega) (by omega) (by rcases fa with h | h; left; omega; right; omega)
      (by rcases fb with h | h; left; omega; right; omega), chunk_split ho ha hb fa fb]

theorem xors_loop {f : Mem → Nat → Nat → Nat → Nat → Mem} {size w : Nat} (h : Xors f (size % w)) {m : Mem}
    {out a b : Nat} (ho : out + size ≤ m.length) (ha : a + size ≤ m.length) (hb : b + size ≤ m.length)
    (fa : Fwd out a size) (fb : Fwd out b size) :
    f (chunks w (size / w) m out a b) (out + size / w * w) (a + size / w * w) (b + size / w * w) (size % w) =
      chunk size m out a b := by
  have e : size / w * w + size % w = size := by rw [Nat.mul_comm]; exact Nat.div_add_mod size w
  rw [chunks_eq _ _ (by omega) (by omega) (by omega) (by rcases fa with h | h; left; omega; right; omega)
      (by rcases fb with h | h; left; omega; right; omega)]
  have := xors_step h (size / w * w) (m := m) (out := out) (a := a) (b := b) (by omega) (by omega) (by omega)
    (by rw [e]; exact fa) (by rw [e]; exact fb)
  rwa [e] at this

theorem xors_zero {f : Mem → Nat → Nat → Nat → Nat → Mem} (h : ∀ m o a b, f m o a b 0 = m) : Xors f 0 := by
  intro m out a b _ _ _ _ _
  rw [h, chunk_zero]

theorem memxorN_eq (pre : List Nat) : ∀ size, Xors (memxorN (pre ++ [1])) size := by
  induction pre with
  | nil =>
    intro size m out a b ho ha hb fa fb
    rw [List.nil_append, memxorN]
    have h : Xors (memxorN []) (size % 1) := by
      rw [Nat.mod_one]; exact xors_zero fun _ _ _ _ => rfl
    exact xors_loop h ho ha hb fa fb
  | cons w pre ih =>
    intro size m out a b ho ha hb fa fb
    rw [List.cons_append, memxorN]
    exact xors_loop (ih _) ho ha hb fa fb

theorem xors_tail_step {w : Nat} {ws : List Nat} {size : Nat} (h1 : w ≤ size → Xors (memxorTail ws) (size - w))
    (h2 : ¬ w ≤ size → Xors (memxorTail ws) size) : Xors (memxorTail (w :: ws)) size := by
  intro m out a b ho ha hb fa fb
  rw [memxorTail]
  by_cases h : w ≤ size
  · rw [if_pos h]
    have e : w + (size - w) = size := by omega
    have := xors_step (h1 h) w (m := m) (out := out) (a := a) (b := b) (by omega) (by omega) (by omega)
      (by rw [e]; exact fa) (by rw [e]; exact fb)
    rwa [e] at this
  · rw [if_neg h]; exact h2 h _ _ _ _ ho ha hb fa fb

theorem tail_ok : ∀ size, size < 8 → Xors (memxorTail [4, 2, 1]) size := by
  have h0 : Xors (memxorTail []) 0 := xors_zero fun _ _ _ _ => rfl
  have h1 : ∀ size, size < 2 → Xors (memxorTail [1]) size := fun size h => xors_tail_step
    (fun _ => by rw [show size - 1 = 0 by omega]; exact h0) (fun _ => by rw [show size = 0 by omega]; exact h0)
  have h2 : ∀ size, size < 4 → Xors (memxorTail [2, 1]) size := fun size h => xors_tail_step
    (fun _ => h1 _ (by omega)) (fun _ => h1 _ (by omega))
  exact fun size h => xors_tail_step (fun _ => h2 _ (by omega)) (fun _ => h2 _ (by omega))

theorem memxorT_eq (pre : List Nat) (hp : ∀ w ∈ pre, 0 < w) : ∀ size, Xors (memxorT (pre ++ [8])) size := by
  have last : ∀ size, size < 8 → Xors (memxorT []) size := by
    intro size h m out a b ho ha hb fa fb
    rw [memxorT]
    exact tail_ok size h _ _ _ _ ho ha hb fa fb
  induction pre with
  | nil =>
    intro size m out a b ho ha hb fa fb
    rw [List.nil_append, memxorT]
    by_cases h : 8 ≤ size
    · rw [if_pos h]; exact xors_loop (last _ (Nat.mod_lt _ (by omega))) ho ha hb fa fb
    · rw [if_neg h]; exact last _ (by omega) _ _ _ _ ho ha hb fa fb
  | cons w pre ih =>
    have ih := ih fun w h => hp w (by simp [h])
    intro size m out a b ho ha hb fa fb
    rw [List.cons_append, memxorT]
    by_cases h : w ≤ size
    · rw [if_pos h]; exact xors_loop (ih _) ho ha hb fa fb
    · rw [if_neg h]; exact ih _ _ _ _ _ ho ha hb fa fb

/-! ## Endian -/

theorem or_add {w : Nat} (x y : BitVec w) (k : Nat) (hx : x.toNat % 2 ^ k = 0) (hy : y.toNat < 2 ^ k) :
    (x ||| y).toNat = x.toNat + y.toNat := by
  rw [BitVec.toNat_or]
  have h := Nat.two_pow_add_eq_or_of_lt hy (x.toNat / 2 ^ k)
  have e : 2 ^ k * (x.toNat / 2 ^ k) = x.toNat := by
    have := Nat.div_add_mod x.toNat (2 ^ k)
    omega
  rw [e] at h
  exact h.symm

theorem shl (w s : Nat) (b : Byte) (h : 8 + s ≤ w) : (b.setWidth w <<< s).toNat = b.toNat * 2 ^ s := by
  rw [BitVec.toNat_shiftLeft, BitVec.toNat_setWidth, Nat.shiftLeft_eq]
  have hb := b.isLt
  have h1 : b.toNat * 2 ^ s < 2 ^ w := calc
    b.toNat * 2 ^ s < 2 ^ 8 * 2 ^ s := Nat.mul_lt_mul_of_pos_right hb (Nat.two_pow_pos s)
    _ = 2 ^ (8 + s) := (Nat.pow_add 2 8 s).symm
    _ ≤ 2 ^ w := Nat.pow_le_pow_right (by omega) h
  have h2 : b.toNat < 2 ^ w := lt_of_lt_of_le hb (Nat.pow_le_pow_right (by omega) (by omega))
  rw [Nat.mod_eq_of_lt h2, Nat.mod_eq_of_lt h1]

theorem sw (w : Nat) (b : Byte) (h : 8 ≤ w) : (b.setWidth w).toNat = b.toNat := by
  rw [BitVec.toNat_setWidth, Nat.mod_eq_of_lt]
  exact lt_of_lt_of_le b.isLt (Nat.pow_le_pow_right (by omega) (by omega))

theorem load16_val (a b : Byte) : (((a.setWidth 16 <<< 8) ||| b.setWidth 16 : BitVec 16)).toNat =
    a.toNat * 256 + b.toNat := by
  have := a.isLt; have := b.isLt
  have e1 := shl 16 8 a (by omega)
  have e2 := sw 16 b (by omega)
  rw [or_add _ _ 8 (by rw [e1]; omega) (by rw [e2]; omega), e1, e2]
  rfl

theorem load32_val (a b c d : Byte) :
    ((a.setWidth 32 <<< 24) ||| (b.setWidth 32 <<< 16) ||| (c.setWidth 32 <<< 8) ||| d.setWidth 32 : BitVec 32).toNat =
    ((a.toNat * 256 + b.toNat) * 256 + c.toNat) * 256 + d.toNat := by
  have := a.isLt; have := b.isLt; have := c.isLt; have := d.isLt
  have e1 := shl 32 24 a (by omega)
  have e2 := shl 32 16 b (by omega)
  have e3 := shl 32 8 c (by omega)
  have e4 := sw 32 d (by omega)
  have h1 := or_add (a.setWidth 32 <<< 24) (b.setWidth 32 <<< 16) 24 (by rw [e1]; omega) (by rw [e2]; omega)
  have h2 := or_add (a.setWidth 32 <<< 24 ||| b.setWidth 32 <<< 16) (c.setWidth 32 <<< 8) 16
    (by rw [h1, e1, e2]; omega) (by rw [e3]; omega)
  have h3 := or_add (a.setWidth 32 <<< 24 ||| b.setWidth 32 <<< 16 ||| c.setWidth 32 <<< 8) (d.setWidth 32) 8
    (by rw [h2, h1, e1, e2, e3]; omega) (by rw [e4]; omega)
  rw [h3, h2, h1, e1, e2, e3, e4]
  omega

theorem load64_val (a b c d e f g h : Byte) :
    ((a.setWidth 64 <<< 56) ||| (b.setWidth 64 <<< 48) ||| (c.setWidth 64 <<< 40) ||| (d.setWidth 64 <<< 32) |||
      (e.setWidth 64 <<< 24) ||| (f.setWidth 64 <<< 16) ||| (g.setWidth 64 <<< 8) ||| h.setWidth 64 : BitVec 64).toNat =
    ((((((a.toNat * 256 + b.toNat) * 256 + c.toNat) * 256 + d.toNat) * 256 + e.toNat) * 256 + f.toNat) * 256 +
      g.toNat) * 256 + h.toNat := by
  have := a.isLt; have := b.isLt; have := c.isLt; have := d.isLt
  have := e.isLt; have := f.isLt; have := g.isLt; have := h.isLt
  have e1 := shl 64 56 a (by omega)
  have e2 := shl 64 48 b (by omega)
  have e3 := shl 64 40 c (by omega)
  have e4 := shl 64 32 d (by omega)
  have e5 := shl 64 24 e (by omega)
  have e6 := shl 64 16 f (by omega)
  have e7 := shl 64 8 g (by omega)
  have e8 := sw 64 h (by omega)
  generalize a.setWidth 64 <<< 56 = A at *
  generalize b.setWidth 64 <<< 48 = B at *
  generalize c.setWidth 64 <<< 40 = C at *
  generalize d.setWidth 64 <<< 32 = D at *
  generalize e.setWidth 64 <<< 24 = E at *
  generalize f.setWidth 64 <<< 16 = F at *
  generalize g.setWidth 64 <<< 8 = G at *
  generalize h.setWidth 64 = H at *
  have h1 := or_add A B 56 (by omega) (by omega)
  have h2 := or_add (A ||| B) C 48 (by omega) (by omega)
  have h3 := or_add (A ||| B ||| C) D 40 (by omega) (by omega)
  have h4 := or_add (A ||| B ||| C ||| D) E 32 (by omega) (by omega)
  have h5 := or_add (A ||| B ||| C ||| D ||| E) F 24 (by omega) (by omega)
  have h6 := or_add (A ||| B ||| C ||| D ||| E ||| F) G 16 (by omega) (by omega)
  have h7 := or_add (A ||| B ||| C ||| D ||| E ||| F ||| G) H 8 (by omega) (by omega)
  rw [h7, h6, h5, h4, h3, h2, h1]
  omega

theorem byteAt_val {w : Nat} (n : BitVec w) (s : Nat) (hw : 8 ≤ w) : (byteAt n s).toNat = n.toNat / 2 ^ s % 256 := by
  unfold byteAt
  have h255 : 0xFF < 2 ^ w := lt_of_lt_of_le (by decide : 0xFF < 2 ^ 8) (Nat.pow_le_pow_right (by omega) hw)
  rw [BitVec.toNat_setWidth, BitVec.toNat_and, BitVec.toNat_ushiftRight, BitVec.toNat_ofNat, Nat.mod_eq_of_lt h255,
    show 0xFF = 2 ^ 8 - 1 from rfl, Nat.and_two_pow_sub_one_eq_mod, Nat.shiftRight_eq_div_pow]
  omega

theorem digits16 (n : Nat) (h : n < 2 ^ 16) : (0 * 256 + n / 2 ^ 8 % 256) * 256 + n / 2 ^ 0 % 256 = n ∧
    n / 2 ^ 0 % 256 + 256 * (n / 2 ^ 8 % 256 + 256 * 0) = n := by
  have e1 : n / 2 ^ 8 = n / 2 ^ 0 / 256 := by rw [Nat.div_div_eq_div_mul]; rfl
  have d : ∀ q, 256 * (q / 256) + q % 256 = q := fun q => Nat.div_add_mod q 256
  have hl : n / 2 ^ 8 < 256 := by omega
  have d0 := d (n / 2 ^ 0)
  rw [← e1] at d0
  rw [Nat.mod_eq_of_lt hl]
  clear h hl d e1
  have z : n / 2 ^ 0 = n := by rw [Nat.pow_zero, Nat.div_one]
  rw [z] at d0 ⊢
  clear z
  generalize n / 2 ^ 8 = q1 at *
  generalize n % 256 = r0 at *
  omega

theorem digits32 (n : Nat) (h : n < 2 ^ 32) : (((0 * 256 + n / 2 ^ 24 % 256) * 256 + n / 2 ^ 16 % 256) * 256 + n / 2 ^ 8 % 256) * 256 + n / 2 ^ 0 % 256 = n ∧
    n / 2 ^ 0 % 256 + 256 * (n / 2 ^ 8 % 256 + 256 * (n / 2 ^ 16 % 256 + 256 * (n / 2 ^ 24 % 256 + 256 * 0))) = n := by
  have e1 : n / 2 ^ 8 = n / 2 ^ 0 / 256 := by rw [Nat.div_div_eq_div_mul]; rfl
  have e2 : n / 2 ^ 16 = n / 2 ^ 8 / 256 := by rw [Nat.div_div_eq_div_mul]; rfl
  have e3 : n / 2 ^ 24 = n / 2 ^ 16 / 256 := by rw [Nat.div_div_eq_div_mul]; rfl
  have d : ∀ q, 256 * (q / 256) + q % 256 = q := fun q => Nat.div_add_mod q 256
  have hl : n / 2 ^ 24 < 256 := by omega
  have d0 := d (n / 2 ^ 0)
  rw [← e1] at d0
  have d1 := d (n / 2 ^ 8)
  rw [← e2] at d1
  have d2 := d (n / 2 ^ 16)
  rw [← e3] at d2
  rw [Nat.mod_eq_of_lt hl]
  clear h hl d e1 e2 e3
  have z : n / 2 ^ 0 = n := by rw [Nat.pow_zero, Nat.div_one]
  rw [z] at d0 ⊢
  clear z
  generalize n / 2 ^ 8 = q1 at *
  generalize n / 2 ^ 16 = q2 at *
  generalize n / 2 ^ 24 = q3 at *
  generalize n % 256 = r0 at *
  generalize q1 % 256 = r1 at *
  generalize q2 % 256 = r2 at *
  omega

theorem digits64 (n : Nat) (h : n < 2 ^ 64) : (((((((0 * 256 + n / 2 ^ 56 % 256) * 256 + n / 2 ^ 48 % 256) * 256 + n / 2 ^ 40 % 256) * 256 + n / 2 ^ 32 % 256) * 256 + n / 2 ^ 24 % 256) * 256 + n / 2 ^ 16 % 256) * 256 + n / 2 ^ 8 % 256) * 256 + n / 2 ^ 0 % 256 = n ∧
    n / 2 ^ 0 % 256 + 256 * (n / 2 ^ 8 % 256 + 256 * (n / 2 ^ 16 % 256 + 256 * (n / 2 ^ 24 % 256 + 256 * (n / 2 ^ 32 % 256 + 256 * (n / 2 ^ 40 % 256 + 256 * (n / 2 ^ 48 % 256 + 256 * (n / 2 ^ 56 % 256 + 256 * 0))))))) = n := by
  have e1 : n / 2 ^ 8 = n / 2 ^ 0 / 256 := by rw [Nat.div_div_eq_div_mul]; rfl
  have e2 : n / 2 ^ 16 = n / 2 ^ 8 / 256 := by rw [Nat.div_div_eq_div_mul]; rfl
  have e3 : n / 2 ^ 24 = n / 2 ^ 16 / 256 := by rw [Nat.div_div_eq_div_mul]; rfl
  have e4 : n / 2 ^ 32 = n / 2 ^ 24 / 256 := by rw [Nat.div_div_eq_div_mul]; rfl
  have e5 : n / 2 ^ 40 = n / 2 ^ 32 / 256 := by rw [Nat.div_div_eq_div_mul]; rfl
  have e6 : n / 2 ^ 48 = n / 2 ^ 40 / 256 := by rw [Nat.div_div_eq_div_mul]; rfl
  have e7 : n / 2 ^ 56 = n / 2 ^ 48 / 256 := by rw [Nat.div_div_eq_div_mul]; rfl
  have d : ∀ q, 256 * (q / 256) + q % 256 = q := fun q => Nat.div_add_mod q 256
  have hl : n / 2 ^ 56 < 256 := by omega
  have d0 := d (n / 2 ^ 0)
  rw [← e1] at d0
  have d1 := d (n / 2 ^ 8)
  rw [← e2] at d1
  have d2 := d (n / 2 ^ 16)
  rw [← e3] at d2
  have d3 := d (n / 2 ^ 24)
  rw [← e4] at d3
  have d4 := d (n / 2 ^ 32)
  rw [← e5] at d4
  have d5 := d (n / 2 ^ 40)
  rw [← e6] at d5
  have d6 := d (n / 2 ^ 48)
  rw [← e7] at d6
  rw [Nat.mod_eq_of_lt hl]
  clear h hl d e1 e2 e3 e4 e5 e6 e7
  have z : n / 2 ^ 0 = n := by rw [Nat.pow_zero, Nat.div_one]
  rw [z] at d0 ⊢
  clear z
  generalize n / 2 ^ 8 = q1 at *
  generalize n / 2 ^ 16 = q2 at *
  generalize n / 2 ^ 24 = q3 at *
  generalize n / 2 ^ 32 = q4 at *
  generalize n / 2 ^ 40 = q5 at *
  generalize n / 2 ^ 48 = q6 at *
  generalize n / 2 ^ 56 = q7 at *
  generalize n % 256 = r0 at *
  generalize q1 % 256 = r1 at *
  generalize q2 % 256 = r2 at *
  generalize q3 % 256 = r3 at *
  generalize q4 % 256 = r4 at *
  generalize q5 % 256 = r5 at *
  generalize q6 % 256 = r6 at *
  omega

theorem leVal_inj : ∀ {a b : List Byte}, a.length = b.length → leVal a = leVal b → a = b
  | [], [], _, _ => rfl
  | x :: a, y :: b, hl, h => by
    simp only [leVal] at h
    have := x.isLt; have := y.isLt
    have h1 : x = y := BitVec.eq_of_toNat_eq (by omega)
    have h2 : a = b := leVal_inj (by simpa using hl) (by omega)
    rw [h1, h2]

end Verif.MemUtil
