import Verif.Proofs.MemUtil
/-!
# Properties C21, C22: memxor and endian accessors
-/
namespace Verif.Props
open Spec MemUtil

/-- The memory `m'` is `m` with `out[i] = a[i] xor b[i]` (operands as they were in `m`) for `i < n` and every other
byte unchanged. -/
def XorWritten (m m' : Mem) (out a b n : Nat) : Prop :=
  m'.length = m.length ∧
  (∀ i x y, i < n → m[a + i]? = some x → m[b + i]? = some y → m'[out + i]? = some (x ^^^ y)) ∧
  (∀ j, j < out ∨ out + n ≤ j → m'[j]? = m[j]?)

/-- The output may be an operand, may lie before it, or may be disjoint from it. -/
def OperandOk (out a n : Nat) : Prop := out = a ∨ out ≤ a ∨ a + n ≤ out

theorem xorWritten_chunk {m : Mem} {out a b n : Nat} (ho : out + n ≤ m.length) (ha : a + n ≤ m.length)
    (hb : b + n ≤ m.length) : XorWritten m (chunk n m out a b) out a b n := by
  have lx : (xorBytes (rdm m a n) (rdm m b n)).length = n := by
    rw [xorBytes_len (by rw [rdm_len ha, rdm_len hb]), rdm_len ha]
  refine ⟨chunk_len ho ha hb, ?_, ?_⟩
  · intro i x y hi hx hy
    unfold chunk
    rw [wrm_get (by rw [lx]; exact ho), if_neg (by omega), if_pos (by rw [lx]; omega), Nat.add_sub_cancel_left]
    unfold xorBytes
    rw [List.getElem?_zipWith, rdm_get, rdm_get, if_pos hi, if_pos hi, hx, hy]
  · intro j hj
    unfold chunk
    rw [wrm_get (by rw [lx]; exact ho), lx]
    rcases hj with h | h
    · rw [if_pos h]
    · rw [if_neg (by omega), if_neg (by omega)]

theorem fwd_of {out a n : Nat} (h : OperandOk out a n) : Fwd out a n := by
  rcases h with h | h | h
  · exact .inl (le_of_eq h)
  · exact .inl h
  · exact .inr h

/-- C21: `memxor_n` in each of the three build configurations, for every length. -/
theorem C21_memxor_n (ws : List Nat) (hc : ws = portable ∨ ws = sse2 ∨ ws = avx2) (m : Mem) (out a b n : Nat)
    (ho : out + n ≤ m.length) (ha : a + n ≤ m.length) (hb : b + n ≤ m.length)
    (oa : OperandOk out a n) (ob : OperandOk out b n) : XorWritten m (memxorN ws m out a b n) out a b n := by
  have h : memxorN ws m out a b n = chunk n m out a b := by
    rcases hc with rfl | rfl | rfl
    · exact memxorN_eq [8, 4, 2] n m out a b ho ha hb (fwd_of oa) (fwd_of ob)
    · exact memxorN_eq [128, 64, 32, 16, 8, 4, 2] n m out a b ho ha hb (fwd_of oa) (fwd_of ob)
    · exact memxorN_eq [512, 256, 128, 64, 32, 16, 8, 4, 2] n m out a b ho ha hb (fwd_of oa) (fwd_of ob)
  rw [h]
  exact xorWritten_chunk ho ha hb

/-- C21: the fixed-size `memxor<SIZE>` in each of the three build configurations, for every `SIZE`. -/
theorem C21_memxor_fixed (ws : List Nat) (hc : ws = portableT ∨ ws = sse2T ∨ ws = avx2T) (m : Mem) (out a b n : Nat)
    (ho : out + n ≤ m.length) (ha : a + n ≤ m.length) (hb : b + n ≤ m.length)
    (oa : OperandOk out a n) (ob : OperandOk out b n) : XorWritten m (memxorT ws m out a b n) out a b n := by
  have h : memxorT ws m out a b n = chunk n m out a b := by
    rcases hc with rfl | rfl | rfl
    · exact memxorT_eq [] (by simp) n m out a b ho ha hb (fwd_of oa) (fwd_of ob)
    · exact memxorT_eq [128, 64, 32, 16] (by decide) n m out a b ho ha hb (fwd_of oa) (fwd_of ob)
    · exact memxorT_eq [512, 256, 128, 64, 32, 16] (by decide) n m out a b ho ha hb (fwd_of oa) (fwd_of ob)
  rw [h]
  exact xorWritten_chunk ho ha hb

/-- Eleven bytes, output equal to the first operand. -/
example : memxorN portable ((List.range 24).map (BitVec.ofNat 8)) 1 1 12 11 =
    [0, 1 ^^^ 12, 2 ^^^ 13, 3 ^^^ 14, 4 ^^^ 15, 5 ^^^ 16, 6 ^^^ 17, 7 ^^^ 18, 8 ^^^ 19, 9 ^^^ 20, 10 ^^^ 21, 11 ^^^ 22,
      12, 13, 14, 15, 16, 17, 18, 19, 20, 21, 22, 23] ∧ OperandOk 1 1 11 ∧ OperandOk 1 12 11 :=
  ⟨by decide, .inl rfl, .inr (.inl (by decide))⟩

/-- The side condition is needed: with the output a few bytes after an operand, later chunks read bytes already
overwritten, and the result is not the xor of the original operands. -/
theorem C21_overlap_violated : ∃ (m : Mem) (out a b n : Nat), out + n ≤ m.length ∧ a + n ≤ m.length ∧ b + n ≤ m.length ∧
    ¬ XorWritten m (memxorN portable m out a b n) out a b n := by
  refine ⟨(List.range 40).map fun i => BitVec.ofNat 8 (i * i), 8, 0, 20, 16, by decide, by decide, by decide, ?_⟩
  intro h
  have h1 := h.2.1 8 64 16 (by decide) (by decide) (by decide)
  revert h1
  decide

/-! ## Endian accessors -/

/-- C22: the value of each load is the positional value of the bytes. -/
theorem C22_loads (a b c d e f g h : Byte) :
    (load16be a b).toNat = beVal [a, b] ∧ (load16le a b).toNat = leVal [a, b] ∧
    (load32be a b c d).toNat = beVal [a, b, c, d] ∧ (load32le a b c d).toNat = leVal [a, b, c, d] ∧
    (load64be a b c d e f g h).toNat = beVal [a, b, c, d, e, f, g, h] ∧
    (load64le a b c d e f g h).toNat = leVal [a, b, c, d, e, f, g, h] := by
  unfold load16be load16le load32be load32le load64be load64le
  rw [load16_val, load16_val, load32_val, load32_val, load64_val, load64_val]
  simp only [beVal, leVal, List.foldl_cons, List.foldl_nil]
  refine ⟨?_, ?_, ?_, ?_, ?_, ?_⟩ <;> omega

/-- C22: each store writes the bytes with that positional value. -/
theorem C22_stores (x : BitVec 16) (y : W32) (z : W64) :
    beVal (store16be x) = x.toNat ∧ leVal (store16le x) = x.toNat ∧
    beVal (store32be y) = y.toNat ∧ leVal (store32le y) = y.toNat ∧
    beVal (store64be z) = z.toNat ∧ leVal (store64le z) = z.toNat := by
  have hx := digits16 x.toNat x.isLt
  have hy := digits32 y.toNat y.isLt
  have hz := digits64 z.toNat z.isLt
  simp only [beVal, leVal, store16be, store16le, store32be, store32le, store64be, store64le, List.foldl_cons,
    List.foldl_nil, byteAt_val _ _ (show 8 ≤ 16 by decide), byteAt_val _ _ (show 8 ≤ 32 by decide),
    byteAt_val _ _ (show 8 ≤ 64 by decide)]
  exact ⟨hx.1, hx.2, hy.1, hy.2, hz.1, hz.2⟩

/-- C22: store after load gives the bytes back. -/
theorem C22_store_load (a b c d e f g h : Byte) :
    store16be (load16be a b) = [a, b] ∧ store16le (load16le a b) = [a, b] ∧
    store32be (load32be a b c d) = [a, b, c, d] ∧ store32le (load32le a b c d) = [a, b, c, d] ∧
    store64be (load64be a b c d e f g h) = [a, b, c, d, e, f, g, h] ∧
    store64le (load64le a b c d e f g h) = [a, b, c, d, e, f, g, h] := by
  obtain ⟨h1, h2, h3, h4, h5, h6⟩ := C22_loads a b c d e f g h
  refine ⟨?_, ?_, ?_, ?_, ?_, ?_⟩
  · exact beVal_inj _ _ rfl (by rw [(C22_stores _ 0 0).1, h1])
  · exact leVal_inj rfl (by rw [(C22_stores _ 0 0).2.1, h2])
  · exact beVal_inj _ _ rfl (by rw [(C22_stores 0 _ 0).2.2.1, h3])
  · exact leVal_inj rfl (by rw [(C22_stores 0 _ 0).2.2.2.1, h4])
  · exact beVal_inj _ _ rfl (by rw [(C22_stores 0 0 _).2.2.2.2.1, h5])
  · exact leVal_inj rfl (by rw [(C22_stores 0 0 _).2.2.2.2.2, h6])

/-- C22: load after store gives the number back. -/
theorem C22_load_store (x : BitVec 16) (y : W32) (z : W64) :
    (∀ a b, store16be x = [a, b] → load16be a b = x) ∧ (∀ a b, store16le x = [a, b] → load16le a b = x) ∧
    (∀ a b c d, store32be y = [a, b, c, d] → load32be a b c d = y) ∧
    (∀ a b c d, store32le y = [a, b, c, d] → load32le a b c d = y) ∧
    (∀ a b c d e f g h, store64be z = [a, b, c, d, e, f, g, h] → load64be a b c d e f g h = z) ∧
    (∀ a b c d e f g h, store64le z = [a, b, c, d, e, f, g, h] → load64le a b c d e f g h = z) := by
  obtain ⟨h1, h2, h3, h4, h5, h6⟩ := C22_stores x y z
  refine ⟨?_, ?_, ?_, ?_, ?_, ?_⟩
  · intro a b h; apply BitVec.eq_of_toNat_eq; rw [(C22_loads a b 0 0 0 0 0 0).1, ← h, h1]
  · intro a b h; apply BitVec.eq_of_toNat_eq; rw [(C22_loads a b 0 0 0 0 0 0).2.1, ← h, h2]
  · intro a b c d h; apply BitVec.eq_of_toNat_eq; rw [(C22_loads a b c d 0 0 0 0).2.2.1, ← h, h3]
  · intro a b c d h; apply BitVec.eq_of_toNat_eq; rw [(C22_loads a b c d 0 0 0 0).2.2.2.1, ← h, h4]
  · intro a b c d e f g h' h; apply BitVec.eq_of_toNat_eq; rw [(C22_loads a b c d e f g h').2.2.2.2.1, ← h, h5]
  · intro a b c d e f g h' h; apply BitVec.eq_of_toNat_eq; rw [(C22_loads a b c d e f g h').2.2.2.2.2, ← h, h6]

example : store32be 0x01020304#32 = [1, 2, 3, 4] ∧ load64le 1 2 3 4 5 6 7 8 = 0x0807060504030201#64 := by decide

end Verif.Props
