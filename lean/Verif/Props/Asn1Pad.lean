import Verif.Props.Asn1Accept
/-!
# C107: how much padding keeps the SM2 decoders inside the buffer

The decoders read past inputs that are cut off (`C107_short_violated`).  A caller who keeps enough further octets behind the
input is safe with the decoders of keys and signatures, whatever the input and the length given; with the decoder of
ciphertexts no amount of padding is enough.
-/
namespace Verif.Props
open Verif Verif.Spec Verif.Spec.Der Verif.Asn1

namespace PadAux
open AcceptAux

theorem bind_ne {α β} {x : Res α} {f : α → Res β} (h : x ≠ .oob) (hf : ∀ a, x = .ok a → f a ≠ .oob) : (x >>= f) ≠ .oob := by
  cases x with
  | ok a => exact hf a rfl
  | err c => intro e; cases e
  | oob => exact absurd rfl h

theorem rd_ne {buf : Mem} {p : Nat} (h : p < buf.length) : rd buf p ≠ .oob := by
  unfold rd
  rw [List.getElem?_eq_getElem h]
  intro e; cases e

theorem orFail_ne {α} {x : Res α} (h : x ≠ .oob) : orFail x ≠ .oob := by
  cases x with
  | ok a => intro e; cases e
  | err c => intro e; cases e
  | oob => exact absurd rfl h

theorem lengthLoop_ne {buf : Mem} : ∀ (k p : Nat) (r : W64), p + k ≤ buf.length → lengthLoop buf p k r ≠ .oob
  | 0, _, _, _ => fun e => by rw [lengthLoop] at e; cases e
  | k + 1, p, r, h => by
    rw [lengthLoop]
    exact bind_ne (rd_ne (by omega)) fun b _ => lengthLoop_ne k (p + 1) _ (by omega)

theorem decLength_ne {buf : Mem} {p inl : Nat} (h : p + 9 ≤ buf.length) : decLength buf p inl ≠ .oob := by
  unfold decLength
  split
  · intro e; cases e
  refine bind_ne (rd_ne (by omega)) fun b _ => ?_
  split
  · intro e; cases e
  split
  · intro e; cases e
  dsimp only
  split
  · intro e; cases e
  split
  · intro e; cases e
  exact bind_ne (lengthLoop_ne _ _ _ (by omega)) fun r _ e => by cases e

theorem decTlv_ne {buf : Mem} {p inl : Nat} (h : p + 10 ≤ buf.length) : decTlv buf p inl ≠ .oob := by
  unfold decTlv
  refine bind_ne ?_ fun a _ => bind_ne (decLength_ne (by omega)) fun r _ e => by cases e
  unfold decIdentifier
  split
  · intro e; cases e
  refine bind_ne (rd_ne (by omega)) fun b _ => ?_
  split <;> (intro e; cases e)

theorem tlv_value {buf : Mem} {p inl k : Nat} {t : Tlv} (h : decTlv buf p inl = .ok (t, k)) : t.value ≤ p + 10 := by
  obtain ⟨b, l, n, h1, h2, h3, h4, rfl, rfl⟩ := decTlv_inv h
  have := LenOctets.len_le h3
  show p + 1 + l.length ≤ p + 10
  omega

theorem decSequence_ne {buf : Mem} {p inl : Nat} (h : p + 10 ≤ buf.length) : decSequence buf p inl ≠ .oob := by
  unfold decSequence decConstructed
  refine bind_ne (decTlv_ne h) fun a _ => ?_
  dsimp only
  split <;> (intro e; cases e)

theorem decOctetString_ne {buf : Mem} {p inl : Nat} (h : p + 10 ≤ buf.length) : decOctetString buf p inl ≠ .oob := by
  unfold decOctetString
  refine bind_ne (decTlv_ne h) fun a _ => ?_
  dsimp only
  split <;> (intro e; cases e)

theorem decInteger_ne {buf : Mem} {p inl : Nat} (h : p + 12 ≤ buf.length) : decInteger buf p inl ≠ .oob := by
  unfold decInteger
  refine bind_ne (decTlv_ne (by omega)) fun a ha => ?_
  have hv := tlv_value ha
  dsimp only
  split
  · intro e; cases e
  split
  · refine bind_ne (rd_ne (by omega)) fun v0 _ => ?_
    split
    · refine bind_ne (rd_ne (by omega)) fun v1 _ => ?_
      split <;> (intro e; cases e)
    split
    · refine bind_ne (rd_ne (by omega)) fun v1 _ => ?_
      split <;> (intro e; cases e)
    · intro e; cases e
  · intro e; cases e

theorem decBitString_ne {buf : Mem} {p inl : Nat} (h : p + 11 ≤ buf.length) : decBitString buf p inl ≠ .oob := by
  unfold decBitString
  generalize szSub = f
  refine bind_ne (decTlv_ne (by omega)) fun a ha => ?_
  have hv := tlv_value ha
  dsimp only
  split
  · intro e; cases e
  refine bind_ne (rd_ne (by omega)) fun v0 _ => ?_
  split
  · intro e; cases e
  split
  · intro e; cases e
  exact bind_ne (rd_ne (by omega)) fun v1 _ e => by cases e

theorem sigG_ne (f : Nat → Nat → Nat) {buf : Mem} {p inl : Nat} (h : p + 65 ≤ buf.length) : sigG f buf p inl ≠ .oob := by
  unfold sigG
  refine bind_ne (orFail_ne (decSequence_ne (by omega))) fun a ha => ?_
  obtain ⟨sv, sl, n⟩ := a
  obtain ⟨b0, l0, g1, g2, g3, g4, g5, rfl, rfl⟩ := decSequence_iff.1 (orFail_ok ha)
  have z0 := LenOctets.len_le g3
  dsimp only
  refine bind_ne (orFail_ne (decInteger_ne (by omega))) fun a ha => ?_
  obtain ⟨r, rl, n1⟩ := a
  dsimp only
  split
  · intro e; cases e
  rename_i hr
  rw [not_not] at hr
  subst hr
  obtain ⟨b1, l1, n1, o1, i1, i2, i3, i4, i5, rfl, rfl⟩ := decInteger_iff.1 (orFail_ok ha)
  have z1 := LenOctets.len_le i3
  have m1 := mag_range i5
  refine bind_ne (orFail_ne (decInteger_ne (by omega))) fun a ha => ?_
  split <;> (intro e; cases e)

theorem ciphG_oob (f : Nat → Nat → Nat) {buf : Mem} {p inl sv sl n x y h hl n1 n2 n3 : Nat}
    (s0 : decSequence buf p inl = .ok (sv, sl, n)) (s1 : decInteger buf sv sl = .ok (x, 32, n1))
    (s2 : decInteger buf (sv + n1) (f sl n1) = .ok (y, 32, n2))
    (s3 : decOctetString buf (sv + n1 + n2) (f (f sl n1) n2) = .ok (h, hl, n3))
    (s4 : decOctetString buf (sv + n1 + n2 + n3) (f (f (f sl n1) n2) n3) = .oob) : ciphG f buf p inl = .oob := by
  unfold ciphG
  rw [s0]
  simp only [orFail, ok_bind]
  rw [s1]
  simp only [ok_bind]
  rw [if_neg (by simp), s2]
  simp only [ok_bind]
  rw [if_neg (by simp), s3]
  simp only [ok_bind]
  rw [s4]
  rfl

theorem sub34 : szSub (szSub (2 ^ 64 - 1) 34) 34 = 2 ^ 64 - 69 ∧ szSub (2 ^ 64 - 1) 34 = 2 ^ 64 - 35 := by decide +kernel

theorem past (x : Mem) (p inl : Nat) (h : inl ≠ 0) (hp : x.length ≤ p) : decOctetString x p inl = .oob := by
  unfold decOctetString decTlv decIdentifier rd
  rw [if_neg h, List.getElem?_eq_none hp]
  rfl

end PadAux
open PadAux

/-- **C107** (padding).  If 12, 11 or 65 octets can be read at the place of the input, whatever its length is said to be, the
decoders of private keys, public keys and signatures read nothing outside the buffer. -/
theorem C107_padded (buf : List Byte) (p inl : Nat) :
    (p + 12 ≤ buf.length → privDecode buf p inl ≠ .oob) ∧ (p + 11 ≤ buf.length → pubDecode buf p inl ≠ .oob) ∧
    (p + 65 ≤ buf.length → sigDecode buf p inl ≠ .oob) := by
  refine ⟨fun h => ?_, fun h => ?_, fun h => ?_⟩
  · unfold privDecode
    refine bind_ne (orFail_ne (decInteger_ne h)) fun a _ => ?_
    dsimp only
    split <;> (intro e; cases e)
  · unfold pubDecode
    refine bind_ne (orFail_ne (decBitString_ne h)) fun a _ => ?_
    dsimp only
    split <;> (intro e; cases e)
  · rw [sigDecode_G]
    exact sigG_ne _ h

/-- **C107** (padding).  One octet less is not enough for any of the three. -/
theorem C107_padded_tight :
    privDecode [0x02, 0x88, 0, 0, 0, 0, 0, 0, 0, 0x20, 0xff] 0 11 = .oob ∧
    pubDecode [0x03, 0x88, 0, 0, 0, 0, 0, 0, 0, 0x42] 0 10 = .oob ∧
    sigDecode ([0x30, 0x88, 0, 0, 0, 0, 0, 0, 0, 0x61] ++ [0x02, 0x88, 0, 0, 0, 0, 0, 0, 0, 0x21, 0x00, 0x80] ++
      List.replicate 31 0 ++ [0x02, 0x88, 0, 0, 0, 0, 0, 0, 0, 0x20, 0xff]) 0 64 = .oob := by decide +kernel

/-- **C107 is violated**: with the decoder of ciphertexts no padding is enough.  Whatever octets, and however many, follow the
header of the hash, there is a header with which the decoder reads past them all. -/
theorem C107_ciphertext_padded_violated (a c : Byte) (X Y t : List Byte) (hX : X.length = 31) (hY : Y.length = 31)
    (ha : a ≠ 0 ∧ a.toNat < 128) (hc : c ≠ 0 ∧ c.toNat < 128) (ht : t.length < 2 ^ 63) : ∃ l : List Byte, l.length = 8 ∧
    cipherDecode ([0x30, 0x88, 0xff, 0xff, 0xff, 0xff, 0xff, 0xff, 0xff, 0xff] ++ ([0x02, 0x20] ++ (a :: X ++ ([0x02, 0x20] ++
      (c :: Y ++ (0x04 :: 0x88 :: l ++ t)))))) 0 (88 + t.length) = .oob := by
  refine ⟨toBE 8 (t.length + 1), toBE_len _ _, ?_⟩
  have hb : beVal (toBE 8 (t.length + 1)) = t.length + 1 := by
    rw [beVal_toBE]; exact Nat.mod_eq_of_lt (by rw [show (256 : Nat) ^ 8 = 2 ^ 64 by norm_num]; omega)
  have hL0 : LenOctets 8 ([0x88, 0xff, 0xff, 0xff, 0xff, 0xff, 0xff, 0xff, 0xff] : List Byte) (2 ^ 64 - 1) :=
    .long (maxOctets := 8) 8 [0xff, 0xff, 0xff, 0xff, 0xff, 0xff, 0xff, 0xff] (by decide) (by decide) rfl
  have hL3 : LenOctets 8 (0x88 :: toBE 8 (t.length + 1) : List Byte) (t.length + 1) := by
    have := LenOctets.long (maxOctets := 8) 8 (toBE 8 (t.length + 1)) (by decide) (by decide) (toBE_len _ _)
    rwa [hb] at this
  generalize hl : toBE 8 (t.length + 1) = l at *
  have l8 : l.length = 8 := by rw [← hl]; exact toBE_len _ _
  generalize hx : ([0x30, 0x88, 0xff, 0xff, 0xff, 0xff, 0xff, 0xff, 0xff, 0xff] ++ ([0x02, 0x20] ++ (a :: X ++
    ([0x02, 0x20] ++ (c :: Y ++ (0x04 :: 0x88 :: l ++ t))))) : List Byte) = x
  have hlen : x.length = 88 + t.length := by rw [← hx]; simp [hX, hY, l8]; omega
  have d0 : x.drop 0 = [0x30, 0x88, 0xff, 0xff, 0xff, 0xff, 0xff, 0xff, 0xff, 0xff] ++ ([0x02, 0x20] ++ (a :: X ++
    ([0x02, 0x20] ++ (c :: Y ++ (0x04 :: 0x88 :: l ++ t))))) := hx.symm
  have d1 : x.drop 10 = [0x02, 0x20] ++ (a :: X ++ ([0x02, 0x20] ++ (c :: Y ++ (0x04 :: 0x88 :: l ++ t)))) := by
    rw [← hx]; rfl
  have d2 : x.drop 12 = a :: X ++ ([0x02, 0x20] ++ (c :: Y ++ (0x04 :: 0x88 :: l ++ t))) := by
    rw [← hx]; rfl
  have d3 : x.drop 44 = [0x02, 0x20] ++ (c :: Y ++ (0x04 :: 0x88 :: l ++ t)) := by
    rw [show 44 = 12 + (a :: X).length by simp [hX], ← List.drop_drop, d2, List.drop_left]
  have d4 : x.drop 46 = c :: Y ++ (0x04 :: 0x88 :: l ++ t) := by
    rw [show 46 = 44 + 2 by rfl, ← List.drop_drop, d3]; rfl
  have d5 : x.drop 78 = 0x04 :: 0x88 :: l ++ t := by
    rw [show 78 = 46 + (c :: Y).length by simp [hY], ← List.drop_drop, d4, List.drop_left]
  have s0 : decSequence x 0 (88 + t.length) = .ok (10, 2 ^ 64 - 1, 9) :=
    decSequence_iff.2 ⟨0x30, _, ⟨_, d0⟩, by decide, hL0, by decide, by simp; omega, by simp, by simp⟩
  have s1 : decInteger x 10 (2 ^ 64 - 1) = .ok (12, 32, 34) :=
    decInteger_iff.2 ⟨0x02, [0x20], 32, 0, ⟨_, d1⟩, by decide, .short 0x20 (by decide), by simp,
      by rw [show 10 + 1 + [(0x20 : Byte)].length = 12 by rfl, d2]
         exact .inl ⟨rfl, rfl, a, rfl, ha.1, fun h => by rw [h] at ha; exact absurd ha.2 (by decide)⟩, by simp, by simp⟩
  have s2 : decInteger x (10 + 34) (szSub (2 ^ 64 - 1) 34) = .ok (46, 32, 34) :=
    decInteger_iff.2 ⟨0x02, [0x20], 32, 0, ⟨_, d3⟩, by decide, .short 0x20 (by decide), by rw [sub34.2]; simp,
      by rw [show 44 + 1 + [(0x20 : Byte)].length = 46 by rfl, d4]
         exact .inl ⟨rfl, rfl, c, rfl, hc.1, fun h => by rw [h] at hc; exact absurd hc.2 (by decide)⟩, by simp, by simp⟩
  have s3 : decOctetString x (10 + 34 + 34) (szSub (szSub (2 ^ 64 - 1) 34) 34) = .ok (88, t.length + 1, t.length + 11) :=
    decOctetString_iff.2 ⟨0x04, _, ⟨_, d5⟩, by decide, hL3, by omega, by rw [List.length_cons, l8, sub34.1]; simp, by simp [l8],
      by rw [List.length_cons, l8, Nat.mod_eq_of_lt (by omega)]; omega⟩
  have s4 : ∀ inl, inl ≠ 0 → decOctetString x (10 + 34 + 34 + (t.length + 11)) inl = .oob := by
    exact fun inl h => past x _ inl h (by omega)
  have hz : szSub (szSub (szSub (2 ^ 64 - 1) 34) 34) (t.length + 11) ≠ 0 := by
    rw [sub34.1, AcceptAux.szSub_fix (by omega)]
    omega
  rw [cipherDecode_G]
  exact ciphG_oob szSub s0 s1 s2 s3 (s4 _ hz)

/-- Some padding that is long enough for a header of six octets. -/
example : 0 + 65 ≤ ([0x30, 0x44, 0x02, 0x20, 0x11, 0x22] ++ List.replicate 59 0 : List Byte).length := by decide

end Verif.Props
