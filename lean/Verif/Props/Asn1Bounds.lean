import Verif.Props.Asn1
/-!
# Property C25: exactly which inputs are read past, and the check that is left to the caller

The buffer holds the input and nothing else, so that a read past the input is `oob`.
-/
namespace Verif.Props
open Verif Verif.Spec Verif.Spec.Der Verif.Asn1

namespace BoundsAux

theorem f_num (b : Byte) (k : Fin 32) : (fields b).2.2 = BitVec.ofNat 8 k.val ↔ b.toNat % 32 = k.val := by
  have : (fields b).2.2.toNat = b.toNat % 32 := by
    show (BitVec.ofNat 8 (b.toNat % 32)).toNat = _
    rw [BitVec.toNat_ofNat]; omega
  rw [← BitVec.toNat_inj, this, BitVec.toNat_ofNat]
  have := k.isLt
  omega

theorem f_pc (b : Byte) : (fields b).2.1 = 0 ↔ b.toNat / 32 % 2 = 0 := by
  have : (fields b).2.1.toNat = b.toNat / 32 % 2 * 32 := by
    show (BitVec.ofNat 8 (b.toNat / 32 % 2 * 32)).toNat = _
    rw [BitVec.toNat_ofNat]; omega
  rw [← BitVec.toNat_inj, this]
  show b.toNat / 32 % 2 * 32 = 0 ↔ _
  omega

/-- The octets after the header. -/
theorem split {x : List Byte} {a : List Byte} (h : Has x 0 a) : ∃ t, x = a ++ t := by
  obtain ⟨t, h⟩ := h
  exact ⟨t, by simpa using h⟩

theorem rd_none {x : List Byte} {i : Nat} (h : x.length ≤ i) : rd x i = .oob := by
  unfold rd; rw [List.getElem?_eq_none h]

theorem rd_at (a t : List Byte) (c : Byte) : rd (a ++ c :: t) a.length = .ok c := by
  unfold rd; rw [List.getElem?_append_right (Nat.le_refl _), Nat.sub_self]; rfl

theorem tlv (b : Byte) (l t : List Byte) (n : Nat) (hb : b.toNat % 32 ≠ 31) (hl : LenOctets 8 l n) :
    decTlv (b :: l ++ t) 0 (b :: l ++ t).length =
      .ok (⟨(fields b).1, (fields b).2.1, (fields b).2.2, n, (b :: l).length⟩, ((b :: l).length + n) % 2 ^ 64) := by
  rw [decTlv_ok (b := b) (l := l) (n := n) ⟨t, by simp⟩ hb hl (by simp; omega)]
  simp only [List.length_cons, Nat.zero_add, Nat.add_comm]

/-- Either the header is refused or the input begins with one. -/
theorem header (x : List Byte) : (∃ c, decTlv x 0 x.length = .err c) ∨
    ∃ b l n t, x = b :: l ++ t ∧ b.toNat % 32 ≠ 31 ∧ LenOctets 8 l n := by
  rcases decTlv_cases (buf := x) (p := 0) (inl := x.length) (by omega) with ⟨b, l, n, h1, h2, h3, _⟩ | ⟨c, h, _⟩
  · obtain ⟨t, ht⟩ := split h1
    exact .inr ⟨b, l, n, t, ht, h2, h3⟩
  · exact .inl ⟨c, h⟩

end BoundsAux
open BoundsAux

/-- **C25** (BOOLEAN).  The decoder reads past the input exactly if the input is the header of a BOOLEAN and no more. -/
theorem C25_boolean_exact (x : List Byte) : decBoolean x 0 x.length = .oob ↔
    ∃ b l, x = b :: l ∧ b.toNat % 64 = 1 ∧ LenOctets 8 l 1 := by
  constructor
  · intro h
    rcases header x with ⟨c, hc⟩ | ⟨b, l, n, t, rfl, hb, hl⟩
    · unfold decBoolean at h; rw [hc] at h; cases h
    · unfold decBoolean at h
      rw [tlv b l t n hb hl, ok_bind] at h
      dsimp only at h
      split at h
      · cases h
      · rename_i hc
        push Not at hc
        obtain ⟨c1, c2, rfl⟩ := hc
        have c1' := (f_pc b).1 c1
        have c2' := (f_num b 1).1 c2
        cases t with
        | nil => exact ⟨b, l, by simp, by change b.toNat % 32 = 1 at c2'; omega, hl⟩
        | cons c t => rw [rd_at] at h; cases h
  · rintro ⟨b, l, rfl, hb, hl⟩
    unfold decBoolean
    have e := tlv b l [] 1 (by omega) hl
    rw [List.append_nil] at e
    rw [e, ok_bind]
    dsimp only
    rw [if_neg, rd_none (Nat.le_refl _)]
    · rfl
    · push Not
      exact ⟨(f_pc b).2 (by omega), (f_num b 1).2 (by show _ = 1; omega), rfl⟩

/-- **C25** (BIT STRING).  The decoder reads past the input exactly if the input is the header of a BIT STRING that is not
empty, and no more. -/
theorem C25_bit_string_exact (x : List Byte) : decBitString x 0 x.length = .oob ↔
    ∃ b l n, x = b :: l ∧ b.toNat % 32 = 3 ∧ LenOctets 8 l n ∧ 1 ≤ n := by
  constructor
  · intro h
    rcases header x with ⟨c, hc⟩ | ⟨b, l, n, t, rfl, hb, hl⟩
    · unfold decBitString at h; rw [hc] at h; cases h
    · unfold decBitString at h
      rw [tlv b l t n hb hl, ok_bind] at h
      dsimp only at h
      split at h
      · cases h
      · rename_i hc
        push Not at hc
        obtain ⟨c2, c3⟩ := hc
        have c2' := (f_num b 3).1 c2
        cases t with
        | nil => exact ⟨b, l, n, by simp, c2', hl, by omega⟩
        | cons c t =>
          rw [rd_at, ok_bind] at h
          split at h
          · cases h
          · split at h
            · cases h
            · rw [show rd (b :: l ++ c :: t) 0 = .ok b from rfl, ok_bind] at h; cases h
  · rintro ⟨b, l, n, rfl, hb, hl, hn⟩
    unfold decBitString
    have e := tlv b l [] n (by omega) hl
    rw [List.append_nil] at e
    rw [e, ok_bind]
    dsimp only
    rw [if_neg, rd_none (Nat.le_refl _)]
    · rfl
    · push Not
      exact ⟨(f_num b 3).2 hb, by omega⟩

/-- **C25** (INTEGER).  The decoder reads past the input exactly if the input is the header of an INTEGER of two octets or
more, followed by nothing or by a single octet 0x00 or 0xff. -/
theorem C25_integer_exact (x : List Byte) : decInteger x 0 x.length = .oob ↔
    ∃ b l n, (x = b :: l ∨ x = b :: l ++ [0x00] ∨ x = b :: l ++ [0xff]) ∧ b.toNat % 64 = 2 ∧ LenOctets 8 l n ∧ 2 ≤ n := by
  constructor
  · intro h
    rcases header x with ⟨c, hc⟩ | ⟨b, l, n, t, rfl, hb, hl⟩
    · unfold decInteger at h; rw [hc] at h; cases h
    · unfold decInteger at h
      rw [tlv b l t n hb hl, ok_bind] at h
      dsimp only at h
      split at h
      · cases h
      · rename_i hc
        push Not at hc
        obtain ⟨c1, c2, c3⟩ := hc
        have c1' := (f_pc b).1 c1
        have c2' := (f_num b 2).1 c2
        have hbb : b.toNat % 64 = 2 := by change b.toNat % 32 = 2 at c2'; omega
        split at h
        · rename_i h1
          cases t with
          | nil => exact ⟨b, l, n, .inl (by simp), hbb, hl, h1⟩
          | cons c t =>
            rw [rd_at, ok_bind] at h
            have r1 : ∀ d t', t = d :: t' → rd (b :: l ++ c :: t) ((b :: l).length + 1) = .ok d := by
              rintro d t' rfl
              have := rd_at (b :: l ++ [c]) t' d
              simpa using this
            split at h
            · rename_i h0
              cases t with
              | nil => exact ⟨b, l, n, .inr (.inl (by rw [h0])), hbb, hl, h1⟩
              | cons d t' =>
                rw [r1 d t' rfl, ok_bind] at h
                split at h <;> cases h
            · split at h
              · rename_i h0
                cases t with
                | nil => exact ⟨b, l, n, .inr (.inr (by rw [h0])), hbb, hl, h1⟩
                | cons d t' =>
                  rw [r1 d t' rfl, ok_bind] at h
                  split at h <;> cases h
              · cases h
        · cases h
  · rintro ⟨b, l, n, hx, hb, hl, hn⟩
    have hg : ¬((fields b).2.1 ≠ 0x00 ∨ (fields b).2.2 ≠ 2 ∨ n = 0) := by
      push Not
      exact ⟨(f_pc b).2 (by omega), (f_num b 2).2 (by show _ = 2; omega), by omega⟩
    have ho : ∀ c : Byte, rd (b :: l ++ [c]) ((b :: l).length + 1) = .oob := fun c => rd_none (by simp)
    unfold decInteger
    rcases hx with rfl | rfl | rfl
    · have e := tlv b l [] n (by omega) hl
      rw [List.append_nil] at e
      rw [e, ok_bind]
      dsimp only
      rw [if_neg hg, if_pos (by omega), rd_none (Nat.le_refl _)]
      rfl
    · rw [tlv b l [0x00] n (by omega) hl, ok_bind]
      dsimp only
      rw [if_neg hg, if_pos (by omega), rd_at, ok_bind, if_pos rfl, ho]
      rfl
    · rw [tlv b l [0xff] n (by omega) hl, ok_bind]
      dsimp only
      rw [if_neg hg, if_pos (by omega), rd_at, ok_bind, if_neg (by decide), if_pos rfl, ho]
      rfl

/-- **C25** (what the caller can do).  When a decoder accepts, the value it points to lies inside the input exactly if the
number of octets it reports as read is at most the length of the input and at least the length of the value. -/
theorem C25_caller_check (x : List Byte) (hx : x.length < 2 ^ 64) :
    (∀ v k n, decOctetString x 0 x.length = .ok (v, k, n) → (v + k ≤ x.length ↔ n ≤ x.length ∧ k ≤ n)) ∧
    (∀ v k n, decSequence x 0 x.length = .ok (v, k, n) → (v + k ≤ x.length ↔ n ≤ x.length ∧ k ≤ n)) ∧
    (∀ v k n, decSet x 0 x.length = .ok (v, k, n) → (v + k ≤ x.length ↔ n ≤ x.length ∧ k ≤ n)) ∧
    (∀ v k n, decInteger x 0 x.length = .ok (v, k, n) → (v + k ≤ x.length ↔ n ≤ x.length ∧ k ≤ n)) ∧
    (∀ v k bits n, decBitString x 0 x.length = .ok (v, k, bits, n) → (v + k ≤ x.length ↔ n ≤ x.length ∧ k ≤ n)) := by
  rcases header x with ⟨c, hc⟩ | ⟨b, l, N, t, rfl, hb, hl⟩
  · refine ⟨fun v k n h => ?_, fun v k n h => ?_, fun v k n h => ?_, fun v k n h => ?_, fun v k bits n h => ?_⟩
    · unfold decOctetString at h; rw [hc] at h; cases h
    · unfold decSequence decConstructed at h; rw [hc] at h; cases h
    · unfold decSet decConstructed at h; rw [hc] at h; cases h
    · unfold decInteger at h; rw [hc] at h; cases h
    · unfold decBitString at h; rw [hc] at h; cases h
  · have e := tlv b l t N hb hl
    have hN := LenOctets.lt hl
    have h9 := LenOctets.len_le hl
    have hlen : (b :: l).length = l.length + 1 := rfl
    have key : ∀ v k n, v + k = (b :: l).length + N → v ≤ (b :: l).length + 1 → n = ((b :: l).length + N) % 2 ^ 64 →
        (v + k ≤ (b :: l ++ t).length ↔ n ≤ (b :: l ++ t).length ∧ k ≤ n) := by
      intro v k n h1 h2 h3
      omega
    generalize (b :: l).length = H at e key hlen
    generalize b :: l ++ t = x at e key hx
    refine ⟨fun v k n h => ?_, fun v k n h => ?_, fun v k n h => ?_, fun v k n h => ?_, fun v k bits n h => ?_⟩
    · unfold decOctetString at h
      rw [e, ok_bind] at h
      dsimp only at h
      split at h
      · cases h
      · cases h; exact key _ _ _ rfl (by omega) rfl
    · unfold decSequence decConstructed at h
      rw [e, ok_bind] at h
      dsimp only at h
      split at h
      · cases h
      · cases h; exact key _ _ _ rfl (by omega) rfl
    · unfold decSet decConstructed at h
      rw [e, ok_bind] at h
      dsimp only at h
      split at h
      · cases h
      · cases h; exact key _ _ _ rfl (by omega) rfl
    · unfold decInteger at h
      rw [e, ok_bind] at h
      dsimp only at h
      split at h
      · cases h
      · split at h
        · cases h0 : rd x H with
          | ok v0 =>
            rw [h0, ok_bind] at h
            cases h1 : rd x (H + 1) with
            | ok v1 =>
              simp only [h1, ok_bind] at h
              repeat' split at h
              all_goals first | (cases h; exact key _ _ _ (by omega) (by omega) rfl) | cases h
            | err c =>
              simp only [h1] at h
              repeat' split at h
              all_goals first | (cases h; exact key _ _ _ (by omega) (by omega) rfl) | cases h
            | oob =>
              simp only [h1] at h
              repeat' split at h
              all_goals first | (cases h; exact key _ _ _ (by omega) (by omega) rfl) | cases h
          | err c => rw [h0] at h; cases h
          | oob => rw [h0] at h; cases h
        · cases h; exact key _ _ _ rfl (by omega) rfl
    · unfold decBitString at h
      rw [e, ok_bind] at h
      dsimp only at h
      split at h
      · cases h
      · rename_i hc
        push Not at hc
        cases h0 : rd x H with
        | ok v0 =>
          rw [h0, ok_bind] at h
          cases h1 : rd x 0 with
          | ok v1 =>
            simp only [h1, ok_bind] at h
            repeat' split at h
            all_goals first | (cases h; exact key _ _ _ (by omega) (by omega) rfl) | cases h
          | err c =>
            simp only [h1] at h
            repeat' split at h
            all_goals cases h
          | oob =>
            simp only [h1] at h
            repeat' split at h
            all_goals cases h
        | err c => rw [h0] at h; cases h
        | oob => rw [h0] at h; cases h

/-- To compare the number of octets read with the length of the input is not enough: it wraps around.  This input of ten
octets is accepted as an OCTET STRING of `2^64 - 1` octets, and nine octets are reported as read. -/
theorem C25_caller_check_violated :
    decOctetString [0x04, 0x88, 0xff, 0xff, 0xff, 0xff, 0xff, 0xff, 0xff, 0xff] 0 10 = .ok (10, 2 ^ 64 - 1, 9) := by
  decide +kernel

example : decInteger [0x02, 0x81, 0x02, 0xff] 0 4 = .oob :=
  (C25_integer_exact _).2 ⟨0x02, [0x81, 0x02], 2, .inr (.inr rfl), by decide,
    .long 1 [0x02] (by decide) (by decide) rfl, by decide⟩
example : decBitString [0x03, 0x01] 0 2 = .oob :=
  (C25_bit_string_exact _).2 ⟨0x03, [0x01], 1, rfl, by decide, .short 0x01 (by decide), by decide⟩
example : decBoolean [0x01, 0x01, 0xff] 0 3 ≠ .oob := by decide +kernel

end Verif.Props
