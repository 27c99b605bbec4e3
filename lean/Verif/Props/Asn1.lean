import Verif.Proofs.Asn1c
/-!
# Properties C23–C29, C59, C60: ASN.1

Decoders take the caller's whole memory `buf`, the position `p` of `in` and the length `inl`.  "Inside the supplied
input" means inside `[p, p + inl)`.  `rdm buf q n` are the `n` octets at `q`.
-/
namespace Verif.Props
open Verif Verif.Asn1 Verif.Spec Verif.Spec.Der

/-! ## C23 length octets -/

/-- **C23** (encoding).  Every encoder of a TLV header writes the identifier octet followed by the DER length octets
of the length, nothing else, and reports the number of octets written. -/
theorem C23_encode_der (m : Mem) (p n : Nat) (hn : n < 2 ^ 64) (hp : p + 10 ≤ m.length) :
    ∃ l, DerLen l n ∧
      encSequenceTl m p n = (wrm m p (identifier 0 true 16 :: l), 1 + l.length) ∧
      encSetTl m p n = (wrm m p (identifier 0 true 17 :: l), 1 + l.length) ∧
      encBitStringTl m p n = (wrm m p (identifier 0 true 3 :: l), 1 + l.length) ∧
      encOctetStringTl m p n = (wrm m p (identifier 0 true 4 :: l), 1 + l.length) := by
  have hl := Llen hn
  refine ⟨L n, encLength_der hn, ?_, ?_, ?_, ?_⟩
  all_goals
    first | unfold encSequenceTl | unfold encSetTl | unfold encBitStringTl | unfold encOctetStringTl
    rw [encTl_eq _ _ _ _ _ _ (by omega)]
    rfl

example : encSequenceTl (List.replicate 12 0xEE) 1 300 =
    ([0xEE, 0x30, 0x82, 0x01, 0x2C, 0xEE, 0xEE, 0xEE, 0xEE, 0xEE, 0xEE, 0xEE], 4) := by decide +kernel

/-- **C23** (shortest).  No definite-form encoding of the same length is shorter than the DER one. -/
theorem C23_shortest {l l' : List (BitVec 8)} {n k : Nat} (h : DerLen l n) (h' : LenOctets k l' n) :
    l.length ≤ l'.length := by
  cases h with
  | short n h =>
    exact List.length_pos_of_ne_nil (LenOctets.ne_nil h')
  | long n ds hn hm =>
    obtain ⟨h1, h2, h3⟩ := hm
    generalize hq : n = n' at h'
    cases h' with
    | short b hb => omega
    | long k' ds' g1 g2 g3 =>
      simp only [List.length_cons]
      by_contra hc
      cases ds with
      | nil => simp at h2
      | cons a ds =>
        rw [beVal_cons] at h1
        have ha : 1 ≤ a.toNat := by
          rcases Nat.eq_zero_or_pos a.toNat with h | h
          · exact absurd (congrArg some (BitVec.eq_of_toNat_eq h : a = 0)) h3
          · exact h
        have hb := beVal_lt ds'
        have : 256 ^ ds'.length ≤ 256 ^ ds.length :=
          Nat.pow_le_pow_right (by norm_num) (by rw [List.length_cons] at hc; omega)
        nlinarith

example : DerLen [0x82, 0x01, 0x2C] 300 := .long 300 [0x01, 0x2C] (by omega) ⟨by decide, by decide, by decide⟩

/-- **C23** (decoding).  On an input inside the buffer, the TLV header decoder succeeds exactly on an identifier octet
with tag number below 31 followed by definite-form length octets with at most eight subsequent octets, all within the
input; it then reports exactly their class, constructed bit, tag number, length and position. -/
theorem C23_decode_iff (buf : Mem) (p inl : Nat) (hp : p + inl ≤ buf.length) (t : Tlv) (n : Nat) :
    decTlv buf p inl = .ok (t, n) ↔
      ∃ b l, 1 + l.length ≤ inl ∧ rdm buf p (1 + l.length) = b :: l ∧ b.toNat % 32 ≠ 31 ∧
        LenOctets 8 l t.length ∧
        t.cls.toNat = b.toNat / 64 * 64 ∧ t.pc.toNat = b.toNat / 32 % 2 * 32 ∧ t.num.toNat = b.toNat % 32 ∧
        t.value = p + 1 + l.length ∧ n = (1 + l.length + t.length) % 2 ^ 64 := by
  have ft : ∀ b : Byte, (fields b).1.toNat = b.toNat / 64 * 64 ∧ (fields b).2.1.toNat = b.toNat / 32 % 2 * 32 ∧
      (fields b).2.2.toNat = b.toNat % 32 := by decide +kernel
  constructor
  · intro h
    rcases decTlv_cases hp with ⟨b, l, k, h1, h2, h3, h4⟩ | ⟨c, h1, _⟩
    · rw [decTlv_ok h1 h2 h3 h4] at h
      injection h with h
      injection h with e1 e2
      subst e1; subst e2
      obtain ⟨f1, f2, f3⟩ := ft b
      refine ⟨b, l, h4, ?_, h2, h3, f1, f2, f3, rfl, rfl⟩
      have := h1.rdm
      rwa [List.length_cons, Nat.add_comm] at this
    · rw [h1] at h; exact absurd h (by simp)
  · rintro ⟨b, l, h1, h2, h3, h4, h5, h6, h7, h8, h9⟩
    have hh : Has buf p (b :: l) := has_of (by rw [List.length_cons, Nat.add_comm]; exact h2)
    rw [decTlv_ok hh h3 h4 h1]
    obtain ⟨f1, f2, f3⟩ := ft b
    cases t with
    | mk c pc num len v =>
      simp only at h4 h5 h6 h7 h8 h9
      rw [h9, h8, show (fields b).1 = c from BitVec.eq_of_toNat_eq (by rw [f1, h5]),
        show (fields b).2.1 = pc from BitVec.eq_of_toNat_eq (by rw [f2, h6]),
        show (fields b).2.2 = num from BitVec.eq_of_toNat_eq (by rw [f3, h7])]

example : decTlv [0x30, 0x82, 0x01, 0x2C, 0xAA] 0 5 = .ok (⟨0, 0x20, 16, 300, 4⟩, 304) := by decide +kernel

/-- **C23** (round trip).  The decoder applied to an encoded header, with anything after it, returns the length that
was encoded and consumes exactly the octets written. -/
theorem C23_round_trip (m : Mem) (p n inl : Nat) (hn : n < 2 ^ 64) (hp : p + 10 ≤ m.length)
    (m' : Mem) (k : Nat) (he : encSequenceTl m p n = (m', k)) (hi : k ≤ inl) :
    decTlv m' p inl = .ok (⟨0, 0x20, 16, n, p + k⟩, (k + n) % 2 ^ 64) := by
  have hl := Llen (n := n) (by omega)
  unfold encSequenceTl at he
  rw [encTl_eq _ _ _ _ _ _ (by omega)] at he
  injection he with e1 e2
  subst e1; subst e2
  have := decTlv_ok (inl := inl) (has_wrm (m := m) (p := p) (bs := encIdentifier 0 32 16 :: L n) (by omega)) (by decide)
    (encLength_len (n := n) (by omega)) hi
  rw [this, show fields (encIdentifier 0 32 16) = (0, 0x20, 16) from by decide]
  rw [show p + 1 + (encLength (BitVec.ofNat 64 n)).length = p + (1 + (L n).length) from Nat.add_assoc _ _ _]

example : (encSequenceTl (List.replicate 20 0) 3 70000).2 = 5 := by decide +kernel

/-- **C23** (truncated).  A header cut anywhere is rejected with −1. -/
theorem C23_truncated (buf : Mem) (p inl n : Nat) (b : Byte) (l : List Byte) (hb : b.toNat % 32 ≠ 31)
    (hh : rdm buf p (1 + l.length) = b :: l) (hl : LenOctets 8 l n) (hi : inl < 1 + l.length) :
    decTlv buf p inl = .err (-1) := by
  have h : Has buf p (b :: l) := has_of (by rw [List.length_cons, Nat.add_comm]; exact hh)
  unfold decTlv
  by_cases h0 : inl = 0
  · unfold decIdentifier; rw [if_pos h0]; rfl
  rw [decIdentifier_ok (Has.left (a := [b]) (b := l) h) (by omega) hb, ok_bind]
  simp only []
  have : decLength buf (p + 1) (inl - 1) = .err (-1) := by
    have ht := h.tail
    cases hl with
    | short c hc =>
      unfold decLength; rw [if_pos (by simp at hi; omega)]
    | long k ds h1 h2 h3 =>
      rw [List.length_cons] at hi
      unfold decLength
      by_cases h1' : inl - 1 = 0
      · rw [if_pos h1']
      have e : (BitVec.ofNat 8 (128 + k)).toNat = 128 + k := ofNat8_mod _ (by omega)
      rw [if_neg h1', ht.rd, ok_bind, if_neg (by rw [b_80, e]; omega), if_neg (by rw [b_short, e]; omega)]
      have ek := b_long _ (show 128 ≤ (BitVec.ofNat 8 (128 + k)).toNat by omega)
      rw [e] at ek
      simp only [ek]
      rw [if_neg (by omega), if_pos (by omega)]
  rw [this]; rfl

example : decTlv [0x30, 0x82, 0x01, 0x2C] 0 3 = .err (-1) := by decide +kernel

/-- **C23** (over-long).  The indefinite form and long forms with more than eight subsequent octets are rejected. -/
theorem C23_overlong (buf : Mem) (p inl : Nat) (b c : Byte) (hb : b.toNat % 32 ≠ 31) (hi : 2 ≤ inl)
    (hh : rdm buf p 2 = [b, c]) (hc : c.toNat = 128 ∨ 136 < c.toNat) : decTlv buf p inl = .err (-2) := by
  have h : Has buf p [b, c] := has_of hh
  unfold decTlv
  rw [decIdentifier_ok (Has.left (a := [b]) (b := [c]) h) (by omega) hb, ok_bind]
  simp only []
  have : decLength buf (p + 1) (inl - 1) = .err (-2) := by
    unfold decLength
    rw [if_neg (by omega), h.tail.rd, ok_bind]
    rcases hc with hc | hc
    · rw [if_pos ((b_80 c).2 hc)]
    · rw [if_neg (by rw [b_80]; omega), if_neg (by rw [b_short]; omega)]
      simp only [b_long c (by omega)]
      rw [if_pos (by omega)]
  rw [this]; rfl

example : decTlv (0x30 :: 0x89 :: List.replicate 20 1) 0 22 = .err (-2) := by decide +kernel

/-- **C23** (not canonical).  The decoder is a BER, not a DER, decoder: it also accepts lengths that are not in the
shortest form, with the right value. -/
theorem C23_ber_accepted : decTlv [0x04, 0x82, 0x00, 0x01, 0x55] 0 5 = .ok (⟨0, 0, 4, 1, 4⟩, 5) := by decide +kernel

/-! ## C24 identifier octets -/

/-- **C24.**  For every class, primitive/constructed bit and tag number below 31 the encoder writes the X.690
identifier octet, and the decoder returns the three components. -/
theorem C24_identifier (cls : Fin 4) (con : Bool) (tag : Fin 31) :
    encIdentifier (BitVec.ofNat 8 (64 * cls)) (if con then 0x20 else 0x00) (BitVec.ofNat 8 tag) = identifier cls con tag ∧
    ∀ (buf : Mem) (p inl : Nat), 0 < inl → rdm buf p 1 = [identifier cls con tag] →
      decIdentifier buf p inl = .ok (BitVec.ofNat 8 (64 * cls), if con then 0x20 else 0x00, BitVec.ofNat 8 tag) := by
  have key : ∀ (cls : Fin 4) (con : Bool) (tag : Fin 31),
      encIdentifier (BitVec.ofNat 8 (64 * cls)) (if con then 0x20 else 0x00) (BitVec.ofNat 8 tag)
        = identifier cls con tag ∧ (identifier cls con tag).toNat % 32 ≠ 31 ∧
      fields (identifier cls con tag) = (BitVec.ofNat 8 (64 * cls), if con then 0x20 else 0x00, BitVec.ofNat 8 tag) := by
    decide +kernel
  obtain ⟨k1, k2, k3⟩ := key cls con tag
  refine ⟨k1, fun buf p inl hi h => ?_⟩
  rw [decIdentifier_ok (has_of h) hi k2, k3]

/-- **C24** (high tag numbers).  Multi-octet identifiers are rejected. -/
theorem C24_high_tag (buf : Mem) (p inl : Nat) (b : Byte) (hi : 0 < inl) (h : rdm buf p 1 = [b])
    (hb : b.toNat % 32 = 31) : decIdentifier buf p inl = .err (-2) := by
  have hh : Has buf p [b] := has_of h
  unfold decIdentifier
  rw [if_neg (by omega), hh.rd, ok_bind, if_pos ((id_num _).2 hb)]

example : identifier 2 true 5 = 0xA5 := by decide

/-! ## C25 reads past the input -/

/-- **C25 is violated.**  Decoding a two-octet input succeeds with a value that ends outside the buffer; the BOOLEAN,
INTEGER and BIT STRING decoders then read past its end. -/
theorem C25_violated :
    decOctetString [0x04, 0x05] 0 2 = .ok (2, 5, 7) ∧
    decBoolean [0x01, 0x01] 0 2 = .oob ∧
    decInteger [0x02, 0x02] 0 2 = .oob ∧
    decBitString [0x03, 0x02] 0 2 = .oob := by decide +kernel

/-- **C25** (what holds).  For every input inside the buffer the header reads stay inside the input and the value
starts inside it; OCTET STRING, NULL, SEQUENCE and SET decoding never reads past the input; and the other decoders do
not whenever the declared length fits the input.
Missing: the check that the declared length fits. -/
theorem C25_bounds_partial (buf : Mem) (p inl : Nat) (hp : p + inl ≤ buf.length) :
    (∀ t n, decTlv buf p inl = .ok (t, n) → p < t.value ∧ t.value ≤ p + inl) ∧
    decTlv buf p inl ≠ .oob ∧ decOctetString buf p inl ≠ .oob ∧ decNull buf p inl ≠ .oob ∧
    decSequence buf p inl ≠ .oob ∧ decSet buf p inl ≠ .oob ∧
    ((∀ t n, decTlv buf p inl = .ok (t, n) → t.value + t.length ≤ p + inl) →
      decBoolean buf p inl ≠ .oob ∧ decInteger buf p inl ≠ .oob ∧ decBitString buf p inl ≠ .oob) := by
  rcases decTlv_cases hp with ⟨b, l, k, h1, h2, h3, h4⟩ | ⟨c, h, _⟩
  · have e := decTlv_ok h1 h2 h3 h4
    have hl := List.length_pos_of_ne_nil (LenOctets.ne_nil h3)
    generalize ht : (⟨(fields b).1, (fields b).2.1, (fields b).2.2, k, p + 1 + l.length⟩ : Tlv) = t at e
    have hv : t.value = p + 1 + l.length := by rw [← ht]
    clear ht
    refine ⟨?_, ?_, ?_, ?_, ?_, ?_, ?_⟩
    · intro t' n' he
      rw [e] at he
      injection he with he; injection he with e1 e2
      rw [← e1, hv]; omega
    · rw [e]; simp
    · unfold decOctetString; rw [e, ok_bind]; simp only []; split <;> simp
    · unfold decNull; rw [e, ok_bind]; simp only []; split <;> simp
    · unfold decSequence decConstructed; rw [e, ok_bind]; simp only []; split <;> simp
    · unfold decSet decConstructed; rw [e, ok_bind]; simp only []; split <;> simp
    · intro hfit
      have hf := hfit t _ e
      have rdok : ∀ i, i < t.length → ∃ v, rd buf (t.value + i) = .ok v := fun i hi => ⟨_, rd_lt (by omega)⟩
      refine ⟨?_, ?_, ?_⟩
      · unfold decBoolean; rw [e, ok_bind]; simp only []
        split
        · simp
        · rename_i hc
          push Not at hc
          obtain ⟨v, hv⟩ := rdok 0 (by omega)
          rw [Nat.add_zero] at hv
          rw [hv]; simp
      · unfold decInteger; rw [e, ok_bind]; simp only []
        split
        · simp
        · split
          · rename_i hc1
            obtain ⟨v, hv⟩ := rdok 0 (by omega)
            obtain ⟨w, hw⟩ := rdok 1 (by omega)
            rw [Nat.add_zero] at hv
            rw [hv, hw]
            simp only [ok_bind]
            split
            · split <;> simp
            · split
              · split <;> simp
              · simp
          · simp
      · unfold decBitString; rw [e, ok_bind]; simp only []
        split
        · simp
        · rename_i hc
          push Not at hc
          obtain ⟨v, hv⟩ := rdok 0 (by omega)
          rw [Nat.add_zero] at hv
          rw [hv]
          simp only [ok_bind]
          split
          · simp
          · split
            · simp
            · rw [h1.rd]; simp
  · refine ⟨fun t n he => by rw [h] at he; simp at he, by rw [h]; simp, ?_, ?_, ?_, ?_, fun _ => ⟨?_, ?_, ?_⟩⟩
    · unfold decOctetString; rw [h]; simp
    · unfold decNull; rw [h]; simp
    · unfold decSequence decConstructed; rw [h]; simp
    · unfold decSet decConstructed; rw [h]; simp
    · unfold decBoolean; rw [h]; simp
    · unfold decInteger; rw [h]; simp
    · unfold decBitString; rw [h]; simp

example : decInteger [0x02, 0x02, 0x00, 0x80] 0 4 = .ok (3, 1, 4) := by decide +kernel

/-! ## C26 INTEGER -/

/-- What the INTEGER encoder does: identifier, DER length of the value, then the data; if the first octet is 0x80 or
more it counts one octet more than it writes (the leading zero is overwritten, the last octet keeps its old content). -/
theorem C26_encode (m : Mem) (p : Nat) (data : List Byte) (hn : data.length + 1 < 2 ^ 64)
    (hp : p + 11 + data.length ≤ m.length) :
    ∃ l, DerLen l (data.length + if 0x80#8 ≤ data.getD 0 0 then 1 else 0) ∧
      encInteger m p data = (wrm m p (identifier 0 false 2 :: l ++ data),
        1 + l.length + data.length + if 0x80#8 ≤ data.getD 0 0 then 1 else 0) := by
  have hv : integerValueLength data = data.length + if 0x80#8 ≤ data.getD 0 0 then 1 else 0 := by
    unfold integerValueLength
    cases data with
    | nil => rfl
    | cons a t =>
      rw [if_neg (by simp)]
      by_cases h : 0x80#8 ≤ (a :: t).getD 0 0
      · rw [if_neg (by rw [BitVec.lt_def]; rw [BitVec.le_def] at h; omega), if_pos h, Nat.mod_eq_of_lt hn]
      · rw [if_pos (by rw [BitVec.lt_def]; rw [BitVec.le_def] at h; omega), if_neg h, Nat.add_zero]
  have hlt : integerValueLength data < 2 ^ 64 := by rw [hv]; split <;> omega
  refine ⟨L (integerValueLength data), ?_, ?_⟩
  · rw [← hv]; exact encLength_der hlt
  · have := Llen hlt
    rw [encInteger_eq _ _ _ (by omega)]
    congr 1
    have : (if data ≠ [] ∧ 0x80#8 ≤ data.getD 0 0 then 1 else 0) = if 0x80#8 ≤ data.getD 0 0 then 1 else 0 := by
      cases data with
      | nil => rfl
      | cons a t => simp
    rw [this]; omega

/-- **C26** (exact round-trip condition).  Decoding an encoded integer gives back the bytes exactly when the data is
nonempty, its first octet is below 0x80, and it has no leading zero octet (a single zero octet is fine). -/
theorem C26_round_trip_iff (m : Mem) (p : Nat) (data : List Byte) (hn : data.length + 1 < 2 ^ 63)
    (hp : p + 11 + data.length ≤ m.length) (m' : Mem) (k inl : Nat) (he : encInteger m p data = (m', k))
    (hi : k ≤ inl) :
    (∃ q n, decInteger m' p inl = .ok (q, data.length, n) ∧ rdm m' q data.length = data) ↔
      data ≠ [] ∧ (data.getD 0 0).toNat < 128 ∧ (data.length = 1 ∨ data.getD 0 0 ≠ 0) := by
  have hlt : integerValueLength data < 2 ^ 63 := by
    unfold integerValueLength; split; · omega
    split; · omega
    have := Nat.mod_le (data.length + 1) (2 ^ 64); omega
  have hL := Llen (n := integerValueLength data) (by omega)
  have hlen := encLength_len (n := integerValueLength data) (by omega)
  have h1 : (2 :: L (integerValueLength data) ++ data).length = 1 + (L (integerValueLength data)).length + data.length := by
    rw [List.length_append, List.length_cons]; omega
  rw [encInteger_eq _ _ _ (by omega)] at he
  injection he with e1 e2
  have hH : Has m' p (2 :: L (integerValueLength data) ++ data) := by rw [← e1]; exact has_wrm (by omega)
  have hml : m'.length = m.length := by rw [← e1]; exact wrm_len (by omega)
  cases data with
  | nil =>
    constructor
    · rintro ⟨q, n, h, _⟩
      exfalso
      have hd : decInteger m' p inl = .err (-1) := by
        unfold decInteger
        rw [tlv_at (Has.left (a := 2 :: L 0) hH) (by decide) (encLength_len (by omega)) (by omega)
          (by rw [← e2] at hi; simp at hi; exact hi), ok_bind]
        simp
      rw [hd] at h; exact absurd h (by simp)
    · rintro ⟨h, _⟩; exact absurd rfl h
  | cons a v =>
    simp only [List.getD_cons_zero, List.length_cons] at *
    by_cases h8 : a.toNat < 128
    · have hv : integerValueLength (a :: v) = v.length + 1 := by
        unfold integerValueLength
        rw [if_neg (by simp), if_pos (by rw [BitVec.lt_def]; exact h8)]; rfl
      rw [hv] at hH hlen e2 hL
      have hd := decInteger_at hH hlen (by omega) (inl := inl) (by omega)
      have hr : rdm m' (p + 1 + (L (v.length + 1)).length) (v.length + 1) = a :: v := by
        have := (Has.right (a := 2 :: L (v.length + 1)) hH).rdm
        rwa [List.length_cons, List.length_cons, Nat.add_comm (L _).length 1, ← Nat.add_assoc] at this
      by_cases hv0 : v = []
      · rw [if_pos hv0] at hd
        subst hv0
        refine ⟨fun _ => ⟨by simp, h8, Or.inl rfl⟩, fun _ => ⟨_, _, hd, hr⟩⟩
      · rw [if_neg hv0] at hd
        have hvl := List.length_pos_of_ne_nil hv0
        by_cases ha : a = 0
        · rw [if_pos ha] at hd
          constructor
          · rintro ⟨q, n, h, _⟩
            rw [hd] at h
            split at h
            · exact absurd h (by simp)
            · injection h with h; injection h with _ h; injection h with h _; omega
          · rintro ⟨_, _, h | h⟩
            · omega
            · exact absurd ha h
        · rw [if_neg ha, if_neg (by rintro rfl; simp at h8)] at hd
          exact ⟨fun _ => ⟨by simp, h8, Or.inr ha⟩, fun _ => ⟨_, _, hd, hr⟩⟩
    · constructor
      · rintro ⟨q, n, h, _⟩
        exfalso
        have hv : integerValueLength (a :: v) = v.length + 1 + 1 := by
          unfold integerValueLength
          rw [if_neg (by simp), if_neg (by rw [BitVec.lt_def]; exact h8), List.length_cons,
            Nat.mod_eq_of_lt (by omega)]
        rw [hv] at hH hlen e2 hL
        rw [if_pos ⟨by simp, by rw [BitVec.le_def]; show 128 ≤ _; omega⟩] at e2
        have hx := has_rdm m' (p + 1 + (L (v.length + 1 + 1)).length + (v.length + 1)) 1
        have hxl : (rdm m' (p + 1 + (L (v.length + 1 + 1)).length + (v.length + 1)) 1).length = 1 := rdm_len (by omega)
        generalize rdm m' (p + 1 + (L (v.length + 1 + 1)).length + (v.length + 1)) 1 = x at hx hxl
        have hH2 : Has m' p (2 :: L (v.length + 1 + 1) ++ a :: (v ++ x)) := by
          have := has_append (b := x) hH (by
            rw [List.length_append, List.length_cons, List.length_cons]
            convert hx using 1; omega)
          rwa [List.append_assoc] at this
        have hl2 : (v ++ x).length = v.length + 1 := by rw [List.length_append, hxl]
        have hd := decInteger_at hH2 (by rw [hl2]; exact hlen) (by omega) (inl := inl) (by omega)
        rw [if_neg (by intro h; have := congrArg List.length h; rw [hl2] at this; simp at this),
          if_neg (by rintro rfl; simp at h8)] at hd
        rw [hd] at h
        split at h
        · split at h
          · exact absurd h (by simp)
          · injection h with h; injection h with _ h; injection h with h _; omega
        · injection h with h; injection h with _ h; injection h with h _; omega
      · rintro ⟨_, h, _⟩; exact absurd h h8

/-- **C26 is violated.**  A one-octet integer 0x80 is encoded as two octets `80 EE` where `EE` is whatever was in the
output buffer; it decodes to those two octets. -/
theorem C26_violated :
    encInteger (List.replicate 6 0xEE) 0 [0x80] = ([0x02, 0x02, 0x80, 0xEE, 0xEE, 0xEE], 4) ∧
    decInteger [0x02, 0x02, 0x80, 0xEE, 0xEE, 0xEE] 0 4 = .ok (2, 2, 4) := by decide +kernel

example : encInteger (List.replicate 20 0) 0 [0x12, 0x80] = ([2, 2, 0x12, 0x80] ++ List.replicate 16 0, 4) := by
  decide +kernel

/-- **C26** (valid DER).  For data without leading zeros and first octet below 0x80 the octets written are the DER
encoding of the integer with that big-endian value. -/
theorem C26_der_partial (m : Mem) (p : Nat) (data : List Byte) (hn : data.length + 1 < 2 ^ 64)
    (hp : p + 11 + data.length ≤ m.length) (h0 : data ≠ []) (h1 : (data.getD 0 0).toNat < 128)
    (h2 : data.length = 1 ∨ data.getD 0 0 ≠ 0) :
    IsIntContents data (beVal data) ∧
    IsTlv (rdm (encInteger m p data).1 p (encInteger m p data).2) false 2 data := by
  obtain ⟨l, hl, he⟩ := C26_encode m p data hn hp
  have h8 : ¬ 0x80#8 ≤ data.getD 0 0 := by rw [BitVec.le_def]; show ¬ 128 ≤ _; omega
  rw [if_neg h8] at hl he
  refine ⟨⟨rfl, ?_⟩, l, hl, ?_⟩
  · cases data with
    | nil => exact absurd rfl h0
    | cons a t =>
      refine ⟨a, t, rfl, h1, fun ha b s hb => ?_⟩
      subst hb
      rcases h2 with h2 | h2
      · simp at h2
      · exact absurd ha h2
  · rw [he]
    have hle : (identifier 0 false 2 :: l ++ data).length = 1 + l.length + data.length + 0 := by
      rw [List.length_append, List.length_cons]; omega
    simp only []
    rw [← hle]
    have := LenOctets.len_le (DerLen.toLen (by omega) hl)
    exact rdm_wrm_same (by omega)

/-! ## C27 OCTET STRING, BOOLEAN, NULL, SEQUENCE, SET -/

/-- **C27** OCTET STRING: the octets written are the DER encoding; decoding returns the string and the number of
octets written exactly when the string is nonempty (an empty one is rejected). -/
theorem C27_octet_string (m : Mem) (p : Nat) (data : List Byte) (hn : data.length < 2 ^ 63)
    (hp : p + 10 + data.length ≤ m.length) (m' : Mem) (k inl : Nat) (he : encOctetString m p data = (m', k))
    (hi : k ≤ inl) :
    IsTlv (rdm m' p k) false 4 data ∧
    decOctetString m' p inl = (if data = [] then .err (-1) else .ok (p + k - data.length, data.length, k)) ∧
    rdm m' (p + k - data.length) data.length = data := by
  have hL := Llen (n := data.length) (by omega)
  have h1 : (4 :: L data.length ++ data).length = 1 + (L data.length).length + data.length := by
    rw [List.length_append, List.length_cons]; omega
  rw [encOctetString_eq _ _ _ (by omega)] at he
  injection he with e1 e2
  have hH : Has m' p (4 :: L data.length ++ data) := by rw [← e1]; exact has_wrm (by omega)
  refine ⟨⟨L data.length, encLength_der (by omega), ?_⟩, ?_, ?_⟩
  · rw [← e2, ← h1]; exact hH.rdm
  · rw [decOctet_at (Has.left (a := 4 :: L data.length) hH) (encLength_len (by omega)) hn (by omega)]
    by_cases h0 : data = []
    · rw [if_pos h0, if_pos (by rw [h0]; rfl)]
    · rw [if_neg h0, if_neg (by simpa using h0), ← e2,
        show p + (1 + (L data.length).length + data.length) - data.length = p + 1 + (L data.length).length by omega]
  · have := (Has.right (a := 4 :: L data.length) hH).rdm
    rw [List.length_cons] at this
    rw [show p + k - data.length = p + ((L data.length).length + 1) by omega]
    exact this

/-- **C27** empty octet strings do not round-trip. -/
theorem C27_empty_violated : encOctetString (List.replicate 4 0) 0 [] = ([4, 0, 0, 0], 2) ∧
    decOctetString [4, 0, 0, 0] 0 2 = .err (-1) := by decide +kernel

/-- **C27** BOOLEAN. -/
theorem C27_boolean (m : Mem) (p : Nat) (v : Bool) (hp : p + 3 ≤ m.length) (m' : Mem) (k inl : Nat)
    (he : encBoolean m p v = (m', k)) (hi : k ≤ inl) :
    IsTlv (rdm m' p k) false 1 [if v then 0xFF else 0] ∧ decBoolean m' p inl = .ok (v, k) := by
  rw [encBoolean_eq m p v hp] at he
  injection he with e1 e2
  have hH : Has m' p [1, 1, if v then 0xFF else 0] := by rw [← e1]; exact has_wrm (by omega)
  have h1 : Has m' p (1 :: [1]) := Has.left (a := [1, 1]) hH
  refine ⟨⟨[1], .short 1 (by omega), by rw [← e2]; exact hH.rdm⟩, ?_⟩
  unfold decBoolean
  rw [tlv_at h1 (by decide) (.short 1 (by decide)) (by decide) (by simp; omega), ok_bind]
  simp only []
  rw [if_neg (by decide)]
  have h2 : Has m' (p + 1 + 1) [if v then 0xFF else 0] := hH.tail.tail
  have e : rd m' (p + 1 + [(1 : Byte)].length) = .ok (if v then 0xFF else 0) := h2.rd
  rw [e, ok_bind, ← e2]
  cases v <;> rfl

/-- **C27** NULL: the decoder accepts a primitive tag 5 with length 0 and nothing else. -/
theorem C27_null (buf : Mem) (p inl : Nat) (hp : p + inl ≤ buf.length) (n : Nat) :
    decNull buf p inl = .ok n ↔ ∃ t, decTlv buf p inl = .ok (t, n) ∧ t.pc = 0 ∧ t.num = 5 ∧ t.length = 0 := by
  unfold decNull
  rcases decTlv_cases hp with ⟨b, l, k, h1, h2, h3, h4⟩ | ⟨c, h, _⟩
  · rw [decTlv_ok h1 h2 h3 h4, ok_bind]
    simp only []
    constructor
    · intro h
      split at h
      · exact absurd h (by simp)
      · rename_i hc
        push Not at hc
        injection h with h
        exact ⟨_, by rw [← h], hc⟩
    · rintro ⟨t, h, h5⟩
      injection h with h; injection h with e1 e2
      rw [← e1] at h5
      simp only at h5
      rw [if_neg (by push Not; exact h5), e2]
  · rw [h]; simp

example : decNull [5, 0] 0 2 = .ok 2 := by decide +kernel

/-- **C27** SEQUENCE and SET headers: decoding the header with the contents after it returns the contents and the
number of octets, exactly when the contents are nonempty (an empty SEQUENCE or SET is rejected). -/
theorem C27_sequence_set (m : Mem) (p n inl : Nat) (hn : n < 2 ^ 63) (hp : p + 10 ≤ m.length)
    (m' : Mem) (k : Nat) :
    (encSequenceTl m p n = (m', k) → k ≤ inl →
      decSequence m' p inl = if n = 0 then .err (-1) else .ok (p + k, n, k + n)) ∧
    (encSetTl m p n = (m', k) → k ≤ inl →
      decSet m' p inl = if n = 0 then .err (-1) else .ok (p + k, n, k + n)) := by
  have hl := Llen (n := n) (by omega)
  constructor
  all_goals
    intro he hi
    first | unfold encSequenceTl at he | unfold encSetTl at he
    rw [encTl_eq _ _ _ _ _ _ (by omega)] at he
    injection he with e1 e2
    subst e1; subst e2
  · have := decCons_at (inl := inl) 16 (by decide) (has_wrm (m := m) (p := p) (bs := 0x30 :: L n) (by omega))
      (encLength_len (n := n) (by omega)) hn hi
    rw [Nat.add_assoc p 1] at this
    exact this
  · have := decCons_at (inl := inl) 17 (by decide) (has_wrm (m := m) (p := p) (bs := 0x31 :: L n) (by omega))
      (encLength_len (n := n) (by omega)) hn hi
    rw [Nat.add_assoc p 1] at this
    exact this

example : encSetTl (List.replicate 12 0) 0 200 = ([0x31, 0x81, 200] ++ List.replicate 9 0, 3) := by decide +kernel

/-! ## C28 BIT STRING -/

/-- **C28** (what the decoder returns).  For a bit string of `bits` bits in `⌈bits/8⌉` octets the octets written are
the DER encoding; decoding returns the right octets, but always `8·octets − 3` bits. -/
theorem C28_bit_string (m : Mem) (p : Nat) (data : List Byte) (bits : Nat) (hn : data.length + 1 < 2 ^ 60)
    (hb : data.length = (bits + 7) / 8)
    (hp : p + 11 + data.length ≤ m.length) (m' : Mem) (k inl : Nat) (he : encBitString m p data bits = (m', k))
    (hi : k ≤ inl) :
    IsTlv (rdm m' p k) false 3 (BitVec.ofNat 8 (8 * data.length - bits) :: data) ∧
    decBitString m' p inl = .ok (p + k - data.length, data.length, (8 * data.length + (2 ^ 64 - 3)) % 2 ^ 64, k) ∧
    rdm m' (p + k - data.length) data.length = data := by
  have hbv : bitStringValueLength bits = data.length + 1 := by
    unfold bitStringValueLength
    rw [Nat.mod_eq_of_lt (show bits + 7 < 2 ^ 64 by omega), ← hb, Nat.mod_eq_of_lt (by omega)]
  have hu : (8 - bits % 8) % 8 = 8 * data.length - bits := by omega
  have hL := Llen (n := data.length + 1) (by omega)
  have h1 : (3 :: L (data.length + 1) ++ BitVec.ofNat 8 (8 * data.length - bits) :: data).length =
      1 + (L (data.length + 1)).length + 1 + data.length := by
    rw [List.length_append, List.length_cons, List.length_cons]; omega
  rw [encBitString_eq _ _ _ _ (by rw [hbv]; omega), hbv, hu] at he
  injection he with e1 e2
  have hH : Has m' p (3 :: L (data.length + 1) ++ BitVec.ofNat 8 (8 * data.length - bits) :: data) := by
    rw [← e1]; exact has_wrm (by omega)
  have hu7 : (BitVec.ofNat 8 (8 * data.length - bits)).toNat ≤ 7 := by rw [ofNat8_mod _ (by omega)]; omega
  refine ⟨⟨L (data.length + 1), encLength_der (by omega), ?_⟩, ?_, ?_⟩
  · rw [← e2, ← h1]; exact hH.rdm
  · rw [decBit_at hH (encLength_len (by omega)) hn hu7 (by
        rintro rfl
        have : 8 * ([] : List Byte).length - bits = 0 := by simp
        rw [this]; rfl) (by omega)]
    rw [← e2]
    have es : szSub (8 * data.length) 3 = (8 * data.length + (2 ^ 64 - 3)) % 2 ^ 64 := by
      unfold szSub
      rw [show (3 : Nat) % 2 ^ 64 = 3 from rfl, Nat.add_sub_assoc (by norm_num)]
    rw [es, show p + 1 + (L (data.length + 1)).length + 1 = p + (1 + (L (data.length + 1)).length + 1 + data.length)
      - data.length by omega]
    rw [show 1 + (encLength (BitVec.ofNat 64 (data.length + 1))).length + (data.length + 1)
      = 1 + (L (data.length + 1)).length + 1 + data.length by show 1 + (L (data.length + 1)).length + _ = _; omega]
  · have := (Has.right (a := 3 :: L (data.length + 1)) hH).tail.rdm
    rw [List.length_cons] at this
    rw [show p + k - data.length = p + ((L (data.length + 1)).length + 1) + 1 by omega]
    exact this

/-- **C28** (exact condition).  The decoded number of bits is the encoded one exactly when it is 5 modulo 8. -/
theorem C28_round_trip_iff (m : Mem) (p : Nat) (data : List Byte) (bits : Nat) (hn : data.length + 1 < 2 ^ 60)
    (hb : data.length = (bits + 7) / 8)
    (hp : p + 11 + data.length ≤ m.length) (m' : Mem) (k inl : Nat) (he : encBitString m p data bits = (m', k))
    (hi : k ≤ inl) :
    (∃ q l n, decBitString m' p inl = .ok (q, l, bits, n)) ↔ bits % 8 = 5 := by
  obtain ⟨_, h, _⟩ := C28_bit_string m p data bits hn hb hp m' k inl he hi
  have e : (8 * data.length + (2 ^ 64 - 3)) % 2 ^ 64 = bits ↔ bits % 8 = 5 := by omega
  generalize (8 * data.length + (2 ^ 64 - 3)) % 2 ^ 64 = b at h e
  rw [h, ← e]
  constructor
  · rintro ⟨q, l, n, e⟩
    injection e with e; injection e with _ e; injection e with _ e; injection e with e _
  · intro h5
    rw [h5]
    exact ⟨_, _, _, rfl⟩

/-- **C28 is violated**: two octets of bits come back as 13 bits. -/
theorem C28_violated : (encBitString (List.replicate 16 0) 0 [0xAB, 0xCD] 16).2 = 5 ∧
    decBitString (encBitString (List.replicate 16 0) 0 [0xAB, 0xCD] 16).1 0 5 = .ok (3, 2, 13, 5) := by decide +kernel

/-! ## C29 SM2 signatures -/

/-- **C29** (exact).  Encoding a 64-byte signature and decoding the result (with anything after it) returns the
signature and the number of octets written exactly when the first octets of `r` and of `s` are both between 0x01 and
0x7F; otherwise decoding fails with −1. -/
theorem C29_signature (m : Mem) (p : Nat) (R S : List Byte) (hR : R.length = 32) (hS : S.length = 32)
    (hp : p + 72 ≤ m.length) :
    ∃ m' k, sigEncode m p R S = .ok (m', k) ∧ sigOutl R S = .ok k ∧ k ≤ sigMaxOutl ∧
      ∀ inl, k ≤ inl → inl < 2 ^ 64 →
        if (0 < (R.getD 0 0).toNat ∧ (R.getD 0 0).toNat < 128) ∧ (0 < (S.getD 0 0).toNat ∧ (S.getD 0 0).toNat < 128)
        then ∃ r s, sigDecode m' p inl = .ok (r, s, k) ∧ rdm m' r 32 = R ∧ rdm m' s 32 = S
        else sigDecode m' p inl = .err (-1) := by
  have hr := vlen_cases R
  have hs := vlen_cases S
  obtain ⟨m', he, hl, h0, h1, h2, _⟩ := sigEncode_layout m p R S hR hS (by omega)
  have ho : sigOutl R S = .ok (6 + vlen R + vlen S) := by
    unfold sigOutl
    rw [integerOutl32 hR, integerOutl32 hS, ok_bind, ok_bind, tlvOutl_eq (by omega)]
    have : (L (2 + vlen R + (2 + vlen S))).length = 1 := L1 (by omega)
    rw [this]; congr 1; omega
  refine ⟨m', _, he, ho, by show _ ≤ 96; omega, fun inl hi hi2 => ?_⟩
  have hd := sigDecode_at hR hS (by omega) h0 h1 h2 hi hi2
  by_cases hg : Good R ∧ Good S
  · rw [if_pos hg] at hd
    rw [if_pos (show (0 < (R.getD 0 0).toNat ∧ (R.getD 0 0).toNat < 128) ∧ (0 < (S.getD 0 0).toNat ∧
      (S.getD 0 0).toNat < 128) from hg)]
    have hvR : vlen R = 32 := by unfold vlen; rw [if_pos hg.1.2]
    have hvS : vlen S = 32 := by unfold vlen; rw [if_pos hg.2.2]
    have rR := (Has.right (a := 2 :: L (vlen R)) h1).rdm
    have rS := (Has.right (a := 2 :: L (vlen S)) h2).rdm
    rw [List.length_cons, L_vlen, hR] at rR
    rw [List.length_cons, L_vlen, hS, hvR] at rS
    refine ⟨p + 4, p + 38, ?_, rR, rS⟩
    rw [hd, hvR, hvS]
  · rw [if_neg hg] at hd
    rw [if_neg (show ¬ ((0 < (R.getD 0 0).toNat ∧ (R.getD 0 0).toNat < 128) ∧ (0 < (S.getD 0 0).toNat ∧
      (S.getD 0 0).toNat < 128)) from hg)]
    exact hd

/-- **C29 is violated** for a signature whose `r` starts with 0x80. -/
theorem C29_violated : ∃ m' k, sigEncode (List.replicate 80 0) 0 (0x80 :: List.replicate 31 1) (List.replicate 32 1)
    = .ok (m', k) ∧ sigDecode m' 0 k = .err (-1) := by
  obtain ⟨m', k, h1, _, hk, h2⟩ := C29_signature (List.replicate 80 0) 0 (0x80 :: List.replicate 31 1)
    (List.replicate 32 1) rfl rfl (by simp)
  refine ⟨m', k, h1, ?_⟩
  have := h2 k le_rfl (by have : sigMaxOutl = 96 := rfl; omega)
  rwa [if_neg (by decide)] at this

example : ∃ m' k r s, sigEncode (List.replicate 80 0) 0 (List.replicate 32 0x11) (List.replicate 32 0x22) = .ok (m', k)
    ∧ sigDecode m' 0 k = .ok (r, s, 70) ∧ rdm m' r 32 = List.replicate 32 0x11 := by
  refine ⟨(sigEncode (List.replicate 80 0) 0 (List.replicate 32 0x11) (List.replicate 32 0x22) |>
    fun | .ok x => x.1 | _ => []), 70, 4, 38, ?_, ?_, ?_⟩ <;> decide +kernel

/-! ## C59 predicted output lengths -/

/-- **C59.**  For lengths below 2^56 the `*_outl` helpers return exactly the number of octets the encoders report, and
the `*_MAX_OUTL` constants bound it. -/
theorem C59_outl (m : Mem) (p : Nat) (data : List Byte) (bits n : Nat) (hn : data.length + 1 < 2 ^ 56) (hn2 : n < 2 ^ 56)
    (hb : data.length = (bits + 7) / 8) (hp : p + 11 + data.length ≤ m.length) :
    integerOutl data = .ok (encInteger m p data).2 ∧
    tlvOutl data.length = .ok (encOctetString m p data).2 ∧
    bitStringOutl bits = .ok (encBitString m p data bits).2 ∧
    tlvOutl n = .ok ((encSequenceTl m p n).2 + n) ∧ tlvOutl n = .ok ((encSetTl m p n).2 + n) ∧
    (∀ v, (encBoolean m p v).2 = 3) ∧
    (encInteger m p data).2 ≤ integerMaxOutl data.length ∧
    (encOctetString m p data).2 ≤ tlvMaxOutl data.length ∧
    (encBitString m p data bits).2 ≤ bitStringMaxOutl bits ∧
    (encSequenceTl m p n).2 + n ≤ tlvMaxOutl n := by
  have hbv : bitStringValueLength bits = data.length + 1 := by
    unfold bitStringValueLength
    rw [Nat.mod_eq_of_lt (show bits + 7 < 2 ^ 64 by omega), ← hb, Nat.mod_eq_of_lt (by omega)]
  obtain ⟨l, hl, he⟩ := C26_encode m p data (by omega) hp
  have hv : integerValueLength data = data.length + if 0x80#8 ≤ data.getD 0 0 then 1 else 0 := by
    unfold integerValueLength
    cases data with
    | nil => rfl
    | cons a t =>
      rw [if_neg (by simp)]
      by_cases h : 0x80#8 ≤ (a :: t).getD 0 0
      · rw [if_neg (by rw [BitVec.lt_def]; rw [BitVec.le_def] at h; omega), if_pos h, Nat.mod_eq_of_lt (by omega)]
      · rw [if_pos (by rw [BitVec.lt_def]; rw [BitVec.le_def] at h; omega), if_neg h, Nat.add_zero]
  have hvlt : integerValueLength data ≤ data.length + 1 := by rw [hv]; split <;> omega
  have l1 := Llen (n := integerValueLength data) (by omega)
  have l2 := Llen (n := data.length) (by omega)
  have l3 := Llen (n := data.length + 1) (by omega)
  have l4 := Llen (n := n) (by omega)
  have eI := encInteger_eq m p data (by omega)
  have eI2 : (encInteger m p data).2 = 1 + (L (integerValueLength data)).length + integerValueLength data := by
    rw [eI, hv]
    have : (if data ≠ [] ∧ 0x80#8 ≤ data.getD 0 0 then 1 else 0) = if 0x80#8 ≤ data.getD 0 0 then 1 else 0 := by
      cases data with
      | nil => rfl
      | cons a t => simp
    simp only [this]; omega
  have eO : (encOctetString m p data).2 = 1 + (L data.length).length + data.length := by
    rw [encOctetString_eq _ _ _ (by omega)]
  have eB : (encBitString m p data bits).2 = 1 + (L (data.length + 1)).length + (data.length + 1) := by
    rw [encBitString_eq _ _ _ _ (by rw [hbv]; omega), hbv]; simp only []; omega
  have eS : (encSequenceTl m p n).2 = 1 + (L n).length := by unfold encSequenceTl; rw [encTl_eq _ _ _ _ _ _ (by omega)]
  have eS' : (encSetTl m p n).2 = 1 + (L n).length := by unfold encSetTl; rw [encTl_eq _ _ _ _ _ _ (by omega)]
  refine ⟨?_, ?_, ?_, ?_, ?_, fun _ => rfl, ?_, ?_, ?_, ?_⟩
  · unfold integerOutl; rw [tlvOutl_eq (by omega), eI2]
  · rw [tlvOutl_eq (by omega), eO]
  · unfold bitStringOutl; rw [hbv, tlvOutl_eq (by omega), eB]
  · rw [tlvOutl_eq hn2, eS]
  · rw [tlvOutl_eq hn2, eS']
  · rw [eI2]; unfold integerMaxOutl tlvMaxOutl
    rw [Nat.mod_eq_of_lt (show data.length + 1 < 2 ^ 64 by omega), Nat.mod_eq_of_lt (by omega)]; omega
  · rw [eO]; unfold tlvMaxOutl; rw [Nat.mod_eq_of_lt (by omega)]; omega
  · rw [eB]; unfold bitStringMaxOutl tlvMaxOutl
    rw [Nat.mod_eq_of_lt (show 1 + (bits + 7 / 8) < 2 ^ 64 by omega), Nat.mod_eq_of_lt (by omega)]; omega
  · rw [eS]; unfold tlvMaxOutl; rw [Nat.mod_eq_of_lt (by omega)]; omega

/-- **C59 is violated** for huge lengths: for a value of 2^56 octets or more the helper writes nine octets into its
eight-octet scratch array. -/
theorem C59_overflow (n : Nat) (hn : n < 2 ^ 64) : tlvOutl n = .oob ↔ 2 ^ 56 ≤ n := by
  unfold tlvOutl
  simp only []
  constructor
  · intro h
    by_contra hc
    rw [if_neg (by rw [encLength_ge9 hn]; exact hc)] at h
    exact absurd h (by simp)
  · intro h
    rw [if_pos ((encLength_ge9 hn).2 h)]

example : tlvOutl 300 = .ok 304 := by decide +kernel

/-! ## C60 SM2 keys and ciphertexts -/

/-- **C60** private key: round-trips exactly when its first octet is between 0x01 and 0x7F, and is rejected
otherwise. -/
theorem C60_private_key (m : Mem) (p : Nat) (D : List Byte) (hD : D.length = 32) (hp : p + 35 ≤ m.length)
    (m' : Mem) (k inl : Nat) (he : encInteger m p D = (m', k)) (hi : k ≤ inl) :
    if 0 < (D.getD 0 0).toNat ∧ (D.getD 0 0).toNat < 128
    then privDecode m' p inl = .ok (p + 2, k) ∧ rdm m' (p + 2) 32 = D
    else privDecode m' p inl = .err (-1) := by
  have hr := vlen_cases D
  rw [encInteger32 hD _ _ (by omega)] at he
  injection he with e1 e2
  have hH : Has m' p (2 :: L (vlen D) ++ D) := by rw [← e1]; exact has_wrm (by omega)
  have hl : m'.length = m.length := by rw [← e1]; exact wrm_len (by rw [len_field D hD]; omega)
  have hf := decField (inl := inl) hD hH (by omega) (by omega)
  unfold privDecode
  generalize decInteger = D2 at *
  by_cases hg : Good D
  · rw [if_pos hg] at hf
    rw [if_pos (show 0 < (D.getD 0 0).toNat ∧ (D.getD 0 0).toNat < 128 from hg)]
    refine ⟨good_field hf.1 ?_, ?_⟩
    · simp only []
      rw [if_neg (by simp), ← e2, hf.2]
    · have := (Has.right (a := 2 :: L (vlen D)) hH).rdm
      rwa [List.length_cons, L_vlen, hD] at this
  · rw [if_neg hg] at hf
    rw [if_neg (show ¬ (0 < (D.getD 0 0).toNat ∧ (D.getD 0 0).toNat < 128) from hg)]
    exact bad_field hf (fun q l n h => by simp only []; rw [if_pos h])

/-- **C60** public key: every 65-octet key round-trips. -/
theorem C60_public_key (m : Mem) (p : Nat) (Q : List Byte) (hQ : Q.length = 65) (hp : p + 76 ≤ m.length)
    (m' : Mem) (k inl : Nat) (he : encBitString m p Q (65 * 8) = (m', k)) (hi : k ≤ inl) :
    ∃ q, pubDecode m' p inl = .ok (q, k) ∧ rdm m' q 65 = Q := by
  obtain ⟨_, h1, h2⟩ := C28_bit_string m p Q (65 * 8) (by omega) (by omega) (by omega) m' k inl he hi
  rw [hQ] at h1 h2
  refine ⟨p + k - 65, ?_, h2⟩
  unfold pubDecode
  rw [h1]
  rfl

/-- **C60** public key: the decoder accepts exactly bit strings of 65 octets.  The `&&` in the length check is
harmless because the decoded bit count is never a multiple of 8 (C28). -/
theorem C60_public_key_length (buf : Mem) (p inl q n : Nat) (h : pubDecode buf p inl = .ok (q, n)) :
    ∃ bits, decBitString buf p inl = .ok (q, 65, bits, n) := by
  unfold pubDecode at h
  cases hd : decBitString buf p inl with
  | err c => rw [hd] at h; exact absurd h (by simp [orFail])
  | oob => rw [hd] at h; exact absurd h (by simp [orFail])
  | ok x =>
    obtain ⟨q', l, bits, n'⟩ := x
    have hb : bits % 8 ≠ 0 := by
      unfold decBitString at hd
      cases ht : decTlv buf p inl with
      | err c => rw [ht] at hd; exact absurd hd (by simp)
      | oob => rw [ht] at hd; exact absurd hd (by simp)
      | ok y =>
        obtain ⟨t, n2⟩ := y
        rw [ht, ok_bind] at hd
        simp only [] at hd
        split at hd
        · exact absurd hd (by simp)
        rename_i hc
        push Not at hc
        cases hv : rd buf t.value with
        | err c => rw [hv] at hd; exact absurd hd (by simp)
        | oob => rw [hv] at hd; exact absurd hd (by simp)
        | ok v0 =>
          rw [hv, ok_bind] at hd
          split at hd
          · exact absurd hd (by simp)
          split at hd
          · exact absurd hd (by simp)
          cases hi0 : rd buf p with
          | err c => rw [hi0] at hd; exact absurd hd (by simp)
          | oob => rw [hi0] at hd; exact absurd hd (by simp)
          | ok b =>
            rw [hi0, ok_bind] at hd
            injection hd with hd; injection hd with _ hd; injection hd with _ hd; injection hd with hd _
            have h3 : b.toNat % 32 = 3 := by
              unfold decTlv decIdentifier at ht
              by_cases h0 : inl = 0
              · rw [if_pos h0] at ht; exact absurd ht (by simp)
              rw [if_neg h0, hi0, ok_bind] at ht
              by_cases hn : b &&& 0b00011111#8 = 0b00011111#8
              · rw [if_pos hn] at ht; exact absurd ht (by simp)
              rw [if_neg hn, ok_bind] at ht
              simp only [] at ht
              cases hlen : decLength buf (p + 1) (inl - 1) with
              | err c => rw [hlen] at ht; exact absurd ht (by simp)
              | oob => rw [hlen] at ht; exact absurd ht (by simp)
              | ok z =>
                rw [hlen, ok_bind] at ht
                injection ht with ht; injection ht with ht _
                have := hc.1
                rw [← ht] at this
                simp only at this
                revert this
                clear hd hi0 hn ht
                revert b; decide +kernel
            rw [← hd]
            unfold szSub
            have hbl := b.isLt
            omega
    rw [hd] at h
    simp only [orFail, ok_bind] at h
    split at h
    · exact absurd h (by simp)
    · rename_i hc
      injection h with h; injection h with e1 e2
      have : l = 65 := by
        by_contra hl
        exact hc ⟨hl, by omega⟩
      exact ⟨bits, by rw [e1, e2, this]⟩

/-- **C60** ciphertext: the SEQUENCE `{X, Y, HASH, CipherText}` round-trips, with the predicted number of octets,
exactly when the first octets of `X` and `Y` are between 0x01 and 0x7F and the two octet strings are nonempty;
otherwise decoding fails with −1. -/
theorem C60_ciphertext (m : Mem) (p : Nat) (X Y H C : List Byte) (hX : X.length = 32) (hY : Y.length = 32)
    (hN : H.length + C.length + 100 < 2 ^ 56) (hp : p + 110 + H.length + C.length ≤ m.length) :
    ∃ m' k, cipherEncode m p X Y H C = .ok (m', k) ∧ cipherOutl X Y H C = .ok k ∧ k ≤ cipherMaxOutl H.length C.length ∧
      ∀ inl, k ≤ inl → inl < 2 ^ 64 →
        if (0 < (X.getD 0 0).toNat ∧ (X.getD 0 0).toNat < 128) ∧ (0 < (Y.getD 0 0).toNat ∧ (Y.getD 0 0).toNat < 128) ∧
          H ≠ [] ∧ C ≠ []
        then ∃ x y h c, cipherDecode m' p inl = .ok (x, y, (h, H.length), (c, C.length), k) ∧
          rdm m' x 32 = X ∧ rdm m' y 32 = Y ∧ rdm m' h H.length = H ∧ rdm m' c C.length = C
        else cipherDecode m' p inl = .err (-1) := by
  have hx := vlen_cases X
  have hy := vlen_cases Y
  have lh := Llen (n := H.length) (by omega)
  have lc := Llen (n := C.length) (by omega)
  have hdef : cipherLen X Y H C = 2 + vlen X + (2 + vlen Y) + (1 + (L H.length).length + H.length)
    + (1 + (L C.length).length + C.length) := rfl
  have ln := Llen (n := cipherLen X Y H C) (by omega)
  obtain ⟨m', s, hs, he, hl, h0, h1, h2, h3, h4⟩ := cipherEncode_layout m p X Y H C hX hY (by omega) (by omega)
  have ho : cipherOutl X Y H C = .ok (1 + (L (cipherLen X Y H C)).length + cipherLen X Y H C) := by
    unfold cipherOutl
    rw [integerOutl32 hX, integerOutl32 hY, tlvOutl_eq (by omega), tlvOutl_eq (by omega)]
    simp only [ok_bind]
    rw [show (2 + vlen X + (2 + vlen Y) + (1 + (encLength (BitVec.ofNat 64 H.length)).length + H.length) +
      (1 + (encLength (BitVec.ofNat 64 C.length)).length + C.length)) % 2 ^ 64 = cipherLen X Y H C from
        Nat.mod_eq_of_lt (by rw [← hdef]; omega)]
    exact tlvOutl_eq (by omega)
  have hmax : 1 + (L (cipherLen X Y H C)).length + cipherLen X Y H C ≤ cipherMaxOutl H.length C.length := by
    have e1 : integerMaxOutl 32 = 43 := rfl
    unfold cipherMaxOutl tlvMaxOutl
    rw [e1]
    omega
  refine ⟨m', _, he, ho, hmax, fun inl hi hi2 => ?_⟩
  have hd := cipherDecode_at hX hY (by omega) hs (by omega) h0 h1 h2 h3 h4 hi hi2
  by_cases hg : Good X ∧ Good Y ∧ H ≠ [] ∧ C ≠ []
  · rw [if_pos hg] at hd
    rw [if_pos (show (0 < (X.getD 0 0).toNat ∧ (X.getD 0 0).toNat < 128) ∧ (0 < (Y.getD 0 0).toNat ∧
      (Y.getD 0 0).toNat < 128) ∧ H ≠ [] ∧ C ≠ [] from hg)]
    have hvX : vlen X = 32 := by unfold vlen; rw [if_pos hg.1.2]
    have hvY : vlen Y = 32 := by unfold vlen; rw [if_pos hg.2.1.2]
    have rX := (Has.right (a := 2 :: L (vlen X)) h1).rdm
    have rY := (Has.right (a := 2 :: L (vlen Y)) h2).rdm
    have rH := (Has.right (a := 4 :: L H.length) h3).rdm
    have rC := (Has.right (a := 4 :: L C.length) h4).rdm
    rw [List.length_cons, L_vlen, hX] at rX
    rw [List.length_cons, L_vlen, hY, hvX] at rY
    rw [List.length_cons, hvX, hvY] at rH rC
    refine ⟨_, _, _, _, hd, rX, ?_, ?_, ?_⟩
    · rw [show s + 36 = s + (2 + 32) + (1 + 1) by omega]; exact rY
    · rw [show s + 69 + (L H.length).length = s + (2 + 32) + (2 + 32) + ((L H.length).length + 1) by omega]; exact rH
    · rw [show s + 69 + (L H.length).length + H.length + 1 + (L C.length).length = s + (2 + 32) + (2 + 32) +
        (1 + (L H.length).length + H.length) + ((L C.length).length + 1) by omega]; exact rC
  · rw [if_neg hg] at hd
    rw [if_neg (show ¬ ((0 < (X.getD 0 0).toNat ∧ (X.getD 0 0).toNat < 128) ∧ (0 < (Y.getD 0 0).toNat ∧
      (Y.getD 0 0).toNat < 128) ∧ H ≠ [] ∧ C ≠ []) from hg)]
    exact hd

example : cipherEncode (List.replicate 120 0) 0 (List.replicate 32 0x11) (List.replicate 32 0x22)
    [1, 2] [3, 4, 5] = .ok ([0x30, 77, 2, 32] ++ List.replicate 32 0x11 ++ [2, 32] ++ List.replicate 32 0x22 ++
      [4, 2, 1, 2, 4, 3, 3, 4, 5] ++ List.replicate 41 0, 79) := by decide +kernel

end Verif.Props
