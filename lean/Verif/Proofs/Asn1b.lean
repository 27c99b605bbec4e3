import Verif.Proofs.Asn1
/-! # Helper lemmas: ASN.1 values and round trips -/
namespace Verif.Asn1
open Verif Verif.Spec Verif.Spec.Der

theorem has_append {buf : Mem} {p : Nat} {a b : List Byte} (h1 : Has buf p a) (h2 : Has buf (p + a.length) b) :
    Has buf p (a ++ b) := by
  obtain ⟨t, h1⟩ := h1
  obtain ⟨u, h2⟩ := h2
  rw [← List.drop_drop, h1, List.drop_left] at h2
  exact ⟨u, by rw [h1, h2, List.append_assoc]⟩

theorem has_wrm_disj {m : Mem} {p q : Nat} {a b : List Byte} (h : Has m q a) (hr : p + b.length ≤ m.length)
    (hd : q + a.length ≤ p ∨ p + b.length ≤ q) : Has (wrm m p b) q a := by
  apply has_of
  rw [rdm_wrm_disj hr hd]; exact h.rdm

theorem ofNat8_mod (n : Nat) (h : n < 256) : (BitVec.ofNat 8 n).toNat = n := by
  rw [BitVec.toNat_ofNat]; omega

theorem sum_lt {l : List Byte} {n : Nat} (h : LenOctets 8 l n) (hn : n < 2 ^ 63) : 1 + l.length + n < 2 ^ 64 := by
  have := LenOctets.len_le h; omega

/-- The TLV decoder on a complete header. -/
theorem tlv_at {buf : Mem} {p inl n : Nat} {b : Byte} {l : List Byte} (h : Has buf p (b :: l))
    (hb : b.toNat % 32 ≠ 31) (hl : LenOctets 8 l n) (hn : n < 2 ^ 63) (hi : 1 + l.length ≤ inl) :
    decTlv buf p inl = .ok (⟨(fields b).1, (fields b).2.1, (fields b).2.2, n, p + 1 + l.length⟩, 1 + l.length + n) := by
  rw [decTlv_ok h hb hl hi, Nat.mod_eq_of_lt (sum_lt hl hn)]

theorem msb (b : Byte) : (b &&& 0x80#8 = 0) ↔ b.toNat < 128 := by revert b; decide +kernel
theorem msb' (b : Byte) : (b &&& 0x80#8 = 0x80#8) ↔ 128 ≤ b.toNat := by revert b; decide +kernel

/-- The INTEGER decoder on a complete TLV with value `a :: v`. -/
theorem decInteger_at {buf : Mem} {p inl : Nat} {a : Byte} {v l : List Byte}
    (h : Has buf p (2 :: l ++ a :: v)) (hl : LenOctets 8 l (v.length + 1)) (hn : v.length + 1 < 2 ^ 63)
    (hi : 1 + l.length ≤ inl) :
    decInteger buf p inl =
      (if v = [] then .ok (p + 1 + l.length, 1, 1 + l.length + 1)
       else if a = 0 then
         (if (v.getD 0 0).toNat < 128 then .err (-1)
          else .ok (p + 1 + l.length + 1, v.length, 1 + l.length + (v.length + 1)))
       else if a = 0xff then
         (if 128 ≤ (v.getD 0 0).toNat then .err (-1)
          else .ok (p + 1 + l.length, v.length + 1, 1 + l.length + (v.length + 1)))
       else .ok (p + 1 + l.length, v.length + 1, 1 + l.length + (v.length + 1))) := by
  unfold decInteger
  rw [tlv_at (Has.left (a := 2 :: l) h) (by decide) hl hn hi, ok_bind]
  have ha : Has buf (p + 1 + l.length) (a :: v) := by
    have := Has.right (a := 2 :: l) h
    rwa [List.length_cons, Nat.add_comm _ 1, ← Nat.add_assoc] at this
  simp only []
  rw [if_neg (by rw [show (fields 2).2.1 = 0 from by decide, show (fields 2).2.2 = 2 from by decide]; simp)]
  cases v with
  | nil => simp
  | cons c w =>
    rw [if_pos (by simp), ha.rd, ok_bind, if_neg (show ¬ (c :: w = []) by simp), ha.tail.rd]
    simp only [ok_bind, List.getD_cons_zero]
    by_cases h0 : a = 0
    · rw [if_pos h0, if_pos h0]
      by_cases h1 : c.toNat < 128
      · rw [if_pos h1, if_pos ((msb c).2 h1)]
      · rw [if_neg h1, if_neg (fun h => h1 ((msb c).1 h))]; rfl
    · rw [if_neg h0, if_neg h0]
      by_cases h1 : a = 0xff
      · rw [if_pos h1, if_pos h1]
        by_cases h2 : 128 ≤ c.toNat
        · rw [if_pos h2, if_pos ((msb' c).2 h2)]
        · rw [if_neg h2, if_neg (fun h => h2 ((msb' c).1 h))]
      · rw [if_neg h1, if_neg h1]

theorem decOctet_at {buf : Mem} {p inl n : Nat} {l : List Byte} (h : Has buf p (4 :: l)) (hl : LenOctets 8 l n)
    (hn : n < 2 ^ 63) (hi : 1 + l.length ≤ inl) :
    decOctetString buf p inl = if n = 0 then .err (-1) else .ok (p + 1 + l.length, n, 1 + l.length + n) := by
  unfold decOctetString
  rw [tlv_at h (by decide) hl hn hi, ok_bind]
  simp only []
  rw [show (fields 4).2.2 = 4 from by decide]
  by_cases h0 : n = 0
  · rw [if_pos (Or.inr h0), if_pos h0]
  · rw [if_neg (by simp [h0]), if_neg h0]

theorem decCons_at {buf : Mem} {p inl n : Nat} {l : List Byte} (tag : Byte) (ht : tag.toNat < 31)
    (h : Has buf p ((0x20 ||| tag) :: l))
    (hl : LenOctets 8 l n) (hn : n < 2 ^ 63) (hi : 1 + l.length ≤ inl) :
    decConstructed tag buf p inl = if n = 0 then .err (-1) else .ok (p + 1 + l.length, n, 1 + l.length + n) := by
  have hf : fields (0x20 ||| tag) = (0, 0x20, tag) ∧ (0x20 ||| tag).toNat % 32 ≠ 31 := by
    clear h; revert tag; decide +kernel
  unfold decConstructed
  rw [tlv_at h hf.2 hl hn hi, ok_bind]
  simp only [hf.1]
  by_cases h0 : n = 0
  · rw [if_pos (Or.inr (Or.inr h0)), if_pos h0]
  · rw [if_neg (by simp [h0]), if_neg h0]

theorem decBit_at {buf : Mem} {p inl : Nat} {u : Byte} {v l : List Byte}
    (h : Has buf p (3 :: l ++ u :: v)) (hl : LenOctets 8 l (v.length + 1)) (hn : v.length + 1 < 2 ^ 60)
    (hu : u.toNat ≤ 7) (h0 : v = [] → u = 0) (hi : 1 + l.length ≤ inl) :
    decBitString buf p inl = .ok (p + 1 + l.length + 1, v.length, szSub (8 * v.length) 3, 1 + l.length + (v.length + 1)) := by
  unfold decBitString
  rw [tlv_at (Has.left (a := 3 :: l) h) (by decide) hl (by omega) hi, ok_bind]
  have ha : Has buf (p + 1 + l.length) (u :: v) := by
    have := Has.right (a := 3 :: l) h
    rwa [List.length_cons, Nat.add_comm _ 1, ← Nat.add_assoc] at this
  simp only []
  rw [if_neg (by rw [show (fields 3).2.2 = 3 from by decide]; simp), ha.rd, ok_bind]
  rw [if_neg (by
      rintro ⟨h1, h2⟩
      exact h2 (h0 (List.eq_nil_of_length_eq_zero (by omega)))),
    if_neg (by rw [not_not, BitVec.le_def]; exact hu)]
  have h3 : Has buf p (3 :: (l ++ u :: v)) := h
  rw [h3.rd, ok_bind]
  show Res.ok (_, v.length + 1 - 1, szSub (8 * (v.length + 1 - 1) % 2 ^ 64) 3, _) = _
  rw [Nat.add_sub_cancel, Nat.mod_eq_of_lt (by omega)]

theorem szSub_eq {a b : Nat} (h : b ≤ a) (ha : a < 2 ^ 64) : szSub a b = a - b := by
  unfold szSub
  rw [Nat.mod_eq_of_lt (show b < 2 ^ 64 by omega)]
  rw [show a + 2 ^ 64 - b = (a - b) + 2 ^ 64 by omega, Nat.add_mod_right, Nat.mod_eq_of_lt (by omega)]

/-! ## The 32-byte INTEGER fields of the SM2 structures -/

/-- First octet strictly between 0 and 0x80. -/
def Good (R : List Byte) : Prop := 0 < (R.getD 0 0).toNat ∧ (R.getD 0 0).toNat < 128

instance (R : List Byte) : Decidable (Good R) := by unfold Good; infer_instance

/-- `integerValueLength` for a 32-byte field. -/
def vlen (R : List Byte) : Nat := if (R.getD 0 0).toNat < 128 then 32 else 33

theorem ivl32 {R : List Byte} (h : R.length = 32) : integerValueLength R = vlen R := by
  unfold integerValueLength vlen
  rw [if_neg (by omega), h]
  by_cases hc : (R.getD 0 0).toNat < 128
  · rw [if_pos hc, if_pos (by rw [BitVec.lt_def]; exact hc)]
  · rw [if_neg hc, if_neg (by rw [BitVec.lt_def]; exact hc)]

theorem vlen_cases (R : List Byte) : vlen R = 32 ∨ vlen R = 33 := by unfold vlen; split_ifs <;> simp

theorem L_vlen (R : List Byte) : (L (vlen R)).length = 1 := by
  rcases vlen_cases R with h | h <;> rw [h] <;> decide

theorem integerOutl32 {R : List Byte} (h : R.length = 32) : integerOutl R = .ok (2 + vlen R) := by
  unfold integerOutl
  rw [ivl32 h, tlvOutl_eq (by rcases vlen_cases R with h | h <;> omega)]
  show Res.ok (1 + (L (vlen R)).length + vlen R) = _
  rw [L_vlen]

theorem encInteger32 {R : List Byte} (h : R.length = 32) (m : Mem) (p : Nat) (hp : p + 34 ≤ m.length) :
    encInteger m p R = (wrm m p (2 :: L (vlen R) ++ R), 2 + vlen R) := by
  have e := encInteger_eq m p R (by rw [ivl32 h, L_vlen]; omega)
  rw [ivl32 h, L_vlen] at e
  rw [e]
  congr 1
  unfold vlen
  by_cases hc : (R.getD 0 0).toNat < 128
  · rw [if_pos hc, if_neg (by rintro ⟨_, h2⟩; rw [BitVec.le_def] at h2; exact absurd h2 (by show ¬ 128 ≤ _; omega)), h]
  · rw [if_neg hc, if_pos ⟨by intro h0; rw [h0] at h; simp at h, by rw [BitVec.le_def]; show 128 ≤ _; omega⟩, h]

/-- Decoding a field written by `encInteger`: succeeds with 32 octets exactly when the field is good. -/
theorem decField {buf : Mem} {p inl : Nat} {R : List Byte} (hR : R.length = 32)
    (h : Has buf p (2 :: L (vlen R) ++ R)) (hb : p + 2 + vlen R ≤ buf.length) (hi : 2 ≤ inl) :
    if Good R then decInteger buf p inl = .ok (p + 2, 32, 34) ∧ vlen R = 32
    else (∃ c, decInteger buf p inl = .err c) ∨ ∃ q k n, decInteger buf p inl = .ok (q, k, n) ∧ k ≠ 32 := by
  have hv : ∃ v, v.length = vlen R ∧ Has buf p (2 :: L (vlen R) ++ v) ∧ v.getD 0 0 = R.getD 0 0 := by
    refine ⟨rdm buf (p + 2) (vlen R), rdm_len hb, ?_, ?_⟩
    · apply has_append (Has.left h)
      rw [List.length_cons, L_vlen]
      exact has_rdm _ _ _
    · have hr := (Has.right (a := 2 :: L (vlen R)) h).rdm
      rw [List.length_cons, L_vlen, hR] at hr
      have h1 : (rdm buf (p + 2) (vlen R)).take 32 = rdm buf (p + 2) 32 :=
        rdm_take _ _ _ _ (by rcases vlen_cases R with h | h <;> omega)
      have hr0 : R.getD 0 0 = (rdm buf (p + 2) 32).getD 0 0 := by rw [show rdm buf (p + 2) 32 = R from hr]
      rw [hr0, ← h1]
      simp [List.getD_eq_getElem?_getD, List.getElem?_take]
  obtain ⟨v, hl, hH, hv0⟩ := hv
  obtain ⟨a, w, rfl⟩ : ∃ a w, v = a :: w := by
    cases v with
    | nil => rcases vlen_cases R with h | h <;> rw [h] at hl <;> simp at hl
    | cons a w => exact ⟨a, w, rfl⟩
  rw [List.getD_cons_zero] at hv0
  rw [List.length_cons] at hl
  have hlt : vlen R < 2 ^ 63 := by rcases vlen_cases R with h | h <;> omega
  have hd := decInteger_at (inl := inl) hH (by rw [hl]; exact encLength_len (by omega)) (by omega)
    (by rw [L_vlen]; exact hi)
  have hw : w ≠ [] := by
    intro h0; rw [h0] at hl
    rcases vlen_cases R with h | h <;> rw [h] at hl <;> simp at hl
  rw [if_neg hw, L_vlen] at hd
  by_cases hg : Good R
  · rw [if_pos hg]
    have hg' := hg
    unfold Good at hg
    rw [← hv0] at hg
    have hv32 : vlen R = 32 := by unfold vlen; rw [if_pos hg'.2]
    rw [if_neg (by rintro rfl; simp at hg), if_neg (by rintro rfl; simp at hg)] at hd
    rw [hv32] at hl
    rw [hd, show w.length = 31 by omega]
    exact ⟨rfl, hv32⟩
  · rw [if_neg hg]
    by_cases ha : a = 0
    · rw [if_pos ha] at hd
      have hv32 : vlen R = 32 := by unfold vlen; rw [if_pos (by rw [← hv0, ha]; decide)]
      by_cases hc : (w.getD 0 0).toNat < 128
      · rw [if_pos hc] at hd; exact Or.inl ⟨_, hd⟩
      · rw [if_neg hc] at hd; exact Or.inr ⟨_, _, _, hd, by omega⟩
    · rw [if_neg ha] at hd
      have h128 : ¬ (R.getD 0 0).toNat < 128 := by
        intro hc
        apply hg
        refine ⟨?_, hc⟩
        rw [← hv0]
        rcases Nat.eq_zero_or_pos a.toNat with h | h
        · exact absurd (BitVec.eq_of_toNat_eq h) ha
        · exact h
      have hv33 : vlen R = 33 := by unfold vlen; rw [if_neg h128]
      by_cases hf : a = 0xff
      · rw [if_pos hf] at hd
        by_cases hc : 128 ≤ (w.getD 0 0).toNat
        · rw [if_pos hc] at hd; exact Or.inl ⟨_, hd⟩
        · rw [if_neg hc] at hd; exact Or.inr ⟨_, _, _, hd, by omega⟩
      · rw [if_neg hf] at hd; exact Or.inr ⟨_, _, _, hd, by omega⟩

end Verif.Asn1
