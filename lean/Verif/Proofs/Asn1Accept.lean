import Verif.Proofs.AsnMem
import Verif.Spec.DerSig
import Verif.Props.Asn1Bounds
/-! # Lemmas for C107: inversion of the decoders without a bound on the declared length -/
namespace Verif.Asn1
open Verif Verif.Spec Verif.Spec.Der Verif.Props.BoundsAux

theorem rd_ok_iff {buf : Mem} {p : Nat} {b : Byte} : rd buf p = .ok b ↔ buf[p]? = some b := by
  unfold rd
  cases h : buf[p]? with
  | none => simp
  | some c => simp

theorem lengthLoop_fits {buf : Mem} : ∀ (k p : Nat) (r v : W64), lengthLoop buf p k r = .ok v → k = 0 ∨ p + k ≤ buf.length
  | 0, _, _, _, _ => .inl rfl
  | k + 1, p, r, v, h => by
    right
    rw [lengthLoop] at h
    obtain ⟨b, hb, h⟩ := bind_ok h
    have hp : p < buf.length := by
      rw [rd_ok_iff] at hb
      exact (List.getElem?_eq_some_iff.1 hb).1
    rcases lengthLoop_fits k (p + 1) _ v h with h0 | h0 <;> omega

theorem decLength_inv {buf : Mem} {p inl n k : Nat} (h : decLength buf p inl = .ok (n, k)) :
    ∃ l, Has buf p l ∧ LenOctets 8 l n ∧ k = l.length ∧ l.length ≤ inl := by
  have h0 := h
  unfold decLength at h
  split at h
  · cases h
  rename_i hi
  obtain ⟨b, hb, h⟩ := bind_ok h
  have hb' := rd_ok_iff.1 hb
  obtain ⟨hp, hbe⟩ := List.getElem?_eq_some_iff.1 hb'
  split at h
  · cases h
  rename_i h80
  split at h
  · rename_i hs
    have hs := (b_short b).1 hs
    cases h
    refine ⟨[b], by rw [← hbe]; exact has_one hp, .short b hs, rfl, by simp; omega⟩
  · rename_i hs
    have hs : ¬b.toNat < 128 := fun c => hs ((b_short b).2 c)
    have h80 : ¬b.toNat = 128 := fun c => h80 ((b_80 b).2 c)
    have ek := b_long b (by omega)
    simp only [ek] at h
    split at h
    · cases h
    rename_i h8
    split at h
    · cases h
    rename_i hin
    obtain ⟨v, hv, h⟩ := bind_ok h
    have hf : p + 1 + (b.toNat - 128) ≤ buf.length := by
      rcases lengthLoop_fits _ _ _ _ hv with h1 | h1 <;> omega
    have hlen : (rdm buf (p + 1) (b.toNat - 128)).length = b.toNat - 128 := rdm_len (by omega)
    have eb : b = BitVec.ofNat 8 (128 + (b.toNat - 128)) := by
      apply BitVec.eq_of_toNat_eq; rw [BitVec.toNat_ofNat]; have := b.isLt; omega
    have hc : Has buf p (b :: rdm buf (p + 1) (b.toNat - 128)) := by
      have := has_cons hp (has_rdm buf (p + 1) (b.toNat - 128))
      rwa [hbe] at this
    have hL : LenOctets 8 (b :: rdm buf (p + 1) (b.toNat - 128)) (beVal (rdm buf (p + 1) (b.toNat - 128))) := by
      have := LenOctets.long (maxOctets := 8) (b.toNat - 128) (rdm buf (p + 1) (b.toNat - 128)) (by omega) (by omega) hlen
      rwa [← eb] at this
    have hll : (b :: rdm buf (p + 1) (b.toNat - 128)).length ≤ inl := by rw [List.length_cons, hlen]; omega
    rw [decLength_ok hc hL hll] at h0
    obtain ⟨e1, e2⟩ := Prod.mk.inj (Res.ok.inj h0)
    exact ⟨_, hc, by rw [← e1]; exact hL, e2.symm, hll⟩

theorem decTlv_inv {buf : Mem} {p inl k : Nat} {t : Tlv} (h : decTlv buf p inl = .ok (t, k)) :
    ∃ b l n, Has buf p (b :: l) ∧ b.toNat % 32 ≠ 31 ∧ LenOctets 8 l n ∧ 1 + l.length ≤ inl ∧
      t = ⟨(fields b).1, (fields b).2.1, (fields b).2.2, n, p + 1 + l.length⟩ ∧ k = (1 + l.length + n) % 2 ^ 64 := by
  have h0 := h
  unfold decTlv at h
  obtain ⟨⟨c, pc, num⟩, hid, h⟩ := bind_ok h
  obtain ⟨⟨len, m⟩, hlen, h⟩ := bind_ok h
  obtain ⟨l, hl, hL, _, hle⟩ := decLength_inv hlen
  unfold decIdentifier at hid
  split at hid
  · cases hid
  rename_i hi
  obtain ⟨b, hb, hid⟩ := bind_ok hid
  split at hid
  · cases hid
  rename_i h31
  obtain ⟨hp, hbe⟩ := List.getElem?_eq_some_iff.1 (rd_ok_iff.1 hb)
  have hc : Has buf p (b :: l) := by
    have := has_cons hp hl
    rwa [hbe] at this
  have hb31 : b.toNat % 32 ≠ 31 := fun c => h31 ((id_num b).2 c)
  have e := decTlv_ok hc hb31 hL (show 1 + l.length ≤ inl by omega)
  rw [e] at h0
  obtain ⟨e1, e2⟩ := Prod.mk.inj (Res.ok.inj h0)
  exact ⟨b, l, len, hc, hb31, hL, by omega, e1.symm, e2.symm⟩

theorem f_pc20 (b : Byte) : (fields b).2.1 = 0x20 ↔ b.toNat / 32 % 2 = 1 := by
  revert b; decide +kernel

theorem decSequence_iff {buf : Mem} {p inl d n k : Nat} : decSequence buf p inl = .ok (d, n, k) ↔
    ∃ b l, Has buf p (b :: l) ∧ b.toNat % 64 = 48 ∧ LenOctets 8 l n ∧ n ≠ 0 ∧ 1 + l.length ≤ inl ∧
      d = p + 1 + l.length ∧ k = (1 + l.length + n) % 2 ^ 64 := by
  unfold decSequence decConstructed
  constructor
  · intro h
    obtain ⟨⟨t, k'⟩, ht, h⟩ := bind_ok h
    obtain ⟨b, l, m, h1, h2, h3, h4, rfl, rfl⟩ := decTlv_inv ht
    dsimp only at h
    split at h
    · cases h
    rename_i hc
    push Not at hc
    cases h
    have c1 := (f_pc20 b).1 hc.1
    have c2 : b.toNat % 32 = 16 := (f_num b 16).1 hc.2.1
    exact ⟨b, l, h1, by omega, h3, hc.2.2, h4, rfl, rfl⟩
  · rintro ⟨b, l, h1, h2, h3, h4, h5, rfl, rfl⟩
    rw [decTlv_ok h1 (by omega) h3 h5, ok_bind]
    dsimp only
    rw [if_neg]
    push Not
    exact ⟨(f_pc20 b).2 (by omega), (f_num b 16).2 (by show _ = 16; omega), h4⟩

theorem top_bit (c : Byte) : (c &&& 0x80#8 = 0) ↔ c.toNat < 128 := by revert c; decide +kernel
theorem top_bit' (c : Byte) : (c &&& 0x80#8 = 0x80#8) ↔ 128 ≤ c.toNat := by revert c; decide +kernel

theorem decInteger_iff {buf : Mem} {p inl d k : Nat} : decInteger buf p inl = .ok (d, 32, k) ↔
    ∃ b l n o, Has buf p (b :: l) ∧ b.toNat % 64 = 2 ∧ LenOctets 8 l n ∧ 1 + l.length ≤ inl ∧
      Magnitude n o (buf.drop (p + 1 + l.length)) ∧ d = p + 1 + l.length + o ∧ k = 1 + l.length + n := by
  unfold decInteger
  constructor
  · intro h
    obtain ⟨⟨t, k'⟩, ht, h⟩ := bind_ok h
    obtain ⟨b, l, n, h1, h2, h3, h4, rfl, rfl⟩ := decTlv_inv ht
    have h9 := LenOctets.len_le h3
    dsimp only at h
    split at h
    · cases h
    rename_i hc
    push Not at hc
    obtain ⟨c1, c2, c3⟩ := hc
    have c1 := (f_pc b).1 c1
    have c2 : b.toNat % 32 = 2 := (f_num b 2).1 c2
    split at h
    · obtain ⟨v0, r0, h⟩ := bind_ok h
      have r0 := rd_ok_iff.1 r0
      split at h
      · rename_i e0
        obtain ⟨v1, r1, h⟩ := bind_ok h
        have r1 := rd_ok_iff.1 r1
        split at h
        · cases h
        rename_i ht
        obtain ⟨e1, e2⟩ := Prod.mk.inj (Res.ok.inj h)
        obtain ⟨e2, e3⟩ := Prod.mk.inj e2
        have ht : ¬v1.toNat < 128 := fun c => ht ((top_bit v1).2 c)
        refine ⟨b, l, n, 1, h1, by omega, h3, h4, .inr ⟨by omega, rfl, ?_, v1, ?_, by omega⟩, e1.symm, ?_⟩
        · rw [List.getElem?_drop, Nat.add_zero, r0, e0]
        · rw [List.getElem?_drop, r1]
        · rw [← e3, Nat.mod_eq_of_lt (by omega)]
      · rename_i e0
        split at h
        · rename_i ef
          obtain ⟨v1, r1, h⟩ := bind_ok h
          have r1 := rd_ok_iff.1 r1
          split at h
          · cases h
          rename_i ht
          obtain ⟨e1, e2⟩ := Prod.mk.inj (Res.ok.inj h)
          obtain ⟨e2, e3⟩ := Prod.mk.inj e2
          have ht : ¬128 ≤ v1.toNat := fun c => ht ((top_bit' v1).2 c)
          refine ⟨b, l, n, 0, h1, by omega, h3, h4, .inl ⟨e2, rfl, v0, ?_, e0, fun _ => ⟨v1, ?_, by omega⟩⟩, e1.symm, ?_⟩
          · rw [List.getElem?_drop, Nat.add_zero, r0]
          · rw [List.getElem?_drop, r1]
          · rw [← e3, Nat.mod_eq_of_lt (by omega)]
        · rename_i ef
          obtain ⟨e1, e2⟩ := Prod.mk.inj (Res.ok.inj h)
          obtain ⟨e2, e3⟩ := Prod.mk.inj e2
          refine ⟨b, l, n, 0, h1, by omega, h3, h4, .inl ⟨e2, rfl, v0, ?_, e0, fun c => absurd c ef⟩, e1.symm, ?_⟩
          · rw [List.getElem?_drop, Nat.add_zero, r0]
          · rw [← e3, Nat.mod_eq_of_lt (by omega)]
    · obtain ⟨e1, e2⟩ := Prod.mk.inj (Res.ok.inj h)
      obtain ⟨e2, e3⟩ := Prod.mk.inj e2
      omega
  · rintro ⟨b, l, n, o, h1, h2, h3, h4, hm, rfl, rfl⟩
    have h9 := LenOctets.len_le h3
    have hn : 32 ≤ n ∧ n ≤ 33 := by rcases hm with ⟨rfl, _⟩ | ⟨rfl, _⟩ <;> omega
    rw [decTlv_ok h1 (by omega) h3 h4, ok_bind]
    dsimp only
    rw [if_neg (by
      push Not
      exact ⟨(f_pc b).2 (by omega), (f_num b 2).2 (by show _ = 2; omega), by omega⟩), if_pos (by omega),
      Nat.mod_eq_of_lt (show 1 + l.length + n < 2 ^ 64 by omega)]
    rcases hm with ⟨rfl, rfl, a, ha, a0, af⟩ | ⟨rfl, rfl, ha, c, hc, hc8⟩
    · rw [List.getElem?_drop, Nat.add_zero] at ha
      rw [rd_ok_iff.2 ha, ok_bind, if_neg a0]
      by_cases hf : a = 0xff
      · obtain ⟨c, hc, hc8⟩ := af hf
        rw [List.getElem?_drop] at hc
        rw [if_pos hf, rd_ok_iff.2 hc, ok_bind, if_neg (by rw [top_bit']; omega)]
        rfl
      · rw [if_neg hf]; rfl
    · rw [List.getElem?_drop, Nat.add_zero] at ha
      rw [List.getElem?_drop] at hc
      rw [rd_ok_iff.2 ha, ok_bind, if_pos rfl, rd_ok_iff.2 hc, ok_bind, if_neg (by rw [top_bit]; omega)]

theorem szSub_szSub {a b : Nat} (ha : a < 2 ^ 64) (hb : b < 2 ^ 64) : szSub a (szSub a b) = b := by
  unfold szSub
  omega

theorem seven (c : Byte) : c ≤ 7#8 ↔ c.toNat ≤ 7 := by
  rw [BitVec.le_def]; rfl

/-- `decBitString` with any number of unused bits. -/
theorem decBitString_iff {buf : Mem} {p inl d k : Nat} : (∃ bits, decBitString buf p inl = .ok (d, 65, bits, k)) ↔
    ∃ b l c, Has buf p (b :: l) ∧ b.toNat % 32 = 3 ∧ LenOctets 8 l 66 ∧ 1 + l.length ≤ inl ∧
      buf[p + 1 + l.length]? = some c ∧ c.toNat ≤ 7 ∧ d = p + 1 + l.length + 1 ∧ k = 1 + l.length + 66 := by
  unfold decBitString
  generalize szSub = f
  constructor
  · rintro ⟨bits, h⟩
    obtain ⟨⟨t, k'⟩, ht, h⟩ := bind_ok h
    obtain ⟨b, l, n, h1, h2, h3, h4, rfl, rfl⟩ := decTlv_inv ht
    have h9 := LenOctets.len_le h3
    dsimp only at h
    split at h
    · cases h
    rename_i hc
    push Not at hc
    obtain ⟨v0, r0, h⟩ := bind_ok h
    split at h
    · cases h
    split at h
    · cases h
    rename_i h7
    obtain ⟨in0, r1, h⟩ := bind_ok h
    obtain ⟨e1, e2⟩ := Prod.mk.inj (Res.ok.inj h)
    obtain ⟨e2, e3⟩ := Prod.mk.inj e2
    obtain ⟨e3, e4⟩ := Prod.mk.inj e3
    obtain rfl : n = 66 := by omega
    rw [not_not, seven] at h7
    refine ⟨b, l, v0, h1, (f_num b 3).1 hc.1, h3, h4, rd_ok_iff.1 r0, h7, e1.symm, ?_⟩
    rw [← e4, Nat.mod_eq_of_lt (by omega)]
  · rintro ⟨b, l, c, h1, h2, h3, h4, h5, h6, rfl, rfl⟩
    have h9 := LenOctets.len_le h3
    rw [decTlv_ok h1 (by omega) h3 h4, ok_bind]
    dsimp only
    rw [if_neg (by push Not; exact ⟨(f_num b 3).2 h2, by decide⟩), rd_ok_iff.2 h5, ok_bind, if_neg (by simp),
      if_neg (by rw [not_not, seven]; exact h6), h1.rd, ok_bind, Nat.mod_eq_of_lt (show 1 + l.length + 66 < 2 ^ 64 by omega)]
    exact ⟨_, rfl⟩

/-- `sigDecode` with any subtraction. -/
def sigG (f : Nat → Nat → Nat) (buf : Mem) (p inl : Nat) : Res (Nat × Nat × Nat) := do
  let (sv, sl, n) ← orFail (decSequence buf p inl)
  let inl' := f inl n
  let (r, rl, n1) ← orFail (decInteger buf sv sl)
  if rl ≠ 32 then .err (-1)
  else do
    let sv := sv + n1
    let sl := f sl n1
    let (s, sl2, _) ← orFail (decInteger buf sv sl)
    if sl2 ≠ 32 then .err (-1) else .ok (r, s, f inl inl')

theorem sigDecode_G : sigDecode = sigG szSub := rfl

theorem sigG_iff (f : Nat → Nat → Nat) {buf : Mem} {p inl r s k : Nat} : sigG f buf p inl = .ok (r, s, k) ↔
    ∃ sv sl n n1 n2, decSequence buf p inl = .ok (sv, sl, n) ∧ decInteger buf sv sl = .ok (r, 32, n1) ∧
      decInteger buf (sv + n1) (f sl n1) = .ok (s, 32, n2) ∧ k = f inl (f inl n) := by
  unfold sigG
  constructor
  · intro h
    obtain ⟨⟨sv, sl, nn⟩, h1, h⟩ := bind_ok h
    dsimp only at h
    obtain ⟨⟨r', rl, k1⟩, h2, h⟩ := bind_ok h
    dsimp only at h
    split at h
    · cases h
    rename_i hr
    rw [not_not] at hr
    subst hr
    obtain ⟨⟨s', sl', k2⟩, h3, h⟩ := bind_ok h
    dsimp only at h
    split at h
    · cases h
    rename_i hs
    rw [not_not] at hs
    subst hs
    obtain ⟨rfl, e2⟩ := Prod.mk.inj (Res.ok.inj h)
    obtain ⟨rfl, e3⟩ := Prod.mk.inj e2
    exact ⟨sv, sl, nn, k1, k2, orFail_ok h1, orFail_ok h2, orFail_ok h3, e3.symm⟩
  · rintro ⟨sv, sl, n, n1, n2, h1, h2, h3, rfl⟩
    rw [h1]
    simp only [orFail, ok_bind]
    rw [h2]
    simp only [ok_bind]
    rw [if_neg (by simp), h3]
    simp only [ok_bind]
    rw [if_neg (by simp)]

theorem decOctetString_iff {buf : Mem} {p inl d n k : Nat} : decOctetString buf p inl = .ok (d, n, k) ↔
    ∃ b l, Has buf p (b :: l) ∧ b.toNat % 32 = 4 ∧ LenOctets 8 l n ∧ n ≠ 0 ∧ 1 + l.length ≤ inl ∧
      d = p + 1 + l.length ∧ k = (1 + l.length + n) % 2 ^ 64 := by
  unfold decOctetString
  constructor
  · intro h
    obtain ⟨⟨t, k'⟩, ht, h⟩ := bind_ok h
    obtain ⟨b, l, m, h1, h2, h3, h4, rfl, rfl⟩ := decTlv_inv ht
    dsimp only at h
    split at h
    · cases h
    rename_i hc
    push Not at hc
    cases h
    exact ⟨b, l, h1, (f_num b 4).1 hc.1, h3, hc.2, h4, rfl, rfl⟩
  · rintro ⟨b, l, h1, h2, h3, h4, h5, rfl, rfl⟩
    rw [decTlv_ok h1 (by omega) h3 h5, ok_bind]
    dsimp only
    rw [if_neg (by push Not; exact ⟨(f_num b 4).2 h2, h4⟩)]

/-- `cipherDecode` with any subtraction. -/
def ciphG (f : Nat → Nat → Nat) (buf : Mem) (p inl : Nat) : Res (Nat × Nat × (Nat × Nat) × (Nat × Nat) × Nat) := do
  let (sv, sl, n) ← orFail (decSequence buf p inl)
  let inl' := f inl n
  let (x, xl, n1) ← orFail (decInteger buf sv sl)
  if xl ≠ 32 then .err (-1)
  else do
    let sv := sv + n1
    let sl := f sl n1
    let (y, yl, n2) ← orFail (decInteger buf sv sl)
    if yl ≠ 32 then .err (-1)
    else do
      let sv := sv + n2
      let sl := f sl n2
      let (h, hl, n3) ← orFail (decOctetString buf sv sl)
      let sv := sv + n3
      let sl := f sl n3
      let (c, cl, _) ← orFail (decOctetString buf sv sl)
      .ok (x, y, (h, hl), (c, cl), f inl inl')

theorem cipherDecode_G : cipherDecode = ciphG szSub := rfl

theorem ciphG_iff (f : Nat → Nat → Nat) {buf : Mem} {p inl x y h hl c cl k : Nat} :
    ciphG f buf p inl = .ok (x, y, (h, hl), (c, cl), k) ↔
    ∃ sv sl n n1 n2 n3 n4, decSequence buf p inl = .ok (sv, sl, n) ∧ decInteger buf sv sl = .ok (x, 32, n1) ∧
      decInteger buf (sv + n1) (f sl n1) = .ok (y, 32, n2) ∧
      decOctetString buf (sv + n1 + n2) (f (f sl n1) n2) = .ok (h, hl, n3) ∧
      decOctetString buf (sv + n1 + n2 + n3) (f (f (f sl n1) n2) n3) = .ok (c, cl, n4) ∧ k = f inl (f inl n) := by
  unfold ciphG
  constructor
  · intro e
    obtain ⟨⟨sv, sl, nn⟩, h1, e⟩ := bind_ok e
    dsimp only at e
    obtain ⟨⟨r', rl, k1⟩, h2, e⟩ := bind_ok e
    dsimp only at e
    split at e
    · cases e
    rename_i hr
    rw [not_not] at hr
    subst hr
    obtain ⟨⟨s', sl', k2⟩, h3, e⟩ := bind_ok e
    dsimp only at e
    split at e
    · cases e
    rename_i hs
    rw [not_not] at hs
    subst hs
    obtain ⟨⟨h', hl', k3⟩, h4, e⟩ := bind_ok e
    dsimp only at e
    obtain ⟨⟨c', cl', k4⟩, h5, e⟩ := bind_ok e
    dsimp only at e
    simp only [Res.ok.injEq, Prod.mk.injEq] at e
    obtain ⟨rfl, rfl, ⟨rfl, rfl⟩, ⟨rfl, rfl⟩, ek⟩ := e
    exact ⟨sv, sl, nn, k1, k2, k3, k4, orFail_ok h1, orFail_ok h2, orFail_ok h3, orFail_ok h4, orFail_ok h5, ek.symm⟩
  · rintro ⟨sv, sl, n, n1, n2, n3, n4, h1, h2, h3, h4, h5, rfl⟩
    rw [h1]
    simp only [orFail, ok_bind]
    rw [h2]
    simp only [ok_bind]
    rw [if_neg (by simp), h3]
    simp only [ok_bind]
    rw [if_neg (by simp), h4]
    simp only [ok_bind]
    rw [h5]
    simp only [ok_bind]

theorem Has.split {buf : Mem} {p : Nat} {w : List Byte} (h : Has buf p w) : buf.drop p = w ++ buf.drop (p + w.length) := by
  obtain ⟨t, ht⟩ := h
  rw [← List.drop_drop, ht, List.drop_left]

theorem Has.lt {buf : Mem} {p : Nat} {b : Byte} {l : List Byte} (h : Has buf p (b :: l)) : p < buf.length := by
  have := congrArg List.length h.split
  simp at this
  omega

theorem split_take (buf : Mem) (p n : Nat) : buf.drop p = (buf.drop p).take n ++ buf.drop (p + n) := by
  rw [← List.drop_drop, List.take_append_drop]

end Verif.Asn1
