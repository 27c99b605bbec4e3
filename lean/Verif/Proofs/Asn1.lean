import Verif.Model.Asn1
import Verif.Spec.Der
import Verif.Proofs.Modes
import Verif.Proofs.MontCtx
/-! # Helper lemmas: ASN.1 -/
namespace Verif.Asn1
open Verif Verif.Spec Verif.Spec.Der

def Has (buf : Mem) (p : Nat) (bs : List Byte) : Prop := ∃ t, buf.drop p = bs ++ t

theorem Has.rdm {buf : Mem} {p : Nat} {bs : List Byte} (h : Has buf p bs) : rdm buf p bs.length = bs := by
  obtain ⟨t, h⟩ := h
  unfold Verif.rdm; rw [h, List.take_left]

theorem has_rdm (buf : Mem) (p n : Nat) : Has buf p (Verif.rdm buf p n) :=
  ⟨(buf.drop p).drop n, (List.take_append_drop n _).symm⟩

theorem has_of {buf : Mem} {p : Nat} {bs : List Byte} (h : Verif.rdm buf p bs.length = bs) : Has buf p bs := by
  rw [← h]; exact has_rdm _ _ _

theorem Has.left {buf : Mem} {p : Nat} {a b : List Byte} (h : Has buf p (a ++ b)) : Has buf p a := by
  obtain ⟨t, h⟩ := h; exact ⟨b ++ t, by rw [h, List.append_assoc]⟩

theorem Has.right {buf : Mem} {p : Nat} {a b : List Byte} (h : Has buf p (a ++ b)) : Has buf (p + a.length) b := by
  obtain ⟨t, h⟩ := h
  refine ⟨t, ?_⟩
  rw [← List.drop_drop, h, List.append_assoc, List.drop_left]

theorem Has.rd {buf : Mem} {p : Nat} {b : Byte} {bs : List Byte} (h : Has buf p (b :: bs)) : rd buf p = .ok b := by
  obtain ⟨t, h⟩ := h
  have : buf[p]? = some b := by
    have := congrArg (fun l => l[0]?) h
    simpa using this
  unfold Asn1.rd; rw [this]

theorem Has.tail {buf : Mem} {p : Nat} {b : Byte} {bs : List Byte} (h : Has buf p (b :: bs)) : Has buf (p + 1) bs :=
  Has.right (a := [b]) h

theorem Has.le {buf : Mem} {p : Nat} {bs : List Byte} (h : Has buf p bs) (hb : bs ≠ []) :
    p + bs.length ≤ buf.length := by
  obtain ⟨t, h⟩ := h
  have := congrArg List.length h
  rw [List.length_drop, List.length_append] at this
  have : 0 < bs.length := List.length_pos_of_ne_nil hb
  omega

theorem has_wrm {m : Mem} {p : Nat} {bs : List Byte} (h : p ≤ m.length) : Has (wrm m p bs) p bs := by
  refine ⟨m.drop (p + bs.length), ?_⟩
  unfold wrm
  have : (m.take p).length = p := by rw [List.length_take]; omega
  rw [List.append_assoc, List.drop_append, this, Nat.sub_self, List.drop_zero, List.drop_of_length_le (by omega)]
  rfl

theorem rd_lt {buf : Mem} {p : Nat} (h : p < buf.length) : rd buf p = .ok buf[p] := by
  unfold rd; rw [List.getElem?_eq_getElem h]

theorem has_one {buf : Mem} {p : Nat} (h : p < buf.length) : Has buf p [buf[p]] :=
  ⟨buf.drop (p + 1), by rw [List.drop_eq_getElem_cons h]; rfl⟩

theorem has_cons {buf : Mem} {p : Nat} (h : p < buf.length) {bs : List Byte} (hb : Has buf (p + 1) bs) :
    Has buf p (buf[p] :: bs) := by
  obtain ⟨t, ht⟩ := hb
  exact ⟨t, by rw [List.drop_eq_getElem_cons h, ht]; rfl⟩

@[simp] theorem ok_bind {α β} (a : α) (f : α → Res β) : ((Res.ok a : Res α) >>= f) = f a := rfl
@[simp] theorem err_bind {α β} (c : Int) (f : α → Res β) : ((Res.err c : Res α) >>= f) = Res.err c := rfl
@[simp] theorem oob_bind {α β} (f : α → Res β) : ((Res.oob : Res α) >>= f) = Res.oob := rfl
@[simp] theorem pure_eq {α} (a : α) : (pure a : Res α) = Res.ok a := rfl

/-! ## Length octets -/

theorem pow8 : (256 : Nat) ^ 8 = 2 ^ 64 := by norm_num

theorem shl8_or (r : W64) (b : Byte) (h : r.toNat < 2 ^ 56) :
    ((r <<< 8) ||| b.setWidth 64).toNat = r.toNat * 256 + b.toNat := by
  rw [BitVec.toNat_or, BitVec.toNat_shiftLeft, BitVec.toNat_setWidth, Nat.shiftLeft_eq]
  have hb := b.isLt
  rw [Nat.mod_eq_of_lt (by omega), Nat.mod_eq_of_lt (by omega), Nat.mul_comm, ← Nat.two_pow_add_eq_or_of_lt hb]

theorem lengthLoop_eq {buf : Mem} (ds : List Byte) : ∀ (p : Nat) (r : W64), Has buf p ds →
    r.toNat * 256 ^ ds.length + beVal ds < 2 ^ 64 →
    ∃ v, lengthLoop buf p ds.length r = .ok v ∧ v.toNat = r.toNat * 256 ^ ds.length + beVal ds := by
  induction ds with
  | nil => intro p r _ _; exact ⟨r, rfl, by simp [beVal]⟩
  | cons b ds ih =>
    intro p r h hlt
    rw [List.length_cons, lengthLoop, h.rd, ok_bind]
    rw [beVal_cons, List.length_cons] at hlt
    have hr : r.toNat < 2 ^ 56 := by
      have h1 : 1 ≤ 256 ^ ds.length := Nat.one_le_pow _ _ (by norm_num)
      have : r.toNat * 256 ^ (ds.length + 1) = r.toNat * 256 * 256 ^ ds.length := by ring
      nlinarith
    have e := shl8_or r b hr
    obtain ⟨v, hv, hvn⟩ := ih (p + 1) ((r <<< 8) ||| b.setWidth 64) h.tail
      (by rw [e]; have : (r.toNat * 256 + b.toNat) * 256 ^ ds.length = r.toNat * 256 ^ (ds.length + 1)
            + b.toNat * 256 ^ ds.length := by ring
          omega)
    refine ⟨v, hv, ?_⟩
    rw [hvn, e, beVal_cons]; ring

theorem b_short (b : Byte) : (b &&& 0x80#8 = 0#8) ↔ b.toNat < 128 := by revert b; decide +kernel
theorem b_long (b : Byte) (h : 128 ≤ b.toNat) : (b &&& 0x7f#8).toNat = b.toNat - 128 := by
  revert b; decide +kernel
theorem b_80 (b : Byte) : b = 0x80#8 ↔ b.toNat = 128 := by revert b; decide +kernel

theorem beVal_lt64 (ds : List Byte) (h : ds.length ≤ 8) : beVal ds < 2 ^ 64 :=
  lt_of_lt_of_le (beVal_lt ds) (by rw [← pow8]; exact Nat.pow_le_pow_right (by norm_num) h)

theorem LenOctets.ne_nil {k : Nat} {l : List Byte} {n : Nat} (h : LenOctets k l n) : l ≠ [] := by
  cases h <;> simp
theorem LenOctets.lt {l : List Byte} {n : Nat} (h : LenOctets 8 l n) : n < 2 ^ 64 := by
  cases h with
  | short b h => omega
  | long k ds h1 h2 h3 => exact beVal_lt64 _ (by omega)
theorem LenOctets.len_le {l : List Byte} {n : Nat} (h : LenOctets 8 l n) : l.length ≤ 9 := by
  cases h with
  | short b h => simp
  | long k ds h1 h2 h3 => rw [List.length_cons]; omega

theorem decLength_ok {buf : Mem} {p inl n : Nat} {l : List Byte} (h : Has buf p l) (hl : LenOctets 8 l n)
    (hi : l.length ≤ inl) : decLength buf p inl = .ok (n, l.length) := by
  unfold decLength
  have h0 : 0 < l.length := List.length_pos_of_ne_nil (LenOctets.ne_nil hl)
  rw [if_neg (show ¬ inl = 0 by omega)]
  cases hl with
  | short b hb =>
    rw [h.rd, ok_bind, if_neg (by rw [b_80]; omega), if_pos ((b_short b).2 hb)]; rfl
  | long k ds h1 h2 h3 =>
    have e : (BitVec.ofNat 8 (128 + k)).toNat = 128 + k := by rw [BitVec.toNat_ofNat]; omega
    rw [h.rd, ok_bind, if_neg (by rw [b_80, e]; omega), if_neg (by rw [b_short, e]; omega)]
    have ek := b_long _ (show 128 ≤ (BitVec.ofNat 8 (128 + k)).toNat by omega)
    rw [e] at ek
    simp only [ek]
    rw [List.length_cons, h3] at hi
    rw [if_neg (show ¬ 8 < 128 + k - 128 by omega), if_neg (show ¬ inl < 1 + (128 + k - 128) by omega)]
    rw [show 128 + k - 128 = ds.length by omega]
    obtain ⟨v, hv, hvn⟩ := lengthLoop_eq ds (p + 1) 0 h.tail (by
      have := beVal_lt64 ds (by omega)
      simpa using this)
    rw [hv, ok_bind, hvn]
    simp [Nat.add_comm]

/-- `decLength` on an input inside the buffer: success with definite-form octets, or an error code. -/
theorem decLength_cases {buf : Mem} {p inl : Nat} (hp : p + inl ≤ buf.length) :
    (∃ l n, Has buf p l ∧ LenOctets 8 l n ∧ l.length ≤ inl ∧ decLength buf p inl = .ok (n, l.length)) ∨
    (decLength buf p inl = .err (-1) ∧ (inl = 0 ∨ ∃ h : p < buf.length, 128 < buf[p].toNat ∧ buf[p].toNat ≤ 136 ∧
        inl < 1 + (buf[p].toNat - 128))) ∨
    (decLength buf p inl = .err (-2) ∧ 0 < inl ∧ ∃ h : p < buf.length,
        (buf[p].toNat = 128 ∨ 136 < buf[p].toNat)) := by
  by_cases h0 : inl = 0
  · right; left
    exact ⟨by unfold decLength; rw [if_pos h0], Or.inl h0⟩
  have hlt : p < buf.length := by omega
  by_cases h1 : buf[p].toNat < 128
  · left
    exact ⟨_, _, has_one hlt, .short _ h1, by simp; omega, decLength_ok (has_one hlt) (.short _ h1) (by simp; omega)⟩
  by_cases h2 : buf[p].toNat = 128
  · right; right
    refine ⟨?_, by omega, hlt, Or.inl h2⟩
    unfold decLength
    rw [if_neg h0, rd_lt hlt, ok_bind, if_pos ((b_80 _).2 h2)]
  have ek := b_long _ (show 128 ≤ buf[p].toNat by omega)
  by_cases h3 : 136 < buf[p].toNat
  · right; right
    refine ⟨?_, by omega, hlt, Or.inr h3⟩
    unfold decLength
    rw [if_neg h0, rd_lt hlt, ok_bind, if_neg (by rw [b_80]; omega), if_neg (by rw [b_short]; omega)]
    simp only [ek]
    rw [if_pos (by omega)]
  by_cases h4 : inl < 1 + (buf[p].toNat - 128)
  · right; left
    refine ⟨?_, Or.inr ⟨hlt, by omega, by omega, h4⟩⟩
    unfold decLength
    rw [if_neg h0, rd_lt hlt, ok_bind, if_neg (by rw [b_80]; omega), if_neg (by rw [b_short]; omega)]
    simp only [ek]
    rw [if_neg (by omega), if_pos h4]
  left
  have hd := has_rdm buf (p + 1) (buf[p].toNat - 128)
  have hlen : (rdm buf (p + 1) (buf[p].toNat - 128)).length = buf[p].toNat - 128 := rdm_len (by omega)
  have hc := has_cons hlt hd
  have eb : buf[p] = BitVec.ofNat 8 (128 + (buf[p].toNat - 128)) := by
    apply BitVec.eq_of_toNat_eq; rw [BitVec.toNat_ofNat]; have := buf[p].isLt; omega
  have hL : LenOctets 8 (buf[p] :: rdm buf (p + 1) (buf[p].toNat - 128))
      (beVal (rdm buf (p + 1) (buf[p].toNat - 128))) := by
    have := LenOctets.long (maxOctets := 8) (buf[p].toNat - 128) (rdm buf (p + 1) (buf[p].toNat - 128)) (by omega)
      (by omega) hlen
    rwa [← eb] at this
  have hi : (buf[p] :: rdm buf (p + 1) (buf[p].toNat - 128)).length ≤ inl := by rw [List.length_cons, hlen]; omega
  exact ⟨_, _, hc, hL, hi, decLength_ok hc hL hi⟩

/-! ## Identifier octets -/

theorem id_num (b : Byte) : (b &&& 0b00011111#8 = 0b00011111#8) ↔ b.toNat % 32 = 31 := by revert b; decide +kernel

/-- The three fields of an identifier octet. -/
def fields (b : Byte) : Byte × Byte × Byte :=
  (BitVec.ofNat 8 (b.toNat / 64 * 64), BitVec.ofNat 8 (b.toNat / 32 % 2 * 32), BitVec.ofNat 8 (b.toNat % 32))

theorem fields_eq (b : Byte) : fields b = (b &&& 0b11000000#8, b &&& 0b00100000#8, b &&& 0b00011111#8) := by
  revert b; decide +kernel

theorem decIdentifier_ok {buf : Mem} {p inl : Nat} {b : Byte} (h : Has buf p [b]) (hi : 0 < inl)
    (hb : b.toNat % 32 ≠ 31) : decIdentifier buf p inl = .ok (fields b) := by
  unfold decIdentifier
  rw [if_neg (show ¬ inl = 0 by omega), h.rd, ok_bind, if_neg (by rw [id_num]; exact hb), fields_eq]

/-! ## decTlv -/

theorem decTlv_ok {buf : Mem} {p inl n : Nat} {b : Byte} {l : List Byte} (h : Has buf p (b :: l))
    (hb : b.toNat % 32 ≠ 31) (hl : LenOctets 8 l n) (hi : 1 + l.length ≤ inl) :
    decTlv buf p inl = .ok (⟨(fields b).1, (fields b).2.1, (fields b).2.2, n, p + 1 + l.length⟩,
      (1 + l.length + n) % 2 ^ 64) := by
  unfold decTlv
  rw [decIdentifier_ok (Has.left (a := [b]) (b := l) h) (by omega) hb, ok_bind]
  simp only []
  rw [decLength_ok h.tail hl (by omega), ok_bind]

theorem decTlv_cases {buf : Mem} {p inl : Nat} (hp : p + inl ≤ buf.length) :
    (∃ b l n, Has buf p (b :: l) ∧ b.toNat % 32 ≠ 31 ∧ LenOctets 8 l n ∧ 1 + l.length ≤ inl) ∨
    (∃ c, decTlv buf p inl = .err c ∧ (c = -1 ∨ c = -2)) := by
  by_cases h0 : inl = 0
  · right; exact ⟨-1, by unfold decTlv decIdentifier; rw [if_pos h0]; rfl, Or.inl rfl⟩
  have hlt : p < buf.length := by omega
  by_cases hb : buf[p].toNat % 32 = 31
  · right
    refine ⟨-2, ?_, Or.inr rfl⟩
    unfold decTlv decIdentifier
    rw [if_neg h0, rd_lt hlt, ok_bind, if_pos ((id_num _).2 hb)]; rfl
  rcases decLength_cases (buf := buf) (p := p + 1) (inl := inl - 1) (by omega) with ⟨l, n, h1, h2, h3, _⟩ | ⟨h, _⟩ | ⟨h, _⟩
  · left; exact ⟨_, l, n, has_cons hlt h1, hb, h2, by omega⟩
  all_goals
    have key : ∀ c, decLength buf (p + 1) (inl - 1) = .err c → decTlv buf p inl = .err c := by
      intro c hc
      unfold decTlv
      rw [decIdentifier_ok (has_one hlt) (by omega) hb, ok_bind]
      simp only []
      rw [hc]; rfl
  · right; exact ⟨_, key _ h, Or.inl rfl⟩
  · right; exact ⟨_, key _ h, Or.inr rfl⟩

/-! ## Encoding of lengths -/

theorem lengthTmp_spec : ∀ (f : Nat) (n : W64), n.toNat < 256 ^ f →
    beVal (lengthTmp f n).reverse = n.toNat ∧ (lengthTmp f n).length ≤ f ∧
    (n ≠ 0 → ∃ x t, (lengthTmp f n).reverse = x :: t ∧ x ≠ 0)
  | 0, n, h => by
    have h0 : n.toNat = 0 := by simpa using h
    have : n = 0 := BitVec.eq_of_toNat_eq h0
    subst this
    exact ⟨rfl, le_refl _, fun h => absurd rfl h⟩
  | f + 1, n, h => by
    unfold lengthTmp
    by_cases h0 : n = 0
    · rw [if_pos h0]; subst h0
      exact ⟨rfl, Nat.zero_le _, fun h => absurd rfl h⟩
    · rw [if_neg h0]
      have es : (n >>> 8).toNat = n.toNat / 256 := by rw [BitVec.toNat_ushiftRight, Nat.shiftRight_eq_div_pow]
      have eb : ((n &&& 0xFF#64).setWidth 8).toNat = n.toNat % 256 := by
        rw [BitVec.toNat_setWidth, BitVec.toNat_and]
        have : (0xFF#64).toNat = 2 ^ 8 - 1 := rfl
        rw [this, Nat.and_two_pow_sub_one_eq_mod]; omega
      obtain ⟨i1, i2, i3⟩ := lengthTmp_spec f (n >>> 8) (by rw [es]; rw [pow_succ] at h; omega)
      refine ⟨?_, by rw [List.length_cons]; omega, fun _ => ?_⟩
      · rw [List.reverse_cons, beVal_snoc, i1, es, eb]; omega
      · rw [List.reverse_cons]
        by_cases hs : n >>> 8 = 0
        · have : lengthTmp f (n >>> 8) = [] := by
            rw [hs]; cases f <;> simp [lengthTmp]
          rw [this]
          refine ⟨_, [], rfl, ?_⟩
          intro hz
          have e1 := congrArg BitVec.toNat hz
          rw [eb] at e1
          have e2 := congrArg BitVec.toNat hs
          rw [es] at e2
          apply h0
          apply BitVec.eq_of_toNat_eq
          have z1 : (0 : Byte).toNat = 0 := rfl
          have z2 : (0 : W64).toNat = 0 := rfl
          rw [z1] at e1; rw [z2] at e2; rw [z2]; omega
        · obtain ⟨x, t, e, hx⟩ := i3 hs
          exact ⟨x, t ++ [_], by rw [e]; rfl, hx⟩

theorem encLength_short {n : Nat} (h : n < 128) : encLength (BitVec.ofNat 64 n) = [BitVec.ofNat 8 n] := by
  unfold encLength
  rw [if_pos (by rw [BitVec.lt_def, BitVec.toNat_ofNat]; show _ < 128; omega)]
  congr 1
  apply BitVec.eq_of_toNat_eq
  rw [BitVec.toNat_setWidth, BitVec.toNat_ofNat, BitVec.toNat_ofNat]; omega

theorem or80 (k : Nat) (h : k ≤ 8) : 0x80#8 ||| BitVec.ofNat 8 k = BitVec.ofNat 8 (128 + k) := by
  have : k ∈ List.range 9 := List.mem_range.2 (by omega)
  revert k; decide

theorem encLength_der {n : Nat} (hn : n < 2 ^ 64) : DerLen (encLength (BitVec.ofNat 64 n)) n := by
  by_cases h : n < 128
  · rw [encLength_short h]; exact .short n h
  have e : (BitVec.ofNat 64 n).toNat = n := by rw [BitVec.toNat_ofNat, Nat.mod_eq_of_lt hn]
  obtain ⟨h1, h2, h3⟩ := lengthTmp_spec 8 (BitVec.ofNat 64 n) (by rw [e, pow8]; exact hn)
  unfold encLength
  rw [if_neg (by rw [BitVec.lt_def, e]; show ¬ n < 128; omega)]
  obtain ⟨x, t, ex, hx⟩ := h3 (by intro hz; have := congrArg BitVec.toNat hz; rw [e] at this; simp at this; omega)
  simp only []
  rw [or80 _ h2, ← List.length_reverse]
  exact .long n _ (by omega) ⟨by rw [h1, e], by rw [ex]; simp, by rw [ex]; simpa using hx⟩

theorem DerLen.toLen {l : List Byte} {n : Nat} (hn : n < 2 ^ 64) (h : DerLen l n) : LenOctets 8 l n := by
  cases h with
  | short n h =>
    have e : (BitVec.ofNat 8 n).toNat = n := by rw [BitVec.toNat_ofNat]; omega
    have := LenOctets.short (maxOctets := 8) (BitVec.ofNat 8 n) (by rw [e]; exact h)
    rwa [e] at this
  | long n ds h hm =>
    obtain ⟨h1, h2, h3⟩ := hm
    have hl : ds.length ≤ 8 := by
      by_contra hc
      cases ds with
      | nil => simp at h2
      | cons a ds =>
        rw [beVal_cons] at h1
        rw [List.length_cons] at hc
        have ha : 1 ≤ a.toNat := by
          rcases Nat.eq_zero_or_pos a.toNat with h | h
          · exact absurd (congrArg some (BitVec.eq_of_toNat_eq h : a = 0)) h3
          · exact h
        have : 256 ^ 8 ≤ 256 ^ ds.length := Nat.pow_le_pow_right (by norm_num) (by omega)
        rw [pow8] at this
        have : 2 ^ 64 ≤ a.toNat * 256 ^ ds.length := by nlinarith
        omega
    have := LenOctets.long (maxOctets := 8) ds.length ds (List.length_pos_of_ne_nil h2) hl rfl
    rwa [h1] at this

theorem encLength_len {n : Nat} (hn : n < 2 ^ 64) : LenOctets 8 (encLength (BitVec.ofNat 64 n)) n :=
  DerLen.toLen hn (encLength_der hn)

theorem encLength_ge9 {n : Nat} (hn : n < 2 ^ 64) : 8 < (encLength (BitVec.ofNat 64 n)).length ↔ 2 ^ 56 ≤ n := by
  have h := encLength_der hn
  constructor
  · intro h8
    generalize encLength (BitVec.ofNat 64 n) = l at h h8
    cases h with
    | short n h => simp at h8
    | long n ds h hm =>
      obtain ⟨h1, h2, h3⟩ := hm
      cases ds with
      | nil => simp at h2
      | cons a ds =>
        rw [beVal_cons] at h1
        simp only [List.length_cons] at h8
        have ha : 1 ≤ a.toNat := by
          rcases Nat.eq_zero_or_pos a.toNat with h | h
          · exact absurd (congrArg some (BitVec.eq_of_toNat_eq h : a = 0)) h3
          · exact h
        have : 256 ^ 7 ≤ 256 ^ ds.length := Nat.pow_le_pow_right (by norm_num) (by omega)
        have : (256 : Nat) ^ 7 = 2 ^ 56 := by norm_num
        nlinarith
  · intro h56
    generalize encLength (BitVec.ofNat 64 n) = l at h
    cases h with
    | short n h => omega
    | long n ds h hm =>
      obtain ⟨h1, h2, h3⟩ := hm
      by_contra hc
      rw [List.length_cons] at hc
      have := beVal_lt ds
      have : 256 ^ ds.length ≤ 256 ^ 7 := Nat.pow_le_pow_right (by norm_num) (by omega)
      have : (256 : Nat) ^ 7 = 2 ^ 56 := by norm_num
      omega

theorem tlvOutl_eq {n : Nat} (hn : n < 2 ^ 56) :
    tlvOutl n = .ok (1 + (encLength (BitVec.ofNat 64 n)).length + n) := by
  unfold tlvOutl
  simp only []
  rw [if_neg (by rw [encLength_ge9 (by omega)]; omega)]
  have := LenOctets.len_le (encLength_len (n := n) (by omega))
  rw [Nat.mod_eq_of_lt (by omega)]

/-! ## Encoders -/

abbrev L (n : Nat) : List Byte := encLength (BitVec.ofNat 64 n)

theorem L_short {n : Nat} (h : n < 128) : L n = [BitVec.ofNat 8 n] := encLength_short h

theorem encTl_eq (m : Mem) (p : Nat) (c pc num : Byte) (n : Nat) (h : p + 1 + (L n).length ≤ m.length) :
    encTl m p c pc num n = (wrm m p (encIdentifier c pc num :: L n), 1 + (L n).length) := by
  unfold encTl
  simp only []
  rw [show (p + 1) = p + [encIdentifier c pc num].length from rfl, wrm_wrm (by simp only [List.length_singleton]; exact h)]
  rfl

theorem encOctetString_eq (m : Mem) (p : Nat) (data : List Byte)
    (h : p + 1 + (L data.length).length + data.length ≤ m.length) :
    encOctetString m p data = (wrm m p (4 :: L data.length ++ data), 1 + (L data.length).length + data.length) := by
  unfold encOctetString
  rw [encTl_eq _ _ _ _ _ _ (by omega)]
  simp only []
  have := wrm_wrm (m := m) (o := p) (a := encIdentifier 0 0 4 :: L data.length) (b := data)
    (by rw [List.length_cons]; omega)
  rw [List.length_cons, Nat.add_comm _ 1] at this
  rw [this]
  rfl

theorem encBitString_eq (m : Mem) (p : Nat) (data : List Byte) (bits : Nat)
    (h : p + 1 + (L (bitStringValueLength bits)).length + 1 + data.length ≤ m.length) :
    encBitString m p data bits = (wrm m p (3 :: L (bitStringValueLength bits) ++
      BitVec.ofNat 8 ((8 - bits % 8) % 8) :: data), 1 + (L (bitStringValueLength bits)).length + 1 + data.length) := by
  unfold encBitString
  rw [encTl_eq _ _ _ _ _ _ (by omega)]
  simp only []
  have e1 := wrm_wrm (m := m) (o := p) (a := encIdentifier 0 0 3 :: L (bitStringValueLength bits))
    (b := [BitVec.ofNat 8 ((8 - bits % 8) % 8)]) (by simp only [List.length_cons, List.length_nil]; omega)
  rw [List.length_cons, Nat.add_comm _ 1] at e1
  rw [e1]
  have e2 := wrm_wrm (m := m) (o := p) (a := encIdentifier 0 0 3 :: L (bitStringValueLength bits) ++
      [BitVec.ofNat 8 ((8 - bits % 8) % 8)]) (b := data)
      (by simp only [List.length_append, List.length_cons, List.length_nil]; omega)
  rw [List.length_append, List.length_cons, Nat.add_comm _ 1] at e2
  rw [show p + (1 + (L (bitStringValueLength bits)).length) + 1 = p + (1 + (L (bitStringValueLength bits)).length +
    [BitVec.ofNat 8 ((8 - bits % 8) % 8)].length) from rfl, e2, List.append_assoc]
  rfl

theorem wrm_twice {m : Mem} {p : Nat} {x : Byte} {d : List Byte} (hd : d ≠ []) (h : p + d.length ≤ m.length) :
    wrm (wrm m p [x]) p d = wrm m p d := by
  have h1 : 0 < d.length := List.length_pos_of_ne_nil hd
  have hl : (wrm m p [x]).length = m.length := wrm_len (by simp; omega)
  apply List.ext_getElem?; intro k
  rw [wrm_get (by omega), wrm_get h, wrm_get (by simp; omega)]
  simp only [List.length_singleton]
  split_ifs <;> first | rfl | omega

theorem encInteger_eq (m : Mem) (p : Nat) (data : List Byte)
    (h : p + 1 + (L (integerValueLength data)).length + data.length ≤ m.length) :
    encInteger m p data = (wrm m p (2 :: L (integerValueLength data) ++ data),
      1 + (L (integerValueLength data)).length +
        (if data ≠ [] ∧ 0x80#8 ≤ data.getD 0 0 then 1 else 0) + data.length) := by
  unfold encInteger
  rw [encTl_eq _ _ _ _ _ _ (by omega)]
  simp only []
  have hw := wrm_wrm (m := m) (o := p) (a := encIdentifier 0 0 2 :: L (integerValueLength data)) (b := data)
      (by rw [List.length_cons]; omega)
  rw [List.length_cons, Nat.add_comm _ 1] at hw
  by_cases hd : data = []
  · subst hd
    rw [if_neg (by simp)]
    simp [encIdentifier]
  have hd' : data.length ≠ 0 := by simpa using hd
  rw [if_pos hd']
  by_cases h8 : 0x80#8 ≤ data.getD 0 0
  · rw [if_pos h8, if_pos ⟨hd, h8⟩]
    simp only []
    rw [wrm_twice hd (by rw [wrm_len (by rw [List.length_cons]; omega)]; omega), hw]
    rfl
  · rw [if_neg h8, if_neg (fun h => h8 h.2)]
    simp only []
    rw [hw]
    rfl

theorem encBoolean_eq (m : Mem) (p : Nat) (v : Bool) (h : p + 3 ≤ m.length) :
    encBoolean m p v = (wrm m p [1, 1, if v then 0xFF else 0], 3) := by
  unfold encBoolean
  simp only []
  have e1 := wrm_wrm (m := m) (o := p) (a := [(0#8 <<< 6) ||| (0#8 <<< 5) ||| 1#8]) (b := [1]) (by simp; omega)
  have e2 := wrm_wrm (m := m) (o := p) (a := [(0#8 <<< 6) ||| (0#8 <<< 5) ||| 1#8, 1])
    (b := [if v then 0xFF else 0]) (by simp; omega)
  simp only [List.length_cons, List.length_nil] at e1 e2
  rw [e1]
  exact Prod.ext e2 rfl

end Verif.Asn1
