import Verif.Model.AsnMem
import Verif.Proofs.Asn1c
/-! Lemmas for C104: the ASN.1 encoders with their data in the caller's memory. -/
namespace Verif.Asn1

/-- Every octet of the `n` octets at `d` that lies under `hdr` stored at `p` has that value already. -/
def Under (m : Mem) (p : Nat) (hdr : List Byte) (d n : Nat) : Prop :=
  ∀ i, i < hdr.length → d ≤ p + i → p + i < d + n → m[p + i]? = hdr[i]?

theorem rdm_under {m : Mem} {p d n : Nat} {hdr : List Byte} (hp : p + hdr.length ≤ m.length) :
    rdm (wrm m p hdr) d n = rdm m d n ↔ Under m p hdr d n := by
  constructor
  · intro h i hi h1 h2
    have := congrArg (·[p + i - d]?) h
    simp only [rdm_get] at this
    rw [if_pos (by omega), if_pos (by omega), show d + (p + i - d) = p + i by omega, wrm_get hp, if_neg (by omega),
      if_pos (by omega), show p + i - p = i by omega] at this
    exact this.symm
  · intro h
    apply List.ext_getElem?; intro k
    rw [rdm_get, rdm_get]
    split_ifs with hk
    · rw [wrm_get hp]
      split_ifs with h1 h2
      · rfl
      · have := h (d + k - p) (by omega) (by omega) (by omega)
        rw [show p + (d + k - p) = d + k by omega] at this
        exact this.symm
      · rfl
    · rfl

theorem wrm_inj {m : Mem} {p : Nat} {a b : List Byte} (hl : a.length = b.length) (h : p + a.length ≤ m.length) :
    wrm m p a = wrm m p b ↔ a = b := by
  constructor
  · intro e
    have h1 := rdm_wrm_same (m := m) (o := p) (bs := a) h
    rw [e, hl, rdm_wrm_same (by omega)] at h1
    exact h1.symm
  · intro e; rw [e]

theorem under_clear {m : Mem} {p d n : Nat} {hdr : List Byte} (h : d + n ≤ p ∨ p + hdr.length ≤ d) :
    Under m p hdr d n := fun i hi h1 h2 => by omega

theorem Under.left {m : Mem} {p d n : Nat} {a b : List Byte} (h : Under m p (a ++ b) d n) : Under m p a d n := by
  intro i hi h1 h2
  rw [h i (by rw [List.length_append]; omega) h1 h2, List.getElem?_append_left hi]

theorem rdm_head {m : Mem} {d n : Nat} (hn : n ≠ 0) : (rdm m d 1).getD 0 0 = (rdm m d n).getD 0 0 := by
  rw [List.getD_eq_getElem?_getD, List.getD_eq_getElem?_getD, rdm_get, rdm_get, if_pos (by omega), if_pos (by omega)]

theorem encOctetStringM_iff (m : Mem) (p d len : Nat) (hp : p + 1 + (L len).length + len ≤ m.length)
    (hd : d + len ≤ m.length) :
    encOctetStringM m p d len = encOctetString m p (rdm m d len) ↔ Under m p (4 :: L len) d len := by
  have hl := rdm_len hd
  have hw : p + (4 :: L len).length ≤ m.length := by rw [List.length_cons]; omega
  unfold encOctetStringM encOctetString
  rw [hl, encTl_eq _ _ _ _ _ _ (by omega)]
  simp only []
  rw [show encIdentifier 0x00 0x00 4 = 4 from rfl, Prod.mk.injEq, and_iff_left rfl, ← rdm_under hw]
  have hm := wrm_len hw
  refine wrm_inj (m := wrm m p (4 :: L len)) ?_ ?_
  · rw [hl, rdm_len (by omega)]
  · rw [rdm_len (by omega), hm]; omega

theorem encBitStringM_iff (m : Mem) (p d len bits : Nat)
    (hp : p + 1 + (L (bitStringValueLength bits)).length + 1 + len ≤ m.length) (hd : d + len ≤ m.length) :
    encBitStringM m p d len bits = encBitString m p (rdm m d len) bits ↔
      Under m p (3 :: L (bitStringValueLength bits) ++ [BitVec.ofNat 8 ((8 - bits % 8) % 8)]) d len := by
  have hl := rdm_len hd
  generalize hv : bitStringValueLength bits = v at *
  have hw : p + (3 :: L v ++ [BitVec.ofNat 8 ((8 - bits % 8) % 8)]).length ≤ m.length := by
    rw [List.length_append, List.length_cons, List.length_singleton]; omega
  have e1 := wrm_wrm (m := m) (o := p) (a := encIdentifier 0 0 3 :: L v)
    (b := [BitVec.ofNat 8 ((8 - bits % 8) % 8)]) (by simp only [List.length_cons, List.length_nil]; omega)
  rw [List.length_cons, Nat.add_comm _ 1] at e1
  unfold encBitStringM encBitString
  rw [hv, encTl_eq _ _ _ _ _ _ (by omega)]
  simp only []
  rw [e1, hl, show encIdentifier 0x00 0x00 3 = 3 from rfl, Prod.mk.injEq, and_iff_left rfl, ← rdm_under hw]
  have hm := wrm_len hw
  refine wrm_inj (m := wrm m p (3 :: L v ++ [BitVec.ofNat 8 ((8 - bits % 8) % 8)])) ?_ ?_
  · rw [hl, rdm_len (by omega)]
  · rw [rdm_len (by omega), hm]; omega

/-- The leading zero octet of an INTEGER. -/
def zero1 (data : List Byte) : List Byte := if 0x80#8 ≤ data.getD 0 0 then [0] else []

theorem zero1_len (data : List Byte) : (zero1 data).length ≤ 1 := by unfold zero1; split_ifs <;> simp

theorem encIntegerM_iff (m : Mem) (p d len : Nat)
    (hp : p + 1 + (L (integerValueLength (rdm m d len))).length + len ≤ m.length) (hd : d + len ≤ m.length) :
    encIntegerM m p d len = encInteger m p (rdm m d len) ↔
      Under m p (2 :: L (integerValueLength (rdm m d len)) ++ zero1 (rdm m d len)) d len := by
  have hl := rdm_len hd
  generalize hv : integerValueLength (rdm m d len) = v at *
  have hw : p + (2 :: L v).length ≤ m.length := by rw [List.length_cons]; omega
  unfold encIntegerM encInteger
  rw [hv, hl, encTl_eq _ _ _ _ _ _ (by omega)]
  simp only []
  by_cases h0 : len = 0
  · subst h0
    rw [if_neg (by simp), if_neg (by simp)]
    exact iff_of_true rfl (fun i _ h1 h2 => by omega)
  rw [if_pos h0, if_pos h0]
  rw [show encIdentifier 0x00 0x00 2 = 2 from rfl]
  have hm := wrm_len hw
  have e1 := wrm_wrm (m := m) (o := p) (a := 2 :: L v) (b := [0])
    (by simp only [List.length_cons, List.length_nil]; omega)
  rw [List.length_cons, Nat.add_comm _ 1] at e1
  have hw1 : p + (2 :: L v ++ [0]).length ≤ m.length := by
    simp only [List.length_append, List.length_cons, List.length_nil]; omega
  have hm1 := wrm_len hw1
  -- storing the zero octet and then `a` is storing `a`
  have tw : ∀ a : List Byte, a.length = len → wrm (wrm (wrm m p (2 :: L v)) (p + (1 + (L v).length)) [0])
      (p + (1 + (L v).length)) a = wrm (wrm m p (2 :: L v)) (p + (1 + (L v).length)) a := fun a ha =>
    wrm_twice (by rintro rfl; exact h0 (by simpa using ha.symm)) (by rw [hm, ha]; omega)
  have inj : ∀ a : List Byte, a.length = len →
      (wrm (wrm m p (2 :: L v)) (p + (1 + (L v).length)) a =
        wrm (wrm m p (2 :: L v)) (p + (1 + (L v).length)) (rdm m d len) ↔ a = rdm m d len) := fun a ha =>
    wrm_inj (by rw [ha, hl]) (by rw [hm, ha]; omega)
  have l1 : (rdm (wrm m p (2 :: L v)) d len).length = len := rdm_len (by omega)
  have l2 : (rdm (wrm m p (2 :: L v ++ [0])) d len).length = len := rdm_len (by omega)
  rw [rdm_head h0]
  by_cases hb : 0x80#8 ≤ (rdm (wrm m p (2 :: L v)) d len).getD 0 0 <;>
    by_cases hc : 0x80#8 ≤ (rdm m d len).getD 0 0
  · rw [if_pos hb, if_pos hc, zero1, if_pos hc]
    simp only []
    rw [e1, Prod.mk.injEq, and_iff_left rfl, ← e1, tw _ hl, tw _ (by rw [e1]; exact l2), inj _ (by rw [e1]; exact l2),
      e1]
    exact rdm_under hw1
  · rw [if_pos hb, if_neg hc, zero1, if_neg hc, List.append_nil]
    refine iff_of_false (fun h => ?_) (fun h => hc ?_)
    · have := (Prod.mk.inj h).2; omega
    · rw [← (rdm_under hw).2 h]; exact hb
  · rw [if_neg hb, if_pos hc, zero1, if_pos hc]
    refine iff_of_false (fun h => ?_) (fun h => hb ?_)
    · have := (Prod.mk.inj h).2; omega
    · rw [(rdm_under hw).2 h.left]; exact hc
  · rw [if_neg hb, if_neg hc, zero1, if_neg hc, List.append_nil]
    simp only []
    rw [Prod.mk.injEq, and_iff_left rfl, inj _ l1]
    exact rdm_under hw

/-! ## The SM2 structures -/

theorem zero1_vlen {R : List Byte} : (zero1 R).length + 32 = vlen R := by
  unfold zero1 vlen
  by_cases h : (R.getD 0 0).toNat < 128
  · rw [if_pos h, if_neg (by rw [BitVec.le_def]; show ¬ 128 ≤ _; omega)]; rfl
  · rw [if_neg h, if_pos (by rw [BitVec.le_def]; show 128 ≤ _; omega)]; rfl

/-- The place `d` of an octet string is before the stores to `[p, e)` or not below their end. -/
theorem rdm_wrm_clear {m : Mem} {o p e d n : Nat} {bs : List Byte} (hb : o + bs.length ≤ m.length) (ho : p ≤ o)
    (he : o + bs.length ≤ e) (hc : d + n ≤ p ∨ e ≤ d) : rdm (wrm m o bs) d n = rdm m d n :=
  rdm_wrm_disj hb (by omega)

theorem encIntegerM32 {m : Mem} {p d : Nat} {R : List Byte} (hR : rdm m d 32 = R) (hd : d + 32 ≤ m.length)
    (hp : p + 34 ≤ m.length) (hc : d + 32 ≤ p ∨ p + (vlen R - 30) ≤ d) :
    encIntegerM m p d 32 = (wrm m p (2 :: L (vlen R) ++ R), 2 + vlen R) := by
  subst hR
  have hl := rdm_len hd
  have h1 := ivl32 hl
  have h2 := L_vlen (rdm m d 32)
  have h3 := zero1_vlen (R := rdm m d 32)
  rw [← encInteger32 hl m p hp]
  refine (encIntegerM_iff m p d 32 (by rw [h1, h2]; omega) hd).2 (under_clear ?_)
  rw [h1, List.length_append, List.length_cons, h2]
  omega

theorem encOctetStringM_clear {m : Mem} {p d n : Nat} {H : List Byte} (hH : rdm m d n = H) (hd : d + n ≤ m.length)
    (hp : p + 1 + (L n).length + n ≤ m.length) (hc : d + n ≤ p ∨ p + 1 + (L n).length ≤ d) :
    encOctetStringM m p d n = encOctetString m p H := by
  subst hH
  exact (encOctetStringM_iff m p d n hp hd).2 (under_clear (by rw [List.length_cons]; omega))

theorem sigEncodeM_eq (m : Mem) (p r s : Nat) (hr : r + 32 ≤ m.length) (hs : s + 32 ≤ m.length)
    (hp : p + (6 + vlen (rdm m r 32) + vlen (rdm m s 32)) ≤ m.length)
    (cr : r + 32 ≤ p ∨ p + (vlen (rdm m r 32) - 28) ≤ r)
    (cs : s + 32 ≤ p ∨ p + (vlen (rdm m r 32) + vlen (rdm m s 32) - 26) ≤ s) :
    sigEncodeM m p r s = sigEncode m p (rdm m r 32) (rdm m s 32) := by
  have lR := rdm_len hr
  have lS := rdm_len hs
  unfold sigEncodeM sigEncode
  generalize hR : rdm m r 32 = R at *
  generalize hS : rdm m s 32 = S at *
  have vr := vlen_cases R
  have vs := vlen_cases S
  rw [integerOutl32 lR, integerOutl32 lS]
  simp only [ok_bind]
  unfold encSequenceTl
  have l0 : (L (2 + vlen R + (2 + vlen S))).length = 1 := L1 (by omega)
  rw [encTl_eq _ _ _ _ _ _ (by omega)]
  simp only []
  rw [l0]
  generalize hh : encIdentifier 0x00 0x20 16 :: L (2 + vlen R + (2 + vlen S)) = hdr
  have lh : hdr.length = 2 := by rw [← hh, List.length_cons, l0]
  have m1l : (wrm m p hdr).length = m.length := wrm_len (by omega)
  rw [encIntegerM32 (m := wrm m p hdr) (R := R) (by rw [rdm_wrm_disj (by omega) (by omega), hR]) (by omega) (by omega)
    (by omega), encInteger32 lR _ _ (by omega)]
  simp only []
  have lf := len_field R lR
  have m2l : (wrm (wrm m p hdr) (p + (1 + 1)) (2 :: L (vlen R) ++ R)).length = m.length := by
    rw [wrm_len (by omega), m1l]
  rw [encIntegerM32 (R := S) (by rw [rdm_wrm_disj (by omega) (by omega), rdm_wrm_disj (by omega) (by omega), hS])
    (by omega) (by omega) (by omega), encInteger32 lS _ _ (by omega)]

theorem cipherEncodeM_eq (m : Mem) (p x y h hl c cl : Nat) (X Y H C : List Byte) (hX : rdm m x 32 = X)
    (hY : rdm m y 32 = Y) (hH : rdm m h hl = H) (hC : rdm m c cl = C) (bx : x + 32 ≤ m.length)
    (by' : y + 32 ≤ m.length) (bh : h + hl ≤ m.length) (bc : c + cl ≤ m.length)
    (hN : cipherLen X Y H C < 2 ^ 56)
    (hp : p + (1 + (L (cipherLen X Y H C)).length + cipherLen X Y H C) ≤ m.length) (q : Nat)
    (hq : q = p + 1 + (L (cipherLen X Y H C)).length)
    (cx : x + 32 ≤ p ∨ q + (vlen X - 30) ≤ x)
    (cy : y + 32 ≤ p ∨ q + (vlen X + 2) + (vlen Y - 30) ≤ y)
    (ch : h + hl ≤ p ∨ q + (vlen X + 2) + (vlen Y + 2) + (1 + (L hl).length) ≤ h)
    (cc : c + cl ≤ p ∨ q + (vlen X + 2) + (vlen Y + 2) + (1 + (L hl).length + hl) + (1 + (L cl).length) ≤ c) :
    cipherEncodeM m p x y h hl c cl = cipherEncode m p X Y H C := by
  have lX : X.length = 32 := by rw [← hX]; exact rdm_len bx
  have lY : Y.length = 32 := by rw [← hY]; exact rdm_len by'
  have lH : H.length = hl := by rw [← hH]; exact rdm_len bh
  have lC : C.length = cl := by rw [← hC]; exact rdm_len bc
  have hx := vlen_cases X
  have hy := vlen_cases Y
  have hdef : cipherLen X Y H C = 2 + vlen X + (2 + vlen Y) + (1 + (L hl).length + hl)
    + (1 + (L cl).length + cl) := by unfold cipherLen; rw [lH, lC]
  unfold cipherEncodeM cipherEncode
  rw [hX, hY, lH, lC, integerOutl32 lX, integerOutl32 lY, tlvOutl_eq (by omega), tlvOutl_eq (by omega)]
  simp only [ok_bind]
  rw [show (2 + vlen X + (2 + vlen Y) + (1 + (encLength (BitVec.ofNat 64 hl)).length + hl) +
      (1 + (encLength (BitVec.ofNat 64 cl)).length + cl)) % 2 ^ 64 = cipherLen X Y H C from by
        rw [hdef] at hN; rw [hdef]; exact Nat.mod_eq_of_lt (lt_trans hN (by norm_num))]
  unfold encSequenceTl
  rw [encTl_eq _ _ _ _ _ _ (by omega)]
  simp only []
  generalize hh : encIdentifier 0x00 0x20 16 :: L (cipherLen X Y H C) = hdr
  have lh : hdr.length = 1 + (L (cipherLen X Y H C)).length := by rw [← hh, List.length_cons]; omega
  generalize cipherLen X Y H C = N at *
  have m1l : (wrm m p hdr).length = m.length := wrm_len (by omega)
  rw [encIntegerM32 (m := wrm m p hdr) (R := X) (by rw [rdm_wrm_disj (by omega) (by omega), hX]) (by omega) (by omega)
    (by omega), encInteger32 lX _ _ (by omega)]
  simp only []
  have fX := len_field X lX
  generalize 2 :: L (vlen X) ++ X = eX at *
  generalize hm1 : wrm m p hdr = m1 at *
  have r1 : ∀ d n, d + n ≤ p ∨ p + hdr.length ≤ d → rdm m1 d n = rdm m d n := fun d n h => by
    rw [← hm1, rdm_wrm_disj (by omega) h]
  have m2l : (wrm m1 (p + (1 + (L N).length)) eX).length = m.length := by rw [wrm_len (by omega), m1l]
  generalize hm2 : wrm m1 (p + (1 + (L N).length)) eX = m2 at *
  have r2 : ∀ d n, d + n ≤ p ∨ q + 34 ≤ d → rdm m2 d n = rdm m d n := fun d n h => by
    rw [← hm2, rdm_wrm_disj (by omega) (by omega), r1 _ _ (by omega)]
  rw [encIntegerM32 (R := Y) (by rw [r2 _ _ (by omega), hY]) (by omega) (by omega) (by omega),
    encInteger32 lY _ _ (by omega)]
  simp only []
  have fY := len_field Y lY
  generalize 2 :: L (vlen Y) ++ Y = eY at *
  have m3l : (wrm m2 (p + (1 + (L N).length) + (2 + vlen X)) eY).length = m.length := by rw [wrm_len (by omega), m2l]
  generalize hm3 : wrm m2 (p + (1 + (L N).length) + (2 + vlen X)) eY = m3 at *
  have r3 : ∀ d n, d + n ≤ p ∨ q + (2 + vlen X) + 34 ≤ d → rdm m3 d n = rdm m d n := fun d n h => by
    rw [← hm3, rdm_wrm_disj (by omega) (by omega), r2 _ _ (by omega)]
  rw [encOctetStringM_clear (d := h) (n := hl) (H := H) (by rw [r3 _ _ (by omega), hH]) (by omega) (by omega) (by omega),
    encOctetString_eq _ _ _ (by rw [lH]; omega)]
  simp only []
  rw [lH]
  have fH : (4 :: L hl ++ H).length = 1 + (L hl).length + hl := by
    rw [List.length_append, List.length_cons, lH]; omega
  generalize 4 :: L hl ++ H = eH at *
  have m4l : (wrm m3 (p + (1 + (L N).length) + (2 + vlen X) + (2 + vlen Y)) eH).length = m.length := by
    rw [wrm_len (by omega), m3l]
  generalize hm4 : wrm m3 (p + (1 + (L N).length) + (2 + vlen X) + (2 + vlen Y)) eH = m4 at *
  have r4 : ∀ d n, d + n ≤ p ∨ q + (2 + vlen X) + (2 + vlen Y) + (1 + (L hl).length + hl) ≤ d →
      rdm m4 d n = rdm m d n := fun d n h => by
    rw [← hm4, rdm_wrm_disj (by omega) (by omega), r3 _ _ (by omega)]
  rw [encOctetStringM_clear (d := c) (n := cl) (H := C) (by rw [r4 _ _ (by omega), hC]) (by omega) (by omega) (by omega)]

/-! ## Where a decoded signature lies -/

theorem bind_ok {α β} {x : Res α} {f : α → Res β} {b : β} (h : (x >>= f) = .ok b) : ∃ a, x = .ok a ∧ f a = .ok b := by
  cases x with
  | ok a => exact ⟨a, rfl, h⟩
  | err c => exact absurd (show Res.err c = .ok b from h) (by simp)
  | oob => exact absurd (show Res.oob = .ok b from h) (by simp)

theorem orFail_ok {α} {x : Res α} {a : α} (h : orFail x = .ok a) : x = .ok a := by
  cases x with
  | ok b => exact h
  | err c => exact absurd (show Res.err (-1) = .ok a from h) (by simp)
  | oob => exact absurd (show Res.oob = .ok a from h) (by simp)

theorem decLength_pos {buf : Mem} {p inl len n : Nat} (h : decLength buf p inl = .ok (len, n)) : 1 ≤ n ∧ n ≤ 9 := by
  unfold decLength at h
  split_ifs at h
  · obtain ⟨b, _, h⟩ := bind_ok h
    split_ifs at h
    · obtain ⟨_, rfl⟩ := Prod.mk.inj (Res.ok.inj h); omega
    · simp only [] at h
      split_ifs at h
      obtain ⟨r, _, h⟩ := bind_ok h
      obtain ⟨_, rfl⟩ := Prod.mk.inj (Res.ok.inj h); omega

theorem decTlv_pos {buf : Mem} {p inl n : Nat} {t : Tlv} (h : decTlv buf p inl = .ok (t, n)) :
    p + 2 ≤ t.value ∧ (t.length < 2 ^ 62 → p + n = t.value + t.length) := by
  unfold decTlv at h
  obtain ⟨⟨c, pc, num⟩, _, h⟩ := bind_ok h
  obtain ⟨⟨len, k⟩, hk, h⟩ := bind_ok h
  have := decLength_pos hk
  obtain ⟨rfl, rfl⟩ := Prod.mk.inj (Res.ok.inj h)
  refine ⟨by show p + 2 ≤ p + 1 + k; omega, fun hl => ?_⟩
  show p + (1 + k + len) % 2 ^ 64 = p + 1 + k + len
  replace hl : len < 2 ^ 62 := hl
  rw [Nat.mod_eq_of_lt (by omega)]; omega

theorem decInteger_pos {buf : Mem} {p inl d n : Nat} (h : decInteger buf p inl = .ok (d, 32, n)) :
    p + 2 ≤ d ∧ p + n = d + 32 := by
  unfold decInteger at h
  obtain ⟨⟨t, k⟩, hk, h⟩ := bind_ok h
  have hp := decTlv_pos hk
  simp only [] at h
  have fin : ∀ {e : Nat}, (Res.ok (t.value + e, t.length - e, k) : Res (Nat × Nat × Nat)) = .ok (d, 32, n) →
      e ≤ 1 → p + 2 ≤ d ∧ p + n = d + 32 := by
    intro e h he
    obtain ⟨h1, h2⟩ := Prod.mk.inj (Res.ok.inj h)
    obtain ⟨h2, h3⟩ := Prod.mk.inj h2
    have := hp.2 (by omega)
    omega
  split_ifs at h
  · obtain ⟨v0, _, h⟩ := bind_ok h
    split_ifs at h
    · obtain ⟨v1, _, h⟩ := bind_ok h
      split_ifs at h
      exact fin (e := 1) h le_rfl
    · obtain ⟨v1, _, h⟩ := bind_ok h
      split_ifs at h
      exact fin (e := 0) h (by omega)
    · exact fin (e := 0) h (by omega)
  · exact fin (e := 0) h (by omega)

theorem decSequence_pos {buf : Mem} {p inl d l n : Nat} (h : decSequence buf p inl = .ok (d, l, n)) : p + 2 ≤ d := by
  unfold decSequence decConstructed at h
  obtain ⟨⟨t, k⟩, hk, h⟩ := bind_ok h
  have hp := decTlv_pos hk
  simp only [] at h
  split_ifs at h
  obtain ⟨rfl, _⟩ := Prod.mk.inj (Res.ok.inj h)
  exact hp.1

theorem sigDecode_pos {buf : Mem} {p inl r s n : Nat} (h : sigDecode buf p inl = .ok (r, s, n)) :
    p + 4 ≤ r ∧ r + 34 ≤ s := by
  unfold sigDecode at h
  obtain ⟨⟨sv, sl, k⟩, h1, h⟩ := bind_ok h
  simp only [] at h
  obtain ⟨⟨r', rl, k1⟩, h2, h⟩ := bind_ok h
  simp only [] at h
  split_ifs at h with hr
  obtain ⟨⟨s', sl', k2⟩, h3, h⟩ := bind_ok h
  simp only [] at h
  split_ifs at h with hs
  obtain ⟨rfl, h'⟩ := Prod.mk.inj (Res.ok.inj h)
  obtain ⟨rfl, _⟩ := Prod.mk.inj h'
  have hr : rl = 32 := by simpa using hr
  have hs : sl' = 32 := by simpa using hs
  subst hr; subst hs
  have p1 := decSequence_pos (orFail_ok h1)
  have p2 := decInteger_pos (orFail_ok h2)
  have p3 := decInteger_pos (orFail_ok h3)
  omega

end Verif.Asn1
