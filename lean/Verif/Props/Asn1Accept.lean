import Verif.Proofs.Asn1Accept
/-!
# Property C107: what the SM2 decoders accept

The exact set of inputs that the decoders of SM2 signatures, ciphertexts and keys accept.  It is larger than the
set of DER encodings, and the places returned need not lie inside the input.
-/
namespace Verif.Props
open Verif Verif.Spec Verif.Spec.Der Verif.Asn1

namespace AcceptAux

theorem mag_append {n o : Nat} {v w : List Byte} (h : 2 ≤ v.length) : Magnitude n o (v ++ w) ↔ Magnitude n o v := by
  unfold Magnitude
  rw [List.getElem?_append_left (by omega), List.getElem?_append_left (by omega)]

theorem mag_range {n o : Nat} {v : List Byte} (h : Magnitude n o v) : n = 32 + o ∧ o ≤ 1 := by
  rcases h with ⟨rfl, rfl, _⟩ | ⟨rfl, rfl, _⟩ <;> omega

theorem szSub_fix {b : Nat} (h : b < 2 ^ 64) (a : Nat) : szSub a b = (a + (2 ^ 64 - b)) % 2 ^ 64 := by
  unfold szSub
  rw [Nat.mod_eq_of_lt h, Nat.add_sub_assoc (Nat.le_of_lt h)]

end AcceptAux
open AcceptAux

/-- **C107** (private keys).  The decoder accepts exactly the header of an INTEGER that looks like one with a magnitude of
32 octets; the magnitude itself need not be there. -/
theorem C107_private_key_iff (x : List Byte) (d k : Nat) : privDecode x 0 x.length = .ok (d, k) ↔
    ∃ b l n o v, x = b :: l ++ v ∧ b.toNat % 64 = 2 ∧ LenOctets 8 l n ∧ Magnitude n o v ∧
      d = 1 + l.length + o ∧ k = 1 + l.length + n := by
  unfold privDecode
  constructor
  · intro h
    obtain ⟨⟨d', l', k'⟩, h1, h⟩ := bind_ok h
    dsimp only at h
    split at h
    · cases h
    rename_i hl
    cases h
    rw [not_not] at hl
    subst hl
    obtain ⟨b, l, n, o, g1, g2, g3, g4, g5, rfl, rfl⟩ := decInteger_iff.1 (orFail_ok h1)
    obtain ⟨t, ht⟩ := g1
    rw [List.drop_zero] at ht
    subst ht
    rw [show 0 + 1 + l.length = (b :: l).length by simp; omega, List.drop_left] at g5
    exact ⟨b, l, n, o, t, rfl, g2, g3, g5, by omega, rfl⟩
  · rintro ⟨b, l, n, o, v, rfl, h2, h3, h4, rfl, rfl⟩
    have e : decInteger (b :: l ++ v) 0 (b :: l ++ v).length = .ok (1 + l.length + o, 32, 1 + l.length + n) := by
      refine decInteger_iff.2 ⟨b, l, n, o, ⟨v, rfl⟩, h2, h3, by simp; omega, ?_, by omega, rfl⟩
      rw [show 0 + 1 + l.length = (b :: l).length by simp; omega, List.drop_left]
      exact h4
    rw [e]
    rfl

/-- **C107** (public keys).  The decoder accepts exactly the header of a BIT STRING of 66 octets and the octet that counts
the unused bits; the 65 octets of the point need not be there. -/
theorem C107_public_key_iff (x : List Byte) (d k : Nat) : pubDecode x 0 x.length = .ok (d, k) ↔
    ∃ b l c v, x = b :: l ++ c :: v ∧ b.toNat % 32 = 3 ∧ LenOctets 8 l 66 ∧ c.toNat ≤ 7 ∧
      d = 2 + l.length ∧ k = 67 + l.length := by
  constructor
  · intro h
    obtain ⟨b, l, c, ⟨t, ht⟩, h2, h3, h4, h5, h6, rfl, rfl⟩ := decBitString_iff.1 (C60_public_key_length x 0 x.length d k h)
    rw [List.drop_zero] at ht
    subst ht
    rw [show 0 + 1 + l.length = (b :: l).length by simp; omega, List.getElem?_append_right (Nat.le_refl _), Nat.sub_self]
      at h5
    cases t with
    | nil => simp at h5
    | cons c' v =>
      simp only [List.getElem?_cons_zero, Option.some.injEq] at h5
      subst h5
      exact ⟨b, l, c', v, rfl, h2, h3, h6, by omega, by omega⟩
  · rintro ⟨b, l, c, v, rfl, h2, h3, h6, rfl, rfl⟩
    obtain ⟨bits, e⟩ := (decBitString_iff (buf := b :: l ++ c :: v) (p := 0)
      (inl := (b :: l ++ c :: v).length) (d := 2 + l.length) (k := 67 + l.length)).2 ⟨b, l, c, ⟨c :: v, rfl⟩, h2, h3, by simp; omega, by
        rw [show 0 + 1 + l.length = (b :: l).length by simp; omega, List.getElem?_append_right (Nat.le_refl _),
          Nat.sub_self]
        rfl, h6, by omega, by omega⟩
    unfold pubDecode
    rw [e]
    simp only [orFail, ok_bind]
    rw [if_neg (by simp)]

/-- **C107** (signatures).  The decoder accepts exactly a SEQUENCE header, an INTEGER with a magnitude of 32 octets, and the
beginning of another one.  The length `n0` in the SEQUENCE header only has to cover the header of the first INTEGER and,
after subtraction modulo `2^64`, that of the second; the second magnitude need not be there. -/
theorem C107_signature_iff (x : List Byte) (hx : x.length < 2 ^ 64) (r s k : Nat) :
    sigDecode x 0 x.length = .ok (r, s, k) ↔
    ∃ b0 l0 n0 b1 l1 n1 o1 v1 b2 l2 n2 o2 v2,
      x = b0 :: l0 ++ (b1 :: l1 ++ (v1 ++ (b2 :: l2 ++ v2))) ∧
      b0.toNat % 64 = 48 ∧ b1.toNat % 64 = 2 ∧ b2.toNat % 64 = 2 ∧
      LenOctets 8 l0 n0 ∧ LenOctets 8 l1 n1 ∧ LenOctets 8 l2 n2 ∧
      v1.length = n1 ∧ Magnitude n1 o1 v1 ∧ Magnitude n2 o2 v2 ∧
      1 + l1.length ≤ n0 ∧ 1 + l2.length ≤ (n0 + (2 ^ 64 - (1 + l1.length + n1))) % 2 ^ 64 ∧
      r = 2 + l0.length + l1.length + o1 ∧ s = 3 + l0.length + l1.length + n1 + l2.length + o2 ∧
      k = (1 + l0.length + n0) % 2 ^ 64 := by
  rw [sigDecode_G, sigG_iff]
  constructor
  · rintro ⟨sv, sl, nn, k1, k2, h1, h2, h3, h⟩
    obtain ⟨b0, l0, g1, g2, g3, g4, g5, rfl, rfl⟩ := decSequence_iff.1 h1
    obtain ⟨b1, l1, n1, o1, i1, i2, i3, i4, i5, rfl, rfl⟩ := decInteger_iff.1 h2
    obtain ⟨b2, l2, n2, o2, j1, j2, j3, j4, j5, rfl, rfl⟩ := decInteger_iff.1 h3
    have m1 := mag_range i5
    have z1 := LenOctets.len_le i3
    rw [szSub_szSub hx (Nat.mod_lt _ (by norm_num))] at h
    obtain ⟨t0, ht0⟩ := g1
    obtain ⟨t1, ht1⟩ := i1
    obtain ⟨t2, ht2⟩ := j1
    rw [List.drop_zero] at ht0
    subst ht0
    rw [show 0 + 1 + l0.length = (b0 :: l0).length by simp; omega] at ht1
    rw [List.drop_left] at ht1
    subst ht1
    have q1 : (b0 :: l0 ++ (b1 :: l1 ++ t1)).drop (0 + 1 + l0.length + 1 + l1.length) = t1 := by
      rw [show 0 + 1 + l0.length + 1 + l1.length = (b0 :: l0).length + (b1 :: l1).length by simp; omega, ← List.drop_drop,
        List.drop_left, List.drop_left]
    rw [q1] at i5
    have q2 : (b0 :: l0 ++ (b1 :: l1 ++ t1)).drop (0 + 1 + l0.length + (1 + l1.length + n1)) = t1.drop n1 := by
      rw [show 0 + 1 + l0.length + (1 + l1.length + n1) = (b0 :: l0).length + (b1 :: l1).length + n1 by simp; omega,
        ← List.drop_drop, ← List.drop_drop, List.drop_left, List.drop_left]
    rw [q2] at ht2
    have hlen := congrArg List.length ht2
    rw [List.length_drop] at hlen
    simp only [List.cons_append, List.length_cons, List.length_append] at hlen
    have q3 : (b0 :: l0 ++ (b1 :: l1 ++ t1)).drop (0 + 1 + l0.length + (1 + l1.length + n1) + 1 + l2.length) = t2 := by
      rw [show 0 + 1 + l0.length + (1 + l1.length + n1) + 1 + l2.length =
        0 + 1 + l0.length + (1 + l1.length + n1) + (b2 :: l2).length by simp; omega, ← List.drop_drop, q2, ht2,
        List.drop_left]
    rw [q3] at j5
    have hv1 : (t1.take n1).length = n1 := by rw [List.length_take]; omega
    refine ⟨b0, l0, sl, b1, l1, n1, o1, t1.take n1, b2, l2, n2, o2, t2, ?_, g2, i2, j2, g3, i3, j3, hv1, ?_, j5, i4, ?_,
      by omega, by omega, h⟩
    · rw [← ht2, List.take_append_drop]
    · rw [← List.take_append_drop n1 t1, mag_append (by omega)] at i5
      exact i5
    · unfold szSub at j4
      rw [Nat.mod_eq_of_lt (show 1 + l1.length + n1 < 2 ^ 64 by omega)] at j4
      rw [← Nat.add_sub_assoc (by omega)]
      exact j4
  · rintro ⟨b0, l0, n0, b1, l1, n1, o1, v1, b2, l2, n2, o2, v2, rfl, h0, h1, h2, hl0, hl1, hl2, hv, hm1, hm2, hr1, hr2,
      rfl, rfl, rfl⟩
    have m1 := mag_range hm1
    have z1 := LenOctets.len_le hl1
    generalize hx' : b0 :: l0 ++ (b1 :: l1 ++ (v1 ++ (b2 :: l2 ++ v2))) = x at hx
    have d0 : x.drop 0 = (b0 :: l0) ++ (b1 :: l1 ++ (v1 ++ (b2 :: l2 ++ v2))) := by rw [← hx']; rfl
    have d1 : x.drop (0 + 1 + l0.length) = (b1 :: l1) ++ (v1 ++ (b2 :: l2 ++ v2)) := by
      rw [show 0 + 1 + l0.length = 0 + (b0 :: l0).length by simp; omega, ← List.drop_drop, d0, List.drop_left]
    have d2 : x.drop (0 + 1 + l0.length + 1 + l1.length) = v1 ++ (b2 :: l2 ++ v2) := by
      rw [show 0 + 1 + l0.length + 1 + l1.length = 0 + 1 + l0.length + (b1 :: l1).length by simp; omega, ← List.drop_drop,
        d1, List.drop_left]
    have d3 : x.drop (0 + 1 + l0.length + (1 + l1.length + n1)) = (b2 :: l2) ++ v2 := by
      rw [show 0 + 1 + l0.length + (1 + l1.length + n1) = 0 + 1 + l0.length + 1 + l1.length + v1.length by omega,
        ← List.drop_drop, d2, List.drop_left]
    have d4 : x.drop (0 + 1 + l0.length + (1 + l1.length + n1) + 1 + l2.length) = v2 := by
      rw [show 0 + 1 + l0.length + (1 + l1.length + n1) + 1 + l2.length =
        0 + 1 + l0.length + (1 + l1.length + n1) + (b2 :: l2).length by simp; omega, ← List.drop_drop, d3, List.drop_left]
    have hxl : 1 + l0.length ≤ x.length := by rw [← hx']; simp; omega
    refine ⟨_, _, _, _, _, decSequence_iff.2 ⟨b0, l0, ⟨_, d0⟩, h0, hl0, by omega, hxl, rfl, rfl⟩,
      decInteger_iff.2 ⟨b1, l1, n1, o1, ⟨_, d1⟩, h1, hl1, hr1, by rw [d2, mag_append (by omega)]; exact hm1, by omega, rfl⟩,
      decInteger_iff.2 ⟨b2, l2, n2, o2, ⟨_, d3⟩, h2, hl2, ?_, by rw [d4]; exact hm2, by omega, rfl⟩, ?_⟩
    · unfold szSub
      rw [Nat.mod_eq_of_lt (show 1 + l1.length + n1 < 2 ^ 64 by omega), Nat.add_sub_assoc (by omega)]
      exact hr2
    · rw [szSub_szSub hx (Nat.mod_lt _ (by norm_num))]

/-- **C107** (ciphertexts).  The decoder accepts exactly a SEQUENCE header, two INTEGERs with magnitudes of 32 octets, the
header of an OCTET STRING and the header of another one.  The second header is looked for as many octets after the first
as that one declares, modulo `2^64`; the remaining lengths `m1`, `m2`, `m3` are subtracted modulo `2^64` as well. -/
theorem C107_ciphertext_iff (x : List Byte) (hx : x.length < 2 ^ 64) (px py h hl c cl k : Nat) :
    cipherDecode x 0 x.length = .ok (px, py, (h, hl), (c, cl), k) ↔
    ∃ b0 l0 n0 b1 l1 n1 o1 v1 b2 l2 n2 o2 v2 b3 l3 v3 b4 l4 v4 m1 m2 m3,
      x = b0 :: l0 ++ (b1 :: l1 ++ (v1 ++ (b2 :: l2 ++ (v2 ++ (b3 :: l3 ++ v3))))) ∧
      (b3 :: l3 ++ v3).drop ((1 + l3.length + hl) % 2 ^ 64) = b4 :: l4 ++ v4 ∧
      (b0.toNat % 64 = 48 ∧ b1.toNat % 64 = 2 ∧ b2.toNat % 64 = 2 ∧ b3.toNat % 32 = 4 ∧ b4.toNat % 32 = 4) ∧
      (LenOctets 8 l0 n0 ∧ LenOctets 8 l1 n1 ∧ LenOctets 8 l2 n2 ∧ LenOctets 8 l3 hl ∧ LenOctets 8 l4 cl) ∧
      (v1.length = n1 ∧ v2.length = n2 ∧ Magnitude n1 o1 v1 ∧ Magnitude n2 o2 v2 ∧ hl ≠ 0 ∧ cl ≠ 0) ∧
      (m1 = (n0 + (2 ^ 64 - (1 + l1.length + n1))) % 2 ^ 64 ∧ m2 = (m1 + (2 ^ 64 - (1 + l2.length + n2))) % 2 ^ 64 ∧
        m3 = (m2 + (2 ^ 64 - (1 + l3.length + hl) % 2 ^ 64)) % 2 ^ 64) ∧
      (1 + l1.length ≤ n0 ∧ 1 + l2.length ≤ m1 ∧ 1 + l3.length ≤ m2 ∧ 1 + l4.length ≤ m3) ∧
      (px = 2 + l0.length + l1.length + o1 ∧ py = 3 + l0.length + l1.length + n1 + l2.length + o2 ∧
        h = 4 + l0.length + l1.length + n1 + l2.length + n2 + l3.length ∧
        c = 4 + l0.length + l1.length + n1 + l2.length + n2 + (1 + l3.length + hl) % 2 ^ 64 + l4.length) ∧
      k = (1 + l0.length + n0) % 2 ^ 64 := by
  rw [cipherDecode_G, ciphG_iff]
  constructor
  · rintro ⟨sv, sl, nn, k1, k2, k3, k4, h1, h2, h3, h4, h5, hk⟩
    obtain ⟨b0, l0, g1, g2, g3, g4, g5, rfl, rfl⟩ := decSequence_iff.1 h1
    obtain ⟨b1, l1, n1, o1, i1, i2, i3, i4, i5, rfl, rfl⟩ := decInteger_iff.1 h2
    obtain ⟨b2, l2, n2, o2, j1, j2, j3, j4, j5, rfl, rfl⟩ := decInteger_iff.1 h3
    obtain ⟨b3, l3, p1, p2, p3, p4, p5, rfl, rfl⟩ := decOctetString_iff.1 h4
    obtain ⟨b4, l4, q1, q2, q3, q4, q5, rfl, rfl⟩ := decOctetString_iff.1 h5
    have m1 := mag_range i5
    have m2 := mag_range j5
    have z1 := LenOctets.len_le i3
    have z2 := LenOctets.len_le j3
    rw [szSub_szSub hx (Nat.mod_lt _ (by norm_num))] at hk
    have s0 := g1.split
    have s1 := i1.split
    have s2 := j1.split
    have s3 := p1.split
    have s4 := q1.split
    have t1 := j1.lt
    have t2 := p1.lt
    have f1 := szSub_fix (show 1 + l1.length + n1 < 2 ^ 64 by omega)
    have f2 := szSub_fix (show 1 + l2.length + n2 < 2 ^ 64 by omega)
    have f3 := szSub_fix (show (1 + l3.length + hl) % 2 ^ 64 < 2 ^ 64 from Nat.mod_lt _ (by norm_num))
    rw [f1] at j4
    rw [f2, f1] at p5
    rw [f3, f2, f1] at q5
    have w1 := split_take x (0 + 1 + l0.length + 1 + l1.length) n1
    have w2 := split_take x (0 + 1 + l0.length + (1 + l1.length + n1) + 1 + l2.length) n2
    simp only [List.length_cons] at s0 s1 s2 s3 s4
    rw [show 0 + (l0.length + 1) = 0 + 1 + l0.length by omega, List.drop_zero] at s0
    rw [show 0 + 1 + l0.length + (l1.length + 1) = 0 + 1 + l0.length + 1 + l1.length by omega, w1,
      show 0 + 1 + l0.length + 1 + l1.length + n1 = 0 + 1 + l0.length + (1 + l1.length + n1) by omega] at s1
    rw [show 0 + 1 + l0.length + (1 + l1.length + n1) + (l2.length + 1) =
        0 + 1 + l0.length + (1 + l1.length + n1) + 1 + l2.length by omega, w2,
      show 0 + 1 + l0.length + (1 + l1.length + n1) + 1 + l2.length + n2 =
        0 + 1 + l0.length + (1 + l1.length + n1) + (1 + l2.length + n2) by omega] at s2
    have y1 : (List.take n1 (x.drop (0 + 1 + l0.length + 1 + l1.length))).length = n1 := by
      rw [List.length_take, List.length_drop]; omega
    have y2 : (List.take n2 (x.drop (0 + 1 + l0.length + (1 + l1.length + n1) + 1 + l2.length))).length = n2 := by
      rw [List.length_take, List.length_drop]; omega
    rw [w1, mag_append (by omega)] at i5
    rw [w2, mag_append (by omega)] at j5
    refine ⟨b0, l0, sl, b1, l1, n1, o1, _, b2, l2, n2, o2, _, b3, l3, _, b4, l4,
      x.drop (0 + 1 + l0.length + (1 + l1.length + n1) + (1 + l2.length + n2) + (1 + l3.length + hl) % 2 ^ 64 +
        (l4.length + 1)), _, _, _, by rw [← s3, ← s2, ← s1, ← s0], ?_, ⟨g2, i2, j2, p2, q2⟩, ⟨g3, i3, j3, p3, q3⟩, ⟨y1, y2, i5, j5, p4, q4⟩,
      ⟨rfl, rfl, rfl⟩, ⟨i4, j4, p5, q5⟩, ⟨by omega, by omega, by omega, by omega⟩, hk⟩
    rw [← s3, List.drop_drop, s4]
  · rintro ⟨b0, l0, n0, b1, l1, n1, o1, v1, b2, l2, n2, o2, v2, b3, l3, v3, b4, l4, v4, m1, m2, m3, hx', h44,
      ⟨g2, i2, j2, p2, q2⟩, ⟨g3, i3, j3, p3, q3⟩, ⟨y1, y2, i5, j5, p4, q4⟩, ⟨e1, e2, e3⟩, ⟨i4, j4, p5, q5⟩,
      ⟨rfl, rfl, rfl, rfl⟩, rfl⟩
    have r1 := mag_range i5
    have r2 := mag_range j5
    have z1 := LenOctets.len_le i3
    have z2 := LenOctets.len_le j3
    have f1 := szSub_fix (show 1 + l1.length + n1 < 2 ^ 64 by omega)
    have f2 := szSub_fix (show 1 + l2.length + n2 < 2 ^ 64 by omega)
    have f3 := szSub_fix (show (1 + l3.length + hl) % 2 ^ 64 < 2 ^ 64 from Nat.mod_lt _ (by norm_num))
    have d0 : x.drop 0 = (b0 :: l0) ++ (b1 :: l1 ++ (v1 ++ (b2 :: l2 ++ (v2 ++ (b3 :: l3 ++ v3))))) := hx'
    have d1 : x.drop (0 + 1 + l0.length) = (b1 :: l1) ++ (v1 ++ (b2 :: l2 ++ (v2 ++ (b3 :: l3 ++ v3)))) := by
      rw [show 0 + 1 + l0.length = 0 + (b0 :: l0).length by simp; omega, ← List.drop_drop, d0, List.drop_left]
    have d2 : x.drop (0 + 1 + l0.length + 1 + l1.length) = v1 ++ (b2 :: l2 ++ (v2 ++ (b3 :: l3 ++ v3))) := by
      rw [show 0 + 1 + l0.length + 1 + l1.length = 0 + 1 + l0.length + (b1 :: l1).length by simp; omega, ← List.drop_drop,
        d1, List.drop_left]
    have d3 : x.drop (0 + 1 + l0.length + (1 + l1.length + n1)) = (b2 :: l2) ++ (v2 ++ (b3 :: l3 ++ v3)) := by
      rw [show 0 + 1 + l0.length + (1 + l1.length + n1) = 0 + 1 + l0.length + 1 + l1.length + v1.length by omega,
        ← List.drop_drop, d2, List.drop_left]
    have d4 : x.drop (0 + 1 + l0.length + (1 + l1.length + n1) + 1 + l2.length) = v2 ++ (b3 :: l3 ++ v3) := by
      rw [show 0 + 1 + l0.length + (1 + l1.length + n1) + 1 + l2.length =
        0 + 1 + l0.length + (1 + l1.length + n1) + (b2 :: l2).length by simp; omega, ← List.drop_drop, d3, List.drop_left]
    have d5 : x.drop (0 + 1 + l0.length + (1 + l1.length + n1) + (1 + l2.length + n2)) = b3 :: l3 ++ v3 := by
      rw [show 0 + 1 + l0.length + (1 + l1.length + n1) + (1 + l2.length + n2) =
        0 + 1 + l0.length + (1 + l1.length + n1) + 1 + l2.length + v2.length by omega, ← List.drop_drop, d4, List.drop_left]
    have d6 : x.drop (0 + 1 + l0.length + (1 + l1.length + n1) + (1 + l2.length + n2) + (1 + l3.length + hl) % 2 ^ 64) =
        b4 :: l4 ++ v4 := by
      rw [← List.drop_drop, d5, h44]
    have hxl : 1 + l0.length ≤ x.length := by rw [hx']; simp; omega
    refine ⟨_, _, _, _, _, _, _, decSequence_iff.2 ⟨b0, l0, ⟨_, d0⟩, g2, g3, by omega, hxl, rfl, rfl⟩,
      decInteger_iff.2 ⟨b1, l1, n1, o1, ⟨_, d1⟩, i2, i3, i4, by rw [d2, mag_append (by omega)]; exact i5, by omega,
        rfl⟩,
      decInteger_iff.2 ⟨b2, l2, n2, o2, ⟨_, d3⟩, j2, j3, ?_, by rw [d4, mag_append (by omega)]; exact j5, by omega,
        rfl⟩,
      decOctetString_iff.2 ⟨b3, l3, ⟨_, d5⟩, p2, p3, p4, ?_, by omega, rfl⟩,
      decOctetString_iff.2 ⟨b4, l4, ⟨_, d6⟩, q2, q3, q4, ?_, by omega, rfl⟩, ?_⟩
    · rw [f1, ← e1]; exact j4
    · rw [f2, f1, ← e1, ← e2]; exact p5
    · rw [f3, f2, f1, ← e1, ← e2, ← e3]; exact q5
    · rw [szSub_szSub hx (Nat.mod_lt _ (by norm_num))]

/-- **C107 is violated**: a signature cut off after the first octet of `S` is accepted, whatever `R` is; the place of `S`
and the number of octets reported as read lie outside the input. -/
theorem C107_truncated_violated (a c : Byte) (R : List Byte) (hR : R.length = 31) (ha : a ≠ 0 ∧ a.toNat < 128)
    (hc : c ≠ 0 ∧ c.toNat < 128) :
    sigDecode ([0x30, 0x44, 0x02, 0x20] ++ a :: R ++ [0x02, 0x20, c]) 0 39 = .ok (4, 38, 70) := by
  have hlen : ([0x30, 0x44, 0x02, 0x20] ++ a :: R ++ [0x02, 0x20, c] : List Byte).length = 39 := by
    simp [hR]
  have e := (C107_signature_iff ([0x30, 0x44, 0x02, 0x20] ++ a :: R ++ [0x02, 0x20, c]) (by rw [hlen]; norm_num) 4 38
    70).2
    ⟨0x30, [0x44], 68, 0x02, [0x20], 32, 0, a :: R, 0x02, [0x20], 32, 0, [c], by simp, by decide, by decide, by decide,
      .short 0x44 (by decide), .short 0x20 (by decide), .short 0x20 (by decide), by simp [hR],
      .inl ⟨rfl, rfl, a, rfl, ha.1, fun h => by rw [h] at ha; exact absurd ha.2 (by decide)⟩,
      .inl ⟨rfl, rfl, c, rfl, hc.1, fun h => by rw [h] at hc; exact absurd hc.2 (by decide)⟩,
      by decide, by decide, by decide, by decide, by decide⟩
  rwa [hlen] at e

/-- **C107 is violated**: the same `R` and `S` have many encodings.  The SEQUENCE may declare a length of 2 and any octets
may follow. -/
theorem C107_malleable_violated (a c : Byte) (R S t : List Byte) (hR : R.length = 31) (hS : S.length = 31)
    (ht : t.length < 2 ^ 63) (ha : a ≠ 0 ∧ a.toNat < 128) (hc : c ≠ 0 ∧ c.toNat < 128) (n : Byte)
    (hn : 2 ≤ n.toNat ∧ n.toNat < 128) (hn' : n.toNat ≠ 34 ∧ n.toNat ≠ 35) :
    ∃ k, sigDecode ([0x30, n, 0x02, 0x20] ++ a :: R ++ [0x02, 0x20] ++ c :: S ++ t) 0 (70 + t.length) = .ok (4, 38, k) ∧
      rdm ([0x30, n, 0x02, 0x20] ++ a :: R ++ [0x02, 0x20] ++ c :: S ++ t) 4 32 = a :: R ∧
      rdm ([0x30, n, 0x02, 0x20] ++ a :: R ++ [0x02, 0x20] ++ c :: S ++ t) 38 32 = c :: S := by
  have hlen : ([0x30, n, 0x02, 0x20] ++ a :: R ++ [0x02, 0x20] ++ c :: S ++ t : List Byte).length = 70 + t.length := by
    simp [hR, hS]; omega
  have e := (C107_signature_iff ([0x30, n, 0x02, 0x20] ++ a :: R ++ [0x02, 0x20] ++ c :: S ++ t) (by rw [hlen]; omega) 4 38
    ((1 + 1 + n.toNat) % 2 ^ 64)).2
    ⟨0x30, [n], n.toNat, 0x02, [0x20], 32, 0, a :: R, 0x02, [0x20], 32, 0, c :: S ++ t, by simp, by decide, by decide,
      by decide, .short n hn.2, .short 0x20 (by decide), .short 0x20 (by decide), by simp [hR],
      .inl ⟨rfl, rfl, a, rfl, ha.1, fun h => by rw [h] at ha; exact absurd ha.2 (by decide)⟩,
      .inl ⟨rfl, rfl, c, rfl, hc.1, fun h => by rw [h] at hc; exact absurd hc.2 (by decide)⟩,
      by simp; omega, by simp; omega, by simp, by simp, rfl⟩
  rw [hlen] at e
  refine ⟨_, e, ?_, ?_⟩
  · unfold rdm
    rw [show ([0x30, n, 0x02, 0x20] ++ a :: R ++ [0x02, 0x20] ++ c :: S ++ t : List Byte) =
      [0x30, n, 0x02, 0x20] ++ (a :: R ++ ([0x02, 0x20] ++ c :: S ++ t)) by simp]
    rw [show 4 = ([0x30, n, 0x02, 0x20] : List Byte).length from rfl, List.drop_left,
      show 32 = (a :: R).length by simp [hR], List.take_left]
  · unfold rdm
    rw [show ([0x30, n, 0x02, 0x20] ++ a :: R ++ [0x02, 0x20] ++ c :: S ++ t : List Byte) =
      ([0x30, n, 0x02, 0x20] ++ a :: R ++ [0x02, 0x20]) ++ (c :: S ++ t) by simp]
    rw [show 38 = ([0x30, n, 0x02, 0x20] ++ a :: R ++ [0x02, 0x20] : List Byte).length by simp [hR], List.drop_left,
      show 32 = (c :: S).length by simp [hS], List.take_left]

/-- **C107 is violated**: in 80 octets that end with the header of the hash, that header is taken for the header of the
ciphertext as well, and both are reported with a length of `2^64 - 10`, whatever the point is. -/
theorem C107_ciphertext_violated (a c : Byte) (X Y : List Byte) (hX : X.length = 31) (hY : Y.length = 31)
    (ha : a ≠ 0 ∧ a.toNat < 128) (hc : c ≠ 0 ∧ c.toNat < 128) :
    cipherDecode ([0x30, 0x4e, 0x02, 0x20] ++ a :: X ++ [0x02, 0x20] ++ c :: Y ++
      [0x04, 0x88, 0xff, 0xff, 0xff, 0xff, 0xff, 0xff, 0xff, 0xf6]) 0 80 =
      .ok (4, 38, (80, 2 ^ 64 - 10), (80, 2 ^ 64 - 10), 80) := by
  have hlen : ([0x30, 0x4e, 0x02, 0x20] ++ a :: X ++ [0x02, 0x20] ++ c :: Y ++
      [0x04, 0x88, 0xff, 0xff, 0xff, 0xff, 0xff, 0xff, 0xff, 0xf6] : List Byte).length = 80 := by
    simp [hX, hY]
  have hL : LenOctets 8 ([0x88, 0xff, 0xff, 0xff, 0xff, 0xff, 0xff, 0xff, 0xf6] : List Byte) (2 ^ 64 - 10) :=
    .long (maxOctets := 8) 8 [0xff, 0xff, 0xff, 0xff, 0xff, 0xff, 0xff, 0xf6] (by decide) (by decide) rfl
  have e := (C107_ciphertext_iff ([0x30, 0x4e, 0x02, 0x20] ++ a :: X ++ [0x02, 0x20] ++ c :: Y ++
      [0x04, 0x88, 0xff, 0xff, 0xff, 0xff, 0xff, 0xff, 0xff, 0xf6]) (by rw [hlen]; norm_num) 4 38 80 (2 ^ 64 - 10) 80
      (2 ^ 64 - 10) 80).2
    ⟨0x30, [0x4e], 78, 0x02, [0x20], 32, 0, a :: X, 0x02, [0x20], 32, 0, c :: Y, 0x04,
      [0x88, 0xff, 0xff, 0xff, 0xff, 0xff, 0xff, 0xff, 0xf6], [], 0x04,
      [0x88, 0xff, 0xff, 0xff, 0xff, 0xff, 0xff, 0xff, 0xf6], [], 44, 10, 10, by simp, by simp,
      by decide, ⟨.short 0x4e (by decide), .short 0x20 (by decide), .short 0x20 (by decide), hL, hL⟩,
      ⟨by simp [hX], by simp [hY],
      .inl ⟨rfl, rfl, a, rfl, ha.1, fun h => by rw [h] at ha; exact absurd ha.2 (by decide)⟩,
      .inl ⟨rfl, rfl, c, rfl, hc.1, fun h => by rw [h] at hc; exact absurd hc.2 (by decide)⟩, by norm_num, by norm_num⟩,
      by simp, by simp, by simp, by simp⟩
  rwa [hlen] at e

/-- **C107 is violated**: two octets are enough to make the signature decoder read past the input, and three are accepted
as a private key of 32 octets, or as a public key of 65. -/
theorem C107_short_violated :
    sigDecode [0x30, 0x44] 0 2 = .oob ∧ privDecode [0x02, 0x20, 0x01] 0 3 = .ok (2, 34) ∧
      pubDecode [0x03, 0x42, 0x07] 0 3 = .ok (3, 68) := by decide +kernel

/-- **C107** (what holds).  If the caller checks that the number of octets reported as read covers both magnitudes and is at
most the length of the input, the octets returned lie inside the input. -/
theorem C107_checked_partial (x : List Byte) (r s k : Nat) (h : sigDecode x 0 x.length = .ok (r, s, k))
    (hk : k ≤ x.length) (hs : s + 32 ≤ k) : r + 34 ≤ s ∧ s + 32 ≤ x.length := by
  have := (sigDecode_pos h).2
  omega

/-- A complete signature of 72 octets with both magnitudes padded. -/
example : sigDecode ([0x30, 0x46, 0x02, 0x21, 0x00, 0x80] ++ List.replicate 31 7 ++ [0x02, 0x21, 0x00, 0xff] ++
    List.replicate 31 9) 0 72 = .ok (5, 40, 72) := by decide +kernel

end Verif.Props
