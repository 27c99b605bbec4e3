import Verif.Proofs.AsnMem
import Verif.Props.Asn1
/-!
# Property C104: encoding data that lies in the output buffer

The encoders store identifier and length octets first and then move the data with `memmove`.  `m` is the caller's
memory, `p` the place of `out`, `d` the place of the data; the two may overlap in any way.  `encOctetString m p data`
etc. (C23–C28) are the encoders with the data as an array of its own.
-/
namespace Verif.Props
open Verif Verif.Asn1 Verif.Spec Verif.Spec.Der

/-- The octets `hdr`, stored at `p`, do not change the `n` octets at `d`: where the two overlap the memory has those
values already. -/
def Spares (m : Mem) (p : Nat) (hdr : List Byte) (d n : Nat) : Prop :=
  ∀ i, i < hdr.length → d ≤ p + i → p + i < d + n → m[p + i]? = hdr[i]?

/-- The `n` octets at `d` end before `p` or begin at `e` or later. -/
def Clear (p e d n : Nat) : Prop := d + n ≤ p ∨ e ≤ d

theorem spares_of_clear {m : Mem} {p e d n : Nat} {hdr : List Byte} (he : p + hdr.length ≤ e) (h : Clear p e d n) :
    Spares m p hdr d n := by
  unfold Clear at h
  exact under_clear (by omega)

/-- **C104** OCTET STRING, exactly: the encoding of data anywhere in memory is that of the data before the call if and
only if the identifier and length octets do not fall on other octets of the data. -/
theorem C104_octet_string (m : Mem) (p d len : Nat) (hn : len < 2 ^ 64) (hp : p + 10 + len ≤ m.length)
    (hd : d + len ≤ m.length) :
    ∃ l, DerLen l len ∧ (encOctetStringM m p d len = encOctetString m p (rdm m d len) ↔
      Spares m p (identifier 0 false 4 :: l) d len) := by
  have hl := Llen hn
  exact ⟨L len, encLength_der hn, encOctetStringM_iff m p d len (by omega) hd⟩

/-- **C104** BIT STRING, exactly: the same with the octet of the unused bits. -/
theorem C104_bit_string (m : Mem) (p d len bits : Nat) (hn : bits + 15 < 2 ^ 64) (hp : p + 11 + len ≤ m.length)
    (hd : d + len ≤ m.length) :
    ∃ l, DerLen l ((bits + 7) / 8 + 1) ∧ (encBitStringM m p d len bits = encBitString m p (rdm m d len) bits ↔
      Spares m p (identifier 0 false 3 :: l ++ [BitVec.ofNat 8 ((8 - bits % 8) % 8)]) d len) := by
  have hv : bitStringValueLength bits = (bits + 7) / 8 + 1 := by
    unfold bitStringValueLength
    rw [Nat.mod_eq_of_lt (by omega : bits + 7 < 2 ^ 64), Nat.mod_eq_of_lt (by omega)]
  have hlt : (bits + 7) / 8 + 1 < 2 ^ 64 := by omega
  have hl := Llen hlt
  refine ⟨L ((bits + 7) / 8 + 1), encLength_der hlt, ?_⟩
  have := encBitStringM_iff m p d len bits (by rw [hv]; omega) hd
  rw [hv] at this
  exact this

/-- **C104** INTEGER, exactly: the same, and data that begins with 0x80 or more must not lie under the zero octet that
is stored behind the length octets before the data is moved there. -/
theorem C104_integer (m : Mem) (p d len : Nat) (hn : len + 1 < 2 ^ 64) (hp : p + 11 + len ≤ m.length)
    (hd : d + len ≤ m.length) :
    ∃ l, DerLen l (len + if 0x80#8 ≤ (rdm m d len).getD 0 0 then 1 else 0) ∧
      (encIntegerM m p d len = encInteger m p (rdm m d len) ↔
        Spares m p (identifier 0 false 2 :: l ++ if 0x80#8 ≤ (rdm m d len).getD 0 0 then [0] else []) d len) := by
  have hlen := rdm_len hd
  have hv : integerValueLength (rdm m d len) = len + if 0x80#8 ≤ (rdm m d len).getD 0 0 then 1 else 0 := by
    unfold integerValueLength
    rw [hlen]
    by_cases h0 : len = 0
    · subst h0; rfl
    rw [if_neg h0]
    by_cases h : 0x80#8 ≤ (rdm m d len).getD 0 0
    · rw [if_neg (by rw [BitVec.lt_def]; rw [BitVec.le_def] at h; omega), if_pos h, Nat.mod_eq_of_lt hn]
    · rw [if_pos (by rw [BitVec.lt_def]; rw [BitVec.le_def] at h; omega), if_neg h, Nat.add_zero]
  have hlt : integerValueLength (rdm m d len) < 2 ^ 64 := by rw [hv]; split <;> omega
  have hl := Llen hlt
  refine ⟨L (integerValueLength (rdm m d len)), by rw [← hv]; exact encLength_der hlt, ?_⟩
  exact encIntegerM_iff m p d len (by omega) hd

/-- Data put where the encoding will hold it, behind one identifier and one length octet, is encoded exactly. -/
example : encOctetStringM [0xEE, 0xEE, 0x11, 0x22, 0x33, 0xEE, 0, 0, 0, 0, 0, 0, 0] 0 2 3 =
    ([0x04, 0x03, 0x11, 0x22, 0x33, 0xEE, 0, 0, 0, 0, 0, 0, 0], 5) := by decide +kernel

example : Spares [0xEE, 0xEE, 0x11, 0x22, 0x33, 0xEE, 0, 0, 0, 0, 0, 0, 0] 0 (identifier 0 false 4 :: [3]) 2 3 :=
  spares_of_clear (e := 2) (by decide) (Or.inr (by decide))

example : encIntegerM ([0xEE, 0xEE, 0xEE, 0x11, 0x22] ++ List.replicate 12 0) 1 3 2 =
    ([0xEE, 0x02, 0x02, 0x11, 0x22] ++ List.replicate 12 0, 4) := by decide +kernel

/-- **C104 is violated** in place: an OCTET STRING or INTEGER encoded over its own data holds the octets of the header
instead of the first octets of the data, although the data is moved with `memmove`; and an INTEGER that begins with
0x80 or more loses its first octet even if it already is where the encoding will hold it. -/
theorem C104_in_place_violated :
    (encOctetStringM (0x11 :: 0x22 :: 0x33 :: List.replicate 12 0) 0 0 3).1.take 5 = [0x04, 0x03, 0x04, 0x03, 0x33] ∧
    (encIntegerM (0x11 :: 0x22 :: 0x33 :: List.replicate 12 0) 0 0 3).1.take 5 = [0x02, 0x03, 0x02, 0x03, 0x33] ∧
    (encIntegerM (0xEE :: 0xEE :: 0x91 :: 0x22 :: List.replicate 12 0) 0 2 2).1.take 4 = [0x02, 0x03, 0x00, 0x22] ∧
    (encInteger (0xEE :: 0xEE :: 0x91 :: 0x22 :: List.replicate 12 0) 0 [0x91, 0x22]).1.take 4 =
      [0x02, 0x03, 0x91, 0x22] := by decide +kernel

/-- **C104** in place, every case: an OCTET STRING encoded over its own data (`data = out`) is right only if its first
octet is that of the identifier, 0x04. -/
theorem C104_octet_string_in_place (m : Mem) (p len : Nat) (h0 : 0 < len) (hn : len < 2 ^ 64)
    (hp : p + 10 + len ≤ m.length) (h : encOctetStringM m p p len = encOctetString m p (rdm m p len)) :
    (rdm m p len).getD 0 0 = 0x04 := by
  obtain ⟨l, _, hi⟩ := C104_octet_string m p p len hn hp (by omega)
  have := hi.1 h 0 (by simp) (by omega) (by omega)
  rw [List.getD_eq_getElem?_getD, rdm_get, if_pos h0, this]
  rfl

/-- Octets a first octet adds to a 32-octet INTEGER. -/
def extra (R : List Byte) : Nat := if (R.getD 0 0).toNat < 128 then 0 else 1

theorem vlen_extra (R : List Byte) : vlen R = 32 + extra R := by unfold vlen extra; split_ifs <;> rfl

/-- **C104** SM2 signatures: `R` and `S` may lie in the output, as long as neither lies under octets that are stored
before it is moved: each ends before the output or begins at its place in the encoding or later. -/
theorem C104_signature_partial (m : Mem) (p r s : Nat) (hr : r + 32 ≤ m.length) (hs : s + 32 ≤ m.length)
    (hp : p + 72 ≤ m.length) (cr : Clear p (p + 4 + extra (rdm m r 32)) r 32)
    (cs : Clear p (p + 38 + extra (rdm m r 32) + extra (rdm m s 32)) s 32) :
    sigEncodeM m p r s = sigEncode m p (rdm m r 32) (rdm m s 32) := by
  have er := vlen_extra (rdm m r 32)
  have es := vlen_extra (rdm m s 32)
  have vr := vlen_cases (rdm m r 32)
  have vs := vlen_cases (rdm m s 32)
  unfold Clear at cr cs
  exact sigEncodeM_eq m p r s hr hs (by omega) (by omega) (by omega)

/-- **C104 is violated** by the signature `r ‖ s` encoded over itself, as sign left it. -/
theorem C104_signature_violated : ∃ m' k, sigEncodeM (List.replicate 32 0x11 ++ List.replicate 32 0x22 ++
      List.replicate 16 0) 0 0 32 = .ok (m', k) ∧ k = 70 ∧
    (∃ r s, sigDecode m' 0 k = .ok (r, s, k) ∧ rdm m' r 32 ≠ List.replicate 32 0x11) := by
  refine ⟨(sigEncodeM (List.replicate 32 0x11 ++ List.replicate 32 0x22 ++ List.replicate 16 0) 0 0 32 |>
    fun | .ok x => x.1 | _ => []), 70, ?_, rfl, 4, 38, ?_, ?_⟩ <;> decide +kernel

/-- **C104** re-encoding in place: a signature decoded from `in` gives pointers into `in`; if `R` and `S` begin with an
octet between 0x01 and 0x7F, encoding them to `in` again gives, whatever lengths and padding the decoder had accepted,
a DER signature of 70 octets that decodes to the same `R` and `S`, and changes no other octet. -/
theorem C104_signature_reencode (m : Mem) (p inl r s n : Nat) (hd : sigDecode m p inl = .ok (r, s, n))
    (hs : s + 32 ≤ m.length) (R S : List Byte) (hR : rdm m r 32 = R) (hS : rdm m s 32 = S)
    (gR : 0 < (R.getD 0 0).toNat ∧ (R.getD 0 0).toNat < 128) (gS : 0 < (S.getD 0 0).toNat ∧ (S.getD 0 0).toNat < 128) :
    ∃ m', sigEncodeM m p r s = .ok (m', 70) ∧
      (∀ k, 70 ≤ k → k < 2 ^ 64 → ∃ r' s', sigDecode m' p k = .ok (r', s', 70) ∧ rdm m' r' 32 = R ∧ rdm m' s' 32 = S) ∧
      m'.length = m.length ∧ ∀ i, i < p ∨ p + 70 ≤ i → m'[i]? = m[i]? := by
  have hpos := sigDecode_pos hd
  have lR : R.length = 32 := by rw [← hR]; exact rdm_len (by omega)
  have lS : S.length = 32 := by rw [← hS]; exact rdm_len hs
  have vR : vlen R = 32 := by unfold vlen; rw [if_pos gR.2]
  have vS : vlen S = 32 := by unfold vlen; rw [if_pos gS.2]
  have he := sigEncodeM_eq m p r s (by omega) hs (by rw [hR, hS, vR, vS]; omega) (by rw [hR, vR]; omega)
    (by rw [hR, hS, vR, vS]; omega)
  rw [hR, hS] at he
  obtain ⟨m', e', hl, h0, h1, h2, hfr⟩ := sigEncode_layout m p R S lR lS (by rw [vR, vS]; omega)
  rw [vR, vS] at e'
  refine ⟨m', he.trans e', fun k hk hk2 => ?_, hl, ?_⟩
  · have hdec := sigDecode_at lR lS (by rw [vR, vS]; omega) h0 h1 h2 (inl := k) (by rw [vR, vS]; omega) hk2
    rw [if_pos ⟨gR, gS⟩] at hdec
    have rR := (Has.right (a := 2 :: L (vlen R)) h1).rdm
    have rS := (Has.right (a := 2 :: L (vlen S)) h2).rdm
    rw [List.length_cons, L_vlen, lR] at rR
    rw [List.length_cons, L_vlen, lS, vR] at rS
    exact ⟨p + 4, p + 38, hdec, rR, rS⟩
  · intro i hi
    by_cases hlt : i < m.length
    · obtain ⟨t, ht⟩ := hfr i [m[i]] (has_one hlt) (by rw [vR, vS, List.length_singleton]; omega)
      have : (m'.drop i)[0]? = some m[i] := by rw [ht]; rfl
      rw [List.getElem?_drop, Nat.add_zero] at this
      rw [this, List.getElem?_eq_getElem hlt]
    · rw [List.getElem?_eq_none (by omega), List.getElem?_eq_none (by omega)]

/-- A signature with long length octets, which the decoder accepts. -/
def berSig : Mem := [0xEE, 0x30, 0x81, 0x45, 0x02, 0x81, 0x20] ++ List.replicate 32 0x11 ++ [0x02, 0x20] ++
  List.replicate 32 0x22 ++ [0xEE]

example : sigDecode berSig 1 72 = .ok (7, 41, 72) ∧ 41 + 32 ≤ berSig.length ∧
    sigEncodeM berSig 1 7 41 = .ok ([0xEE, 0x30, 0x44, 0x02, 0x20] ++ List.replicate 32 0x11 ++ [0x02, 0x20] ++
      List.replicate 32 0x22 ++ [0x22, 0x22, 0xEE], 70) := by decide +kernel

/-- **C104** SM2 ciphertexts: with `q` the place behind the SEQUENCE header, coordinates, hash and ciphertext may lie in
the output if each ends before it or begins at its place in the encoding or later. -/
theorem C104_ciphertext_partial (m : Mem) (p x y h hl c cl : Nat) (X Y H C : List Byte) (hX : rdm m x 32 = X)
    (hY : rdm m y 32 = Y) (hH : rdm m h hl = H) (hC : rdm m c cl = C) (bx : x + 32 ≤ m.length)
    (by' : y + 32 ≤ m.length) (bh : h + hl ≤ m.length) (bc : c + cl ≤ m.length)
    (hN : hl + cl + 100 < 2 ^ 56) (hp : p + 110 + hl + cl ≤ m.length) :
    ∃ l lh lc, DerLen lh hl ∧ DerLen lc cl ∧
      DerLen l (34 + extra X + (34 + extra Y) + (1 + lh.length + hl) + (1 + lc.length + cl)) ∧
      ∀ q, q = p + 1 + l.length →
        Clear p (q + 2 + extra X) x 32 → Clear p (q + 36 + extra X + extra Y) y 32 →
        Clear p (q + 69 + extra X + extra Y + lh.length) h hl →
        Clear p (q + 70 + extra X + extra Y + lh.length + hl + lc.length) c cl →
        cipherEncodeM m p x y h hl c cl = cipherEncode m p X Y H C := by
  have ex := vlen_extra X
  have ey := vlen_extra Y
  have vx := vlen_cases X
  have vy := vlen_cases Y
  have lh := Llen (n := hl) (by omega)
  have lc := Llen (n := cl) (by omega)
  have lH : H.length = hl := by rw [← hH]; exact rdm_len bh
  have lC : C.length = cl := by rw [← hC]; exact rdm_len bc
  have hdef : cipherLen X Y H C = 34 + extra X + (34 + extra Y) + (1 + (L hl).length + hl) + (1 + (L cl).length + cl) := by
    unfold cipherLen; rw [lH, lC]; omega
  have ln := Llen (n := cipherLen X Y H C) (by omega)
  refine ⟨L (cipherLen X Y H C), L hl, L cl, encLength_der (by omega), encLength_der (by omega), ?_, ?_⟩
  · rw [← hdef]; exact encLength_der (by omega)
  · intro q hq cx cy ch cc
    unfold Clear at cx cy ch cc
    exact cipherEncodeM_eq m p x y h hl c cl X Y H C hX hY hH hC bx by' bh bc (by omega) (by omega) q hq (by omega)
      (by omega) (by omega) (by omega)

/-- The four parts where the encoding will hold them: the encoding leaves them there. -/
example : ∃ m', cipherEncodeM ([0, 0, 0, 0] ++ List.replicate 32 0x11 ++ [0, 0] ++ List.replicate 32 0x22 ++
      [0, 0, 0x33, 0, 0, 0x44, 0x55] ++ List.replicate 60 0) 0 4 38 72 1 75 2 = .ok (m', 77) ∧
    m'.take 77 = [0x30, 0x4B, 0x02, 0x20] ++ List.replicate 32 0x11 ++ [0x02, 0x20] ++ List.replicate 32 0x22 ++
      [0x04, 0x01, 0x33, 0x04, 0x02, 0x44, 0x55] := by
  refine ⟨(cipherEncodeM ([0, 0, 0, 0] ++ List.replicate 32 0x11 ++ [0, 0] ++ List.replicate 32 0x22 ++
      [0, 0, 0x33, 0, 0, 0x44, 0x55] ++ List.replicate 60 0) 0 4 38 72 1 75 2 |>
    fun | .ok x => x.1 | _ => []), ?_, ?_⟩ <;> decide +kernel

end Verif.Props
