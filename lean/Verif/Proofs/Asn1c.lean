import Verif.Proofs.Asn1b
/-! # Helper lemmas: the SM2 ASN.1 structures -/
namespace Verif.Asn1
open Verif Verif.Spec Verif.Spec.Der

theorem len_field (R : List Byte) (h : R.length = 32) : (2 :: L (vlen R) ++ R).length = 34 := by
  rw [List.length_append, List.length_cons, L_vlen, h]

theorem L1 {n : Nat} (h : n < 128) : (L n).length = 1 := by rw [L_short h]; rfl

theorem sigEncode_layout (m : Mem) (p : Nat) (R S : List Byte) (hR : R.length = 32) (hS : S.length = 32)
    (hp : p + (6 + vlen R + vlen S) ≤ m.length) :
    ∃ m', sigEncode m p R S = .ok (m', 6 + vlen R + vlen S) ∧ m'.length = m.length ∧
      Has m' p (0x30 :: L (4 + vlen R + vlen S)) ∧ Has m' (p + 2) (2 :: L (vlen R) ++ R) ∧
      Has m' (p + (4 + vlen R)) (2 :: L (vlen S) ++ S) ∧
      (∀ q bs, Has m q bs → q + bs.length ≤ p ∨ p + (6 + vlen R + vlen S) ≤ q → Has m' q bs) := by
  have hr := vlen_cases R
  have hs := vlen_cases S
  have hl : (L (4 + vlen R + vlen S)).length = 1 := L1 (by omega)
  unfold sigEncode
  rw [integerOutl32 hR, integerOutl32 hS]
  simp only [ok_bind, encSequenceTl]
  rw [show 2 + vlen R + (2 + vlen S) = 4 + vlen R + vlen S by omega]
  rw [encTl_eq _ _ _ _ _ _ (by rw [hl]; omega), hl]
  have h1l : (encIdentifier 0 32 16 :: L (4 + vlen R + vlen S)).length = 2 := by rw [List.length_cons, hl]
  have hm1 := wrm_len (m := m) (o := p) (bs := encIdentifier 0 32 16 :: L (4 + vlen R + vlen S)) (by rw [h1l]; omega)
  simp only []
  rw [encInteger32 hR _ _ (by rw [hm1]; omega)]
  have hm2 := wrm_len (m := wrm m p (encIdentifier 0 32 16 :: L (4 + vlen R + vlen S))) (o := p + (1 + 1))
    (bs := 2 :: L (vlen R) ++ R) (by rw [len_field R hR, hm1]; omega)
  simp only []
  rw [encInteger32 hS _ _ (by rw [hm2, hm1]; omega)]
  have h1 : Has (wrm m p (encIdentifier 0 32 16 :: L (4 + vlen R + vlen S))) p (0x30 :: L (4 + vlen R + vlen S)) :=
    has_wrm (by omega)
  have h2 := has_wrm (m := wrm m p (encIdentifier 0 32 16 :: L (4 + vlen R + vlen S))) (p := p + (1 + 1))
    (bs := 2 :: L (vlen R) ++ R) (by rw [hm1]; omega)
  refine ⟨wrm (wrm (wrm m p (encIdentifier 0 32 16 :: L (4 + vlen R + vlen S))) (p + (1 + 1))
    (2 :: L (vlen R) ++ R)) (p + (1 + 1) + (2 + vlen R)) (2 :: L (vlen S) ++ S), ?_, ?_, ?_, ?_, ?_, ?_⟩
  · exact congrArg Res.ok (Prod.ext rfl (show 1 + 1 + (2 + vlen R) + (2 + vlen S) = _ by omega))
  · rw [wrm_len (by rw [len_field S hS, hm2, hm1]; omega), hm2, hm1]
  · refine has_wrm_disj (has_wrm_disj h1 (by rw [len_field R hR, hm1]; omega) (Or.inl (by rw [List.length_cons, hl])))
      (by rw [len_field S hS, hm2, hm1]; omega) (Or.inl (by rw [List.length_cons, hl]; omega))
  · exact has_wrm_disj h2 (by rw [len_field S hS, hm2, hm1]; omega) (Or.inl (by rw [len_field R hR]; omega))
  · have := has_wrm (m := wrm (wrm m p (encIdentifier 0 32 16 :: L (4 + vlen R + vlen S))) (p + (1 + 1))
        (2 :: L (vlen R) ++ R)) (p := p + (1 + 1) + (2 + vlen R)) (bs := 2 :: L (vlen S) ++ S) (by rw [hm2, hm1]; omega)
    rwa [show p + (1 + 1) + (2 + vlen R) = p + (4 + vlen R) by omega] at this ⊢
  · intro q bs hq hd
    refine has_wrm_disj (has_wrm_disj (has_wrm_disj hq (by rw [h1l]; omega) (by rw [h1l]; omega))
      (by rw [len_field R hR, hm1]; omega) (by rw [len_field R hR]; omega))
      (by rw [len_field S hS, hm2, hm1]; omega) (by rw [len_field S hS]; omega)

theorem seq_at {buf : Mem} {p inl n : Nat} (h0 : Has buf p (0x30 :: L n)) (hn : 0 < n) (hn2 : n < 2 ^ 63)
    (hi : 1 + (L n).length ≤ inl) :
    decSequence buf p inl = .ok (p + 1 + (L n).length, n, 1 + (L n).length + n) := by
  have := decCons_at (buf := buf) (p := p) (inl := inl) (n := n) (l := L n) 16 (by decide) h0
    (encLength_len (by omega)) hn2 hi
  rw [if_neg (by omega)] at this
  exact this

theorem szSub_twice {a b : Nat} (h : b ≤ a) (ha : a < 2 ^ 64) : szSub a (szSub a b) = b := by
  rw [szSub_eq h ha, szSub_eq (by omega) ha]; omega

theorem bad_field {α} {x : Res (Nat × Nat × Nat)} {k : Nat × Nat × Nat → Res α}
    (hf : (∃ c, x = .err c) ∨ ∃ q k n, x = .ok (q, k, n) ∧ k ≠ 32)
    (hk : ∀ q l n, l ≠ 32 → k (q, l, n) = .err (-1)) : (orFail x >>= k) = .err (-1) := by
  rcases hf with ⟨c, hc⟩ | ⟨q, l, n, hc, hl⟩
  · rw [hc]; rfl
  · rw [hc]; exact hk _ _ _ hl

theorem good_field {α} {x : Res (Nat × Nat × Nat)} {q l n : Nat} {k : Nat × Nat × Nat → Res α} {r : Res α}
    (hf : x = .ok (q, l, n)) (hk : k (q, l, n) = r) : (orFail x >>= k) = r := by
  rw [hf]; exact hk

theorem err_field {α} {x : Res (Nat × Nat × Nat)} {k : Nat × Nat × Nat → Res α} {c : Int}
    (hf : x = .err c) : (orFail x >>= k) = .err (-1) := by
  rw [hf]; rfl

/-- Decoding what `sigEncode` wrote. -/
theorem sigDecode_at {buf : Mem} {p inl : Nat} {R S : List Byte} (hR : R.length = 32) (hS : S.length = 32)
    (hb : p + (6 + vlen R + vlen S) ≤ buf.length)
    (h0 : Has buf p (0x30 :: L (4 + vlen R + vlen S))) (h1 : Has buf (p + 2) (2 :: L (vlen R) ++ R))
    (h2 : Has buf (p + (4 + vlen R)) (2 :: L (vlen S) ++ S))
    (hi : 6 + vlen R + vlen S ≤ inl) (hi2 : inl < 2 ^ 64) :
    sigDecode buf p inl = if Good R ∧ Good S then .ok (p + 4, p + 38, 70) else .err (-1) := by
  have hr := vlen_cases R
  have hs := vlen_cases S
  have hl : (L (4 + vlen R + vlen S)).length = 1 := L1 (by omega)
  unfold sigDecode
  have hq := seq_at (inl := inl) h0 (by omega) (by omega) (by omega)
  rw [hl, show p + 1 + 1 = p + 2 by omega] at hq
  have hf := decField (inl := 4 + vlen R + vlen S) hR h1 (by omega) (by omega)
  have hf2 := fun h : vlen R = 32 => decField (inl := 4 + vlen R + vlen S - 34) hS
    (show Has buf (p + 2 + 34) _ by rw [h] at h2; exact h2) (by omega) (by omega)
  generalize decSequence = D1 at *
  generalize decInteger = D2 at *
  refine good_field hq ?_
  simp only []
  by_cases hg : Good R
  · rw [if_pos hg] at hf
    obtain ⟨hd, h32⟩ := hf
    refine good_field hd ?_
    simp only []
    rw [if_neg (by simp), szSub_eq (a := 4 + vlen R + vlen S) (by omega) (by omega)]
    replace hf2 := hf2 h32
    by_cases hg2 : Good S
    · rw [if_pos hg2] at hf2
      rw [if_pos ⟨hg, hg2⟩]
      refine good_field hf2.1 ?_
      simp only []
      rw [if_neg (by simp), szSub_twice (by omega) hi2, h32, hf2.2]
    · rw [if_neg hg2] at hf2
      rw [if_neg (fun h => hg2 h.2)]
      exact bad_field hf2 (fun q l n h => by simp only []; rw [if_pos h])
  · rw [if_neg hg] at hf
    rw [if_neg (fun h => hg h.1)]
    exact bad_field hf (fun q l n h => by simp only []; rw [if_pos h])

/-! ## Ciphertext -/

theorem Llen {n : Nat} (h : n < 2 ^ 64) : (L n).length ≤ 9 := LenOctets.len_le (encLength_len h)

/-- Octets of a ciphertext encoding after the SEQUENCE header. -/
def cipherLen (X Y H C : List Byte) : Nat :=
  2 + vlen X + (2 + vlen Y) + (1 + (L H.length).length + H.length) + (1 + (L C.length).length + C.length)

theorem cipherEncode_layout (m : Mem) (p : Nat) (X Y H C : List Byte) (hX : X.length = 32) (hY : Y.length = 32)
    (hN : cipherLen X Y H C < 2 ^ 56)
    (hp : p + (1 + (L (cipherLen X Y H C)).length + cipherLen X Y H C) ≤ m.length) :
    ∃ m' s, s = p + 1 + (L (cipherLen X Y H C)).length ∧
      cipherEncode m p X Y H C = .ok (m', 1 + (L (cipherLen X Y H C)).length + cipherLen X Y H C) ∧
      m'.length = m.length ∧
      Has m' p (0x30 :: L (cipherLen X Y H C)) ∧ Has m' s (2 :: L (vlen X) ++ X) ∧
      Has m' (s + (2 + vlen X)) (2 :: L (vlen Y) ++ Y) ∧
      Has m' (s + (2 + vlen X) + (2 + vlen Y)) (4 :: L H.length ++ H) ∧
      Has m' (s + (2 + vlen X) + (2 + vlen Y) + (1 + (L H.length).length + H.length)) (4 :: L C.length ++ C) := by
  have hx := vlen_cases X
  have hy := vlen_cases Y
  have hdef : cipherLen X Y H C = 2 + vlen X + (2 + vlen Y) + (1 + (L H.length).length + H.length)
    + (1 + (L C.length).length + C.length) := rfl
  unfold cipherEncode
  rw [integerOutl32 hX, integerOutl32 hY, tlvOutl_eq (by omega), tlvOutl_eq (by omega)]
  simp only [ok_bind, encSequenceTl]
  rw [show (2 + vlen X + (2 + vlen Y) + (1 + (encLength (BitVec.ofNat 64 H.length)).length + H.length) +
    (1 + (encLength (BitVec.ofNat 64 C.length)).length + C.length)) % 2 ^ 64 = cipherLen X Y H C from
      Nat.mod_eq_of_lt (by rw [← hdef]; omega)]
  generalize hNn : cipherLen X Y H C = N at *
  rw [encTl_eq _ _ _ _ _ _ (by omega)]
  have hhd : (encIdentifier 0 32 16 :: L N).length = 1 + (L N).length := by rw [List.length_cons]; omega
  have eH : (4 :: L H.length ++ H).length = 1 + (L H.length).length + H.length := by
    rw [List.length_append, List.length_cons]; omega
  have eC : (4 :: L C.length ++ C).length = 1 + (L C.length).length + C.length := by
    rw [List.length_append, List.length_cons]; omega
  have eX := len_field X hX
  have eY := len_field Y hY
  simp only []
  generalize hs : p + (1 + (L N).length) = s
  have hm1 := wrm_len (m := m) (o := p) (bs := encIdentifier 0 32 16 :: L N) (by omega)
  have g0 : Has (wrm m p (encIdentifier 0 32 16 :: L N)) p (encIdentifier 0 32 16 :: L N) := has_wrm (by omega)
  generalize wrm m p (encIdentifier 0 32 16 :: L N) = m1 at *
  rw [encInteger32 hX _ _ (by omega)]
  simp only []
  have hm2 := wrm_len (m := m1) (o := s) (bs := 2 :: L (vlen X) ++ X) (by omega)
  have g1 : Has (wrm m1 s (2 :: L (vlen X) ++ X)) s (2 :: L (vlen X) ++ X) := has_wrm (by omega)
  replace g0 := has_wrm_disj (p := s) (b := 2 :: L (vlen X) ++ X) g0 (by omega) (by omega)
  generalize wrm m1 s (2 :: L (vlen X) ++ X) = m2 at *
  rw [encInteger32 hY _ _ (by omega)]
  simp only []
  have hm3 := wrm_len (m := m2) (o := s + (2 + vlen X)) (bs := 2 :: L (vlen Y) ++ Y) (by omega)
  have g2 : Has (wrm m2 (s + (2 + vlen X)) (2 :: L (vlen Y) ++ Y)) (s + (2 + vlen X)) (2 :: L (vlen Y) ++ Y) :=
    has_wrm (by omega)
  replace g0 := has_wrm_disj (p := s + (2 + vlen X)) (b := 2 :: L (vlen Y) ++ Y) g0 (by omega) (by omega)
  replace g1 := has_wrm_disj (p := s + (2 + vlen X)) (b := 2 :: L (vlen Y) ++ Y) g1 (by omega) (by omega)
  generalize wrm m2 (s + (2 + vlen X)) (2 :: L (vlen Y) ++ Y) = m3 at *
  rw [encOctetString_eq m3 (s + (2 + vlen X) + (2 + vlen Y)) H (by omega)]
  simp only []
  generalize hq : s + (2 + vlen X) + (2 + vlen Y) = q
  have hm4 := wrm_len (m := m3) (o := q) (bs := 4 :: L H.length ++ H) (by omega)
  have g3 : Has (wrm m3 q (4 :: L H.length ++ H)) q (4 :: L H.length ++ H) := has_wrm (by omega)
  replace g0 := has_wrm_disj (p := q) (b := 4 :: L H.length ++ H) g0 (by omega) (by omega)
  replace g1 := has_wrm_disj (p := q) (b := 4 :: L H.length ++ H) g1 (by omega) (by omega)
  replace g2 := has_wrm_disj (p := q) (b := 4 :: L H.length ++ H) g2 (by omega) (by omega)
  generalize wrm m3 q (4 :: L H.length ++ H) = m4 at *
  rw [encOctetString_eq m4 (q + (1 + (L H.length).length + H.length)) C (by omega)]
  simp only []
  generalize hr : q + (1 + (L H.length).length + H.length) = r
  have hm5 := wrm_len (m := m4) (o := r) (bs := 4 :: L C.length ++ C) (by omega)
  have g4 : Has (wrm m4 r (4 :: L C.length ++ C)) r (4 :: L C.length ++ C) := has_wrm (by omega)
  replace g0 := has_wrm_disj (p := r) (b := 4 :: L C.length ++ C) g0 (by omega) (by omega)
  replace g1 := has_wrm_disj (p := r) (b := 4 :: L C.length ++ C) g1 (by omega) (by omega)
  replace g2 := has_wrm_disj (p := r) (b := 4 :: L C.length ++ C) g2 (by omega) (by omega)
  replace g3 := has_wrm_disj (p := r) (b := 4 :: L C.length ++ C) g3 (by omega) (by omega)
  have es : s = p + 1 + (L N).length := by omega
  refine ⟨wrm m4 r (4 :: L C.length ++ C), s, es, congrArg Res.ok (Prod.ext rfl ?_), by omega, g0, g1, g2, ?_, ?_⟩
  · show _ = 1 + (L N).length + N; omega
  · rw [hq]; exact g3
  · rw [hq, hr]; exact g4

theorem cipherDecode_at {buf : Mem} {p inl s : Nat} {X Y H C : List Byte} (hX : X.length = 32) (hY : Y.length = 32)
    (hN : cipherLen X Y H C < 2 ^ 56) (hs : s = p + 1 + (L (cipherLen X Y H C)).length)
    (hb : s + cipherLen X Y H C ≤ buf.length)
    (h0 : Has buf p (0x30 :: L (cipherLen X Y H C))) (h1 : Has buf s (2 :: L (vlen X) ++ X))
    (h2 : Has buf (s + (2 + vlen X)) (2 :: L (vlen Y) ++ Y))
    (h3 : Has buf (s + (2 + vlen X) + (2 + vlen Y)) (4 :: L H.length ++ H))
    (h4 : Has buf (s + (2 + vlen X) + (2 + vlen Y) + (1 + (L H.length).length + H.length)) (4 :: L C.length ++ C))
    (hi : 1 + (L (cipherLen X Y H C)).length + cipherLen X Y H C ≤ inl) (hi2 : inl < 2 ^ 64) :
    cipherDecode buf p inl = if Good X ∧ Good Y ∧ H ≠ [] ∧ C ≠ [] then
      .ok (s + 2, s + 36, (s + 69 + (L H.length).length, H.length),
        (s + 69 + (L H.length).length + H.length + 1 + (L C.length).length, C.length),
        1 + (L (cipherLen X Y H C)).length + cipherLen X Y H C)
      else .err (-1) := by
  have hx := vlen_cases X
  have hy := vlen_cases Y
  have hdef : cipherLen X Y H C = 2 + vlen X + (2 + vlen Y) + (1 + (L H.length).length + H.length)
    + (1 + (L C.length).length + C.length) := rfl
  generalize hNn : cipherLen X Y H C = N at *
  unfold cipherDecode
  have hq := seq_at (inl := inl) h0 (by omega) (by omega) (by omega)
  rw [← hs] at hq
  have hf := decField (inl := N) hX h1 (by omega) (by omega)
  have hf2 := fun h : vlen X = 32 => decField (inl := N - 34) hY
    (show Has buf (s + 34) _ by rw [h] at h2; exact h2) (by omega) (by omega)
  have eo := fun (hx : vlen X = 32) (hy : vlen Y = 32) => decOctet_at (inl := N - 34 - 34)
    (Has.left (a := 4 :: L H.length) (show Has buf (s + 34 + 34) _ by rw [hx, hy] at h3; exact h3))
    (encLength_len (by omega)) (by omega) (by omega)
  have ec := fun (hx : vlen X = 32) (hy : vlen Y = 32) => decOctet_at
    (inl := N - 34 - 34 - (1 + (L H.length).length + H.length))
    (Has.left (a := 4 :: L C.length) (show Has buf (s + 34 + 34 + (1 + (L H.length).length + H.length)) _ by
      rw [hx, hy] at h4; exact h4)) (encLength_len (by omega)) (by omega) (by omega)
  generalize decSequence = D1 at *
  generalize decInteger = D2 at *
  generalize decOctetString = D3 at *
  refine good_field hq ?_
  simp only []
  by_cases hg : Good X
  swap
  · rw [if_neg hg] at hf
    rw [if_neg (fun h => hg h.1)]
    exact bad_field hf (fun q l n h => by simp only []; rw [if_pos h])
  rw [if_pos hg] at hf
  obtain ⟨hd, hx32⟩ := hf
  refine good_field hd ?_
  simp only []
  rw [if_neg (by simp), szSub_eq (a := N) (by omega) (by omega)]
  replace hf2 := hf2 hx32
  by_cases hg2 : Good Y
  swap
  · rw [if_neg hg2] at hf2
    rw [if_neg (fun h => hg2 h.2.1)]
    exact bad_field hf2 (fun q l n h => by simp only []; rw [if_pos h])
  rw [if_pos hg2] at hf2
  obtain ⟨hd2, hy32⟩ := hf2
  refine good_field hd2 ?_
  simp only []
  rw [if_neg (by simp), szSub_eq (a := N - 34) (by omega) (by omega)]
  replace eo := eo hx32 hy32
  by_cases hH : H = []
  · rw [if_pos (by rw [hH]; rfl)] at eo
    rw [if_neg (fun h => h.2.2.1 hH)]
    exact err_field eo
  rw [if_neg (by simpa using hH)] at eo
  refine good_field eo ?_
  simp only []
  rw [szSub_eq (a := N - 34 - 34) (by omega) (by omega)]
  replace ec := ec hx32 hy32
  by_cases hC : C = []
  · rw [if_pos (by rw [hC]; rfl)] at ec
    rw [if_neg (fun h => h.2.2.2 hC)]
    exact err_field ec
  rw [if_neg (by simpa using hC)] at ec
  rw [if_pos ⟨hg, hg2, hH, hC⟩]
  refine good_field ec ?_
  simp only []
  rw [szSub_twice (by omega) hi2]
  rw [show s + 34 + 34 + 1 + (L H.length).length = s + 69 + (L H.length).length by omega,
    show s + 34 + 34 + (1 + (L H.length).length + H.length) + 1 + (L C.length).length =
      s + 69 + (L H.length).length + H.length + 1 + (L C.length).length by omega]

end Verif.Asn1
