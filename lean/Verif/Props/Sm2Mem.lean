import Verif.Proofs.Sm2Mem
/-!
# C84: SM2 encryption and decryption on the caller's buffers

`m` is the memory before the call, `ct` and `pt` the addresses of the ciphertext and plaintext buffers, which may
overlap.  `rdm m p n` are the `n` octets at `p`, `wrm m p bs` is the memory with `bs` stored at `p`.  A ciphertext is
`C1 ‖ C3 ‖ C2`: point, digest, masked text; `Sm2.c1Len` is 33 or 65.
-/
namespace Verif.Props
open Verif Spec WeierstrassCurve WeierstrassCurve.Affine

variable {S : Type} {C : HashClass S} {H : List Byte → List Byte}

/-! ## Nothing outside the output is written -/

/-- **C84** whatever overlaps and however the call ends, `encrypt` writes only the `ciphertext_len` octets at `ct`. -/
theorem C84_encrypt_frame (hC : IsHash C H) (pub : Sm2.Pub) (Q : Sm2Point) (hp : Sm2PubIs pub Q) (pc : Sm2.PC)
    (m : Mem) (ct pt n : Nat) (rnds : List (List Byte)) (hr : ∀ r ∈ rnds, r.length = 32) (hi : pt + n ≤ m.length)
    (ho : ct + Sm2.c1Len pc + C.DS + n ≤ m.length) :
    (Sm2.encryptM C pub pc ct pt n m rnds).1.length = m.length ∧
    ∀ k, k < ct ∨ ct + (Sm2.c1Len pc + C.DS + n) ≤ k → (Sm2.encryptM C pub pc ct pt n m rnds).1[k]? = m[k]? :=
  encryptM_frame hC hp pc rnds m hr hi ho

/-- **C84** whatever overlaps and however the call ends, `decrypt` writes only the `plaintext_len` octets at `pt`; when
`plaintext_len` throws it writes nothing. -/
theorem C84_decrypt_frame (hC : IsHash C H) (K : Sm2.Priv) (m : Mem) (pt ct cLen : Nat) (hb : ct + cLen ≤ m.length) :
    (∀ n, Sm2.plaintextLen C (rdm m ct cLen) = .ok n → pt + n ≤ m.length →
      (Sm2.decryptM C K m pt ct cLen).mem.length = m.length ∧
      ∀ k, k < pt ∨ pt + n ≤ k → (Sm2.decryptM C K m pt ct cLen).mem[k]? = m[k]?) ∧
    (Sm2.plaintextLen C (rdm m ct cLen) = .throw → Sm2.decryptM C K m pt ct cLen = ⟨m, none, .throw⟩) := by
  refine ⟨fun n hn ho => decryptM_frame hC K m pt ct cLen n hb hn ho, fun h => ?_⟩
  unfold Sm2.decryptM
  rw [h]

/-! ## The result on buffers -/

/-- **C84 (part)** when the plaintext does not meet the place of `C2`, in particular when the buffers are apart, and also
when the plaintext lies where `C1` and `C3` will be: `encrypt` leaves at `ct` the ciphertext of the plaintext and stores
its length; it throws exactly for a plaintext that is too long and has then written nothing.  Missing: a plaintext at the
place of `C2`, see `C84_encrypt_in_place_violated`. -/
theorem C84_encrypt_partial (hC : IsHash C H) (pub : Sm2.Pub) (Q : Sm2Point) (hp : Sm2PubIs pub Q) (pc : Sm2.PC)
    (m : Mem) (ct pt n : Nat) (rnds : List (List Byte)) (hr : ∀ r ∈ rnds, r.length = 32) (hi : pt + n ≤ m.length)
    (ho : ct + Sm2.c1Len pc + C.DS + n ≤ m.length)
    (hd : ct + Sm2.c1Len pc + C.DS + n ≤ pt ∨ pt + n ≤ ct + Sm2.c1Len pc + C.DS) :
    (n < C.DS * (2 ^ 32 - 1) → ∀ c, Sm2.encrypt C pub (rdm m pt n) pc rnds = .ok (some c) →
      Sm2.encryptM C pub pc ct pt n m rnds = (wrm m ct c, .ok (some c.length))) ∧
    (C.DS * (2 ^ 32 - 1) ≤ n → rnds ≠ [] → Sm2.encryptM C pub pc ct pt n m rnds = (m, .throw)) := by
  refine ⟨fun hn => (encryptM_ok hC hp pc hn rnds m hr hi ho hd).1, fun hn hne => ?_⟩
  obtain ⟨q, rest, rfl⟩ := List.exists_cons_of_ne_nil hne
  obtain ⟨_, _, _, _, _, _, _, _, e⟩ := encryptM_step hC hp pc (hr q (by simp)) rest hi ho (Or.inr hd)
  rw [e, if_pos hn]

/-- **C84 (part)** when the plaintext does not meet the place of `C3` and is apart from `C2` or exactly at its place, in
particular when the buffers are apart and for decryption in place at `C2`: `decrypt` leaves at `pt` the plaintext of the
ciphertext and stores its length, or throws.  Missing: an output over `C3`, see `C84_decrypt_over_digest_violated`. -/
theorem C84_decrypt_partial (hC : IsHash C H) (K : Sm2.Priv) (d : Nat) (hK : Sm2PrivIs sm2G K d) (m : Mem)
    (pt ct cLen n : Nat) (hb : ct + cLen ≤ m.length) (hn : Sm2.plaintextLen C (rdm m ct cLen) = .ok n)
    (ho : pt + n ≤ m.length) (h3 : pt + n ≤ ct + (cLen - n - C.DS) ∨ ct + (cLen - n) ≤ pt)
    (h2 : pt = ct + (cLen - n) ∨ pt + n ≤ ct + (cLen - n) ∨ ct + cLen ≤ pt) :
    (∀ p, Sm2.decrypt C K (rdm m ct cLen) = .ok p →
      Sm2.decryptM C K m pt ct cLen = ⟨wrm m pt p, some p.length, .ok ()⟩) ∧
    (Sm2.decrypt C K (rdm m ct cLen) = .throw → (Sm2.decryptM C K m pt ct cLen).out = .throw) := by
  classical
  have hc : ∃ C1 C3 C2, Cut C.DS (rdm m ct cLen) C1 C3 C2 := by
    by_contra h
    rw [plaintextLen_nocut h] at hn
    cases hn
  obtain ⟨C1, C3, C2, hc⟩ := hc
  obtain ⟨p1, p2, p3, p4⟩ := cut_places hc hb
  rw [plaintextLen_cut hc, Outcome.ok.injEq] at hn
  subst hn
  have e1 : cLen - C2.length = C1.length + C.DS := by omega
  rw [e1] at h2 h3
  rw [show C1.length + C.DS - C.DS = C1.length by omega] at h3
  by_cases hP : ∃ P, Sm2Decodes C1 P
  · obtain ⟨P, hP⟩ := hP
    obtain ⟨x2, y2, g2, eP, em⟩ := decryptM_late hC hK hb hc hP ho (by omega)
    simp only at em
    have hk := sm2Kdf_len hC (fieldOctets x2 ++ fieldOctets y2) C2.length
    have hx : (xorBytes C2 (sm2Kdf H C.DS (fieldOctets x2 ++ fieldOctets y2) C2.length)).length = C2.length := by
      rw [xorBytes_len, hk, Nat.min_self]
    have hrd : rdm (wrm m pt (xorBytes C2 (sm2Kdf H C.DS (fieldOctets x2 ++ fieldOctets y2) C2.length)))
        (ct + C1.length) C.DS = C3 := by
      rw [rdm_wrm_disj (by omega) (by omega), p3]
    rw [hrd] at em
    have uniq : ∀ p, IsSm2Plain H C.DS d (rdm m ct cLen) p →
        (C2 ≠ [] → ∃ b ∈ sm2Kdf H C.DS (fieldOctets x2 ++ fieldOctets y2) C2.length, b ≠ 0) ∧
        p = xorBytes C2 (sm2Kdf H C.DS (fieldOctets x2 ++ fieldOctets y2) C2.length) ∧
        C3 = H (fieldOctets x2 ++ p ++ fieldOctets y2) := by
      rintro p ⟨C1', C3', C2', P', x2', y2', g2', e', f3', k1, k2, k3, k4, k5⟩
      obtain ⟨rfl, rfl, rfl⟩ := cut_unique hc ⟨e', decodes_form k1, f3'⟩
      have := decodes_unique hP k1
      subst this
      rw [eP] at k2
      obtain ⟨rfl, rfl⟩ := (Point.some.injEq ..).mp k2
      exact ⟨k3, k4, k5⟩
    constructor
    · intro p hp
      obtain ⟨q1, q2⟩ := ((C46_decrypt hC K d hK _).1 p).mp hp
      obtain ⟨u1, u2, u3⟩ := uniq p q1
      have hpl : p.length = C2.length := by rw [u2, hx]
      rw [em, if_neg (by omega), if_neg, ← u2, if_neg (not_not.mpr u3.symm), hpl]
      rintro ⟨z1, z2⟩
      obtain ⟨b, b1, b2⟩ := u1 (by intro h; rw [h] at z1; exact z1 rfl)
      exact b2 (z2 b b1)
    · intro ht
      have hno := (C46_decrypt hC K d hK _).2.mp ht
      rw [em]
      split_ifs with z1 z2 z3
      · rfl
      · rfl
      · rfl
      · exfalso
        refine hno ⟨_, ⟨C1, C3, C2, P, x2, y2, g2, hc.1, hc.2.2, hP, eP, fun hne => ?_, rfl, ?_⟩, ?_⟩
        · by_contra hcon
          push Not at hcon
          exact z2 ⟨fun h => hne (List.eq_nil_of_length_eq_zero h), hcon⟩
        · exact (not_ne_iff.mp z3).symm
        · change (xorBytes C2 _).length < _
          rw [hx]; omega
  · push Not at hP
    have hm := decryptM_early (C := C) (K := K) (pt := pt) hb (fun C1' C3' C2' P hc' hd' => by
      obtain ⟨rfl, rfl, rfl⟩ := cut_unique hc hc'
      exact hP P hd')
    rw [hm]
    refine ⟨fun p hp => ?_, fun _ => rfl⟩
    obtain ⟨C1', C3', C2', P', x2', y2', g2', e', f3', k1, k2, k3, k4, k5⟩ := (((C46_decrypt hC K d hK _).1 p).mp hp).1
    obtain ⟨rfl, rfl, rfl⟩ := cut_unique hc ⟨e', decodes_form k1, f3'⟩
    exact absurd k1 (hP P')

/-! ## Where the buffers show more, or less, than the octets -/

/-- An accepted ciphertext taken apart. -/
theorem plain_parts (hC : IsHash C H) {K : Sm2.Priv} {d : Nat} (hK : Sm2PrivIs sm2G K d) {C1 C3 C2 p : List Byte}
    (h : Sm2.decrypt C K (C1 ++ C3 ++ C2) = .ok p) (h3 : C3.length = C.DS) (h2 : C2.length = p.length) :
    ∃ P x2 y2 g2, C1Form C1 ∧ Sm2Decodes C1 P ∧ d • P = .some x2 y2 g2 ∧
      (C2 ≠ [] → ∃ b ∈ sm2Kdf H C.DS (fieldOctets x2 ++ fieldOctets y2) C2.length, b ≠ 0) ∧
      p = xorBytes C2 (sm2Kdf H C.DS (fieldOctets x2 ++ fieldOctets y2) C2.length) ∧
      C3 = H (fieldOctets x2 ++ p ++ fieldOctets y2) ∧ C2.length < C.DS * (2 ^ 32 - 1) := by
  obtain ⟨⟨C1', C3', C2', P', x2', y2', g2', e', f3', k1, k2, k3, k4, k5⟩, q2⟩ := ((C46_decrypt hC K d hK _).1 p).mp h
  have hx : (xorBytes C2' (sm2Kdf H C.DS (fieldOctets x2' ++ fieldOctets y2') C2'.length)).length = C2'.length := by
    rw [xorBytes_len, sm2Kdf_len hC, Nat.min_self]
  have hl : C2.length = C2'.length := by rw [h2, k4]; exact hx
  obtain ⟨e1, rfl⟩ := List.append_inj' e' hl
  obtain ⟨rfl, rfl⟩ := List.append_inj' e1 (by rw [h3, f3'])
  exact ⟨P', x2', y2', g2', decodes_form k1, k1, k2, k3, k4, k5, by rw [h2]; exact q2⟩

/-- **C84 (violated)** a ciphertext whose digest has been altered is refused, but only after the plaintext has been
written: for buffers that are apart, `decrypt` throws and leaves in the output the very octets that it would have
returned for the genuine digest, and their number in `*p_len`. -/
theorem C84_decrypt_release_violated (hC : IsHash C H) (K : Sm2.Priv) (d : Nat) (hK : Sm2PrivIs sm2G K d) (m : Mem)
    (pt ct : Nat) (C1 C3 C2 D p : List Byte) (h : Sm2.decrypt C K (C1 ++ C3 ++ C2) = .ok p) (h3 : C3.length = C.DS)
    (h2 : C2.length = p.length) (hD : D.length = C.DS) (hne : D ≠ C3)
    (hm : rdm m ct (C1.length + C.DS + p.length) = C1 ++ D ++ C2)
    (hb : ct + (C1.length + C.DS + p.length) ≤ m.length) (ho : pt + p.length ≤ m.length)
    (hd : ct + (C1.length + C.DS + p.length) ≤ pt ∨ pt + p.length ≤ ct) :
    Sm2.decryptM C K m pt ct (C1.length + C.DS + p.length) = ⟨wrm m pt p, some p.length, .throw⟩ := by
  classical
  obtain ⟨P, x2, y2, g2, hf, hP, eP, k3, k4, k5, kl⟩ := plain_parts hC hK h h3 h2
  have hc : Cut C.DS (rdm m ct (C1.length + C.DS + p.length)) C1 D C2 := ⟨hm, hf, hD⟩
  obtain ⟨p1, p2, p3, p4⟩ := cut_places hc hb
  obtain ⟨x2', y2', g2', eP', em⟩ := decryptM_late hC hK hb hc hP (pt := pt) (by omega) (by omega)
  rw [eP] at eP'
  obtain ⟨rfl, rfl⟩ := (Point.some.injEq ..).mp eP'
  simp only at em
  rw [← k4] at em
  rw [em, if_neg (by omega), if_neg, if_pos, h2]
  · rw [rdm_wrm_disj (by omega) (by omega), p3, ← k5]
    exact fun hh => hne hh.symm
  · rintro ⟨z1, z2⟩
    obtain ⟨b, b1, b2⟩ := k3 (by intro h; rw [h] at z1; exact z1 rfl)
    exact b2 (z2 b b1)

/-- **C84 (violated)** decryption to the start of the ciphertext's own buffer: once the plaintext is longer than `C1`
it runs into `C3` before `C3` is compared, and a genuine ciphertext is refused (for a plaintext that does not reach
`C2`). -/
theorem C84_decrypt_over_digest_violated (hC : IsHash C H) (K : Sm2.Priv) (d : Nat) (hK : Sm2PrivIs sm2G K d) (m : Mem)
    (ct : Nat) (C1 C3 C2 p : List Byte) (h : Sm2.decrypt C K (C1 ++ C3 ++ C2) = .ok p) (h3 : C3.length = C.DS)
    (h2 : C2.length = p.length) (hm : rdm m ct (C1.length + C.DS + p.length) = C1 ++ C3 ++ C2)
    (hb : ct + (C1.length + C.DS + p.length) ≤ m.length) (hlo : C1.length < p.length)
    (hhi : p.length ≤ C1.length + C.DS) (hne : p.drop C1.length ≠ C3.take (p.length - C1.length)) :
    Sm2.decryptM C K m ct ct (C1.length + C.DS + p.length) = ⟨wrm m ct p, some p.length, .throw⟩ := by
  classical
  obtain ⟨P, x2, y2, g2, hf, hP, eP, k3, k4, k5, kl⟩ := plain_parts hC hK h h3 h2
  have hc : Cut C.DS (rdm m ct (C1.length + C.DS + p.length)) C1 C3 C2 := ⟨hm, hf, h3⟩
  obtain ⟨p1, p2, p3, p4⟩ := cut_places hc hb
  obtain ⟨x2', y2', g2', eP', em⟩ := decryptM_late hC hK hb hc hP (pt := ct) (by omega) (by omega)
  rw [eP] at eP'
  obtain ⟨rfl, rfl⟩ := (Point.some.injEq ..).mp eP'
  simp only at em
  rw [← k4] at em
  rw [em, if_neg (by omega), if_neg, if_pos, h2]
  · rw [← k5]
    intro hh
    apply hne
    rw [hh]
    apply List.ext_getElem?
    intro i
    rw [List.getElem?_drop, List.getElem?_take]
    unfold rdm
    by_cases hi : i < p.length - C1.length
    · rw [if_pos hi, List.getElem?_take, if_pos (by omega), List.getElem?_drop, wrm_get (by omega), if_neg (by omega),
        if_pos (by omega)]
      congr 1
      omega
    · rw [if_neg hi, List.getElem?_eq_none (by omega)]
  · rintro ⟨z1, z2⟩
    obtain ⟨b, b1, b2⟩ := k3 (by intro h; rw [h] at z1; exact z1 rfl)
    exact b2 (z2 b b1)

/-- **C84 (violated)** encryption of a plaintext that stands at the place of `C2`: the mask is applied first and the
digest is taken over the masked octets.  What is left is `C1 ‖ H(x2 ‖ C2 ‖ y2) ‖ C2` instead of
`C1 ‖ H(x2 ‖ plaintext ‖ y2) ‖ C2`, and the receiver refuses it unless these two digests are equal. -/
theorem C84_encrypt_in_place_violated (hC : IsHash C H) (K : Sm2.Priv) (d : Nat) (hK : Sm2PrivIs sm2G K d) (pc : Sm2.PC)
    (m : Mem) (ct n : Nat) (rnd : List Byte) (hr : rnd.length = 32) (hn : n < C.DS * (2 ^ 32 - 1))
    (ho : ct + Sm2.c1Len pc + C.DS + n ≤ m.length) (c : List Byte)
    (h : Sm2.encrypt C K.pub (rdm m (ct + Sm2.c1Len pc + C.DS) n) pc [rnd] = .ok (some c)) :
    ∃ x2 y2 h2 C1 C2, (beVal rnd % (sm2n - 1) + 1) • d • sm2G = .some x2 y2 h2 ∧
      c = C1 ++ H (fieldOctets x2 ++ rdm m (ct + Sm2.c1Len pc + C.DS) n ++ fieldOctets y2) ++ C2 ∧
      C1.length = Sm2.c1Len pc ∧ C2.length = n ∧
      Sm2.encryptM C K.pub pc ct (ct + Sm2.c1Len pc + C.DS) n m [rnd] =
        (wrm m ct (C1 ++ H (fieldOctets x2 ++ C2 ++ fieldOctets y2) ++ C2), .ok (some c.length)) ∧
      (H (fieldOctets x2 ++ C2 ++ fieldOctets y2) ≠
        H (fieldOctets x2 ++ rdm m (ct + Sm2.c1Len pc + C.DS) n ++ fieldOctets y2) →
        Sm2.decrypt C K (C1 ++ H (fieldOctets x2 ++ C2 ++ fieldOctets y2) ++ C2) = .throw) := by
  classical
  have hdec := C46_decrypt_encrypt hC K d hK _ pc [rnd] (by simpa using hr) c h
  have hi : ct + Sm2.c1Len pc + C.DS + n ≤ m.length := ho
  have hrl := rdm_len hi
  obtain ⟨x1, y1, h1, x2, y2, h2, e1, e2, e3⟩ := encryptStep_ok hC hK.2.2.2 (rdm m (ct + Sm2.c1Len pc + C.DS) n) pc hr
  obtain ⟨x1', y1', h1', x2', y2', h2', e1', e2', e3'⟩ :=
    encryptM_step hC hK.2.2.2 pc hr [] hi ho (Or.inl rfl)
  rw [e1] at e1'
  rw [e2] at e2'
  obtain ⟨rfl, rfl⟩ := (Point.some.injEq ..).mp e1'
  obtain ⟨rfl, rfl⟩ := (Point.some.injEq ..).mp e2'
  rw [hrl, if_neg (by omega)] at e3
  rw [if_neg (by omega)] at e3'
  simp only at e3'
  have hne : rdm m (ct + Sm2.c1Len pc + C.DS) n ≠ [] ↔ n ≠ 0 := by rw [← List.length_pos_iff_ne_nil, hrl]; omega
  have hk := sm2Kdf_len hC (fieldOctets x2 ++ fieldOctets y2) n
  have e4 : List.zipWith (· ^^^ ·) (rdm m (ct + Sm2.c1Len pc + C.DS) n)
      (sm2Kdf H C.DS (fieldOctets x2 ++ fieldOctets y2) n) =
    xorBytes (rdm m (ct + Sm2.c1Len pc + C.DS) n) (sm2Kdf H C.DS (fieldOctets x2 ++ fieldOctets y2) n) := rfl
  rw [e4] at e3
  have hx : (xorBytes (rdm m (ct + Sm2.c1Len pc + C.DS) n)
      (sm2Kdf H C.DS (fieldOctets x2 ++ fieldOctets y2) n)).length = n := by rw [xorBytes_len, hrl, hk, Nat.min_self]
  unfold Sm2.encrypt at h
  rw [e3] at h
  have hz : ¬ (n ≠ 0 ∧ ∀ b ∈ sm2Kdf H C.DS (fieldOctets x2 ++ fieldOctets y2) n, b = 0) := by
    intro hz
    rw [if_pos ⟨hne.mpr hz.1, hz.2⟩, o_bind] at h
    unfold Sm2.encrypt at h
    simp at h
  rw [if_neg (fun h => hz ⟨hne.mp h.1, h.2⟩), o_bind] at h
  simp only at h
  rw [Outcome.ok.injEq, Option.some.injEq] at h
  rw [if_neg hz] at e3'
  refine ⟨x2, y2, h2, encForm pc x1 y1, _, e2, h.symm, encForm_len pc x1 y1, hx, ?_, fun hcol => ?_⟩
  · rw [e3']
    have hrd := rdm_wrm_same (m := m) (o := ct + Sm2.c1Len pc + C.DS) (bs := xorBytes (rdm m (ct + Sm2.c1Len pc + C.DS) n)
      (sm2Kdf H C.DS (fieldOctets x2 ++ fieldOctets y2) n)) (by omega)
    rw [hx] at hrd
    rw [hrd]
    have hf := encForm_len pc x1 y1
    have hcl : c.length = Sm2.c1Len pc + C.DS + n := by
      rw [← h, List.length_append, List.length_append, hf, hC.len, hx]
    generalize xorBytes (rdm m (ct + Sm2.c1Len pc + C.DS) n)
      (sm2Kdf H C.DS (fieldOctets x2 ++ fieldOctets y2) n) = C2 at *
    have hh := hC.len (fieldOctets x2 ++ C2 ++ fieldOctets y2)
    generalize encForm pc x1 y1 = C1 at *
    generalize H (fieldOctets x2 ++ C2 ++ fieldOctets y2) = C3 at *
    have w1 := wrm_wrm' (m := m) (o := ct + Sm2.c1Len pc) (a := C3) (b := C2) (by omega)
    rw [hh] at w1
    have w2 := wrm_wrm' (m := m) (o := ct) (a := C1) (b := C3 ++ C2) (by rw [List.length_append]; omega)
    rw [hf] at w2
    rw [w1, w2, List.append_assoc, hcl]
  · generalize xorBytes (rdm m (ct + Sm2.c1Len pc + C.DS) n)
      (sm2Kdf H C.DS (fieldOctets x2 ++ fieldOctets y2) n) = C2 at *
    rw [← h] at hdec
    obtain ⟨P, X, Y, G2, hf, hP, eP, k3, k4, k5, kl⟩ := plain_parts hC hK hdec (hC.len _) (by rw [hx, hrl])
    refine (C46_decrypt hC K d hK _).2.mpr ?_
    rintro ⟨p, ⟨C1', C3', C2', P', x2', y2', g2', e', f3', q1, q2, q3, q4, q5⟩, -⟩
    obtain ⟨rfl, r3, rfl⟩ := cut_unique ⟨rfl, hf, hC.len _⟩ ⟨e', decodes_form q1, f3'⟩
    have := decodes_unique hP q1
    subst this
    rw [eP] at q2
    obtain ⟨rfl, rfl⟩ := (Point.some.injEq ..).mp q2
    apply hcol
    rw [r3, q5, q4, k5, k4]
    rfl

/-- **C84 (violated)** while `encrypt` waits for the generator after an all-zero key stream, the plaintext stands
unmasked at the place of `C2`; a generator that throws then leaves it there. -/
theorem C84_retry_plaintext_violated (hC : IsHash C H) (pub : Sm2.Pub) (Q : Sm2Point) (hp : Sm2PubIs pub Q) (pc : Sm2.PC)
    (m : Mem) (ct pt n : Nat) (rnds : List (List Byte)) (hr : ∀ r ∈ rnds, r.length = 32) (hi : pt + n ≤ m.length)
    (ho : ct + Sm2.c1Len pc + C.DS + n ≤ m.length)
    (hd : ct + Sm2.c1Len pc + C.DS + n ≤ pt ∨ pt + n ≤ ct + Sm2.c1Len pc + C.DS) (hn : n < C.DS * (2 ^ 32 - 1))
    (hne : rnds ≠ []) (h : Sm2.encrypt C pub (rdm m pt n) pc rnds = .ok none) :
    Sm2.encryptM C pub pc ct pt n m rnds = (wrm m (ct + Sm2.c1Len pc + C.DS) (rdm m pt n), .ok none) :=
  (encryptM_ok hC hp pc hn rnds m hr hi ho hd).2 h hne

/-! ## Concrete cases: SM3, key 1, generator answer 0 (nonce 1), one octet `61` -/

theorem key1 : Sm2PrivIs sm2G ⟨toBE 32 1, gPub⟩ 1 :=
  ⟨rfl, by decide, by decide +kernel, by rw [one_nsmul]; exact gPub_is⟩

theorem gx_octets : fieldOctets (sm2gx : ZMod sm2p) = toBE 32 sm2gx := by
  unfold fieldOctets
  rw [ZMod.val_natCast, Nat.mod_eq_of_lt (by decide +kernel)]

theorem gy_octets : fieldOctets (sm2gy : ZMod sm2p) = toBE 32 sm2gy := by
  unfold fieldOctets
  rw [ZMod.val_natCast, Nat.mod_eq_of_lt (by decide +kernel)]

theorem hash_of {x d : List Byte} (hx : x.length < 1000) (h : Sm3.cls.stream [x] [] = .ok d) : SM3.hash x = d := by
  rw [sm3_isHash.stream, if_pos (by simp; omega), Outcome.ok.injEq] at h
  simpa using h

theorem hash_ne {x d : List Byte} (hx : x.length < 1000) (h : Sm3.cls.stream [x] [] ≠ .ok d) : SM3.hash x ≠ d := by
  rintro rfl
  apply h
  rw [sm3_isHash.stream, if_pos (by simp; omega)]
  simp

/-- `H(x_G ‖ 61 ‖ y_G)`. -/
def d61 : List Byte :=
  [0x2f, 0xeb, 0xc9, 0x1d, 0x84, 0x55, 0x3f, 0xc0, 0x36, 0x58, 0x52, 0xb3, 0xde, 0x25, 0x18, 0x72,
    0x1a, 0x01, 0x26, 0x64, 0xe6, 0x74, 0x47, 0xa3, 0x3d, 0x5d, 0x3a, 0x63, 0x3d, 0x42, 0xd0, 0x15]

/-- With key 1 and nonce 1 the ciphertext is computed from `x_G`, `y_G`. -/
theorem enc_parts {pt C2 D : List Byte} (hl : pt.length < 900)
    (hk : Sm2.kdfXor Sm3.cls pt (toBE 32 sm2gx ++ toBE 32 sm2gy) = .ok (some C2))
    (hh : Sm3.cls.stream [toBE 32 sm2gx ++ pt ++ toBE 32 sm2gy] [] = .ok D) : ∃ C1, C1.length = 33 ∧
    Sm2.encrypt Sm3.cls gPub pt .compressed [toBE 32 0] = .ok (some (C1 ++ D ++ C2)) := by
  have hds : Sm3.cls.DS = 32 := rfl
  have hr : ∀ r ∈ [toBE 32 0], r.length = 32 := by simp [toBE_len]
  have hlt : pt.length < Sm3.cls.DS * (2 ^ 32 - 1) := by rw [hds]; omega
  have h2 := (C49_kdf sm3_isHash (toBE 32 sm2gx ++ toBE 32 sm2gy) pt (by simp [toBE_len])).2.1 hlt
  have hz : ¬ (pt ≠ [] ∧ (∀ b ∈ sm2Kdf SM3.hash Sm3.cls.DS (toBE 32 sm2gx ++ toBE 32 sm2gy) pt.length, b = 0)) := by
    intro hz
    have := h2.1 hz
    rw [hk] at this
    simp at this
  have hk2 := h2.2 hz
  rw [hk, Outcome.ok.injEq, Option.some.injEq] at hk2
  have hh2 : SM3.hash (toBE 32 sm2gx ++ pt ++ toBE 32 sm2gy) = D := hash_of (by simp [toBE_len]; omega) hh
  have hc : ∃ c, Sm2.encrypt Sm3.cls gPub pt .compressed [toBE 32 0] = .ok (some c) := by
    rcases (C46_encrypt sm3_isHash gPub sm2G gPub_is pt .compressed [toBE 32 0] hr).2.1 hlt with h | h
    · exact h
    · exfalso
      have hs : Sm2.encryptStep Sm3.cls gPub pt (toBE 32 0) .compressed = .ok none := by
        unfold Sm2.encrypt at h
        generalize Sm2.encryptStep Sm3.cls gPub pt (toBE 32 0) .compressed = o at h
        rcases o with (_ | ct) | _ | _
        · rfl
        all_goals cases h
      obtain ⟨h0, x2, y2, h2, e, hk⟩ := (C46_encrypt_retry sm3_isHash gPub sm2G gPub_is pt .compressed _
        (toBE_len _ _) hlt).mp hs
      have h1 : beVal (toBE 32 0) % (sm2n - 1) + 1 = 1 := by decide +kernel
      rw [h1, one_nsmul] at e
      obtain ⟨rfl, rfl⟩ := (Point.some.injEq ..).mp e
      rw [gx_octets, gy_octets] at hk
      exact hz ⟨h0, hk⟩
  obtain ⟨c, hc⟩ := hc
  obtain ⟨rnd, hrnd, x1, y1, h1, x2, y2, h2, e1, e2, e3⟩ :=
    (C46_encrypt sm3_isHash gPub sm2G gPub_is pt .compressed [toBE 32 0] hr).2.2 c hc
  rw [List.mem_singleton] at hrnd
  subst hrnd
  rw [show beVal (toBE 32 0) % (sm2n - 1) + 1 = 1 by decide +kernel, one_nsmul] at e2
  obtain ⟨rfl, rfl⟩ := (Point.some.injEq ..).mp e2
  rw [gx_octets, gy_octets] at e3
  refine ⟨encForm .compressed x1 y1, encForm_len .compressed x1 y1, ?_⟩
  rw [hc, e3, hh2, ← hk2]

/-- The ciphertext of `61`: point, digest, masked octet. -/
theorem enc61_parts : ∃ C1, C1.length = 33 ∧
    Sm2.encrypt Sm3.cls gPub [0x61] .compressed [toBE 32 0] = .ok (some (C1 ++ d61 ++ [0xa6])) :=
  enc_parts (by decide) (by decide +kernel) (by decide +kernel)

theorem enc61 : ∃ c, Sm2.encrypt Sm3.cls gPub [0x61] .compressed [toBE 32 0] = .ok (some c) := by
  obtain ⟨C1, -, h⟩ := enc61_parts
  exact ⟨_, h⟩

/-- A plaintext of one octet at address 40, 240 octets of room: the ciphertext at 100, and one that overlaps the place of
`C1`. -/
def mem61 : Mem := List.replicate 40 0 ++ [0x61] ++ List.replicate 199 0

theorem rdm61 : rdm mem61 40 1 = [0x61] := by decide +kernel

/-- C84_encrypt_partial with buffers apart (`ct = 100`) and with the plaintext where `C1` will be (`ct = 40`). -/
example (ct : Nat) (h : ct = 100 ∨ ct = 40) : ∃ c, Sm2.encrypt Sm3.cls gPub [0x61] .compressed [toBE 32 0] = .ok (some c) ∧
    Sm2.encryptM Sm3.cls gPub .compressed ct 40 1 mem61 [toBE 32 0] = (wrm mem61 ct c, .ok (some c.length)) := by
  obtain ⟨c, hc⟩ := enc61
  refine ⟨c, hc, (C84_encrypt_partial sm3_isHash gPub sm2G gPub_is .compressed mem61 ct 40 1 _ (by simp [toBE_len])
    (by decide +kernel) ?_ ?_).1 (by decide) c (by rw [rdm61]; exact hc)⟩
  · rcases h with rfl | rfl <;> decide +kernel
  · rcases h with rfl | rfl <;> decide +kernel

/-- C84_decrypt_partial: what was encrypted to 100 is decrypted to 0, and in place to 100 + 33 + 32. -/
example (pt : Nat) (h : pt = 0 ∨ pt = 165) : ∃ c, Sm2.encrypt Sm3.cls gPub [0x61] .compressed [toBE 32 0] = .ok (some c) ∧
    Sm2.decryptM Sm3.cls ⟨toBE 32 1, gPub⟩ (wrm mem61 100 c) pt 100 66 =
      ⟨wrm (wrm mem61 100 c) pt [0x61], some 1, .ok ()⟩ := by
  obtain ⟨c, hc⟩ := enc61
  obtain ⟨l1, -, l3⟩ := C50_lengths sm3_isHash gPub sm2G gPub_is [0x61] .compressed [toBE 32 0] (by simp [toBE_len]) c hc
  have hl : c.length = 66 := l1
  have ml : List.length mem61 = 240 := by decide +kernel
  have wl : List.length (wrm mem61 100 c) = 240 := by rw [wrm_len (by omega), ml]
  have hrd : rdm (wrm mem61 100 c) 100 66 = c := by
    have := rdm_wrm_same (m := mem61) (o := 100) (bs := c) (by omega)
    rwa [hl] at this
  have hds : Sm3.cls.DS = 32 := rfl
  refine ⟨c, hc, (C84_decrypt_partial sm3_isHash _ 1 key1 (wrm mem61 100 c) pt 100 66 1 (by omega)
    (by rw [hrd]; exact l3) (by omega) (by rw [hds]; omega) (by omega)).1 [0x61] ?_⟩
  rw [hrd]
  exact C46_decrypt_encrypt sm3_isHash ⟨toBE 32 1, gPub⟩ 1 key1 [0x61] .compressed _ (by simp [toBE_len]) c hc

/-- C84_decrypt_release_violated: the digest replaced by zeros; the call throws and the plaintext `61` is left at 0. -/
example : ∃ C1 : List Byte, C1.length = 33 ∧ ∀ m, m = wrm (List.replicate 240 0) 100 (C1 ++ List.replicate 32 0 ++ [0xa6]) →
    Sm2.decryptM Sm3.cls ⟨toBE 32 1, gPub⟩ m 0 100 66 = ⟨wrm m 0 [0x61], some 1, .throw⟩ := by
  obtain ⟨C1, hl, hc⟩ := enc61_parts
  have hdec := C46_decrypt_encrypt sm3_isHash ⟨toBE 32 1, gPub⟩ 1 key1 [0x61] .compressed _ (by simp [toBE_len]) _ hc
  refine ⟨C1, hl, fun m hm => ?_⟩
  have hcl : (C1 ++ List.replicate 32 0 ++ [(0xa6 : Byte)]).length = 66 := by simp [hl]
  generalize hcc : C1 ++ List.replicate 32 0 ++ [(0xa6 : Byte)] = c at *
  have ml : List.length (List.replicate 240 (0 : Byte)) = 240 := List.length_replicate
  have wl : List.length m = 240 := by rw [hm, wrm_len (by omega), ml]
  have hrd : rdm m 100 66 = c := by
    have := rdm_wrm_same (m := List.replicate 240 0) (o := 100) (bs := c) (by omega)
    rwa [hcl, ← hm] at this
  have hds : Sm3.cls.DS = 32 := rfl
  have hrel := C84_decrypt_release_violated sm3_isHash _ 1 key1 m 0 100 C1 d61 [0xa6] (List.replicate 32 0) [0x61] hdec
    rfl rfl List.length_replicate (by decide)
  rw [hl, hds] at hrel
  exact hrel (by rw [hcc]; exact hrd) (by rw [wl]; decide) (by rw [wl]; decide) (Or.inr (by decide))

/-- Key stream and digest for 34 zero octets. -/
def k34 : List Byte :=
  [0xc7, 0x09, 0x53, 0x02, 0x8e, 0xfc, 0x7c, 0x54, 0xdc, 0xbd, 0x8e, 0xee, 0xb6, 0x7d, 0x71, 0x58,
    0x2f, 0xfc, 0x97, 0xb2, 0x8a, 0x87, 0x08, 0xc8, 0x55, 0xe0, 0xe9, 0xcc, 0x3d, 0x07, 0xb9, 0xae,
    0xfe, 0x57]
def d34 : List Byte :=
  [0xb2, 0xb1, 0xc3, 0x0d, 0x93, 0x26, 0x61, 0x99, 0xa8, 0xd7, 0x98, 0x0b, 0x42, 0xe7, 0xbc, 0x02,
    0x61, 0x36, 0x30, 0xad, 0xc7, 0xe1, 0x33, 0xbc, 0x26, 0x33, 0xcb, 0x38, 0xff, 0x9b, 0x65, 0xe5]

/-- C84_decrypt_over_digest_violated: 34 zero octets, decrypted to the start of the ciphertext. -/
example : ∃ c, Sm2.decrypt Sm3.cls ⟨toBE 32 1, gPub⟩ c = .ok (List.replicate 34 0) ∧
    Sm2.decryptM Sm3.cls ⟨toBE 32 1, gPub⟩ c 0 0 99 = ⟨wrm c 0 (List.replicate 34 0), some 34, .throw⟩ := by
  obtain ⟨C1, hl, hc⟩ := enc_parts (pt := List.replicate 34 0) (C2 := k34) (D := d34) (by decide) (by decide +kernel)
    (by decide +kernel)
  have hdec := C46_decrypt_encrypt sm3_isHash ⟨toBE 32 1, gPub⟩ 1 key1 _ .compressed _ (by simp [toBE_len]) _ hc
  refine ⟨C1 ++ d34 ++ k34, hdec, ?_⟩
  have hds : Sm3.cls.DS = 32 := rfl
  have hcl : (C1 ++ d34 ++ k34).length = 99 := by simp [hl, d34, k34]
  have h := C84_decrypt_over_digest_violated sm3_isHash _ 1 key1 (C1 ++ d34 ++ k34) 0 C1 d34 k34 _ hdec rfl rfl
  rw [hl, hds, List.length_replicate] at h
  refine h ?_ (by rw [hcl]) (by decide) (by decide) (by decide +kernel)
  unfold rdm
  rw [List.drop_zero, List.take_of_length_le (by rw [hcl])]

/-- The memory of the next example: the plaintext `61` at 165 = 100 + 33 + 32. -/
def mem165 : Mem := List.replicate 165 0 ++ [0x61] ++ List.replicate 10 0

/-- C84_encrypt_in_place_violated: with the plaintext `61` at the place of `C2`, the call reports success and the
receiver throws. -/
example : ∃ c, Sm2.encryptM Sm3.cls gPub .compressed 100 165 1 mem165 [toBE 32 0] = (wrm mem165 100 c, .ok (some 66)) ∧
    Sm2.decrypt Sm3.cls ⟨toBE 32 1, gPub⟩ c = .throw := by
  obtain ⟨C1, hl, hc⟩ := enc61_parts
  have hrd : rdm mem165 (100 + Sm2.c1Len .compressed + Sm3.cls.DS) 1 = [0x61] := by decide +kernel
  obtain ⟨x2, y2, h2, C1', C2, e2, ec, f1, f2, em, ed⟩ := C84_encrypt_in_place_violated sm3_isHash ⟨toBE 32 1, gPub⟩ 1
    key1 .compressed mem165 100 1 (toBE 32 0) (toBE_len _ _) (by decide)
    (by decide +kernel) _ (by rw [hrd]; exact hc)
  rw [hrd] at ec ed
  rw [show beVal (toBE 32 0) % (sm2n - 1) + 1 = 1 by decide +kernel, one_nsmul, one_nsmul] at e2
  obtain ⟨rfl, rfl⟩ := (Point.some.injEq ..).mp e2
  have hcl : (C1 ++ d61 ++ [(0xa6 : Byte)]).length = 66 := by simp [hl, d61]
  rw [hcl] at em
  refine ⟨_, em, ed ?_⟩
  obtain ⟨e3, rfl⟩ := List.append_inj' ec (by rw [f2]; rfl)
  obtain ⟨-, e4⟩ := List.append_inj e3 (by rw [f1, hl]; rfl)
  rw [← e4, gx_octets, gy_octets]
  exact hash_ne (by simp [toBE_len]) (by decide +kernel)

/-- A public key whose key stream begins with a zero octet for nonce 1. -/
def zx : Nat := 116
def zy : Nat := 81197813689442530027072648614236876591066811816665840062685081523765758751105

theorem z_eq : ((zy : Nat) : ZMod sm2p) ^ 2 =
    ((zx : Nat) : ZMod sm2p) ^ 3 + (-3) * ((zx : Nat) : ZMod sm2p) + (sm2b : ZMod sm2p) := by
  rw [← sm2a_eq]
  have : ((zy ^ 2 : Nat) : ZMod sm2p) = ((zx ^ 3 + sm2a * zx + sm2b : Nat) : ZMod sm2p) := by
    rw [ZMod.natCast_eq_natCast_iff']
    decide +kernel
  push_cast at this
  exact this

def zQ : Sm2Point := .some (zx : ZMod sm2p) (zy : ZMod sm2p) (sm2_nonsing z_eq)

def zPub : Sm2.Pub := ⟨⟨Sm2.fpFromBytes (toBE 32 zx), Sm2.fpFromBytes (toBE 32 zy)⟩, toBE 32 zx, toBE 32 zy⟩

theorem zPub_is : Sm2PubIs zPub zQ := by
  have e1 : beVal (toBE 32 zx) = zx := by decide +kernel
  have e2 : beVal (toBE 32 zy) = zy := by decide +kernel
  refine ⟨toBE_len _ _, toBE_len _ _, ?_, ?_⟩
  · obtain ⟨h1, h2⟩ := fpFromBytes_ok (bs := toBE 32 zx) (toBE_len _ _)
    obtain ⟨h3, h4⟩ := fpFromBytes_ok (bs := toBE 32 zy) (toBE_len _ _)
    rw [e1] at h2
    rw [e2] at h4
    unfold zPub
    generalize Sm2.fpFromBytes (toBE 32 zx) = X at *
    generalize Sm2.fpFromBytes (toBE 32 zy) = Y at *
    have e : zQ = .some ((zx : Nat) : ZMod sm2p) ((zy : Nat) : ZMod sm2p) (sm2_nonsing z_eq) := rfl
    exact ⟨h1, h3, some_congr e h2.symm h4.symm⟩
  · change ∃ h, zQ = .some (beVal (toBE 32 zx) : ZMod sm2p) (beVal (toBE 32 zy) : ZMod sm2p) h
    rw [e1, e2]
    exact ⟨_, rfl⟩

/-- C84_retry_plaintext_violated: the octet `61` stands at 100 + 33 + 32 when the generator is asked again. -/
example : Sm2.encryptM Sm3.cls zPub .compressed 100 40 1 mem61 [toBE 32 0] = (wrm mem61 165 [0x61], .ok none) := by
  have hr : ∀ r ∈ [toBE 32 0], r.length = 32 := by simp [toBE_len]
  have h := C84_retry_plaintext_violated sm3_isHash zPub zQ zPub_is .compressed mem61 100 40 1 [toBE 32 0] hr
    (by decide +kernel) (by decide +kernel) (Or.inr (by decide)) (by decide) (by simp)
  rw [rdm61] at h
  refine h ?_
  have hx : fieldOctets (zx : ZMod sm2p) = toBE 32 zx := by
    unfold fieldOctets
    rw [ZMod.val_natCast, Nat.mod_eq_of_lt (by decide +kernel)]
  have hy : fieldOctets (zy : ZMod sm2p) = toBE 32 zy := by
    unfold fieldOctets
    rw [ZMod.val_natCast, Nat.mod_eq_of_lt (by decide +kernel)]
  have hs : Sm2.encryptStep Sm3.cls zPub [0x61] (toBE 32 0) .compressed = .ok none := by
    refine (C46_encrypt_retry sm3_isHash zPub zQ zPub_is [0x61] .compressed _ (toBE_len _ _) (by decide)).mpr
      ⟨by simp, (zx : ZMod sm2p), (zy : ZMod sm2p), sm2_nonsing z_eq, ?_, ?_⟩
    · rw [show beVal (toBE 32 0) % (sm2n - 1) + 1 = 1 by decide +kernel, one_nsmul]
      rfl
    · rw [hx, hy]
      by_contra hcon
      have h2 := ((C49_kdf sm3_isHash (toBE 32 zx ++ toBE 32 zy) [0x61] (by simp [toBE_len])).2.1 (by decide)).2
        (fun h => hcon h.2)
      have h1 : Sm2.kdfXor Sm3.cls [0x61] (toBE 32 zx ++ toBE 32 zy) = .ok none := by decide +kernel
      rw [h1] at h2
      simp at h2
  unfold Sm2.encrypt
  rw [hs, o_bind]
  rfl

end Verif.Props
