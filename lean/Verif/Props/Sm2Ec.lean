import Verif.Proofs.Sm2Misc
/-!
# Properties C40-C43: SM2 domain parameters, point arithmetic, scalar multiplication, point encodings

`Spec.Sm2Point` is Mathlib's group of points of `y² = x³ - 3x + b` over the field with `sm2p` elements.
`Spec.Sm2IsAffine A Q` / `Spec.Sm2IsJacobian P Q` say that the library's arrays hold reduced coordinates of the
curve point `Q`.
-/
set_option linter.constructorNameAsVariable false
namespace Verif.Props
open Verif Verif.Spec WeierstrassCurve.Affine

/-! ## C40: domain parameters -/

/-- **C40** the published field and order moduli are prime. -/
theorem C40_primes : sm2p.Prime ∧ sm2n.Prime ∧ sm9p.Prime ∧ sm9n.Prime :=
  ⟨sm2p_prime, sm2n_prime, sm9p_prime, sm9n_prime⟩

/-- **C40** the SM2 constants in the source are the published ones, and the Montgomery contexts are well formed. -/
theorem C40_sm2_constants :
    beVal Sm2.sm2CurveP = sm2p ∧ beVal Sm2.sm2CurveN = sm2n ∧ beVal Sm2.sm2CurveA = sm2a ∧
    beVal Sm2.sm2CurveB = sm2b ∧ beVal Sm2.sm2CurveGx = sm2gx ∧ beVal Sm2.sm2CurveGy = sm2gy ∧
    val (setEpi8 Sm2.nData) = sm2n ∧ val (setEpi8 Sm2.nSub1Data) = sm2n - 1 ∧
    4 * val (setEpi8 Sm2.pSub3Div4Add1) = sm2p + 1 ∧
    IsMontCtx Sm2.fpCtx sm2p ∧ IsMontCtx Sm2.fnCtx sm2n ∧ (sm2a : ZMod sm2p) = -3 :=
  ⟨by decide +kernel, by decide +kernel, by decide +kernel, by decide +kernel, by decide +kernel,
    by decide +kernel, by decide +kernel, by decide +kernel, by decide +kernel, Sm2.fpCtx_wf, Sm2.fnCtx_wf, sm2a_eq⟩

/-- **C40** every solution of the curve equation is a (nonsingular) point; the base point is one of them; the
group has exactly `n` elements, so every point except infinity, the base point included, has order `n`. -/
theorem C40_sm2_group :
    (∀ x y : ZMod sm2p, y ^ 2 = x ^ 3 + (sm2a : ZMod sm2p) * x + (sm2b : ZMod sm2p) ↔ sm2Curve.Nonsingular x y) ∧
    (∃ h, sm2G = .some (sm2gx : ZMod sm2p) (sm2gy : ZMod sm2p) h) ∧
    Nat.card Sm2Point = sm2n ∧ (∀ Q : Sm2Point, Q ≠ 0 → addOrderOf Q = sm2n) ∧
    (∀ Q : Sm2Point, ∃ k < sm2n, Q = k • sm2G) := by
  refine ⟨fun x y => ?_, ⟨_, rfl⟩, sm2_card, fun Q hQ => sm2_order hQ, fun Q => ?_⟩
  · rw [sm2a_eq]
    exact ⟨sm2_nonsing, sm2_onCurve⟩
  · have hm : Q ∈ AddSubgroup.zmultiples sm2G := by
      have : Nat.card Sm2Point = sm2n := sm2_card
      exact mem_zmultiples_of_prime_card (p := sm2n) this sm2G_ne
    obtain ⟨z, rfl⟩ := AddSubgroup.mem_zmultiples_iff.mp hm
    have hn : (0 : Int) < sm2n := by decide +kernel
    refine ⟨(z % sm2n).toNat, ?_, ?_⟩
    · have := Int.emod_lt_of_pos z hn
      have := Int.emod_nonneg z (ne_of_gt hn)
      omega
    · have e : ((z % sm2n).toNat : Int) = z % sm2n := Int.toNat_of_nonneg (Int.emod_nonneg z (ne_of_gt hn))
      rw [← natCast_zsmul, e]
      conv_lhs => rw [← Int.mul_ediv_add_emod z sm2n, add_zsmul, mul_comm, mul_zsmul, natCast_zsmul, sm2_nsmul,
        zsmul_zero, zero_add]

/-! ## C41: point arithmetic -/

/-- **C41** doubling: for every point and every Jacobian representation of it. -/
theorem C41_dbl (P : Sm2.J) (Q : Sm2Point) (h : Sm2IsJacobian P Q) :
    ∃ R, Sm2.jDbl P = some R ∧ Sm2IsJacobian R (Q + Q) := jDbl_ok h

/-- **C41** addition: for all points except when exactly one operand is the point at infinity. -/
theorem C41_add_partial (P P' : Sm2.J) (Q Q' : Sm2Point) (h : Sm2IsJacobian P Q) (h' : Sm2IsJacobian P' Q')
    (hne : Q = 0 ↔ Q' = 0) : ∃ R, Sm2.jAdd P P' = some R ∧ Sm2IsJacobian R (Q + Q') := jAdd_ok h h' hne

/-- **C41** the missing case: adding a finite point and the point at infinity (the representation the library
itself creates), in either order, returns the point at infinity and not the finite point. -/
theorem C41_add_infinity_violated (P : Sm2.J) (Q : Sm2Point) (h : Sm2IsJacobian P Q) (h0 : Q ≠ 0) :
    (∃ R, Sm2.jAdd (ecJInf Sm2.fp) P = some R ∧ Sm2IsJacobian R 0 ∧ ¬ Sm2IsJacobian R (0 + Q)) ∧
    (∃ R, Sm2.jAdd P (ecJInf Sm2.fp) = some R ∧ Sm2IsJacobian R 0 ∧ ¬ Sm2IsJacobian R (Q + 0)) := by
  have key : ∀ (P₁ P₂ : Sm2.J) (J₁ J₂ : EcJ (ZMod sm2p)), IsJ (Reduced sm2p) (montVal sm2p) P₁ J₁ →
      IsJ (Reduced sm2p) (montVal sm2p) P₂ J₂ → (J₁.z = 0 ∨ J₂.z = 0 ∧ (J₂.x ≠ 0 ∨ J₂.y ≠ 0)) →
      ∃ R, Sm2.jAdd P₁ P₂ = some R ∧ Sm2IsJacobian R 0 ∧ ¬ Sm2IsJacobian R Q := by
    intro P₁ P₂ J₁ J₂ h₁ h₂ hz
    obtain ⟨R, S, r1, r2, r3⟩ := hom_add sm2fp_hom h₁ h₂
    obtain ⟨S', s1, s2⟩ := add_inf hz
    rw [r3] at s1
    cases s1
    have hR : Sm2IsJacobian R 0 := isJacobian_iff.mpr ⟨S, r2, s2⟩
    refine ⟨R, r1, hR, fun hc => h0 ?_⟩
    exact ((jIsInf_iff hc).mp ((jIsInf_iff hR).mpr rfl))
  obtain ⟨J, j1, j2⟩ := isJacobian_iff.mp h
  have i1 := hom_inf sm2fp_hom
  rw [zero_add, add_zero]
  exact ⟨key _ _ _ _ i1 j1 (Or.inl rfl), key _ _ _ _ j1 i1 (Or.inr ⟨rfl, Or.inl one_ne_zero⟩)⟩

/-- **C41** mixed addition of a finite point in Jacobian and a point in affine form, when they differ (their sum
may be the point at infinity). -/
theorem C41_add_mixed_partial (P : Sm2.J) (A : Sm2.A) (Q S : Sm2Point) (h : Sm2IsJacobian P Q)
    (hA : Sm2IsAffine A S) (h0 : Q ≠ 0) (hne : Q ≠ S) : Sm2IsJacobian (Sm2.jAddA P A) (Q + S) :=
  jAddA_ok h hA h0 hne

/-- **C41** the missing cases of mixed addition: `infinity + S` and `S + S` both give the point at infinity. -/
theorem C41_add_mixed_violated (A : Sm2.A) (S : Sm2Point) (hA : Sm2IsAffine A S) :
    Sm2IsJacobian (Sm2.jAddA (ecJInf Sm2.fp) A) 0 ∧ Sm2IsJacobian (Sm2.jAddA (ecJFromA Sm2.fp A) A) 0 ∧
    0 + S ≠ 0 ∧ S + S ≠ 0 := by
  have hA' := isAffine_isA hA
  obtain ⟨-, -, hs, rfl⟩ := hA
  refine ⟨?_, ?_, by rw [zero_add]; exact Point.some_ne_zero _, ?_⟩
  · refine isJacobian_iff.mpr ⟨_, hom_addA sm2fp_hom (hom_inf sm2fp_hom) hA', ?_⟩
    show (ecJAddA (fieldOps (ZMod sm2p)) _ _).z = 0
    simp only [ecJAddA, fieldOps, ecJInf]
    ring
  · refine isJacobian_iff.mpr ⟨_, hom_addA sm2fp_hom (hom_fromA sm2fp_hom hA') hA', ?_⟩
    show (ecJAddA (fieldOps (ZMod sm2p)) _ _).z = 0
    simp only [ecJAddA, fieldOps, ecJFromA]
    ring
  · rw [← two_nsmul]
    exact nsmul_ne_zero_of (Point.some_ne_zero _) (by norm_num) (by decide +kernel)

/-- **C41** conversions, normalisation, negation, comparison and the test for infinity. -/
theorem C41_convert (P P' : Sm2.J) (A : Sm2.A) (Q Q' S : Sm2Point) (h : Sm2IsJacobian P Q)
    (h' : Sm2IsJacobian P' Q') (hA : Sm2IsAffine A S) :
    Sm2IsJacobian (ecJFromA Sm2.fp A) S ∧ Sm2IsAffine (ecANeg Sm2.fp A) (-S) ∧
    (Q ≠ 0 → ∃ R, Sm2.jToA P = some R ∧ Sm2IsAffine R Q) ∧
    (Q = 0 → Sm2.jToA P = some ⟨u256Zero, u256Zero⟩) ∧
    (∃ R, ecJNormal Sm2.fp P = some R ∧ Sm2IsJacobian R Q ∧ (fpVal R.z = 0 ∧ Q = 0 ∨ fpVal R.z = 1 ∧ Q ≠ 0)) ∧
    (Q ≠ 0 → Sm2IsJacobian (ecJNeg Sm2.fp P) (-Q)) ∧
    (Q ≠ 0 → Q' ≠ 0 → (ecJEqual Sm2.fp P P' = true ↔ Q = Q')) ∧
    (ecJIsInf Sm2.fp P = true ↔ Q = 0) ∧ Sm2IsJacobian (ecJInf Sm2.fp) 0 :=
  ⟨jFromA_ok hA, neg_affine hA, jToA_ok h, fun e => jToA_inf (e ▸ h), jNormal_ok h, jNeg_ok h,
    jEqual_iff h h', jIsInf_iff h, jInf_ok⟩

/-- **C41** `sm2_ec_a_check` decides membership of the curve. -/
theorem C41_check (P : Sm2.A) (hx : Reduced sm2p P.x) (hy : Reduced sm2p P.y) :
    Sm2.ecCheck P = true ↔ ∃ Q, Sm2IsAffine P Q := ecCheck_iff hx hy

/-- The base point as the library stores it, a representation of a curve point (so the hypotheses of C41-C43 are
met), also after a non-trivial computation: `[2]G` with a `Z` coordinate other than 1. -/
example : Sm2IsAffine ⟨Sm2.fpFromBytes Sm2.sm2CurveGx, Sm2.fpFromBytes Sm2.sm2CurveGy⟩ sm2G ∧ sm2G ≠ 0 ∧
    ∃ P, Sm2IsJacobian P (2 • sm2G) ∧ 2 • sm2G ≠ 0 ∧ 2 • sm2G ≠ sm2G := by
  obtain ⟨R, -, r2⟩ := jDbl_ok (jFromA_ok g_ok)
  rw [← two_nsmul] at r2
  refine ⟨g_ok, sm2G_ne, R, r2, nsmul_ne_zero_of sm2G_ne (by norm_num) (by decide +kernel), fun h => ?_⟩
  rw [two_nsmul] at h
  exact sm2G_ne (left_eq_add.mp h.symm)

/-! ## C42: scalar multiplication -/

/-- **C42** for every 32-octet scalar (0, `n` and everything up to `2^256 - 1` included) and every point of the
curve the function terminates with a representation of `[k]Q`. -/
theorem C42_mul_a (k : List Byte) (hk : k.length = 32) (A : Sm2.A) (Q : Sm2Point) (hA : Sm2IsAffine A Q) :
    ∃ R, Sm2.jMulA k A = some R ∧ Sm2IsJacobian R (beVal k • Q) := jMulA_ok hk hA

/-- **C42** multiplication of the base point. -/
theorem C42_mul_g (k : List Byte) (hk : k.length = 32) :
    ∃ R, Sm2.jMulG k = some R ∧ Sm2IsJacobian R (beVal k • sm2G) := jMulA_ok hk g_ok

/-- **C42** the affine result: the coordinates of `[k]Q` when it is finite, i.e. when `n` does not divide `k`. -/
theorem C42_mul_affine (k : List Byte) (hk : k.length = 32) (A : Sm2.A) (Q : Sm2Point) (hA : Sm2IsAffine A Q)
    (hn : ¬ sm2n ∣ beVal k) :
    ∃ R S, Sm2.jMulA k A = some R ∧ Sm2.jToA R = some S ∧ Sm2IsAffine S (beVal k • Q) := by
  obtain ⟨R, r1, r2⟩ := jMulA_ok hk hA
  have hQ : Q ≠ 0 := by obtain ⟨-, -, hs, rfl⟩ := hA; exact Point.some_ne_zero _
  obtain ⟨S, s1, s2⟩ := jToA_ok r2 (fun h => hn ((sm2_nsmul_eq_zero hQ).mp h))
  exact ⟨R, S, r1, s1, s2⟩

/-- Scalars that exercise the three prologues of the loop (carry 0, 1 and 2 of `3k`), a scalar above `n`, and 0. -/
example : (Sm2.jMulG (toBE 32 0)).map (ecJIsInf Sm2.fp) = some true ∧
    (Sm2.jMulG (toBE 32 sm2n)).map (ecJIsInf Sm2.fp) = some true ∧
    (u256TplCarry (u256FromBytes (toBE 32 7))).2 = 0 ∧
    (u256TplCarry (u256FromBytes (toBE 32 (2 ^ 255)))).2 = 1 ∧
    (u256TplCarry (u256FromBytes (toBE 32 (sm2n - 1)))).2 = 2 := by decide +kernel

/-! ## C43: encodings -/

/-- **C43** the three encoders write the standard's octet strings. -/
theorem C43_encode (A : Sm2.A) (x y : ZMod sm2p) (h : sm2Curve.Nonsingular x y)
    (hA : Sm2IsAffine A (.some x y h)) :
    Sm2.toUncompressed A = encUncompressed x y ∧ Sm2.toCompressed A = encCompressed x y ∧
    Sm2.toMix A = encMixed x y := by
  obtain ⟨hx, hy, hs, e⟩ := hA
  obtain ⟨rfl, rfl⟩ := (Point.some.injEq ..).mp e
  unfold Sm2.toUncompressed Sm2.toCompressed Sm2.toMix Sm2.toBytes04 encUncompressed encCompressed encMixed
  rw [lsb_append _ _ (by rw [fpToBytes_eq hy]; exact fieldOctets_ne _), fpToBytes_eq hx, fpToBytes_eq hy]
  have e : Sm2.lsbOf (fieldOctets (fpVal A.y)) = if (fpVal A.y).val % 2 = 0 then 0 else 1 :=
    lsb_toBE 32 _ (by omega)
  rw [e]
  rcases Nat.mod_two_eq_zero_or_one (fpVal A.y).val with h | h <;> simp [h]

/-- **C43** round trip: decoding any of the three encodings, followed by any other octets, gives back the point
array and the number of octets of the encoding. -/
theorem C43_round_trip (A : Sm2.A) (Q : Sm2Point) (hA : Sm2IsAffine A Q) (rest : List Byte) (inl : Nat)
    (hl : inl ≠ 0) :
    Sm2.ecAFromBytes (Sm2.toUncompressed A ++ rest) inl = .ok (A, (Sm2.toUncompressed A).length) ∧
    Sm2.ecAFromBytes (Sm2.toCompressed A ++ rest) inl = .ok (A, (Sm2.toCompressed A).length) ∧
    Sm2.ecAFromBytes (Sm2.toMix A ++ rest) inl = .ok (A, (Sm2.toMix A).length) := by
  have hA0 := hA
  obtain ⟨hx, hy, hs, rfl⟩ := hA
  obtain ⟨e1, e2, e3⟩ := C43_encode A _ _ hs hA0
  have l04 : (fieldOctets (fpVal A.x) ++ fieldOctets (fpVal A.y)).length = 64 := by
    rw [List.length_append, fieldOctets_len, fieldOctets_len]
  have bx : (beVal (fieldOctets (fpVal A.x)) : ZMod sm2p) = fpVal A.x := by
    unfold fieldOctets
    rw [beVal_toBE, Nat.mod_eq_of_lt ((ZMod.val_lt _).trans (by decide +kernel)), ZMod.natCast_val, ZMod.cast_id]
  have by' : (beVal (fieldOctets (fpVal A.y)) : ZMod sm2p) = fpVal A.y := by
    unfold fieldOctets
    rw [beVal_toBE, Nat.mod_eq_of_lt ((ZMod.val_lt _).trans (by decide +kernel)), ZMod.natCast_val, ZMod.cast_id]
  have full : ∀ b : Byte, (b = 0x04 ∨ b = 0x06 ∨ b = 0x07) →
      Sm2.ecAFromBytes (b :: ((fieldOctets (fpVal A.x) ++ fieldOctets (fpVal A.y)) ++ rest)) inl = .ok (A, 65) := by
    intro b hb
    refine (fromBytes_full_iff hb hl (by rw [List.length_append]; omega) A 65).mpr ⟨rfl, _, hA0, ?_⟩
    rw [List.append_assoc, List.take_left' (fieldOctets_len _), List.drop_left' (fieldOctets_len _),
      List.take_left' (fieldOctets_len _), bx, by']
    exact ⟨hs, rfl⟩
  refine ⟨?_, ?_, ?_⟩
  · rw [e1]
    unfold encUncompressed
    rw [List.length_cons, l04]
    exact full 4 (Or.inl rfl)
  · rw [e2]
    unfold encCompressed
    rw [List.length_cons, fieldOctets_len, List.cons_append]
    refine (fromBytes_comp_iff (by split <;> simp) hl (by rw [List.length_append, fieldOctets_len]; omega) A
      33).mpr ⟨rfl, _, hA0, ?_⟩
    rw [List.take_left' (fieldOctets_len _), bx]
    refine ⟨_, hs, rfl, ?_⟩
    rcases Nat.mod_two_eq_zero_or_one (fpVal A.y).val with h | h <;> simp [h]
  · rw [e3]
    unfold encMixed
    rw [List.length_cons, l04]
    exact full _ (by split <;> simp)

/-- **C43** what the decoder accepts.  Tags 04, 06, 07 with 64 readable octets: exactly when the coordinates
(reduced modulo `p`) satisfy the curve equation, and the result is that point. -/
theorem C43_decode_full (b : Byte) (hb : b = 0x04 ∨ b = 0x06 ∨ b = 0x07) (rest : List Byte) (inl : Nat)
    (hl : inl ≠ 0) (hr : 64 ≤ rest.length) (R : Sm2.A) (n : Nat) :
    Sm2.ecAFromBytes (b :: rest) inl = .ok (R, n) ↔
      n = 65 ∧ ∃ Q, Sm2IsAffine R Q ∧ ∃ h, Q = .some (beVal (rest.take 32) : ZMod sm2p)
        (beVal ((rest.drop 32).take 32) : ZMod sm2p) h := fromBytes_full_iff hb hl hr R n

/-- **C43** Tags 02, 03 with 32 readable octets: exactly when there is a point with that `x`, and the result is the
one whose `y` has the parity of the tag. -/
theorem C43_decode_compressed (b : Byte) (hb : b = 0x02 ∨ b = 0x03) (rest : List Byte) (inl : Nat)
    (hl : inl ≠ 0) (hr : 32 ≤ rest.length) (R : Sm2.A) (n : Nat) :
    Sm2.ecAFromBytes (b :: rest) inl = .ok (R, n) ↔
      n = 33 ∧ ∃ Q, Sm2IsAffine R Q ∧ ∃ y h, Q = .some (beVal (rest.take 32) : ZMod sm2p) y h ∧
        y.val % 2 = b.toNat % 2 := fromBytes_comp_iff hb hl hr R n

/-- **C43** any other tag, and length 0, are rejected. -/
theorem C43_decode_other (b : Byte) (rest : List Byte) (inl : Nat) :
    (b ≠ 0x02 → b ≠ 0x03 → b ≠ 0x04 → b ≠ 0x06 → b ≠ 0x07 → Sm2.ecAFromBytes (b :: rest) inl = .fail) ∧
    Sm2.ecAFromBytes (b :: rest) 0 = .fail ∧ Sm2.ecAFromBytes [] 0 = .fail := by
  refine ⟨fun h2 h3 h4 h6 h7 => fromBytes_other ?_ ?_ rest inl, ?_, ?_⟩
  · rintro (h | h | h)
    · exact h4 h
    · exact h6 h
    · exact h7 h
  · rintro (h | h)
    · exact h2 h
    · exact h3 h
  · unfold Sm2.ecAFromBytes; rw [if_pos rfl]
  · unfold Sm2.ecAFromBytes; rw [if_pos rfl]

/-- **C43** whatever is accepted, from whatever buffer, is a point on the curve. -/
theorem C43_decode_on_curve (inp : List Byte) (inl : Nat) (R : Sm2.A) (n : Nat)
    (h : Sm2.ecAFromBytes inp inl = .ok (R, n)) : (∃ Q, Sm2IsAffine R Q) ∧ n ≤ inp.length := by
  by_cases hl : inl = 0
  · subst hl
    unfold Sm2.ecAFromBytes at h
    rw [if_pos rfl] at h
    cases h
  cases inp with
  | nil => unfold Sm2.ecAFromBytes at h; rw [if_neg hl] at h; cases h
  | cons b rest =>
    by_cases h1 : b = 0x04 ∨ b = 0x06 ∨ b = 0x07
    · by_cases hr : 64 ≤ rest.length
      · obtain ⟨rfl, Q, q1, -⟩ := (fromBytes_full_iff h1 hl hr R n).mp h
        exact ⟨⟨Q, q1⟩, by rw [List.length_cons]; omega⟩
      · unfold Sm2.ecAFromBytes at h
        rw [if_neg hl] at h
        simp only at h
        rw [if_pos h1, if_pos (by omega)] at h
        cases h
    · by_cases h2 : b = 0x02 ∨ b = 0x03
      · by_cases hr : 32 ≤ rest.length
        · obtain ⟨rfl, Q, q1, -⟩ := (fromBytes_comp_iff h2 hl hr R n).mp h
          exact ⟨⟨Q, q1⟩, by rw [List.length_cons]; omega⟩
        · unfold Sm2.ecAFromBytes at h
          rw [if_neg hl] at h
          simp only at h
          rw [if_neg h1, if_pos h2, if_pos (by omega)] at h
          cases h
      · rw [fromBytes_other h1 h2] at h
        cases h

/-- **C43** the length argument is not used: a truncated encoding makes the decoder read beyond the buffer,
whatever (non-zero, correct) length the caller passes. -/
theorem C43_truncated_reads_out_of_bounds (b : Byte) (rest : List Byte)
    (h : (b = 0x04 ∨ b = 0x06 ∨ b = 0x07) ∧ rest.length < 64 ∨ (b = 0x02 ∨ b = 0x03) ∧ rest.length < 32) :
    Sm2.ecAFromBytes (b :: rest) (b :: rest).length = .ub := by
  unfold Sm2.ecAFromBytes
  rw [if_neg (by rw [List.length_cons]; omega)]
  simp only
  rcases h with ⟨h1, h2⟩ | ⟨h1, h2⟩
  · rw [if_pos h1, if_pos h2]
  · rw [if_neg (by rcases h1 with rfl | rfl <;> decide), if_pos h1, if_pos h2]

/-- **C43** the decoder is not injective: the parity in a mixed-form tag is ignored, ... -/
theorem C43_mixed_parity_ignored (rest : List Byte) (inl : Nat) :
    Sm2.ecAFromBytes (0x06 :: rest) inl = Sm2.ecAFromBytes (0x07 :: rest) inl := by
  unfold Sm2.ecAFromBytes
  simp

/-- **C43** ... and coordinates are accepted modulo `p`: two different encodings of the point with `x = 0`. -/
theorem C43_noncanonical_accepted :
    ∃ R y, Sm2.ecAFromBytes (0x04 :: (toBE 32 0 ++ toBE 32 y)) 65 = .ok (R, 65) ∧
      Sm2.ecAFromBytes (0x04 :: (toBE 32 sm2p ++ toBE 32 y)) 65 = .ok (R, 65) ∧ toBE 32 0 ≠ toBE 32 sm2p := by
  refine ⟨⟨Sm2.fpFromBytes (toBE 32 0), Sm2.fpFromBytes (toBE 32
    0xfd4511e81736a60f07e88a83d6cf5a167fae6d1a9c9330e76e232e00f5cdc154)⟩,
    0xfd4511e81736a60f07e88a83d6cf5a167fae6d1a9c9330e76e232e00f5cdc154, ?_, ?_, ?_⟩ <;> decide +kernel

/-- The encodings of the base point (its `y` is even), and their decoding. -/
example : Sm2.toCompressed ⟨Sm2.fpFromBytes Sm2.sm2CurveGx, Sm2.fpFromBytes Sm2.sm2CurveGy⟩
      = 0x02 :: Sm2.sm2CurveGx ∧
    Sm2.ecAFromBytes (0x06 :: (Sm2.sm2CurveGx ++ Sm2.sm2CurveGy)) 65
      = .ok (⟨Sm2.fpFromBytes Sm2.sm2CurveGx, Sm2.fpFromBytes Sm2.sm2CurveGy⟩, 65) := by decide +kernel

end Verif.Props
