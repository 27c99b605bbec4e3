import Verif.Proofs.Sm9Sign
/-! # SM9 verification: its result for every key object, signature and message -/
set_option linter.unusedSectionVars false
open WeierstrassCurve WeierstrassCurve.Affine
namespace Verif
open Spec

theorem s9dec_tag {inp : List Byte} {inl : Nat} {r} (h : Sm9.ecAFromBytes inp inl = .ok r) :
    ∃ b rest, inp = b :: rest ∧ b ≠ 0 := by
  by_cases hl : inl = 0
  · subst hl
    unfold Sm9.ecAFromBytes at h
    rw [if_pos rfl] at h
    cases h
  cases inp with
  | nil => unfold Sm9.ecAFromBytes at h; rw [if_neg hl] at h; cases h
  | cons b rest =>
    refine ⟨b, rest, rfl, ?_⟩
    intro hb
    subst hb
    have := (Props.C65_decode_other 0 rest inl).1 (by decide) (by decide) (by decide) (by decide) (by decide)
    rw [this] at h
    cases h

section
variable {K : Type} [Field K] [Algebra (ZMod sm9p) K] [DecidableEq K] {w : K} (hw : w ^ 12 = -2)
include hw

local notation "ok12" => All12 (Reduced sm9p)

/-- Exponentiation by the first 32 octets of a signature returns: the octet after them is not zero. -/
theorem sigPow_total {e : Sm9.F12} (he : ok12 e) {sig : List Byte} (hl : 32 ≤ sig.length) {b : Byte} {rest : List Byte}
    (hd : sig.drop 32 = b :: rest) (hb : b ≠ 0) :
    ∃ t, fp12Pow Sm9.fp e sig = some t ∧ ok12 t ∧
      (beVal (sig.take 32) ≠ 0 → fp12Den w t = fp12Den w e ^ beVal (sig.take 32)) := by
  by_cases h0 : beVal (sig.take 32) = 0
  · have hz : sig.take 32 = List.replicate 32 0 := by
      have h1 : (sig.take 32).length = 32 := by rw [List.length_take]; omega
      have := toBE_beVal (sig.take 32)
      rw [h0, h1] at this
      rw [← this]
      decide
    by_cases hs : fp12Den w e = 0
    · refine ⟨fp12Zero Sm9.fp, ?_, (f12Zero hw).1, fun h => absurd h0 h⟩
      unfold fp12Pow
      rw [if_pos ((f12IsZero hw he).mpr hs)]
    · obtain ⟨r, r1, r2⟩ := f12Pow_shape hw (is_rfl he) hs 32 b rest hb
      refine ⟨r, ?_, r2.1, fun h => absurd h0 h⟩
      rw [← r1, ← hd, ← hz, List.take_append_drop]
  · obtain ⟨t, t1, t2⟩ := f12Pow hw (is_rfl he) sig h0
    exact ⟨t, t1, t2.1, fun _ => t2.2⟩

variable {S : Type} {C : HashClass S} {H : List Byte → List Byte}

/-- The verifier's second point has reduced coordinates, whatever the public key. -/
theorem verPoint_total {P : Sm9.A2} (qx : All2 (Reduced sm9p) P.x) (qy : All2 (Reduced sm9p) P.y) {k : List Byte}
    (hk : k.length = 32) :
    ∃ T B, Sm9.j2MulG k = some T ∧ Sm9.j2ToA (Sm9.j2AddA T P) = some B ∧ All2 (Reduced sm9p) B.x ∧
      All2 (Reduced sm9p) B.y := by
  have h := sm9fp2_wk hw
  obtain ⟨R, r1, r2⟩ := Props.C57_g2_mul_exact hw k hk Sm9.p2 (sm9G2 hw) (sm9_order2 hw) (p2_ok hw)
  obtain ⟨J, j1, -⟩ := isJacobianOf_iff.mp r2
  have a := hom_addA_wk h (Q := P) (A := ⟨fp2Den w P.x, fp2Den w P.y⟩) j1 ⟨h.w (is_rfl qx), h.w (is_rfl qy)⟩
  obtain ⟨B, D, b1, b2, -⟩ := hom_toA_wk h a
  exact ⟨R, B, r1, b1, b2.1.1, b2.2.1⟩

/-- The part of the verifier after parsing. -/
theorem verifyTail_total (hC : IsHash C H) {pub : Sm9.MPub} (qx : All2 (Reduced sm9p) pub.P.x)
    (qy : All2 (Reduced sm9p) pub.P.y) (he : ok12 pub.e) {sig : List Byte} (hl : 32 ≤ sig.length) {b : Byte}
    {rest : List Byte} (hd : sig.drop 32 = b :: rest) (hb : b ≠ 0) {A : Sm9.A} (hx : Reduced sm9p A.x)
    (hy : Reduced sm9p A.y) (msg id : List Byte) (hid : Byte) :
    if 8 * (id.length + 6) < 2 ^ 64 ∧ 8 * (msg.length + 389) < 2 ^ 64 then
      ∃ U W, ok12 U ∧ ok12 W ∧
        (beVal (sig.take 32) ≠ 0 → fp12Den w W = fp12Den w U * fp12Den w pub.e ^ beVal (sig.take 32)) ∧
        Sm9.verifyTail C pub sig A msg id hid =
          .ok (toBE 32 (sm9H H C.DS 2 (msg ++ Sm9.fp12ToBytes W)) == sig.take 32)
    else Sm9.verifyTail C pub sig A msg id hid = .throw := by
  obtain ⟨t, t1, t2, t3⟩ := sigPow_total hw he hl hd hb
  have hh1 := hn_ok hC id [hid] 1
  simp only [List.length_cons, List.length_nil] at hh1
  by_cases hi : 8 * (id.length + 6) < 2 ^ 64
  · rw [if_pos (by omega)] at hh1
    obtain ⟨T, B, b1, b2, b3, b4⟩ := verPoint_total hw qx qy (toBE_len 32 (sm9H H C.DS 1 (id ++ [hid])))
    obtain ⟨U, u1, u2⟩ := pairing_total hw hx hy b3 b4
    obtain ⟨m1, m2⟩ := (Props.C51_fp12 hw U t u2 t2).2.2.1
    have hh2 := hn_ok hC msg (Sm9.fp12ToBytes (fp12Mul Sm9.fp U t)) 2
    rw [(Props.C51_bytes _ m1).1] at hh2
    have hv : Sm9.verifyTail C pub sig A msg id hid =
        (Sm9.hn C msg (Sm9.fp12ToBytes (fp12Mul Sm9.fp U t)) 2 >>= fun h2 => .ok (h2 == sig.take 32)) := by
      unfold Sm9.verifyTail
      rw [t1, ofOption_some, o_bind, hh1, o_bind, b1, ofOption_some, o_bind]
      simp only
      rw [b2, ofOption_some, o_bind, u1, ofOption_some, o_bind]
    by_cases hm : 8 * (msg.length + 389) < 2 ^ 64
    · rw [if_pos ⟨hi, hm⟩]
      rw [if_pos (by omega)] at hh2
      exact ⟨U, fp12Mul Sm9.fp U t, u2, m1, fun h => by rw [m2, t3 h], by rw [hv, hh2, o_bind]⟩
    · rw [if_neg (fun h => hm h.2)]
      rw [if_neg (by omega)] at hh2
      rw [hv, hh2, t_bind]
  · rw [if_neg (fun h => hi h.1)]
    rw [if_neg (by omega)] at hh1
    unfold Sm9.verifyTail
    rw [t1, ofOption_some, o_bind, hh1, t_bind]

/-- `verify` for every key object with reduced coordinates. -/
theorem verify_total (hC : IsHash C H) {pub : Sm9.MPub} (qx : All2 (Reduced sm9p) pub.P.x)
    (qy : All2 (Reduced sm9p) pub.P.y) (he : ok12 pub.e) {sig : List Byte} (hl : 32 ≤ sig.length) {A : Sm9.A}
    (hA : Sm9.ecAFromBytes (sig.drop 32) (sig.length - 32) = .ok (A, sig.length - 32)) (msg id : List Byte) (hid : Byte) :
    if 8 * (id.length + 6) < 2 ^ 64 ∧ 8 * (msg.length + 389) < 2 ^ 64 then
      ∃ U W, ok12 U ∧ ok12 W ∧
        (beVal (sig.take 32) ≠ 0 → fp12Den w W = fp12Den w U * fp12Den w pub.e ^ beVal (sig.take 32)) ∧
        Sm9.verify C pub sig msg id hid =
          .returns (toBE 32 (sm9H H C.DS 2 (msg ++ Sm9.fp12ToBytes W)) == sig.take 32)
    else Sm9.verify C pub sig msg id hid = .terminates := by
  obtain ⟨b, rest, hd, hb⟩ := s9dec_tag hA
  obtain ⟨⟨Q, hx, hy, -⟩, -⟩ := Props.C65_decode_on_curve _ _ _ _ hA
  have ht := verifyTail_total hw hC qx qy he hl hd hb hx hy msg id hid
  have hv : Sm9.verify C pub sig msg id hid = Noexcept.of (Sm9.verifyTail C pub sig A msg id hid) := by
    unfold Sm9.verify Sm9.verifyBody
    rw [if_neg (by omega), hA]
    simp only
    rw [if_neg (by omega)]
  rw [hv]
  split_ifs at ht ⊢ with h
  · obtain ⟨U, W, h1, h2, h3, h4⟩ := ht
    exact ⟨U, W, h1, h2, h3, by rw [h4]; rfl⟩
  · rw [ht]; rfl

omit hw [DecidableEq K] [Algebra (ZMod sm9p) K] in
/-- `verify` when the signature does not parse. -/
theorem verify_parse (pub : Sm9.MPub) (sig msg id : List Byte) (hid : Byte) :
    (sig.length < 32 → Sm9.verify C pub sig msg id hid = .returns false) ∧
    (32 ≤ sig.length → Sm9.ecAFromBytes (sig.drop 32) (sig.length - 32) = .ub →
      Sm9.verify C pub sig msg id hid = .ub) ∧
    (32 ≤ sig.length → Sm9.ecAFromBytes (sig.drop 32) (sig.length - 32) = .fail →
      Sm9.verify C pub sig msg id hid = .returns false) ∧
    (∀ A n, 32 ≤ sig.length → Sm9.ecAFromBytes (sig.drop 32) (sig.length - 32) = .ok (A, n) → n ≠ sig.length - 32 →
      Sm9.verify C pub sig msg id hid = .returns false) := by
  unfold Sm9.verify Sm9.verifyBody
  refine ⟨fun h => by rw [if_pos h]; rfl, fun h e => ?_, fun h e => ?_, fun A n h e hn => ?_⟩
  · rw [if_neg (by omega), e]; rfl
  · rw [if_neg (by omega), e]; rfl
  · rw [if_neg (by omega), e]
    simp only
    rw [if_pos (by omega)]
    rfl

/-! ## The second argument (0, 0) -/

omit [DecidableEq K] in
theorem nLoop_zero {x y : Nat × Nat} {A nA : EcA (Nat × Nat)} (cs : List Char) : ∀ {f : List Nat} {T : EcJ (Nat × Nat)}
    {r : List Nat × EcJ (Nat × Nat)}, twEv w f = 0 → nLoop x y A nA cs f T = some r → twEv w r.1 = 0 := by
  induction cs with
  | nil =>
    intro f T r hf h
    rw [← Option.some.inj (show some (f, T) = some r from h)]
    exact hf
  | cons c cs ih =>
    intro f T r hf h
    unfold nLoop at h
    simp only [forceList_eq, forceJ_eq] at h
    have h0 : ∀ l l' : List Nat, twEv w (twMulR (twMulR (twMulR f f) l) l') = 0 := fun l l' => by
      rw [ev_mulR hw, ev_mulR hw, ev_mulR hw, hf, zero_mul, zero_mul, zero_mul]
    have h1 : ∀ l : List Nat, twEv w (twMulR (twMulR f f) l) = 0 := fun l => by
      rw [ev_mulR hw, ev_mulR hw, hf, zero_mul, zero_mul]
    generalize ecJDbl0 (nat2Ops sm9p) T = o at h
    cases o with
    | none => cases h
    | some T' =>
      simp only at h
      by_cases c1 : c = '1'
      · simp only [decide_eq_true c1] at h
        exact ih (h0 _ _) h
      · by_cases c2 : c = '2'
        · simp only [decide_eq_false c1, decide_eq_true c2] at h
          exact ih (h0 _ _) h
        · simp only [decide_eq_false c1, decide_eq_false c2] at h
          exact ih (h1 _) h

theorem nTan_zero {x y : Nat × Nat} : twEv w (nTan ⟨(0, 0), (0, 0), (1, 0)⟩ x y) = 0 := by
  have e := nTan_is hw (T := ⟨(0, 0), (0, 0), (1, 0)⟩) (J := (⟨0, 0, 1⟩ : EcJ K)) (x := x) (y := y) (X := ev2 w x) (Y := ev2 w y)
    ⟨⟨trivial, by simp [ev2]⟩, ⟨trivial, by simp [ev2]⟩, ⟨trivial, by simp [ev2]⟩⟩ ⟨trivial, rfl⟩ ⟨trivial, rfl⟩
  rw [e]
  simp only [tanK]
  ring

theorem nLoop_zero_first {x y : Nat × Nat} {A nA : EcA (Nat × Nat)} (c : Char) (cs : List Char) {f : List Nat}
    {r : List Nat × EcJ (Nat × Nat)} (h : nLoop x y A nA (c :: cs) f ⟨(0, 0), (0, 0), (1, 0)⟩ = some r) :
    twEv w r.1 = 0 := by
  unfold nLoop at h
  simp only [forceList_eq, forceJ_eq] at h
  have h1 : twEv w (twMulR (twMulR f f) (nTan ⟨(0, 0), (0, 0), (1, 0)⟩ x y)) = 0 := by
    rw [ev_mulR hw, nTan_zero hw, mul_zero]
  generalize twMulR (twMulR f f) (nTan ⟨(0, 0), (0, 0), (1, 0)⟩ x y) = g at *
  have h0 : ∀ l : List Nat, twEv w (twMulR g l) = 0 := fun l => by rw [ev_mulR hw, h1, zero_mul]
  generalize ecJDbl0 (nat2Ops sm9p) _ = o at h
  cases o with
  | none => cases h
  | some T' =>
    simp only at h
    by_cases c1 : c = '1'
    · simp only [decide_eq_true c1] at h
      exact nLoop_zero hw cs (h0 _) h
    · by_cases c2 : c = '2'
      · simp only [decide_eq_false c1, decide_eq_true c2] at h
        exact nLoop_zero hw cs (h0 _) h
      · simp only [decide_eq_false c1, decide_eq_false c2] at h
        exact nLoop_zero hw cs h1 h

theorem nMiller_zero {x y : Nat} {l : List Nat} (h : nMiller x y ⟨(0, 0), (0, 0)⟩ = some l) : twEv w l = 0 := by
  cases hL : nLoop (x, 0) (y, 0) ⟨(0, 0), (0, 0)⟩ ⟨(0, 0), (nat2Ops sm9p).sub (nat2Ops sm9p).zero (0, 0)⟩ Sm9.nafA
      [1, 0, 0, 0, 0, 0, 0, 0, 0, 0, 0, 0] ⟨(0, 0), (0, 0), (1, 0)⟩ with
  | none => rw [nMiller_some hL] at h; cases h
  | some r =>
    rw [nMiller_some hL] at h
    have hr : twEv w r.1 = 0 := by
      have : ∃ c cs, Sm9.nafA = c :: cs := ⟨_, _, rfl⟩
      obtain ⟨c, cs, e⟩ := this
      rw [e] at hL
      exact nLoop_zero_first hw c cs hL
    obtain ⟨f, T⟩ := r
    cases hT : ecJAdd0 (nat2Ops sm9p) T (nFrob ⟨(0, 0), (0, 0)⟩) with
    | none =>
      unfold nTail at h
      rw [Option.bind_some, hT] at h
      cases h
    | some T' =>
      rw [nTail_some hT] at h
      rw [← Option.some.inj h, ev_mulR hw, ev_mulR hw, hr, zero_mul, zero_mul]

/-- The pairing function with second argument (0, 0) gives 0. -/
theorem pairing_zero {A : Sm9.A} {P : Sm9.A2} (hx : Reduced sm9p A.x) (hy : Reduced sm9p A.y)
    (qx : All2 (Reduced sm9p) P.x) (qy : All2 (Reduced sm9p) P.y)
    (zx : fp2Den w P.x = 0) (zy : fp2Den w P.y = 0) :
    ∃ e, Sm9.pairing A P = some e ∧ ok12 e ∧ fp12Den w e = 0 := by
  have z : ev2 w (0, 0) = 0 := by simp [ev2]
  obtain ⟨f, l, f1, f2, f3⟩ := nMiller_sim hw (p := A) (A := P) (x := (montVal sm9p A.x).val) (y := (montVal sm9p A.y).val)
    (B := ⟨(0, 0), (0, 0)⟩) ⟨hx, fpDen_val hw _⟩ ⟨hy, fpDen_val hw _⟩
    ⟨qx, by rw [zx, z]⟩ ⟨qy, by rw [zy, z]⟩ (Nat.zero_le _) (Nat.zero_le _)
  obtain ⟨r, r1, r2, r3⟩ := finalExp_total hw f3.1
  refine ⟨r, ?_, r2, r3 ?_⟩
  · unfold Sm9.pairing
    rw [f1]
    dsimp only [Option.bind_eq_bind, Option.bind_some]
    exact r1
  · rw [f3.2, nMiller_zero hw f2]

/-- When the public pairing value, or the second point of the verifier, is zero, what is hashed is zero. -/
theorem verify_weak (hC : IsHash C H) {pub : Sm9.MPub} (qx : All2 (Reduced sm9p) pub.P.x)
    (qy : All2 (Reduced sm9p) pub.P.y) (he : ok12 pub.e) {sig : List Byte} (hl : 32 ≤ sig.length)
    (h0 : beVal (sig.take 32) ≠ 0) {A : Sm9.A}
    (hA : Sm9.ecAFromBytes (sig.drop 32) (sig.length - 32) = .ok (A, sig.length - 32)) (msg id : List Byte) (hid : Byte)
    (hid1 : 8 * (id.length + 6) < 2 ^ 64) (hm : 8 * (msg.length + 389) < 2 ^ 64)
    (hz : fp12Den w pub.e = 0 ∨ ∃ T B, Sm9.j2MulG (toBE 32 (sm9H H C.DS 1 (id ++ [hid]))) = some T ∧
      Sm9.j2ToA (Sm9.j2AddA T pub.P) = some B ∧ fp2Den w B.x = 0 ∧ fp2Den w B.y = 0) :
    Sm9.verify C pub sig msg id hid =
      .returns (toBE 32 (sm9H H C.DS 2 (msg ++ List.replicate 384 0)) == sig.take 32) := by
  obtain ⟨⟨Q, hx, hy, -⟩, -⟩ := Props.C65_decode_on_curve _ _ _ _ hA
  obtain ⟨b, rest, hd, hb⟩ := s9dec_tag hA
  obtain ⟨t, t1, t2, t3⟩ := sigPow_total hw he hl hd hb
  have hh1 := hn_ok hC id [hid] 1
  rw [if_pos (by simp only [List.length_cons, List.length_nil]; omega)] at hh1
  obtain ⟨T, B, b1, b2, b3, b4⟩ := verPoint_total hw qx qy (toBE_len 32 (sm9H H C.DS 1 (id ++ [hid])))
  have key : ∃ U, Sm9.pairing A B = some U ∧ ok12 U ∧ fp12Den w U * fp12Den w t = 0 := by
    rcases hz with hz | ⟨T', B', c1, c2, zx, zy⟩
    · obtain ⟨U, u1, u2⟩ := pairing_total hw hx hy b3 b4
      exact ⟨U, u1, u2, by rw [t3 h0, hz, zero_pow h0, mul_zero]⟩
    · rw [b1] at c1
      rw [← Option.some.inj c1, b2] at c2
      rw [← Option.some.inj c2] at zx zy
      obtain ⟨U, u1, u2, u3⟩ := pairing_zero hw hx hy b3 b4 zx zy
      exact ⟨U, u1, u2, by rw [u3, zero_mul]⟩
  obtain ⟨U, u1, u2, u3⟩ := key
  obtain ⟨m1, m2⟩ := (Props.C51_fp12 hw U t u2 t2).2.2.1
  rw [u3] at m2
  have hW : fp12Mul Sm9.fp U t = fp12Zero Sm9.fp := f12_inj hw m1 (f12Zero hw).1 (m2.trans (f12Zero hw).2.symm)
  have hbz : Sm9.fp12ToBytes (fp12Zero Sm9.fp) = List.replicate 384 0 := by decide +kernel
  have hh2 := hn_ok hC msg (List.replicate 384 0) 2
  rw [if_pos (by simp only [List.length_replicate]; omega)] at hh2
  have hv : Sm9.verifyTail C pub sig A msg id hid =
      .ok (toBE 32 (sm9H H C.DS 2 (msg ++ List.replicate 384 0)) == sig.take 32) := by
    unfold Sm9.verifyTail
    rw [t1, ofOption_some, o_bind, hh1, o_bind, b1, ofOption_some, o_bind]
    simp only
    rw [b2, ofOption_some, o_bind, u1, ofOption_some, o_bind, hW, hbz, hh2, o_bind]
  unfold Sm9.verify Sm9.verifyBody
  rw [if_neg (by omega), hA]
  simp only
  rw [if_neg (by omega), hv]
  rfl

end
end Verif
