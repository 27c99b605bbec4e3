import Verif.Proofs.Sm2Scheme
/-! # SM2 encryption -/
namespace Verif
open Spec WeierstrassCurve WeierstrassCurve.Affine

section
variable {S : Type} {C : HashClass S} {H : List Byte → List Byte}

theorem toBytes04_eq {a : Sm2.A} {x y : ZMod sm2p} {h : sm2Curve.Nonsingular x y}
    (ha : Sm2IsAffine a (.some x y h)) : Sm2.toBytes04 a = fieldOctets x ++ fieldOctets y := by
  obtain ⟨h1, h2, h3, e⟩ := ha
  obtain ⟨rfl, rfl⟩ := (Point.some.injEq ..).mp e
  unfold Sm2.toBytes04
  rw [fpToBytes_eq h1, fpToBytes_eq h2]

theorem encPoint_eq (pc : Sm2.PC) {a : Sm2.A} {x y : ZMod sm2p} {h : sm2Curve.Nonsingular x y}
    (ha : Sm2IsAffine a (.some x y h)) : Sm2.encPoint pc a = encForm pc x y := by
  obtain ⟨e1, e2, e3⟩ := Props.C43_encode a x y h ha
  cases pc <;> assumption

theorem mul8_lt {n v : Nat} (h : n < v * (2 ^ 32 - 1)) (hv : v < 2 ^ 28) : 8 * (64 + n) < 2 ^ 64 := by
  have : v * (2 ^ 32 - 1) ≤ (2 ^ 28 - 1) * (2 ^ 32 - 1) := Nat.mul_le_mul_right _ (by omega)
  omega

open Classical in
theorem encryptStep_ok (hC : IsHash C H) {pub : Sm2.Pub} {Q : Sm2Point} (hp : Sm2PubIs pub Q) (pt : List Byte)
    (pc : Sm2.PC) {rnd : List Byte} (hr : rnd.length = 32) :
    ∃ x1 y1 h1 x2 y2 h2, (beVal rnd % (sm2n - 1) + 1) • sm2G = .some x1 y1 h1 ∧
      (beVal rnd % (sm2n - 1) + 1) • Q = .some x2 y2 h2 ∧
      Sm2.encryptStep C pub pt rnd pc =
        if pt.length ≥ C.DS * (2 ^ 32 - 1) then .throw
        else if pt ≠ [] ∧ (∀ b ∈ sm2Kdf H C.DS (fieldOctets x2 ++ fieldOctets y2) pt.length, b = 0) then .ok none
        else .ok (some (encForm pc x1 y1 ++ H (fieldOctets x2 ++ pt ++ fieldOctets y2) ++
          List.zipWith (· ^^^ ·) pt (sm2Kdf H C.DS (fieldOctets x2 ++ fieldOctets y2) pt.length))) := by
  obtain ⟨k1, k2⟩ := nonce_range hr
  obtain ⟨R, a, r1, a1, a2⟩ := mulG_affine (nonce_len hr) k1 k2
  obtain ⟨R', a', r1', a1', a2'⟩ := mulA_affine (nonce_len hr) k1 k2 hp.2.2.1
  rw [nonce_val hr] at a2 a2'
  obtain ⟨_, _, h1, e1⟩ := id a2
  obtain ⟨_, _, h2, e2⟩ := id a2'
  refine ⟨_, _, h1, _, _, h2, e1, e2, ?_⟩
  rw [e1] at a2
  rw [e2] at a2'
  have t2 := toBytes04_eq a2'
  have t1 := encPoint_eq pc a2
  generalize fpVal a.x = x1 at *
  generalize fpVal a.y = y1 at *
  generalize fpVal a'.x = x2 at *
  generalize fpVal a'.y = y2 at *
  have lx := fieldOctets_len x2
  have ly := fieldOctets_len y2
  unfold Sm2.encryptStep
  simp only
  rw [r1, ofOption_some, o_bind, a1, ofOption_some, o_bind, r1', ofOption_some, o_bind, a1', ofOption_some, o_bind,
    t1, t2, kdfXor_ok hC _ _ (by rw [List.length_append, lx, ly]; decide), List.take_left' lx, List.drop_left' lx,
    List.take_of_length_le (by rw [ly]), hash3_ok hC _ _ _ lx ly]
  by_cases h0 : pt.length ≥ C.DS * (2 ^ 32 - 1)
  · rw [if_pos h0, if_pos h0, t_bind]
  · rw [if_neg h0, if_neg h0, if_pos (mul8_lt (by omega) hC.small)]
    by_cases hz : pt ≠ [] ∧ (∀ b ∈ sm2Kdf H C.DS (fieldOctets x2 ++ fieldOctets y2) pt.length, b = 0)
    · rw [if_pos hz, if_pos hz, o_bind]
    · rw [if_neg hz, if_neg hz, o_bind]
      simp only
      rw [o_bind, List.take_of_length_le (by rw [hC.len])]
      rfl

/-! ## Decoding of the first part -/

theorem fromBytes_comp_ne_ub {b : Byte} (hb : b = 0x02 ∨ b = 0x03) {rest : List Byte} {inl : Nat}
    (hl : inl ≠ 0) (hr : 32 ≤ rest.length) : Sm2.ecAFromBytes (b :: rest) inl ≠ .ub := by
  obtain ⟨x1, x2⟩ := fpFromBytes_ok (bs := rest.take 32) (by simp; omega)
  have hy : (if b = 0x02 then 0 else 1 : Byte) = 0 ∨ (if b = 0x02 then 0 else 1 : Byte) = 1 := by
    rcases hb with rfl | rfl <;> decide
  unfold Sm2.ecAFromBytes
  rw [if_neg hl]
  simp only
  rw [if_neg (by rcases hb with rfl | rfl <;> decide), if_pos hb, if_neg (by omega)]
  generalize Sm2.fpFromBytes (rest.take 32) = X at *
  rcases recoverY_ok x1 hy with ⟨y, y1, y2, y3, y4⟩ | ⟨y1, y2⟩
  · rw [y1]
    simp only
    split <;> exact fun h => by cases h
  · rw [y1]
    simp only
    exact fun h => by cases h

theorem fromBytes_full_ne_ub {b : Byte} (hb : b = 0x04 ∨ b = 0x06 ∨ b = 0x07) {rest : List Byte} {inl : Nat}
    (hl : inl ≠ 0) (hr : 64 ≤ rest.length) : Sm2.ecAFromBytes (b :: rest) inl ≠ .ub := by
  rw [fromBytes_full hb hl hr]
  split <;> exact fun h => by cases h

/-- A string of the right length for its tag. -/
def C1Form (C1 : List Byte) : Prop :=
  ∃ b rest, C1 = b :: rest ∧ ((b = 0x04 ∨ b = 0x06 ∨ b = 0x07) ∧ rest.length = 64 ∨
    (b = 0x02 ∨ b = 0x03) ∧ rest.length = 32)

theorem full_not_comp {b : Byte} (h : b = 0x04 ∨ b = 0x06 ∨ b = 0x07) : ¬ (b = 0x02 ∨ b = 0x03) := by
  rcases h with rfl | rfl | rfl <;> decide

theorem decodes_unique {C1 : List Byte} {P P' : Sm2Point} (h : Sm2Decodes C1 P) (h' : Sm2Decodes C1 P') : P = P' := by
  obtain ⟨b, rest, rfl, h⟩ := h
  obtain ⟨b', rest', e, h'⟩ := h'
  obtain ⟨rfl, rfl⟩ := List.cons.inj e
  rcases h with ⟨hb, -, hs, hP⟩ | ⟨hb, -, y, hs, hP, hy⟩
  · rcases h' with ⟨-, -, hs', hP'⟩ | ⟨hb', -⟩
    · rw [hP, hP']
    · exact absurd hb' (full_not_comp hb)
  · rcases h' with ⟨hb', -⟩ | ⟨-, -, y', hs', hP', hy'⟩
    · exact absurd hb (full_not_comp hb')
    · have := y_unique (sm2_onCurve hs) (sm2_onCurve hs') (hy.trans hy'.symm)
      subst this
      rw [hP, hP']

theorem exists_affine {x y : ZMod sm2p} (h : sm2Curve.Nonsingular x y) : ∃ a, Sm2IsAffine a (.some x y h) := by
  obtain ⟨x1, x2⟩ := fpFromBytes_ok (fieldOctets_len x)
  obtain ⟨y1, y2⟩ := fpFromBytes_ok (fieldOctets_len y)
  have hv : ∀ z : ZMod sm2p, (beVal (fieldOctets z) : ZMod sm2p) = z := fun z => by
    unfold fieldOctets
    rw [beVal_toBE, Nat.mod_eq_of_lt ((ZMod.val_lt _).trans (by decide +kernel)), ZMod.natCast_val, ZMod.cast_id]
  rw [hv] at x2 y2
  generalize Sm2.fpFromBytes (fieldOctets x) = X at *
  generalize Sm2.fpFromBytes (fieldOctets y) = Y at *
  refine ⟨⟨X, Y⟩, x1, y1, ?_⟩
  have hs : sm2Curve.Nonsingular (fpVal X) (fpVal Y) := by rw [x2, y2]; exact h
  refine ⟨hs, ?_⟩
  clear * - x2 y2
  simp only
  subst x2 y2
  rfl

theorem decode_ok {C1 : List Byte} (h : C1Form C1) :
    (∃ a P, Sm2.ecAFromBytes C1 C1.length = .ok (a, C1.length) ∧ Sm2IsAffine a P ∧ Sm2Decodes C1 P) ∨
    (Sm2.ecAFromBytes C1 C1.length = .fail ∧ ∀ P, ¬ Sm2Decodes C1 P) := by
  obtain ⟨b, rest, rfl, ⟨hb, hl⟩ | ⟨hb, hl⟩⟩ := h
  · have l0 : (b :: rest).length ≠ 0 := by simp
    have hi := fun R n => fromBytes_full_iff hb l0 (Nat.le_of_eq hl.symm) R n
    have e1 : (rest.drop 32).take 32 = rest.drop 32 := List.take_of_length_le (by simp; omega)
    rw [e1] at hi
    have hub := fromBytes_full_ne_ub hb l0 (Nat.le_of_eq hl.symm)
    generalize Sm2.ecAFromBytes (b :: rest) (b :: rest).length = res at *
    rcases res with _ | _ | ⟨a, n⟩
    · exact absurd rfl hub
    swap
    · left
      obtain ⟨rfl, Q, q1, q2⟩ := (hi a n).mp rfl
      exact ⟨a, Q, by rw [List.length_cons, hl], q1, b, rest, rfl, Or.inl ⟨hb, hl, q2⟩⟩
    · right
      refine ⟨rfl, ?_⟩
      rintro P ⟨b', rest', e, h⟩
      obtain ⟨rfl, rfl⟩ := List.cons.inj e
      rcases h with ⟨-, -, hs, rfl⟩ | ⟨hb', -⟩
      · obtain ⟨a, ha⟩ := exists_affine hs
        have := (hi a 65).mpr ⟨rfl, _, ha, hs, rfl⟩
        cases this
      · exact absurd hb' (full_not_comp hb)
  · have l0 : (b :: rest).length ≠ 0 := by simp
    have hi := fun R n => fromBytes_comp_iff hb l0 (Nat.le_of_eq hl.symm) R n
    have e1 : rest.take 32 = rest := List.take_of_length_le (by omega)
    rw [e1] at hi
    have hub := fromBytes_comp_ne_ub hb l0 (Nat.le_of_eq hl.symm)
    generalize Sm2.ecAFromBytes (b :: rest) (b :: rest).length = res at *
    rcases res with _ | _ | ⟨a, n⟩
    · exact absurd rfl hub
    swap
    · left
      obtain ⟨rfl, Q, q1, q2⟩ := (hi a n).mp rfl
      exact ⟨a, Q, by rw [List.length_cons, hl], q1, b, rest, rfl, Or.inr ⟨hb, hl, q2⟩⟩
    · right
      refine ⟨rfl, ?_⟩
      rintro P ⟨b', rest', e, h⟩
      obtain ⟨rfl, rfl⟩ := List.cons.inj e
      rcases h with ⟨hb', -⟩ | ⟨-, -, y, hs, rfl, hy⟩
      · exact absurd hb (full_not_comp hb')
      · obtain ⟨a, ha⟩ := exists_affine hs
        have := (hi a 33).mpr ⟨rfl, _, ha, y, hs, rfl, hy⟩
        cases this

theorem decodes_form {C1 : List Byte} {P : Sm2Point} (h : Sm2Decodes C1 P) : C1Form C1 := by
  obtain ⟨b, rest, rfl, ⟨hb, hl, -⟩ | ⟨hb, hl, -⟩⟩ := h
  · exact ⟨b, rest, rfl, Or.inl ⟨hb, hl⟩⟩
  · exact ⟨b, rest, rfl, Or.inr ⟨hb, hl⟩⟩

/-- What the encoders write denotes the point. -/
theorem decodes_encForm (pc : Sm2.PC) {x y : ZMod sm2p} (h : sm2Curve.Nonsingular x y) :
    Sm2Decodes (encForm pc x y) (.some x y h) := by
  have hv : ∀ z : ZMod sm2p, (beVal (fieldOctets z) : ZMod sm2p) = z := fun z => by
    unfold fieldOctets
    rw [beVal_toBE, Nat.mod_eq_of_lt ((ZMod.val_lt _).trans (by decide +kernel)), ZMod.natCast_val, ZMod.cast_id]
  have hf : ∃ h', (Point.some x y h : Sm2Point) =
      .some (beVal ((fieldOctets x ++ fieldOctets y).take 32) : ZMod sm2p)
        (beVal ((fieldOctets x ++ fieldOctets y).drop 32) : ZMod sm2p) h' := by
    rw [List.take_left' (fieldOctets_len x), List.drop_left' (fieldOctets_len x)]
    exact some_congr rfl (hv x).symm (hv y).symm
  have hl : (fieldOctets x ++ fieldOctets y).length = 64 := by
    rw [List.length_append, fieldOctets_len, fieldOctets_len]
  cases pc with
  | uncompressed => exact ⟨_, _, rfl, Or.inl ⟨Or.inl rfl, hl, hf⟩⟩
  | mix =>
    refine ⟨_, _, rfl, Or.inl ⟨Or.inr ?_, hl, hf⟩⟩
    split
    · exact Or.inl rfl
    · exact Or.inr rfl
  | compressed =>
    obtain ⟨h', e⟩ := some_congr (rfl : (Point.some x y h : Sm2Point) = _) (hv x).symm (rfl : y = y)
    refine ⟨_, _, rfl, Or.inr ⟨?_, fieldOctets_len x, y, h', e, ?_⟩⟩
    · split
      · exact Or.inl rfl
      · exact Or.inr rfl
    · rcases Nat.mod_two_eq_zero_or_one y.val with hp | hp
      · rw [if_pos hp, hp]; rfl
      · rw [if_neg (by omega), hp]; rfl

/-! ## Decryption -/

theorem decryptBody_ok (hC : IsHash C H) {K : Sm2.Priv} {d : Nat} (hK : Sm2PrivIs sm2G K d) {C1 C3 C2 : List Byte}
    (h1 : C1Form C1) (h3 : C3.length = C.DS) :
    (∃ P x2 y2 h2, Sm2Decodes C1 P ∧ d • P = .some x2 y2 h2 ∧ C2.length < C.DS * (2 ^ 32 - 1) ∧
      (C2 ≠ [] → ∃ b ∈ sm2Kdf H C.DS (fieldOctets x2 ++ fieldOctets y2) C2.length, b ≠ 0) ∧
      C3 = H (fieldOctets x2 ++ List.zipWith (· ^^^ ·) C2
        (sm2Kdf H C.DS (fieldOctets x2 ++ fieldOctets y2) C2.length) ++ fieldOctets y2) ∧
      Sm2.decryptBody C K C1 C3 C2 = .ok (List.zipWith (· ^^^ ·) C2
        (sm2Kdf H C.DS (fieldOctets x2 ++ fieldOctets y2) C2.length))) ∨
    (Sm2.decryptBody C K C1 C3 C2 = .throw ∧ ¬ (C2.length < C.DS * (2 ^ 32 - 1) ∧
      ∃ P x2 y2 h2, Sm2Decodes C1 P ∧ d • P = .some x2 y2 h2 ∧
      (C2 ≠ [] → ∃ b ∈ sm2Kdf H C.DS (fieldOctets x2 ++ fieldOctets y2) C2.length, b ≠ 0) ∧
      C3 = H (fieldOctets x2 ++ List.zipWith (· ^^^ ·) C2
        (sm2Kdf H C.DS (fieldOctets x2 ++ fieldOctets y2) C2.length) ++ fieldOctets y2))) := by
  obtain ⟨kp, d1, d2, -⟩ := hK
  have kl : K.priv.length = 32 := by rw [kp, toBE_len]
  have kv : beVal K.priv = d := by
    rw [kp, beVal_toBE, Nat.mod_eq_of_lt]; exact d2.trans (by decide +kernel)
  unfold Sm2.decryptBody
  rcases decode_ok h1 with ⟨a, P, e1, e2, e3⟩ | ⟨e1, e2⟩
  · rw [e1]
    simp only
    rw [if_neg (by simp [h3])]
    obtain ⟨R, a', r1, a1, a2⟩ := mulA_affine kl (by rw [kv]; exact d1) (by rw [kv]; exact d2) e2
    rw [kv] at a2
    rw [r1, ofOption_some, o_bind, a1, ofOption_some, o_bind]
    obtain ⟨_, _, hs, eP⟩ := id a2
    rw [eP] at a2
    have t2 := toBytes04_eq a2
    rw [t2]
    generalize fpVal a'.x = x2 at *
    generalize fpVal a'.y = y2 at *
    have lx := fieldOctets_len x2
    have ly := fieldOctets_len y2
    rw [kdfXor_ok hC _ _ (by rw [List.length_append, lx, ly]; decide), List.take_left' lx, List.drop_left' lx,
      List.take_of_length_le (l := fieldOctets y2) (by rw [ly])]
    have huniq : ∀ {P' : Sm2Point} {x y h}, Sm2Decodes C1 P' → d • P' = .some x y h → x = x2 ∧ y = y2 := by
      intro P' x y h hd he
      have := decodes_unique e3 hd
      subst this
      rw [eP] at he
      obtain ⟨hx, hy⟩ := (Point.some.injEq ..).mp he
      exact ⟨hx.symm, hy.symm⟩
    by_cases h0 : C2.length ≥ C.DS * (2 ^ 32 - 1)
    · right
      rw [if_pos h0, t_bind]
      exact ⟨rfl, fun h => absurd h.1 (by omega)⟩
    · rw [if_neg h0]
      by_cases hz : C2 ≠ [] ∧ (∀ b ∈ sm2Kdf H C.DS (fieldOctets x2 ++ fieldOctets y2) C2.length, b = 0)
      · right
        rw [if_pos hz, o_bind]
        refine ⟨rfl, ?_⟩
        rintro ⟨-, P', x, y, h, hd, he, hk, -⟩
        obtain ⟨rfl, rfl⟩ := huniq hd he
        obtain ⟨b, b1, b2⟩ := hk hz.1
        exact b2 (hz.2 b b1)
      · rw [if_neg hz, o_bind]
        simp only
        have hz' : C2 ≠ [] → ∃ b ∈ sm2Kdf H C.DS (fieldOctets x2 ++ fieldOctets y2) C2.length, b ≠ 0 := by
          intro h
          by_contra hcon
          push Not at hcon
          exact hz ⟨h, hcon⟩
        have hxl : (xorBytes C2 (sm2Kdf H C.DS (fieldOctets x2 ++ fieldOctets y2) C2.length)).length = C2.length := by
          unfold xorBytes
          rw [List.length_zipWith, sm2Kdf_len hC]
          omega
        rw [hash3_ok hC _ _ _ lx ly, if_pos (by rw [hxl]; exact mul8_lt (by omega) hC.small), o_bind,
          List.take_of_length_le (by rw [hC.len]), List.take_of_length_le (by rw [h3])]
        by_cases hc : C3 = H (fieldOctets x2 ++ xorBytes C2
            (sm2Kdf H C.DS (fieldOctets x2 ++ fieldOctets y2) C2.length) ++ fieldOctets y2)
        · left
          rw [if_neg (not_not.mpr hc.symm)]
          exact ⟨P, x2, y2, hs, e3, eP, by omega, hz', hc, rfl⟩
        · right
          rw [if_pos (fun h => hc h.symm)]
          refine ⟨rfl, ?_⟩
          rintro ⟨-, P', x, y, h, hd, he, -, hk⟩
          obtain ⟨rfl, rfl⟩ := huniq hd he
          exact hc hk
  · right
    rw [e1]
    exact ⟨rfl, fun ⟨_, P, _, _, _, h, _⟩ => e2 P h⟩

/-- How a ciphertext is cut: `C1` by its tag, then `C3`, then the rest. -/
def Cut (v : Nat) (ct C1 C3 C2 : List Byte) : Prop := ct = C1 ++ C3 ++ C2 ∧ C1Form C1 ∧ C3.length = v

theorem decrypt_cut {K : Sm2.Priv} {ct C1 C3 C2 : List Byte} (h : Cut C.DS ct C1 C3 C2) :
    Sm2.decrypt C K ct = Sm2.decryptBody C K C1 C3 C2 := by
  obtain ⟨rfl, ⟨b, rest, rfl, hb⟩, h3⟩ := h
  unfold Sm2.decrypt Sm2.plaintextLen
  simp only [List.cons_append]
  have key : (rest.length + 1 = 33 ∨ rest.length + 1 = 65) ∧ ((if b = 0x02 ∨ b = 0x03 then .ok (33 + C.DS)
      else if b = 0x04 ∨ b = 0x06 ∨ b = 0x07 then .ok (65 + C.DS) else .throw : Outcome Nat)) =
        .ok (rest.length + 1 + C.DS) := by
    rcases hb with ⟨hb, hl⟩ | ⟨hb, hl⟩
    · rw [if_neg (full_not_comp hb), if_pos hb, hl]
      exact ⟨Or.inr rfl, rfl⟩
    · rw [if_pos hb, hl]
      exact ⟨Or.inl rfl, rfl⟩
  rw [key.2, o_bind]
  have hlen : (b :: (rest ++ C3 ++ C2)).length = rest.length + 1 + C.DS + C2.length := by
    simp [h3]; omega
  rw [hlen, if_neg (by omega), o_bind]
  have e1 : rest.length + 1 + C.DS + C2.length - (rest.length + 1 + C.DS + C2.length - (rest.length + 1 + C.DS)) -
      C.DS = rest.length + 1 := by omega
  have e2 : rest.length + 1 + C.DS + C2.length - (rest.length + 1 + C.DS) = C2.length := by omega
  rw [e1, e2]
  have eq : b :: (rest ++ C3 ++ C2) = (b :: rest) ++ (C3 ++ C2) := by simp
  rw [eq, List.take_left' (by simp), List.drop_left' (by simp), List.take_left' h3]
  rw [← List.append_assoc, List.drop_left' (by simp [h3]; omega), List.take_of_length_le (le_refl _)]

theorem decrypt_nocut {K : Sm2.Priv} {ct : List Byte} (h : ¬ ∃ C1 C3 C2, Cut C.DS ct C1 C3 C2) :
    Sm2.decrypt C K ct = .throw := by
  unfold Sm2.decrypt Sm2.plaintextLen
  cases ct with
  | nil => rfl
  | cons b rest =>
    simp only
    have fin : ∀ n, (C1Form ((b :: rest).take n) → n + C.DS ≤ (b :: rest).length → False) := by
      intro n hn hl
      apply h
      refine ⟨(b :: rest).take n, ((b :: rest).drop n).take C.DS, (b :: rest).drop (n + C.DS), ?_, hn, ?_⟩
      · rw [List.append_assoc, ← List.drop_drop, List.take_append_drop, List.take_append_drop]
      · rw [List.length_take, List.length_drop]; omega
    by_cases h1 : b = 0x02 ∨ b = 0x03
    · rw [if_pos h1, o_bind]
      by_cases hl : (b :: rest).length < 33 + C.DS
      · rw [if_pos hl, t_bind]
      · exfalso
        refine fin 33 ⟨b, rest.take 32, rfl, Or.inr ⟨h1, ?_⟩⟩ (by omega)
        rw [List.length_cons] at hl
        rw [List.length_take]; omega
    · rw [if_neg h1]
      by_cases h2 : b = 0x04 ∨ b = 0x06 ∨ b = 0x07
      · rw [if_pos h2, o_bind]
        by_cases hl : (b :: rest).length < 65 + C.DS
        · rw [if_pos hl, t_bind]
        · exfalso
          refine fin 65 ⟨b, rest.take 64, rfl, Or.inl ⟨h2, ?_⟩⟩ (by omega)
          rw [List.length_cons] at hl
          rw [List.length_take]; omega
      · rw [if_neg h2, t_bind, t_bind]

theorem cut_unique {v : Nat} {ct C1 C3 C2 C1' C3' C2' : List Byte} (h : Cut v ct C1 C3 C2)
    (h' : Cut v ct C1' C3' C2') : C1 = C1' ∧ C3 = C3' ∧ C2 = C2' := by
  obtain ⟨rfl, ⟨b, rest, rfl, hb⟩, h3⟩ := h
  obtain ⟨e, ⟨b', rest', rfl, hb'⟩, h3'⟩ := h'
  simp only [List.cons_append] at e
  obtain ⟨e0, e1⟩ := List.cons.inj e
  clear e
  subst e0
  have hl : rest.length = rest'.length := by
    rcases hb with ⟨h1, h2⟩ | ⟨h1, h2⟩ <;> rcases hb' with ⟨h1', h2'⟩ | ⟨h1', h2'⟩
    · omega
    · exact absurd h1' (full_not_comp h1)
    · exact absurd h1 (full_not_comp h1')
    · omega
  rw [List.append_assoc, List.append_assoc] at e1
  obtain ⟨f1, f2⟩ := List.append_inj e1 hl
  obtain ⟨f3, f4⟩ := List.append_inj f2 (by omega)
  exact ⟨by rw [f1], f3, f4⟩

/-- Decryption computes the standard's plaintext, or throws. -/
theorem decrypt_ok (hC : IsHash C H) {K : Sm2.Priv} {d : Nat} (hK : Sm2PrivIs sm2G K d) (ct : List Byte) :
    (∃ pt, Sm2.decrypt C K ct = .ok pt ∧ IsSm2Plain H C.DS d ct pt ∧ pt.length < C.DS * (2 ^ 32 - 1)) ∨
    (Sm2.decrypt C K ct = .throw ∧ ¬ ∃ pt, IsSm2Plain H C.DS d ct pt ∧ pt.length < C.DS * (2 ^ 32 - 1)) := by
  have hlen : ∀ (C2 Z : List Byte), (List.zipWith (· ^^^ ·) C2 (sm2Kdf H C.DS Z C2.length)).length = C2.length := by
    intro C2 Z
    rw [List.length_zipWith, sm2Kdf_len hC]; omega
  by_cases h : ∃ C1 C3 C2, Cut C.DS ct C1 C3 C2
  · obtain ⟨C1, C3, C2, hc⟩ := h
    rw [decrypt_cut hc]
    have hc0 := hc
    obtain ⟨e, f1, f3⟩ := hc
    rcases decryptBody_ok hC hK (C2 := C2) f1 f3 with ⟨P, x2, y2, h2, g1, g2, g3, g4, g5, g6⟩ | ⟨g1, g2⟩
    · left
      exact ⟨_, g6, ⟨C1, C3, C2, P, x2, y2, h2, e, f3, g1, g2, g4, rfl, g5⟩, by rw [hlen]; exact g3⟩
    · right
      refine ⟨g1, ?_⟩
      rintro ⟨pt, ⟨C1', C3', C2', P, x2, y2, h2, e', f3', k1, k2, k3, rfl, k5⟩, hl⟩
      obtain ⟨rfl, rfl, rfl⟩ := cut_unique hc0 ⟨e', decodes_form k1, f3'⟩
      rw [hlen] at hl
      exact g2 ⟨hl, P, x2, y2, h2, k1, k2, k3, k5⟩
  · right
    refine ⟨decrypt_nocut h, ?_⟩
    rintro ⟨pt, ⟨C1', C3', C2', P, x2, y2, h2, e', f3', k1, k2, k3, rfl, k5⟩, hl⟩
    exact h ⟨C1', C3', C2', e', decodes_form k1, f3'⟩

theorem xor_xor (a b : List Byte) (h : a.length ≤ b.length) :
    List.zipWith (· ^^^ ·) (List.zipWith (· ^^^ ·) a b) b = a := by
  induction a generalizing b with
  | nil => simp
  | cons x a ih =>
    cases b with
    | nil => simp at h
    | cons y b =>
      simp only [List.zipWith_cons_cons, List.cons.injEq]
      exact ⟨by rw [BitVec.xor_assoc, BitVec.xor_self, BitVec.xor_zero], ih b (by simpa using h)⟩

/-- The standard's decryption of the standard's ciphertext. -/
theorem cipher_plain (hC : IsHash C H) {d k : Nat} {pc : Sm2.PC} {pt ct : List Byte} {x1 y1 : ZMod sm2p} {h1}
    {x2 y2 : ZMod sm2p} {h2} (e1 : k • sm2G = .some x1 y1 h1) (e2 : k • (d • sm2G) = .some x2 y2 h2)
    (hz : pt ≠ [] → ∃ b ∈ sm2Kdf H C.DS (fieldOctets x2 ++ fieldOctets y2) pt.length, b ≠ 0)
    (hct : ct = encForm pc x1 y1 ++ H (fieldOctets x2 ++ pt ++ fieldOctets y2) ++
      List.zipWith (· ^^^ ·) pt (sm2Kdf H C.DS (fieldOctets x2 ++ fieldOctets y2) pt.length)) :
    IsSm2Plain H C.DS d ct pt := by
  have hl : (List.zipWith (· ^^^ ·) pt
      (sm2Kdf H C.DS (fieldOctets x2 ++ fieldOctets y2) pt.length)).length = pt.length := by
    rw [List.length_zipWith, sm2Kdf_len hC]; omega
  refine ⟨_, _, _, .some x1 y1 h1, x2, y2, h2, hct, hC.len _, decodes_encForm pc h1, ?_, ?_, ?_, rfl⟩
  · rw [← e1, ← e2, smul_comm]
  · rw [hl]
    intro h
    apply hz
    rintro rfl
    simp at h
  · rw [hl, xor_xor _ _ (by rw [sm2Kdf_len hC])]

end
end Verif
