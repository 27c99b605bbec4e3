import Verif.Proofs.Sm9X64Enc
import Verif.Props.Sm9X64
/-!
# C85: octet encodings and private keys of SM9 in the build with 64-bit limbs

What C53, C54, C65 and C69 say of the portable build, for the functions over 64-bit limbs (`X64.Sm9.…`), and: whatever
octets the one build writes or accepts, the other writes or accepts too.
-/
set_option linter.unusedSectionVars false
namespace Verif.X64.Props
open Verif Verif.Spec WeierstrassCurve WeierstrassCurve.Affine

/-! ## Points of `G1` -/

/-- **C85** the three encoders write the standard's octet strings. -/
theorem C85_x64_encode (A : X64.Sm9.A) (x y : ZMod sm9p) (h : sm9Curve.Nonsingular x y)
    (hA : X64.Sm9IsAffine A (.some x y h)) :
    X64.Sm9.toUncompressed A = 0x04 :: (toBE 32 x.val ++ toBE 32 y.val) ∧
    X64.Sm9.toCompressed A = (if y.val % 2 = 0 then 0x02 else 0x03) :: toBE 32 x.val ∧
    X64.Sm9.toMix A = (if y.val % 2 = 0 then 0x06 else 0x07) :: (toBE 32 x.val ++ toBE 32 y.val) := by
  have hs := loA_sim hA.1 hA.2.1
  have := Verif.Props.C65_encode _ x y h ((x_affine hs).mpr hA)
  rw [show Verif.Sm9.toUncompressed (loA A) = X64.Sm9.toUncompressed A from s9encPoint_sim hs .uncompressed,
    show Verif.Sm9.toCompressed (loA A) = X64.Sm9.toCompressed A from s9encPoint_sim hs .compressed,
    show Verif.Sm9.toMix (loA A) = X64.Sm9.toMix A from s9encPoint_sim hs .mix] at this
  exact this

/-- **C85** round trip: decoding any of the three encodings, followed by any other octets, gives back the point array
and the number of octets of the encoding. -/
theorem C85_x64_round_trip (A : X64.Sm9.A) (Q : Sm9Point) (hA : X64.Sm9IsAffine A Q) (rest : List Byte) (inl : Nat)
    (hl : inl ≠ 0) :
    X64.Sm9.ecAFromBytes (X64.Sm9.toUncompressed A ++ rest) inl = .ok (A, (X64.Sm9.toUncompressed A).length) ∧
    X64.Sm9.ecAFromBytes (X64.Sm9.toCompressed A ++ rest) inl = .ok (A, (X64.Sm9.toCompressed A).length) ∧
    X64.Sm9.ecAFromBytes (X64.Sm9.toMix A ++ rest) inl = .ok (A, (X64.Sm9.toMix A).length) := by
  have hs := loA_sim hA.1 hA.2.1
  have := Verif.Props.C65_round_trip _ Q ((x_affine hs).mpr hA) rest inl hl
  rw [show Verif.Sm9.toUncompressed (loA A) = X64.Sm9.toUncompressed A from s9encPoint_sim hs .uncompressed,
    show Verif.Sm9.toCompressed (loA A) = X64.Sm9.toCompressed A from s9encPoint_sim hs .compressed,
    show Verif.Sm9.toMix (loA A) = X64.Sm9.toMix A from s9encPoint_sim hs .mix] at this
  exact ⟨(xfrom_iff hs _ _ _).mpr this.1, (xfrom_iff hs _ _ _).mpr this.2.1, (xfrom_iff hs _ _ _).mpr this.2.2⟩

/-- **C85** tags 04, 06, 07 with 64 readable octets: accepted exactly when the coordinates (reduced modulo `p`) satisfy
the curve equation, and the result is that point. -/
theorem C85_x64_decode_full (b : Byte) (hb : b = 0x04 ∨ b = 0x06 ∨ b = 0x07) (rest : List Byte) (inl : Nat)
    (hl : inl ≠ 0) (hr : 64 ≤ rest.length) (R : X64.Sm9.A) (n : Nat) :
    X64.Sm9.ecAFromBytes (b :: rest) inl = .ok (R, n) ↔
      n = 65 ∧ ∃ Q, X64.Sm9IsAffine R Q ∧ ∃ h, Q = .some (beVal (rest.take 32) : ZMod sm9p)
        (beVal ((rest.drop 32).take 32) : ZMod sm9p) h := by
  constructor
  · intro e
    have hs := s9fromBytes_sim (b :: rest) inl
    rw [e] at hs
    obtain ⟨A, e', hA⟩ := relP9_ok hs
    obtain ⟨n1, Q, q1, q2⟩ := (Verif.Props.C65_decode_full b hb rest inl hl hr A n).mp e'
    exact ⟨n1, Q, (x_affine hA).mp q1, q2⟩
  · rintro ⟨n1, Q, q1, q2⟩
    have hs := loA_sim q1.1 q1.2.1
    exact (xfrom_iff hs _ _ _).mpr
      ((Verif.Props.C65_decode_full b hb rest inl hl hr _ n).mpr ⟨n1, Q, (x_affine hs).mpr q1, q2⟩)

/-- **C85** tags 02, 03 with 32 readable octets: accepted exactly when there is a point with that `x`, and the result is
the one whose `y` has the parity of the tag. -/
theorem C85_x64_decode_compressed (b : Byte) (hb : b = 0x02 ∨ b = 0x03) (rest : List Byte) (inl : Nat)
    (hl : inl ≠ 0) (hr : 32 ≤ rest.length) (R : X64.Sm9.A) (n : Nat) :
    X64.Sm9.ecAFromBytes (b :: rest) inl = .ok (R, n) ↔
      n = 33 ∧ ∃ Q, X64.Sm9IsAffine R Q ∧ ∃ y h, Q = .some (beVal (rest.take 32) : ZMod sm9p) y h ∧
        y.val % 2 = b.toNat % 2 := by
  constructor
  · intro e
    have hs := s9fromBytes_sim (b :: rest) inl
    rw [e] at hs
    obtain ⟨A, e', hA⟩ := relP9_ok hs
    obtain ⟨n1, Q, q1, q2⟩ := (Verif.Props.C65_decode_compressed b hb rest inl hl hr A n).mp e'
    exact ⟨n1, Q, (x_affine hA).mp q1, q2⟩
  · rintro ⟨n1, Q, q1, q2⟩
    have hs := loA_sim q1.1 q1.2.1
    exact (xfrom_iff hs _ _ _).mpr
      ((Verif.Props.C65_decode_compressed b hb rest inl hl hr _ n).mpr ⟨n1, Q, (x_affine hs).mpr q1, q2⟩)

/-- **C85** any other tag, and length 0, are rejected. -/
theorem C85_x64_decode_other (b : Byte) (rest : List Byte) (inl : Nat) :
    (b ≠ 0x02 → b ≠ 0x03 → b ≠ 0x04 → b ≠ 0x06 → b ≠ 0x07 → X64.Sm9.ecAFromBytes (b :: rest) inl = .fail) ∧
    X64.Sm9.ecAFromBytes (b :: rest) 0 = .fail ∧ X64.Sm9.ecAFromBytes [] 0 = .fail := by
  rw [xfrom_fail, xfrom_fail, xfrom_fail]
  exact Verif.Props.C65_decode_other b rest inl

/-- **C85** the decoder reads beyond the buffer exactly as the portable one does (C53): the length argument plays no
role, except that 0 is rejected. -/
theorem C85_x64_overread_iff (inp : List Byte) (inl : Nat) :
    X64.Sm9.ecAFromBytes inp inl = .ub ↔ inl ≠ 0 ∧ (inp = [] ∨ ∃ b rest, inp = b :: rest ∧
      ((b = 0x04 ∨ b = 0x06 ∨ b = 0x07) ∧ rest.length < 64 ∨ (b = 0x02 ∨ b = 0x03) ∧ rest.length < 32)) := by
  rw [xfrom_ub]
  exact Verif.Props.C53_decoder_overread_iff inp inl

/-- **C85** so the claim that inputs are read only within their length fails in this build too. -/
theorem C85_x64_overread_violated : X64.Sm9.ecAFromBytes [0x04] 1 = .ub ∧ X64.Sm9.ecAFromBytes [0x02] 1 = .ub := by
  decide

/-- The base point meets the hypotheses, with even `y`. -/
example : X64.Sm9.toCompressed X64.Sm9.p1 = 0x02 :: Verif.Sm9.sm9CurveGx ∧
    X64.Sm9.ecAFromBytes (0x06 :: (Verif.Sm9.sm9CurveGx ++ Verif.Sm9.sm9CurveGy)) 65 = .ok (X64.Sm9.p1, 65) := by
  decide +kernel

/-! ## Points of `G2` -/

/-- **C85** what the encoder of a `G2` point with `x = x1 u + x0`, `y = y1 u + y0` leaves in the caller's 129-octet
buffer: `x0` is missing and the last 32 octets are not written (as in C54). -/
theorem C85_x64_twist_encode (buf : List Byte) (hb : buf.length = 129) (A : X64.Sm9.A2) (hx : All2 (X64.Reduced sm9p) A.x)
    (hy : All2 (X64.Reduced sm9p) A.y) :
    X64.Sm9.ec2ToUncompressed buf A = 0x04 :: (sm9Octets (montVal sm9p A.x.c1) ++
      sm9Octets (montVal sm9p A.y.c1) ++ sm9Octets (montVal sm9p A.y.c0) ++ buf.drop 97) := by
  have hs := loA2_sim hx hy
  have := Verif.Props.C54_encode buf hb _ (r2_l hs.x) (r2_l hs.y)
  rw [(s9ec2Enc_sim hs buf).1, hs.x.c1.eq, hs.y.c1.eq, hs.y.c0.eq] at this
  exact this

/-- **C85** what encoding followed by decoding gives: `y` is kept and the `x0` coefficient is replaced by `y1`. -/
theorem C85_x64_twist_round_trip (buf : List Byte) (hb : buf.length = 129) (A : X64.Sm9.A2)
    (hx : All2 (X64.Reduced sm9p) A.x) (hy : All2 (X64.Reduced sm9p) A.y) (inl : Nat) (hl : inl ≠ 0) :
    X64.Sm9.ec2AFromBytes (X64.Sm9.ec2ToUncompressed buf A) inl = .ok (⟨⟨A.y.c1, A.x.c1⟩, A.y⟩, 129) := by
  have hs := loA2_sim hx hy
  have := Verif.Props.C54_round_trip_result buf hb _ (r2_l hs.x) (r2_l hs.y) inl hl
  rw [(s9ec2Enc_sim hs buf).1] at this
  have hp := s9ec2From_sim (X64.Sm9.ec2ToUncompressed buf A) inl
  rw [this] at hp
  obtain ⟨B, b1, b2⟩ := relP92_ok hp
  rw [b1, relA2_inj b2 (C := ⟨⟨A.y.c1, A.x.c1⟩, A.y⟩) (relA_mk (r2_mk hs.y.c1 hs.x.c1) hs.y)]

/-- **C85** so the round trip works exactly for points whose `x0` happens to equal `y1`. -/
theorem C85_x64_twist_round_trip_iff_partial (buf : List Byte) (hb : buf.length = 129) (A : X64.Sm9.A2)
    (hx : All2 (X64.Reduced sm9p) A.x) (hy : All2 (X64.Reduced sm9p) A.y) (inl : Nat) (hl : inl ≠ 0) :
    X64.Sm9.ec2AFromBytes (X64.Sm9.ec2ToUncompressed buf A) inl = .ok (A, 129) ↔ A.x.c0 = A.y.c1 := by
  rw [C85_x64_twist_round_trip buf hb A hx hy inl hl]
  constructor
  · intro h
    rw [Sm2.ParseRes.ok.injEq, Prod.mk.injEq] at h
    have := congrArg (fun P : X64.Sm9.A2 => P.x.c0) h.1
    exact this.symm
  · intro h
    rw [← h]

/-- **C85** it fails for the generator, and what comes back is not on the curve. -/
theorem C85_x64_twist_violated (buf : List Byte) (hb : buf.length = 129) : ∃ R,
    X64.Sm9.ec2AFromBytes (X64.Sm9.ec2ToUncompressed buf X64.Sm9.p2) 129 = .ok (R, 129) ∧ R ≠ X64.Sm9.p2 ∧
    X64.Sm9.ec2Check R = false ∧ X64.Sm9.ec2Check X64.Sm9.p2 = true := by
  refine ⟨_, C85_x64_twist_round_trip buf hb X64.Sm9.p2 (r2_r p2_sim.x) (r2_r p2_sim.y) 129 (by decide), ?_, ?_, ?_⟩
  · decide +kernel
  · decide +kernel
  · decide +kernel

/-- **C85** the decoder of `G2` points: tags 04, 06 and 07 with at least 96 readable octets after the tag are accepted
whatever they contain (129 octets are reported as read), every other tag and the length 0 are rejected, and everything
else is a read beyond the buffer. -/
theorem C85_x64_twist_decode (inp : List Byte) (inl : Nat) :
    (X64.Sm9.ec2AFromBytes inp inl = .fail ↔ inl = 0 ∨ ∃ b rest, inp = b :: rest ∧ b ≠ 0x04 ∧ b ≠ 0x06 ∧ b ≠ 0x07) ∧
    (X64.Sm9.ec2AFromBytes inp inl = .ub ↔ inl ≠ 0 ∧ (inp = [] ∨ ∃ b rest, inp = b :: rest ∧
      (b = 0x04 ∨ b = 0x06 ∨ b = 0x07) ∧ rest.length < 96)) ∧
    (∀ b rest, inp = b :: rest → (b = 0x04 ∨ b = 0x06 ∨ b = 0x07) → inl ≠ 0 → 96 ≤ rest.length → ∃ R,
      X64.Sm9.ec2AFromBytes inp inl = .ok (R, 129) ∧
      montVal sm9p R.x.c1 = (beVal (rest.take 32) : ZMod sm9p) ∧
      montVal sm9p R.x.c0 = (beVal ((rest.drop 32).take 32) : ZMod sm9p) ∧
      montVal sm9p R.y.c1 = (beVal ((rest.drop 32).take 32) : ZMod sm9p) ∧
      montVal sm9p R.y.c0 = (beVal ((rest.drop 64).take 32) : ZMod sm9p)) := by
  unfold X64.Sm9.ec2AFromBytes
  by_cases hl : inl = 0
  · subst hl
    rw [if_pos rfl]
    simp
  rw [if_neg hl]
  cases inp with
  | nil => simp [hl]
  | cons b rest =>
    dsimp only
    by_cases hb : b = 0x04 ∨ b = 0x06 ∨ b = 0x07
    · have hb' : ¬ (b ≠ 0x04 ∧ b ≠ 0x06 ∧ b ≠ 0x07) := by
        rintro ⟨h1, h2, h3⟩
        rcases hb with h | h | h
        · exact h1 h
        · exact h2 h
        · exact h3 h
      rw [if_pos hb]
      have hf : ¬ (inl = 0 ∨ ∃ b' rest', b :: rest = b' :: rest' ∧ b' ≠ 0x04 ∧ b' ≠ 0x06 ∧ b' ≠ 0x07) := by
        rintro (h | ⟨b', rest', h, h'⟩)
        · exact hl h
        · cases h; exact hb' h'
      by_cases hr : rest.length < 96
      · rw [if_pos hr]
        refine ⟨⟨fun h => (by cases h), fun h => absurd h hf⟩, ⟨fun _ => ⟨hl, Or.inr ⟨b, rest, rfl, hb, hr⟩⟩, fun _ => rfl⟩, ?_⟩
        intro b' rest' h _ _ h96
        cases h
        omega
      · rw [if_neg hr]
        refine ⟨⟨fun h => (by cases h), fun h => absurd h hf⟩, ⟨fun h => (by cases h), ?_⟩, ?_⟩
        · rintro ⟨-, h | ⟨b', rest', h, -, h'⟩⟩
          · cases h
          · cases h; exact absurd h' hr
        · intro b' rest' h _ _ h96
          cases h
          have v : ∀ bs : List Byte, bs.length = 32 → montVal sm9p (X64.Sm9.fpFromBytes bs) = (beVal bs : ZMod sm9p) :=
            fun bs hbs => (rfb hbs).eq.symm.trans (s9From_ok hbs).2
          refine ⟨_, rfl, ?_⟩
          unfold X64.Sm9.ec2FromBytes04 X64.Sm9.fp2FromBytes
          dsimp only
          have e1 : (rest.take 64).take 32 = rest.take 32 := by rw [List.take_take]; rfl
          have e2 : ((rest.take 64).drop 32).take 32 = (rest.drop 32).take 32 := by
            rw [List.drop_take, List.take_take]; rfl
          have e3 : ((rest.drop 32).take 64).take 32 = (rest.drop 32).take 32 := by rw [List.take_take]; rfl
          have e4 : (((rest.drop 32).take 64).drop 32).take 32 = (rest.drop 64).take 32 := by
            rw [List.drop_take, List.take_take, List.drop_drop]; rfl
          rw [e1, e2, e3, e4]
          exact ⟨v _ (by rw [List.length_take]; omega), v _ (by rw [List.length_take, List.length_drop]; omega),
            v _ (by rw [List.length_take, List.length_drop]; omega), v _ (by rw [List.length_take, List.length_drop]; omega)⟩
    · have hb' : b ≠ 0x04 ∧ b ≠ 0x06 ∧ b ≠ 0x07 :=
        ⟨fun h => hb (Or.inl h), fun h => hb (Or.inr (Or.inl h)), fun h => hb (Or.inr (Or.inr h))⟩
      rw [if_neg hb]
      refine ⟨⟨fun _ => Or.inr ⟨b, rest, rfl, hb'⟩, fun _ => rfl⟩, ⟨fun h => (by cases h), ?_⟩, ?_⟩
      · rintro ⟨-, h | ⟨b', rest', h, h', -⟩⟩
        · cases h
        · cases h; exact absurd h' hb
      · intro b' rest' h h'
        cases h
        exact absurd h' hb

/-! ## Elements of the field of `p¹²` elements -/

/-- **C85** an element of the target group survives the trip through its 384 octets, and its octets are the twelve
coefficients in the standard's order. -/
theorem C85_x64_fp12_octets (a : Fp12 (List W64)) (ha : All12 (X64.Reduced sm9p) a) :
    X64.Sm9.fp12FromBytes (X64.Sm9.fp12ToBytes a) = a ∧
    X64.Sm9.fp12ToBytes a =
      sm9Octets (montVal sm9p a.c2.c1.c1) ++ sm9Octets (montVal sm9p a.c2.c1.c0) ++
      sm9Octets (montVal sm9p a.c2.c0.c1) ++ sm9Octets (montVal sm9p a.c2.c0.c0) ++
      sm9Octets (montVal sm9p a.c1.c1.c1) ++ sm9Octets (montVal sm9p a.c1.c1.c0) ++
      sm9Octets (montVal sm9p a.c1.c0.c1) ++ sm9Octets (montVal sm9p a.c1.c0.c0) ++
      sm9Octets (montVal sm9p a.c0.c1.c1) ++ sm9Octets (montVal sm9p a.c0.c1.c0) ++
      sm9Octets (montVal sm9p a.c0.c0.c1) ++ sm9Octets (montVal sm9p a.c0.c0.c0) := by
  refine ⟨x12_from_to ha, ?_⟩
  have v : ∀ b : List W64, X64.Reduced sm9p b → X64.Sm9.fpToBytes b = sm9Octets (montVal sm9p b) := fun b hb => by
    rw [← rtb (lo_ro hb), s9To_eq (lo_ro hb).l, (lo_ro hb).eq]
  obtain ⟨⟨⟨h1, h2⟩, h3, h4⟩, ⟨⟨h5, h6⟩, h7, h8⟩, ⟨⟨h9, h10⟩, h11, h12⟩⟩ := ha
  unfold X64.Sm9.fp12ToBytes X64.Sm9.fp4ToBytes X64.Sm9.fp2ToBytes
  rw [v _ h1, v _ h2, v _ h3, v _ h4, v _ h5, v _ h6, v _ h7, v _ h8, v _ h9, v _ h10, v _ h11, v _ h12]
  simp only [List.append_assoc]

/-- **C85** any 384 octets are read as an element of the field, each coefficient modulo `p`; written back they are the
same octets in both builds. -/
theorem C85_x64_fp12_read (bs : List Byte) (h : bs.length = 384) :
    All12 (X64.Reduced sm9p) (X64.Sm9.fp12FromBytes bs) ∧
    X64.Sm9.fp12ToBytes (X64.Sm9.fp12FromBytes bs) = Verif.Sm9.fp12ToBytes (Verif.Sm9.fp12FromBytes bs) :=
  ⟨r12_r (r12fb h), (r12tb (r12fb h)).symm⟩

/-- One, written and read back. -/
example : X64.Sm9.fp12ToBytes (X64.Sm9.fp12FromBytes (List.replicate 383 0 ++ [1])) = List.replicate 383 0 ++ [1] := by
  decide +kernel

/-! ## Private signature keys -/

/-- **C85** `SM9SignPrivateKey::set_priv` throws when the private point is not on the curve, or `set_pub` does; otherwise
the key holds that point and that public key. -/
theorem C85_x64_set_sign_priv (px py x y : List Byte) (hx : px.length = 32) (hy : py.length = 32) :
    ((beVal py : ZMod sm9p) ^ 2 ≠ (beVal px : ZMod sm9p) ^ 3 + 5 → X64.Sm9.setSignPriv px py x y = .throw) ∧
    ((beVal py : ZMod sm9p) ^ 2 = (beVal px : ZMod sm9p) ^ 3 + 5 →
      (X64.Sm9.setPub x y = .throw → X64.Sm9.setSignPriv px py x y = .throw) ∧
      ∀ pub, X64.Sm9.setPub x y = .ok pub → ∃ T h, X64.Sm9.setSignPriv px py x y = .ok ⟨T, pub⟩ ∧
        X64.Sm9IsAffine T (.some (beVal px : ZMod sm9p) (beVal py : ZMod sm9p) h)) := by
  have hs : RelA RO ⟨Verif.Sm9.fpFromBytes px, Verif.Sm9.fpFromBytes py⟩ ⟨X64.Sm9.fpFromBytes px, X64.Sm9.fpFromBytes py⟩ :=
    relA_mk (rfb hx) (rfb hy)
  obtain ⟨x1, x2⟩ := s9From_ok hx
  obtain ⟨y1, y2⟩ := s9From_ok hy
  have hc := s9Check_iff (P := ⟨Verif.Sm9.fpFromBytes px, Verif.Sm9.fpFromBytes py⟩) x1 y1
  rw [s9ecCheck_sim hs] at hc
  constructor
  · intro h
    unfold X64.Sm9.setSignPriv
    simp only
    rw [if_pos]
    rw [Bool.not_eq_true']
    refine Bool.eq_false_iff.mpr fun h' => ?_
    obtain ⟨Q, -, -, hn, -⟩ := hc.mp h'
    have := sm9_onCurve hn
    rw [x2, y2] at this
    exact h this
  · intro h
    have hn : sm9Curve.Nonsingular (beVal px : ZMod sm9p) (beVal py : ZMod sm9p) := sm9_nonsing h
    have hQ : Verif.Spec.Sm9IsAffine ⟨Verif.Sm9.fpFromBytes px, Verif.Sm9.fpFromBytes py⟩ (.some _ _ hn) :=
      ⟨x1, y1, some_congr rfl x2.symm y2.symm⟩
    have hk := hc.mpr ⟨_, hQ⟩
    unfold X64.Sm9.setSignPriv
    simp only
    rw [hk, Bool.not_true, if_neg (by decide)]
    refine ⟨fun h => by rw [h, t_bind], fun pub hp => ⟨_, hn, by rw [hp, o_bind], (x_affine hs).mp hQ⟩⟩

/-- **C85** every private key accepted by `set_priv` survives `get_priv`, then `set_priv`. -/
theorem C85_x64_sign_priv_round_trip (px py x y : List Byte) (hpx : px.length = 32) (hpy : py.length = 32)
    (hx : x.length = 64) (hy : y.length = 64) (sk : X64.Sm9.SPriv) (h : X64.Sm9.setSignPriv px py x y = .ok sk) :
    X64.Sm9.setSignPriv (X64.Sm9.getSignPriv sk).1 (X64.Sm9.getSignPriv sk).2.1 (X64.Sm9.getSignPriv sk).2.2.1
      (X64.Sm9.getSignPriv sk).2.2.2 = .ok sk := by
  have rx := (rfb hpx).r
  have ry := (rfb hpy).r
  unfold X64.Sm9.setSignPriv at h
  dsimp only at h
  split at h
  · cases h
  · rename_i hk
    obtain ⟨pub, p1, p2⟩ := bind_ok h
    have e := Outcome.ok.inj p2
    subst e
    unfold X64.Sm9.setSignPriv X64.Sm9.getSignPriv
    dsimp only
    rw [x_from_to rx, x_from_to ry, if_neg hk, C81_x64_pub_round_trip x y hx hy pub p1, o_bind]

/-- **C85** a private key is accepted in both builds or in neither, and read out as the same octets. -/
theorem C85_x64_sign_priv_octets (px py x y : List Byte) (hpx : px.length = 32) (hpy : py.length = 32)
    (hx : x.length = 64) (hy : y.length = 64) :
    (X64.Sm9.setSignPriv px py x y >>= fun k => Outcome.ok (X64.Sm9.getSignPriv k)) =
      (Verif.Sm9.setSignPriv px py x y >>= fun k => Outcome.ok (Verif.Sm9.getSignPriv k)) := by
  obtain ⟨K, _, _, w, hw⟩ := sm9_field_exists
  classical
  have hs : RelA RO ⟨Verif.Sm9.fpFromBytes px, Verif.Sm9.fpFromBytes py⟩ ⟨X64.Sm9.fpFromBytes px, X64.Sm9.fpFromBytes py⟩ :=
    relA_mk (rfb hpx) (rfb hpy)
  unfold X64.Sm9.setSignPriv Verif.Sm9.setSignPriv
  dsimp only
  rw [s9ecCheck_sim hs]
  split
  · rw [t_bind, t_bind]
  · rcases s9setPub_sim hw hx hy with ⟨h, h'⟩ | ⟨P, P', e, e', Q, h, h', hP, -⟩
    · rw [h, h', t_bind, t_bind, t_bind, t_bind]
    · rw [h, h', o_bind, o_bind, o_bind, o_bind]
      unfold X64.Sm9.getSignPriv Verif.Sm9.getSignPriv X64.Sm9.getPub Verif.Sm9.getPub
      dsimp only
      rw [rtb hs.x, rtb hs.y, r2tb hP.x, r2tb hP.y]

/-- **C85** what a key made by `gen_SignPrivateKey` gives when its octets are loaded again: the same key. -/
theorem C85_x64_priv_round_trip (sk : X64.Sm9.SPriv) (Q : Sm9Point) (hQ : X64.Sm9IsAffine sk.priv Q)
    (h : X64.Sm9.setPub (X64.Sm9.getPub sk.pub).1 (X64.Sm9.getPub sk.pub).2 = .ok sk.pub) :
    X64.Sm9.setSignPriv (X64.Sm9.getSignPriv sk).1 (X64.Sm9.getSignPriv sk).2.1 (X64.Sm9.getSignPriv sk).2.2.1
      (X64.Sm9.getSignPriv sk).2.2.2 = .ok sk := by
  have hs := loA_sim hQ.1 hQ.2.1
  have hk : X64.Sm9.ecCheck sk.priv = true := by
    rw [← s9ecCheck_sim hs]
    exact (s9Check_iff hs.x.l hs.y.l).mpr ⟨Q, (x_affine hs).mpr hQ⟩
  unfold X64.Sm9.setSignPriv X64.Sm9.getSignPriv
  dsimp only
  rw [x_from_to hQ.1, x_from_to hQ.2.1, h, o_bind]
  rw [show X64.Sm9.ecCheck ⟨sk.priv.x, sk.priv.y⟩ = true from hk, Bool.not_true, if_neg (by decide)]

end Verif.X64.Props
