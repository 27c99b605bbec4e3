import Verif.Proofs.Sm9X64Verify
import Verif.Props.Sm9
/-! # SM9 with 64-bit limbs: octet encodings -/
set_option linter.unusedSectionVars false
namespace Verif
open Spec

theorem ro_inj {a : List W32} {b c : List W64} (hb : RO a b) (hc : RO a c) : b = c :=
  val_inj _ _ (by rw [hb.r.1, hc.r.1]) ((ro_rs hb).eq.symm.trans (ro_rs hc).eq)

theorem r2_inj {a : Sm9.F2} {b c : X64.Sm9.F2} (hb : R2 RO a b) (hc : R2 RO a c) : b = c := by
  obtain ⟨b0, b1⟩ := b
  obtain ⟨c0, c1⟩ := c
  rw [Fp2.mk.injEq]
  exact ⟨ro_inj hb.c0 hc.c0, ro_inj hb.c1 hc.c1⟩

theorem r4_inj {a : Sm9.F4} {b c : X64.Sm9.F4} (hb : R4 RO a b) (hc : R4 RO a c) : b = c := by
  obtain ⟨b0, b1⟩ := b
  obtain ⟨c0, c1⟩ := c
  rw [Fp4.mk.injEq]
  exact ⟨r2_inj hb.c0 hc.c0, r2_inj hb.c1 hc.c1⟩

theorem r12_inj {a : Sm9.F12} {b c : X64.Sm9.F12} (hb : R12 RO a b) (hc : R12 RO a c) : b = c := by
  obtain ⟨b0, b1, b2⟩ := b
  obtain ⟨c0, c1, c2⟩ := c
  rw [Fp12.mk.injEq]
  exact ⟨r4_inj hb.c0 hc.c0, r4_inj hb.c1 hc.c1, r4_inj hb.c2 hc.c2⟩

theorem relA_inj {A : Sm9.A} {B C : X64.Sm9.A} (hb : RelA RO A B) (hc : RelA RO A C) : B = C := by
  obtain ⟨b0, b1⟩ := B
  obtain ⟨c0, c1⟩ := C
  rw [EcA.mk.injEq]
  exact ⟨ro_inj hb.x hc.x, ro_inj hb.y hc.y⟩

theorem relA2_inj {A : Sm9.A2} {B C : X64.Sm9.A2} (hb : RelA (R2 RO) A B) (hc : RelA (R2 RO) A C) : B = C := by
  obtain ⟨b0, b1⟩ := B
  obtain ⟨c0, c1⟩ := C
  rw [EcA.mk.injEq]
  exact ⟨r2_inj hb.x hc.x, r2_inj hb.y hc.y⟩

theorem r4fb {bs : List Byte} (h : bs.length = 128) : R4 RO (Sm9.fp4FromBytes bs) (X64.Sm9.fp4FromBytes bs) :=
  ⟨r2fb (by rw [List.length_take, List.length_drop]; omega), r2fb (by rw [List.length_take]; omega)⟩

theorem r12fb {bs : List Byte} (h : bs.length = 384) : R12 RO (Sm9.fp12FromBytes bs) (X64.Sm9.fp12FromBytes bs) :=
  ⟨r4fb (by rw [List.length_take, List.length_drop]; omega), r4fb (by rw [List.length_take, List.length_drop]; omega),
    r4fb (by rw [List.length_take]; omega)⟩

theorem x_from_to {a : List W64} (h : X64.Reduced sm9p a) : X64.Sm9.fpFromBytes (X64.Sm9.fpToBytes a) = a := by
  have h1 := lo_ro h
  have h2 := rfb (fp_to_len _ h1.l)
  rw [fp_from_to _ h1.l, rtb h1] at h2
  exact ro_inj h2 h1

theorem x4_from_to {a : X64.Sm9.F4} (h : All4 (X64.Reduced sm9p) a) : X64.Sm9.fp4FromBytes (X64.Sm9.fp4ToBytes a) = a := by
  have h1 := lo4_ro h
  have h2 := r4fb (fp4_to_len _ (r4_l h1))
  rw [fp4_from_to _ (r4_l h1), r4tb h1] at h2
  exact r4_inj h2 h1

theorem x12_from_to {a : X64.Sm9.F12} (h : All12 (X64.Reduced sm9p) a) :
    X64.Sm9.fp12FromBytes (X64.Sm9.fp12ToBytes a) = a := by
  have h1 := lo12_ro h
  have h2 := r12fb (fp12_to_len _ (r12_l h1))
  rw [fp12_from_to _ (r12_l h1), r12tb h1] at h2
  exact r12_inj h2 h1

/-- Decoding succeeds with this point array exactly when it does in the portable build with the corresponding one. -/
theorem xfrom_iff {A : Sm9.A} {A' : X64.Sm9.A} (h : RelA RO A A') (inp : List Byte) (inl n : Nat) :
    X64.Sm9.ecAFromBytes inp inl = .ok (A', n) ↔ Sm9.ecAFromBytes inp inl = .ok (A, n) := by
  have hs := s9fromBytes_sim inp inl
  constructor
  · intro e
    rw [e] at hs
    obtain ⟨B, e', hB⟩ := relP9_ok hs
    rw [e']
    have : B = A := by
      obtain ⟨b0, b1⟩ := B
      obtain ⟨a0, a1⟩ := A
      rw [EcA.mk.injEq]
      have inj : ∀ {a b : List W32} {c : List W64}, RO a c → RO b c → a = b := fun hb hc =>
        val_inj _ _ (by rw [hb.l.1, hc.l.1]) ((ro_rs hb).eq.trans (ro_rs hc).eq.symm)
      exact ⟨inj hB.x h.x, inj hB.y h.y⟩
    rw [this]
  · intro e
    rw [e] at hs
    obtain ⟨B, e', hB⟩ := relP9_ok' hs
    rw [e', relA_inj hB h]

theorem xfrom_ub (inp : List Byte) (inl : Nat) : X64.Sm9.ecAFromBytes inp inl = .ub ↔ Sm9.ecAFromBytes inp inl = .ub := by
  have hs := s9fromBytes_sim inp inl
  revert hs
  generalize Sm9.ecAFromBytes inp inl = a
  generalize X64.Sm9.ecAFromBytes inp inl = b
  intro hs
  cases hs <;> simp

theorem xfrom_fail (inp : List Byte) (inl : Nat) :
    X64.Sm9.ecAFromBytes inp inl = .fail ↔ Sm9.ecAFromBytes inp inl = .fail := by
  have hs := s9fromBytes_sim inp inl
  revert hs
  generalize Sm9.ecAFromBytes inp inl = a
  generalize X64.Sm9.ecAFromBytes inp inl = b
  intro hs
  cases hs <;> simp

theorem s9ec2To_sim {A : Sm9.A2} {A' : X64.Sm9.A2} (h : RelA (R2 RO) A A') (buf : List Byte) :
    Sm9.ec2ToBytes04 buf A = X64.Sm9.ec2ToBytes04 buf A' := by
  unfold Sm9.ec2ToBytes04 X64.Sm9.ec2ToBytes04
  rw [r2tb h.x, r2tb h.y]

theorem s9ec2Enc_sim {A : Sm9.A2} {A' : X64.Sm9.A2} (h : RelA (R2 RO) A A') (buf : List Byte) :
    Sm9.ec2ToUncompressed buf A = X64.Sm9.ec2ToUncompressed buf A' ∧
    Sm9.ec2ToCompressed A = X64.Sm9.ec2ToCompressed A' ∧ Sm9.ec2ToMix buf A = X64.Sm9.ec2ToMix buf A' := by
  unfold Sm9.ec2ToUncompressed X64.Sm9.ec2ToUncompressed Sm9.ec2ToCompressed X64.Sm9.ec2ToCompressed Sm9.ec2ToMix
    X64.Sm9.ec2ToMix
  rw [s9ec2To_sim h, r2tb h.x, r2tb h.y]
  exact ⟨rfl, rfl, rfl⟩

/-- The results of the decoder of points of the twist in the two builds correspond. -/
inductive RelP92 : Sm2.ParseRes (Sm9.A2 × Nat) → Sm2.ParseRes (X64.Sm9.A2 × Nat) → Prop
  | ub : RelP92 .ub .ub
  | fail : RelP92 .fail .fail
  | ok {A A' n} (h : RelA (R2 RO) A A') : RelP92 (.ok (A, n)) (.ok (A', n))

theorem s9ec2From_sim (inp : List Byte) (inl : Nat) : RelP92 (Sm9.ec2AFromBytes inp inl) (X64.Sm9.ec2AFromBytes inp inl) := by
  unfold Sm9.ec2AFromBytes X64.Sm9.ec2AFromBytes
  split
  · exact .fail
  · cases inp with
    | nil => exact .ub
    | cons b rest =>
      dsimp only
      split
      · split
        · exact .ub
        · refine .ok ⟨r2fb ?_, r2fb ?_⟩
          · rw [List.length_take]; omega
          · rw [List.length_take, List.length_drop]; omega
      · exact .fail

theorem relP92_ok {y : Sm2.ParseRes (X64.Sm9.A2 × Nat)} {A : Sm9.A2} {n : Nat} (h : RelP92 (.ok (A, n)) y) :
    ∃ A', y = .ok (A', n) ∧ RelA (R2 RO) A A' := by
  cases h with
  | ok h => exact ⟨_, rfl, h⟩

end Verif
