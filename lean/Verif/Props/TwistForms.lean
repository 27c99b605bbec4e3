import Verif.Props.Sm9Ec
import Verif.Props.Sm9X64Enc
import Verif.Props.NumberX64
/-!
# C54, C85: the compressed and the mixed form of points of `G2`; C39: small numbers in Montgomery form; C40: more constants

The functions no other property reaches.
-/
namespace Verif.Props
open Verif Verif.Spec

/-- Octet 31 of a string beginning with a coordinate is the last octet of that coordinate. -/
theorem octet31 (c : ZMod sm9p) (r : List Byte) :
    ((sm9Octets c ++ r).getD 31 0 &&& 1 = 0) ↔ c.val % 2 = 0 := by
  have hl := sm9Octets_len c
  have h := lsb_toBE 32 c.val (by decide)
  have e : (sm9Octets c ++ r).getD 31 0 = (sm9Octets c).getLastD 0 := by
    rw [List.getD_eq_getElem?_getD, List.getElem?_append_left (by omega), List.getLastD_eq_getLast?, List.getLast?_eq_getElem?, hl]
  rw [e]
  change Sm2.lsbOf (sm9Octets c) = 0 ↔ _
  unfold sm9Octets
  rw [h]
  split_ifs with h0 <;> simp [h0]

theorem octet63 (a c : ZMod sm9p) (r : List Byte) :
    ((sm9Octets a ++ sm9Octets c ++ r).getD 63 0 &&& 1 = 0) ↔ c.val % 2 = 0 := by
  have hl := sm9Octets_len a
  have e := octet31 c r
  rw [List.getD_eq_getElem?_getD] at e ⊢
  rw [List.append_assoc, List.getElem?_append_right (by omega), hl]
  exact e

/-- **C54** the compressed form of a `G2` point with `x = x1 u + x0`, `y = y1 u + y0`: the tag has the parity of `y1`, then
`x1`, then `x0`. -/
theorem C54_compressed_encode (A : Sm9.A2) (hx : All2 (Reduced sm9p) A.x) (hy : All2 (Reduced sm9p) A.y) :
    Sm9.ec2ToCompressed A = (if (montVal sm9p A.y.c1).val % 2 = 0 then 0x02 else 0x03) ::
      (sm9Octets (montVal sm9p A.x.c1) ++ sm9Octets (montVal sm9p A.x.c0)) := by
  unfold Sm9.ec2ToCompressed Sm9.fp2ToBytes
  rw [s9To_eq hx.1, s9To_eq hx.2, s9To_eq hy.1, s9To_eq hy.2]
  simp only [octet31]

/-- **C54** the mixed form: as the uncompressed one (`x0` is missing and the last 32 octets are not written), the tag having the
parity of `y1`. -/
theorem C54_mix_encode (buf : List Byte) (hb : buf.length = 129) (A : Sm9.A2) (hx : All2 (Reduced sm9p) A.x)
    (hy : All2 (Reduced sm9p) A.y) :
    Sm9.ec2ToMix buf A = (if (montVal sm9p A.y.c1).val % 2 = 0 then 0x06 else 0x07) ::
      (sm9Octets (montVal sm9p A.x.c1) ++ sm9Octets (montVal sm9p A.y.c1) ++ sm9Octets (montVal sm9p A.y.c0) ++ buf.drop 97) := by
  have h := C54_encode buf hb A hx hy
  unfold Sm9.ec2ToUncompressed at h
  rw [List.cons.injEq] at h
  unfold Sm9.ec2ToMix
  simp only
  rw [h.2]
  have e := octet63 (montVal sm9p A.x.c1) (montVal sm9p A.y.c1) (sm9Octets (montVal sm9p A.y.c0) ++ buf.drop 97)
  rw [← List.append_assoc] at e
  simp only [e]

theorem ec2From_tag (b : Byte) (hb : b = 0x06 ∨ b = 0x07) (rest : List Byte) (inl : Nat) :
    Sm9.ec2AFromBytes (b :: rest) inl = Sm9.ec2AFromBytes (0x04 :: rest) inl := by
  unfold Sm9.ec2AFromBytes
  rcases hb with rfl | rfl <;> simp

/-- **C54** encoding in the mixed form and decoding gives what the uncompressed form gives: `x0` is replaced by `y1`. -/
theorem C54_mix_round_trip_result (buf : List Byte) (hb : buf.length = 129) (A : Sm9.A2) (hx : All2 (Reduced sm9p) A.x)
    (hy : All2 (Reduced sm9p) A.y) (inl : Nat) (hl : inl ≠ 0) :
    Sm9.ec2AFromBytes (Sm9.ec2ToMix buf A) inl = .ok (⟨⟨A.y.c1, A.x.c1⟩, A.y⟩, 129) := by
  rw [← C54_round_trip_result buf hb A hx hy inl hl]
  unfold Sm9.ec2ToMix Sm9.ec2ToUncompressed
  simp only
  rw [ec2From_tag]
  split_ifs
  · exact .inl rfl
  · exact .inr rfl

/-- **C54** fails for every compressed encoding: the library writes it, and rejects it whatever the point, the octets that
follow and the length. -/
theorem C54_compressed_violated (A : Sm9.A2) (rest : List Byte) (inl : Nat) :
    Sm9.ec2AFromBytes (Sm9.ec2ToCompressed A ++ rest) inl = .fail := by
  by_cases hl : inl = 0
  · unfold Sm9.ec2AFromBytes; rw [if_pos hl]
  · unfold Sm9.ec2ToCompressed
    rw [List.cons_append]
    refine (C54_decode_decision _ _ inl hl).2 ?_
    split_ifs <;> decide

/-- **C54** a point and its opposite have the same compressed encoding exactly if `y1 = 0`. -/
theorem C54_compressed_opposite (A B : Sm9.A2) (hx : All2 (Reduced sm9p) A.x) (hy : All2 (Reduced sm9p) A.y)
    (hy' : All2 (Reduced sm9p) B.y) (h0 : B.x = A.x) (h1 : montVal sm9p B.y.c1 = -montVal sm9p A.y.c1) :
    Sm9.ec2ToCompressed A = Sm9.ec2ToCompressed B ↔ montVal sm9p A.y.c1 = 0 := by
  rw [C54_compressed_encode A hx hy, C54_compressed_encode B (h0 ▸ hx) hy', h0, h1]
  constructor
  · intro h
    by_contra hne
    have hp := neg_parity sm9p (by decide +kernel) hne
    rw [List.cons.injEq] at h
    have h := h.1
    split_ifs at h with h2 h3 h3
    · exact hp (h3.trans h2.symm)
    · exact absurd h (by decide)
    · exact absurd h (by decide)
    · omega
  · intro h
    rw [h, neg_zero]

/-- The generator: `y1` is even. -/
example : Sm9.ec2ToCompressed Sm9.p2 = 0x02 :: (toBE 32 sm9g2x1 ++ toBE 32 sm9g2x0) := by decide +kernel
example (buf : List Byte) (hb : buf.length = 129) : ∃ R, Sm9.ec2AFromBytes (Sm9.ec2ToMix buf Sm9.p2) 129 = .ok (R, 129) := by
  obtain ⟨K, _, _, w, hw⟩ : ∃ (K : Type) (_ : Field K) (_ : Algebra (ZMod sm9p) K) (w : K), w ^ 12 = -2 := sm9_field_exists
  obtain ⟨hx, hy, -⟩ := p2_ok hw
  exact ⟨_, C54_mix_round_trip_result buf hb Sm9.p2 hx hy 129 (by decide)⟩

/-- **C39** a word put into Montgomery form is reduced and stands for that number. -/
theorem C39_set_word {ctx : Mont256CTX} {p : Nat} (h : IsMontCtx ctx p) (w : W32) :
    Reduced p (mont256SetWord ctx w) ∧ montVal p (mont256SetWord ctx w) = (w.toNat : ZMod p) := by
  have hpe := h.P.2
  subst hpe
  have hl : (u256SetWord w).length = 8 := by simp [u256SetWord]
  have hv : val (u256SetWord w) = w.toNat := (C31_word_ops (List.replicate 8 0) w (by simp)).2.2.2.2.2.2
  have e := montVal_toMont h.ok hl
  rw [hv] at e
  exact ⟨canon_toMont h.ok hl, e⟩

example : mont256ToBytes Sm2.fpCtx (mont256SetWord Sm2.fpCtx 0xFFFFFFFF) = toBE 32 0xFFFFFFFF := by decide +kernel

/-- **C40** the identity used when the caller gives none is the one of GM/T 0009, `1234567812345678` in ASCII. -/
theorem C40_sm2_default_id : Sm2.sm2DefaultId.map (fun b => Char.ofNat b.toNat) = "1234567812345678".toList := by decide

/-- **C40** the stored `n - 3` of SM9. -/
theorem C40_sm9_n_sub3 : beVal Sm9.nSub3Data + 3 = sm9n := by decide +kernel

end Verif.Props

namespace Verif.X64.Props
open Verif Verif.Spec

/-- **C39 (64-bit limbs)** a word put into Montgomery form is reduced and stands for that number. -/
theorem C39_x64_set_word {ctx : Mont256CTX} {p : Nat} (h : X64.IsMontCtx ctx p) (w : W64) :
    X64.Reduced p (mont256SetWord ctx w) ∧ montVal p (mont256SetWord ctx w) = (w.toNat : ZMod p) := by
  have hpe := h.P.2
  subst hpe
  have hl : (u256SetWord w).length = 4 := by simp [u256SetWord]
  have hv : val (u256SetWord w) = w.toNat := (C31_x64_word_ops (List.replicate 4 0) w (by simp)).2.2.2.2.2.2
  have e := montVal_toMont h.ok hl
  rw [hv] at e
  exact ⟨canon_toMont h.ok hl, e⟩

/-- **C85** the compressed and the mixed form of a `G2` point in this build: the same octets, the same results, and every
compressed encoding is rejected. -/
theorem C85_x64_twist_forms (buf : List Byte) (hb : buf.length = 129) (A : X64.Sm9.A2)
    (hx : All2 (X64.Reduced sm9p) A.x) (hy : All2 (X64.Reduced sm9p) A.y) (inl : Nat) :
    X64.Sm9.ec2ToCompressed A = (if (montVal sm9p A.y.c1).val % 2 = 0 then 0x02 else 0x03) ::
      (sm9Octets (montVal sm9p A.x.c1) ++ sm9Octets (montVal sm9p A.x.c0)) ∧
    X64.Sm9.ec2ToMix buf A = (if (montVal sm9p A.y.c1).val % 2 = 0 then 0x06 else 0x07) ::
      (sm9Octets (montVal sm9p A.x.c1) ++ sm9Octets (montVal sm9p A.y.c1) ++ sm9Octets (montVal sm9p A.y.c0) ++ buf.drop 97) ∧
    (inl ≠ 0 → X64.Sm9.ec2AFromBytes (X64.Sm9.ec2ToMix buf A) inl = .ok (⟨⟨A.y.c1, A.x.c1⟩, A.y⟩, 129)) ∧
    ∀ rest, X64.Sm9.ec2AFromBytes (X64.Sm9.ec2ToCompressed A ++ rest) inl = .fail := by
  have hs := loA2_sim hx hy
  refine ⟨?_, ?_, fun hl => ?_, fun rest => ?_⟩
  · have := Verif.Props.C54_compressed_encode _ (r2_l hs.x) (r2_l hs.y)
    rw [(s9ec2Enc_sim hs buf).2.1, hs.x.c1.eq, hs.x.c0.eq, hs.y.c1.eq] at this
    exact this
  · have := Verif.Props.C54_mix_encode buf hb _ (r2_l hs.x) (r2_l hs.y)
    rw [(s9ec2Enc_sim hs buf).2.2, hs.x.c1.eq, hs.y.c1.eq, hs.y.c0.eq] at this
    exact this
  · have := Verif.Props.C54_mix_round_trip_result buf hb _ (r2_l hs.x) (r2_l hs.y) inl hl
    rw [(s9ec2Enc_sim hs buf).2.2] at this
    have hp := s9ec2From_sim (X64.Sm9.ec2ToMix buf A) inl
    rw [this] at hp
    obtain ⟨B, b1, b2⟩ := relP92_ok hp
    rw [b1, relA2_inj b2 (C := ⟨⟨A.y.c1, A.x.c1⟩, A.y⟩) (relA_mk (r2_mk hs.y.c1 hs.x.c1) hs.y)]
  · refine (C85_x64_twist_decode _ inl).1.2 ?_
    by_cases hl : inl = 0
    · exact .inl hl
    · refine .inr ⟨_, _, rfl, ?_⟩
      split_ifs <;> decide

example : X64.Sm9.ec2ToCompressed X64.Sm9.p2 = 0x02 :: (toBE 32 sm9g2x1 ++ toBE 32 sm9g2x0) := by decide +kernel

end Verif.X64.Props
