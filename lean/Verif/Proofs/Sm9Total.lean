import Verif.Proofs.Sm9Unique
import Verif.Proofs.Sm9Keys
import Verif.Proofs.Sm9X64Verify
/-! # When SM9 key issue and signing throw -/
set_option linter.unusedSectionVars false
namespace Verif
open Spec

variable {S : Type} {C : HashClass S} {H : List Byte → List Byte}

section
variable {K : Type} [Field K] [Algebra (ZMod sm9p) K] [DecidableEq K] {w : K} (hw : w ^ 12 = -2)
include hw

theorem s9_kz {k : Nat} (k1 : 1 ≤ k) (k2 : k < sm9n) : (k : ZMod sm9n) ≠ 0 := by
  rw [Ne, ZMod.natCast_eq_zero_iff]
  exact fun h => absurd (Nat.le_of_dvd (by omega) h) (by omega)

/-- Key issue: an exception exactly when the identity is too long or `h1 + ks = 0`; otherwise a point of the curve, or the
coordinates (0, 0). -/
theorem genSignPriv_total (hC : IsHash C H) {mk : Sm9.MPriv} (hl : mk.ks.length = 32) (k1 : 1 ≤ beVal mk.ks)
    (k2 : beVal mk.ks < sm9n) (id : List Byte) (hid : Byte) :
    (¬ (8 * (id.length + 6) < 2 ^ 64 ∧ sm9H H C.DS 1 (id ++ [hid]) + beVal mk.ks ≠ sm9n) ∧
      Sm9.genSignPriv C mk id hid = .throw) ∨
    ((8 * (id.length + 6) < 2 ^ 64 ∧ sm9H H C.DS 1 (id ++ [hid]) + beVal mk.ks ≠ sm9n) ∧
      ∃ D, Sm9.genSignPriv C mk id hid = .ok ⟨D, mk.pub⟩ ∧ ((∃ Q, Sm9IsAffine D Q) ∨ ZeroA D)) := by
  by_cases hid1 : 8 * (id.length + 6) < 2 ^ 64
  · obtain ⟨r1, r2⟩ := sm9H_range (H := H) C.DS 1 (id ++ [hid])
    obtain ⟨g1, g2⟩ := genSignPriv_ok hw hC (mk := mk) hl id hid hid1
    have hz : ((sm9H H C.DS 1 (id ++ [hid]) : ZMod sm9n) + (beVal mk.ks : ZMod sm9n) = 0) ↔
        sm9H H C.DS 1 (id ++ [hid]) + beVal mk.ks = sm9n := by
      rw [← Nat.cast_add, ZMod.natCast_eq_zero_iff]
      constructor
      · rintro ⟨c, hc⟩
        have c0 : c ≠ 0 := by rintro rfl; omega
        have c2 : c < 2 := by
          by_contra h
          have : sm9n * 2 ≤ sm9n * c := Nat.mul_le_mul_left _ (by omega)
          omega
        have : c = 1 := by omega
        subst this
        omega
      · intro h; rw [h]
    by_cases e0 : sm9H H C.DS 1 (id ++ [hid]) + beVal mk.ks = sm9n
    · exact Or.inl ⟨fun h => h.2 e0, g1 (hz.mpr e0)⟩
    · refine Or.inr ⟨⟨hid1, e0⟩, ?_⟩
      have nz := fun h => e0 (hz.mp h)
      by_cases e : ((beVal mk.ks : ZMod sm9n) *
          ((sm9H H C.DS 1 (id ++ [hid]) : ZMod sm9n) + (beVal mk.ks : ZMod sm9n))⁻¹).val = sm9n - 2
      · obtain ⟨D, d1, d2, d3, d4, d5⟩ := genSignPriv_weak hC hl id hid hid1 nz e
        exact ⟨D, d1, Or.inr ⟨d4, d5, d2, d3⟩⟩
      · obtain ⟨D, d1, d2⟩ := g2 nz (s9_kz hw k1 k2) e
        exact ⟨D, d1, Or.inl ⟨_, d2⟩⟩
  · exact Or.inl ⟨fun h => hid1 h.1, genSignPriv_long hC id hid hid1⟩

/-- A pass of the signing loop on a message that the hash takes does not throw. -/
theorem s9signStep_short (hC : IsHash C H) {key : Sm9.SPriv} (hk : (∃ Q, Sm9IsAffine key.priv Q) ∨ ZeroA key.priv)
    (he : All12 (Reduced sm9p) key.pub.e) (msg rnd : List Byte) (hr : rnd.length = 32) (pc : Sm2.PC)
    (hm : 8 * (msg.length + 389) < 2 ^ 64) : ∃ o, Sm9.signStep C key msg rnd pc = .ok o := by
  rcases hk with ⟨Q, hQ⟩ | ⟨z1, z2, z3, z4⟩
  · obtain ⟨W, -, -, h⟩ := s9signStep_ok hw hC hQ he msg rnd hr pc hm
    dsimp only at h
    obtain ⟨h1, h2, h3⟩ := h
    by_cases e : beVal rnd % (sm9n - 1) + 1 = sm9H H C.DS 2 (msg ++ Sm9.fp12ToBytes W)
    · exact ⟨_, h1 e⟩
    · by_cases e2 : (((beVal rnd % (sm9n - 1) + 1 : Nat) : ZMod sm9n) -
          ((sm9H H C.DS 2 (msg ++ Sm9.fp12ToBytes W) : Nat) : ZMod sm9n)).val = sm9n - 2
      · obtain ⟨A, -, -, -, -, a⟩ := h3 e e2
        exact ⟨_, a⟩
      · obtain ⟨-, A, -, a⟩ := h2 e e2
        exact ⟨_, a⟩
  · rcases s9signStep_zero hw hC z3 z4 z1 z2 he msg rnd hr pc with h | h | ⟨_, _, _, _, _, _, _, h⟩
    · exfalso
      have hln := s9nonce_len hr
      obtain ⟨n1, n2⟩ := s9nonce_range hr
      have htk : (Sm9.nonce rnd).take 32 = Sm9.nonce rnd := List.take_of_length_le (by omega)
      obtain ⟨W, w1, w2, -⟩ := Props.C61_fp12_pow_partial hw key.pub.e he (Sm9.nonce rnd) (by rw [htk]; omega)
      have hh := hn_ok hC msg (Sm9.fp12ToBytes W) 2
      rw [(Props.C51_bytes W w2).1, if_pos (by omega)] at hh
      unfold Sm9.signStep at h
      dsimp only at h
      rw [w1, ofOption_some, o_bind, hh, o_bind] at h
      split at h
      · cases h
      · cases e1 : Sm9.jMulA (mont256ToBytes Sm9.fnCtx (mont256Sub Sm9.fnCtx (mont256FromBytes Sm9.fnCtx (Sm9.nonce rnd))
            (mont256FromBytes Sm9.fnCtx (toBE 32 (sm9H H C.DS 2 (msg ++ Sm9.fp12ToBytes W)))))) key.priv with
        | none => rw [e1] at h; cases h
        | some R =>
          rw [e1, ofOption_some, o_bind] at h
          cases e2 : Sm9.jToA R with
          | none => rw [e2] at h; cases h
          | some A => rw [e2, ofOption_some, o_bind] at h; cases h
    · exact ⟨_, h⟩
    · exact ⟨_, h⟩

/-- Signing throws exactly on a message that is too long for the hash, and never behaves undefinedly. -/
theorem s9sign_total (hC : IsHash C H) {key : Sm9.SPriv} (hk : (∃ Q, Sm9IsAffine key.priv Q) ∨ ZeroA key.priv)
    (he : All12 (Reduced sm9p) key.pub.e) (msg : List Byte) (pc : Sm2.PC) (rnds : List (List Byte))
    (hr : ∀ r ∈ rnds, r.length = 32) :
    (8 * (msg.length + 389) < 2 ^ 64 → ∃ o, Sm9.sign C key msg rnds pc = .ok o) ∧
    (¬ 8 * (msg.length + 389) < 2 ^ 64 → rnds ≠ [] → Sm9.sign C key msg rnds pc = .throw) := by
  unfold Sm9.sign
  constructor
  · intro hm
    induction rnds with
    | nil => exact ⟨_, rfl⟩
    | cons q rest ih =>
      obtain ⟨o, ho⟩ := s9signStep_short hw hC hk he msg q (hr q List.mem_cons_self) pc hm
      unfold Sm9.signLoop
      rw [ho, o_bind]
      cases o with
      | none => exact ih fun r h => hr r (List.mem_cons_of_mem _ h)
      | some b => exact ⟨_, rfl⟩
  · intro hm hne
    obtain ⟨q, rest, rfl⟩ := List.exists_cons_of_ne_nil hne
    unfold Sm9.signLoop
    rw [s9signStep_long hw hC he msg q (hr q List.mem_cons_self) pc hm, t_bind]

theorem setPriv_ks {key : List Byte} {mk : Sm9.MPriv} (hl : key.length = 32) (h : Sm9.setPriv key = .ok mk) :
    mk.ks = key ∧ 1 ≤ beVal key ∧ beVal key < sm9n := by
  have h0 := s9setPriv_sim hw hl
  rw [h] at h0
  obtain ⟨mk', e, h1, -⟩ := relOut_ok' h0
  obtain ⟨a, b, -⟩ := xsetPriv_inv hw hl e
  exact ⟨h1, a, b⟩

end

theorem SignMem.issue_total (hC : IsHash C H) {key : List Byte} (hl : key.length = 32) {mk : Sm9.MPriv}
    (hmk : Sm9.setPriv key = .ok mk) (id : List Byte) (hid : Byte) : mk.ks = key ∧
    ((¬ (8 * (id.length + 6) < 2 ^ 64 ∧ sm9H H C.DS 1 (id ++ [hid]) + beVal key ≠ sm9n) ∧
      Sm9.genSignPriv C mk id hid = .throw) ∨
    ((8 * (id.length + 6) < 2 ^ 64 ∧ sm9H H C.DS 1 (id ++ [hid]) + beVal key ≠ sm9n) ∧
      ∃ D, Sm9.genSignPriv C mk id hid = .ok ⟨D, mk.pub⟩)) := by
  obtain ⟨K, _, _, w, hw⟩ := sm9_field_exists
  classical
  obtain ⟨a, b, c⟩ := setPriv_ks hw hl hmk
  refine ⟨a, ?_⟩
  subst a
  rcases genSignPriv_total hw hC hl b c id hid with h | ⟨h1, D, h2, -⟩
  · exact Or.inl h
  · exact Or.inr ⟨h1, D, h2⟩

theorem SignMem.issued_total (hC : IsHash C H) {key : List Byte} (hl : key.length = 32) {mk : Sm9.MPriv}
    (hmk : Sm9.setPriv key = .ok mk) {id : List Byte} {hid : Byte} {sk : Sm9.SPriv}
    (hsk : Sm9.genSignPriv C mk id hid = .ok sk) (msg : List Byte) (pc : Sm2.PC) (rnds : List (List Byte))
    (hr : ∀ r ∈ rnds, r.length = 32) :
    (8 * (msg.length + 389) < 2 ^ 64 → ∃ o, Sm9.sign C sk msg rnds pc = .ok o) ∧
    (¬ 8 * (msg.length + 389) < 2 ^ 64 → rnds ≠ [] → Sm9.sign C sk msg rnds pc = .throw) := by
  obtain ⟨K, _, _, w, hw⟩ := sm9_field_exists
  classical
  obtain ⟨a, b, c⟩ := setPriv_ks hw hl hmk
  obtain ⟨-, -, he⟩ := setPriv_red hw hl hmk
  subst a
  rcases genSignPriv_total hw hC hl b c id hid with ⟨-, h⟩ | ⟨h1, D, h2, h3⟩
  · rw [h] at hsk; cases hsk
  · rw [h2] at hsk
    obtain rfl := Outcome.ok.inj hsk
    exact s9sign_total hw hC h3 he msg pc rnds hr

/-! ## The build with 64-bit limbs -/

theorem X64.SignMem.issue_total (hC : IsHash C H) {key : List Byte} (hl : key.length = 32) {mk : X64.Sm9.MPriv}
    (hmk : X64.Sm9.setPriv key = .ok mk) (id : List Byte) (hid : Byte) : mk.ks = key ∧
    ((¬ (8 * (id.length + 6) < 2 ^ 64 ∧ sm9H H C.DS 1 (id ++ [hid]) + beVal key ≠ sm9n) ∧
      X64.Sm9.genSignPriv C mk id hid = .throw) ∨
    ((8 * (id.length + 6) < 2 ^ 64 ∧ sm9H H C.DS 1 (id ++ [hid]) + beVal key ≠ sm9n) ∧
      ∃ D, X64.Sm9.genSignPriv C mk id hid = .ok ⟨D, mk.pub⟩)) := by
  obtain ⟨K, _, _, w, hw⟩ := sm9_field_exists
  classical
  obtain ⟨b, c, a, -⟩ := xsetPriv_inv hw hl hmk
  refine ⟨a, ?_⟩
  have sg := genSignPriv_sim0 hC (mk := ⟨key, loPub mk.pub⟩) (mk' := mk) a.symm hl id hid
  rcases genSignPriv_total hw hC (mk := ⟨key, loPub mk.pub⟩) hl b c id hid with ⟨h1, h2⟩ | ⟨h1, D, h2, -⟩
  · rw [h2] at sg
    refine Or.inl ⟨h1, ?_⟩
    generalize X64.Sm9.genSignPriv C mk id hid = y at sg
    cases sg
    rfl
  · rw [h2] at sg
    obtain ⟨sk, g1, -, -, g2⟩ := relOut_ok' sg
    refine Or.inr ⟨h1, sk.priv, ?_⟩
    rw [g1, ← g2]

theorem X64.SignMem.issued_total (hC : IsHash C H) {key : List Byte} (hl : key.length = 32) {mk : X64.Sm9.MPriv}
    (hmk : X64.Sm9.setPriv key = .ok mk) {id : List Byte} {hid : Byte} {sk : X64.Sm9.SPriv}
    (hsk : X64.Sm9.genSignPriv C mk id hid = .ok sk) (msg : List Byte) (pc : Sm2.PC) (rnds : List (List Byte))
    (hr : ∀ r ∈ rnds, r.length = 32) :
    (8 * (msg.length + 389) < 2 ^ 64 → ∃ o, X64.Sm9.sign C sk msg rnds pc = .ok o) ∧
    (¬ 8 * (msg.length + 389) < 2 ^ 64 → rnds ≠ [] → X64.Sm9.sign C sk msg rnds pc = .throw) := by
  obtain ⟨K, _, _, w, hw⟩ := sm9_field_exists
  classical
  obtain ⟨b, c, a, qx, qy, he⟩ := xsetPriv_inv hw hl hmk
  have sp := loPub_sim qx qy he
  have sg := genSignPriv_sim hC (mk := ⟨key, loPub mk.pub⟩) (mk' := mk) a.symm hl sp id hid
  rw [hsk] at sg
  obtain ⟨sk0, g1, g2⟩ := relOut_ok sg
  rw [← s9sign_sim hC g2.priv g2.pub.e msg pc hr]
  rcases genSignPriv_total hw hC (mk := ⟨key, loPub mk.pub⟩) hl b c id hid with ⟨-, h⟩ | ⟨h1, D, h2, h3⟩
  · rw [h] at g1; cases g1
  · rw [h2] at g1
    obtain rfl := Outcome.ok.inj g1
    exact s9sign_total hw hC h3 (r12_l g2.pub.e) msg pc rnds hr

end Verif
