import Verif.Proofs.Sm2Crypt
/-!
# C44-C50, C58: SM2 keys, signatures, encryption

The SM2 classes are templates over the hash; the theorems hold for every hash class `C` that computes a hash function
`H` (`IsHash`, Spec/Sm2Scheme.lean), in particular for SM3 (`SM2_hash_instance`).  `sm2G` is the base point, of prime
order `sm2n` (C40).  The list `rnds` is the sequence of 32-octet answers of the generator.
-/
namespace Verif.Props
open Verif Spec WeierstrassCurve WeierstrassCurve.Affine

/-- The library's SM3 class is such a hash class, with digest length 32. -/
theorem SM2_hash_instance : IsHash Sm3.cls Spec.SM3.hash ∧ Sm3.cls.DS = 32 := ⟨sm3_isHash, rfl⟩

/-! ## Keys -/

/-- **C58** `set_priv` accepts exactly the 32-octet strings with value in `[1, n-2]`; `get_priv` then returns the same
octets, and the public key is that multiple of the base point. -/
theorem C58_set_priv (key : List Byte) (hl : key.length = 32) :
    (1 ≤ beVal key ∧ beVal key ≤ sm2n - 2 →
      ∃ K, Sm2.setPriv key = .ok K ∧ Sm2.getPriv K = key ∧ Sm2PrivIs sm2G K (beVal key)) ∧
    (¬ (1 ≤ beVal key ∧ beVal key ≤ sm2n - 2) → Sm2.setPriv key = .throw) := by
  obtain ⟨l, v⟩ := u256FromBytes_spec key hl
  obtain ⟨l1, v1⟩ := bnModNSub1_ok l
  have hz := u256EqualZero_iff (u256FromBytes key)
  have hc := (C31_cmp _ _ l l1).1
  rw [v] at hz v1
  rw [v, v1] at hc
  have hn : 2 < sm2n := by decide +kernel
  unfold Sm2.setPriv
  simp only
  constructor
  · rintro ⟨h1, h2⟩
    have hm : beVal key % (sm2n - 1) = beVal key := Nat.mod_eq_of_lt (by omega)
    rw [if_neg]
    · obtain ⟨K, k1, k2, k3⟩ := withPub_ok hl h1 (by omega)
      refine ⟨K, k1, k2, ?_, h1, by omega, k3⟩
      rw [k2, ← hl, toBE_beVal]
    · rw [hz, hc, hm]
      simp
      omega
  · intro h
    rw [if_pos]
    rw [hz, hc]
    by_cases h0 : beVal key = 0
    · exact Or.inl h0
    · right
      have : beVal key % (sm2n - 1) < sm2n - 1 := Nat.mod_lt _ (by omega)
      split_ifs <;> omega

/-- Octets of the value 5. -/
example : ∃ key : List Byte, key.length = 32 ∧ 1 ≤ beVal key ∧ beVal key ≤ sm2n - 2 := ⟨toBE 32 5, by decide +kernel⟩

/-- **C58** exporting a public key and setting it again gives the same public-key object. -/
theorem C58_pub_round_trip (K : Sm2.Priv) (d : List Byte) (h : Sm2.withPub d = .ok K) (hd : d.length = 32)
    (h1 : 1 ≤ beVal d) (h2 : beVal d < sm2n) :
    Sm2.setPub (Sm2.getPub K.pub).1 (Sm2.getPub K.pub).2 = .ok K.pub := by
  obtain ⟨R, a, r1, a1, a2⟩ := mulG_affine hd h1 h2
  unfold Sm2.withPub at h
  rw [r1, ofOption_some, o_bind, a1, ofOption_some, o_bind, Outcome.ok.injEq] at h
  subst h
  unfold Sm2.setPub Sm2.getPub
  simp only
  rw [fpFrom_to a2.1, fpFrom_to a2.2.1, (ecCheck_iff a2.1 a2.2.1).mpr ⟨_, a2⟩]
  rfl

/-- **C45/C58** `set_pub` accepts exactly the 32-octet pairs whose values modulo `p` are the coordinates of a point of
the curve, and holds that point. -/
theorem C58_set_pub (x y : List Byte) (hx : x.length = 32) (hy : y.length = 32) :
    (∀ pub, Sm2.setPub x y = .ok pub → pub.x = x ∧ pub.y = y ∧ ∃ Q, Sm2PubIs pub Q) ∧
    (sm2Curve.Nonsingular (beVal x : ZMod sm2p) (beVal y : ZMod sm2p) → ∃ pub, Sm2.setPub x y = .ok pub) ∧
    (¬ sm2Curve.Nonsingular (beVal x : ZMod sm2p) (beVal y : ZMod sm2p) → Sm2.setPub x y = .throw) := by
  obtain ⟨x1, x2⟩ := fpFromBytes_ok hx
  obtain ⟨y1, y2⟩ := fpFromBytes_ok hy
  have hc := ecCheck_iff (P := ⟨Sm2.fpFromBytes x, Sm2.fpFromBytes y⟩) x1 y1
  unfold Sm2.setPub
  generalize Sm2.fpFromBytes x = X at *
  generalize Sm2.fpFromBytes y = Y at *
  simp only
  have hiff : Sm2.ecCheck ⟨X, Y⟩ = true ↔ sm2Curve.Nonsingular (beVal x : ZMod sm2p) (beVal y : ZMod sm2p) := by
    rw [hc, ← x2, ← y2]
    exact ⟨fun ⟨Q, q1, q2, q3, q4⟩ => q3, fun h => ⟨.some _ _ h, x1, y1, h, rfl⟩⟩
  by_cases h : Sm2.ecCheck ⟨X, Y⟩ = true
  · rw [if_neg (by simp [h])]
    refine ⟨?_, fun _ => ⟨_, rfl⟩, fun h' => absurd (hiff.mp h) h'⟩
    intro pub e
    rw [Outcome.ok.injEq] at e
    subst e
    refine ⟨rfl, rfl, .some _ _ (hiff.mp h), hx, hy, ⟨x1, y1, ?_⟩, hiff.mp h, rfl⟩
    exact some_congr rfl x2.symm y2.symm
  · rw [if_pos (by simp [h])]
    exact ⟨fun pub e => (by cases e), fun h' => absurd (hiff.mpr h') h, fun _ => rfl⟩

/-- **C47** `gen_priv` makes the key `(rnd mod (n-1)) + 1` from the 32 octets it draws. -/
theorem C47_gen_priv (rnd : List Byte) (hr : rnd.length = 32) :
    ∃ K, Sm2.genPriv rnd = .ok K ∧ Sm2PrivIs sm2G K (beVal rnd % (sm2n - 1) + 1) := by
  obtain ⟨k1, k2⟩ := nonce_range hr
  obtain ⟨K, e1, e2, e3⟩ := withPub_ok (nonce_len hr) k1 k2
  rw [nonce_val hr] at k1 k2 e3
  exact ⟨K, e1, by rw [e2, nonce_ok hr], k1, k2, e3⟩

/-- **C47 (part)** unless the draw is `n - 2` modulo `n - 1`, the generated key is in `[1, n-2]` and `set_priv`
accepts the exported key, giving the same key object. -/
theorem C47_gen_priv_valid_partial (rnd : List Byte) (hr : rnd.length = 32) (hne : beVal rnd % (sm2n - 1) ≠ sm2n - 2) :
    ∃ K, Sm2.genPriv rnd = .ok K ∧ 1 ≤ beVal (Sm2.getPriv K) ∧ beVal (Sm2.getPriv K) ≤ sm2n - 2 ∧
      Sm2.setPriv (Sm2.getPriv K) = .ok K := by
  have hn : 2 < sm2n := by decide +kernel
  have hm : beVal rnd % (sm2n - 1) < sm2n - 1 := Nat.mod_lt _ (by omega)
  obtain ⟨k1, k2⟩ := nonce_range hr
  obtain ⟨K, e1, e2, e3⟩ := withPub_ok (nonce_len hr) k1 k2
  have hv := nonce_val hr
  have hg : Sm2.genPriv rnd = .ok K := e1
  obtain ⟨K', s1, s2, -⟩ := (C58_set_priv (Sm2.nonce rnd) (nonce_len hr)).1 ⟨k1, by omega⟩
  refine ⟨K, hg, ?_⟩
  unfold Sm2.getPriv
  rw [e2]
  refine ⟨k1, by omega, ?_⟩
  have : Sm2.setPriv (Sm2.nonce rnd) = Sm2.withPub (Sm2.nonce rnd) := by
    have h := s1
    unfold Sm2.setPriv at h ⊢
    simp only at h ⊢
    split_ifs at h ⊢ with hc
    rfl
  rw [this, e1]

/-- A draw of value 7 meets the hypothesis. -/
example : beVal (toBE 32 7) % (sm2n - 1) ≠ sm2n - 2 := by decide +kernel

/-- **C47 is false of the code**: the draw `n - 2` gives the private key `n - 1`, which `set_priv` rejects, and with
which `sign` never returns a signature, whatever the message and however often the generator is asked. -/
theorem C47_gen_priv_can_be_invalid :
    ∃ K, Sm2.genPriv (toBE 32 (sm2n - 2)) = .ok K ∧ beVal (Sm2.getPriv K) = sm2n - 1 ∧
      Sm2.setPriv (Sm2.getPriv K) = .throw ∧
      ∀ (S : Type) (C : HashClass S) (msg id : List Byte) (rnds : List (List Byte)) (sig : List Byte),
        (∀ r ∈ rnds, r.length = 32) → Sm2.sign C K msg rnds id ≠ .ok (some sig) := by
  have hn : 2 < sm2n := by decide +kernel
  have hb : sm2n < 256 ^ 32 := by decide +kernel
  have hl : (toBE 32 (sm2n - 2)).length = 32 := toBE_len _ _
  obtain ⟨k1, k2⟩ := nonce_range hl
  obtain ⟨K, e1, e2, e3⟩ := withPub_ok (nonce_len hl) k1 k2
  have hv := nonce_val hl
  rw [beVal_toBE, Nat.mod_eq_of_lt (by omega), Nat.mod_eq_of_lt (by omega)] at hv
  have hv' : beVal (Sm2.nonce (toBE 32 (sm2n - 2))) = sm2n - 1 := by rw [hv]; omega
  refine ⟨K, e1, by unfold Sm2.getPriv; rw [e2, hv'], ?_, ?_⟩
  · unfold Sm2.getPriv
    rw [e2]
    exact (C58_set_priv _ (nonce_len hl)).2 (by rw [hv']; omega)
  · intro S C msg id rnds sig hr
    have hd : (beVal K.priv : ZMod sm2n) = -1 := by
      rw [e2, hv', Nat.cast_sub (by omega)]
      simp
    have hloop : ∀ Z rnds, (∀ r ∈ rnds, r.length = 32) → Sm2.signLoop K.priv Z rnds = .ok none := by
      intro Z rnds
      induction rnds with
      | nil => intro _; rfl
      | cons r rest ih =>
        intro h
        unfold Sm2.signLoop
        obtain ⟨x, y, hxy, -, hs⟩ := signStep_ok (d := K.priv) (Z := Z) (rnd := r)
          (by rw [e2]; exact nonce_len hl) (h r (by simp))
        rw [hs]
        simp only
        rw [if_pos, o_bind]
        · exact ih (fun r' hr' => h r' (by simp [hr']))
        · rw [hd]; simp
    unfold Sm2.sign
    cases Sm2.computeZ C id K.pub.x K.pub.y with
    | ub => exact fun h => by cases h
    | throw => exact fun h => by cases h
    | ok Z =>
      rw [o_bind]
      cases C.stream [Z.take C.DS, msg] [] with
      | ub => exact fun h => by cases h
      | throw => exact fun h => by cases h
      | ok Z =>
        rw [o_bind, hloop _ _ hr]
        exact fun h => by cases h

/-! ## Signatures -/

section
variable {S : Type} {C : HashClass S} {H : List Byte → List Byte}

/-- One pass of the signing loop: with nonce `k = rnd mod (n-1) + 1` it returns `r ‖ s` for the standard's signature
`(r, s)`, or asks for another nonce when the standard says so. -/
theorem C44_sign_step (d : Nat) (h1 : 1 ≤ d) (h2 : d ≤ sm2n - 2) (Z rnd : List Byte) (hr : rnd.length = 32) :
    (∀ sig, Sm2.signStep (toBE 32 d) Z rnd = .ok (some sig) ↔
      ∃ r s, IsSm2Sig sm2G d (beVal Z) (beVal rnd % (sm2n - 1) + 1) r s ∧ sig = toBE 32 r ++ toBE 32 s) ∧
    (Sm2.signStep (toBE 32 d) Z rnd = .ok none ↔
      ¬ ∃ r s, IsSm2Sig sm2G d (beVal Z) (beVal rnd % (sm2n - 1) + 1) r s) := by
  have hn : 2 < sm2n := by decide +kernel
  have : Fact sm2n.Prime := ⟨sm2n_prime⟩
  have hb : sm2n < 256 ^ 32 := by decide +kernel
  have hdv : beVal (toBE 32 d) = d := by rw [beVal_toBE, Nat.mod_eq_of_lt (by omega)]
  obtain ⟨x, y, hxy, ek, hs⟩ := signStep_ok (d := toBE 32 d) (Z := Z) (rnd := rnd) (toBE_len _ _) hr
  rw [hdv] at hs
  have hm : beVal rnd % (sm2n - 1) < sm2n - 1 := Nat.mod_lt _ (by omega)
  generalize hk : beVal rnd % (sm2n - 1) + 1 = k at *
  have hk1 : 1 ≤ k := by omega
  have hk2 : k < sm2n := by omega
  simp only at hs
  have hd1 : (1 + (d : ZMod sm2n)) ≠ 0 := by
    rw [show (1 : ZMod sm2n) + (d : ZMod sm2n) = ((1 + d : Nat) : ZMod sm2n) by push_cast; rfl, Ne,
      ZMod.natCast_eq_zero_iff]
    intro h
    have := Nat.le_of_dvd (by omega) h
    omega
  -- the standard's signature in terms of residues
  have key : ∀ r s, IsSm2Sig sm2G d (beVal Z) k r s ↔ r < sm2n ∧ s < sm2n ∧
      (r : ZMod sm2n) = (beVal Z : ZMod sm2n) + (x.val : ZMod sm2n) ∧ (r : ZMod sm2n) ≠ 0 ∧
      (r : ZMod sm2n) + (k : ZMod sm2n) ≠ 0 ∧ (s : ZMod sm2n) ≠ 0 ∧
      (s : ZMod sm2n) = (1 + (d : ZMod sm2n))⁻¹ * ((k : ZMod sm2n) - (r : ZMod sm2n) * (d : ZMod sm2n)) := by
    intro r s
    have hz : ∀ a : Nat, a < sm2n → ((a : ZMod sm2n) ≠ 0 ↔ a ≠ 0) := fun a ha => by
      rw [Ne, ZMod.natCast_eq_zero_iff]
      exact ⟨fun h h0 => h (by rw [h0]; exact dvd_zero _), fun h h0 => h (Nat.eq_zero_of_dvd_of_lt h0 ha)⟩
    have hrk : r < sm2n → ((r : ZMod sm2n) + (k : ZMod sm2n) ≠ 0 ↔ r + k ≠ sm2n) := fun ha => by
      rw [← Nat.cast_add, Ne, ZMod.natCast_eq_zero_iff]
      constructor
      · rintro h h0; exact h (by rw [h0])
      · rintro h ⟨c, hc⟩
        have hc1 : c ≠ 0 := by rintro rfl; omega
        have hc2 : c < 2 := by
          by_contra hcon
          have : sm2n * 2 ≤ sm2n * c := Nat.mul_le_mul_left _ (by omega)
          omega
        have : c = 1 := by omega
        subst this
        omega
    have hsv : (s * (1 + d) + r * d) % sm2n = k % sm2n ↔
        (s : ZMod sm2n) = (1 + (d : ZMod sm2n))⁻¹ * ((k : ZMod sm2n) - (r : ZMod sm2n) * (d : ZMod sm2n)) := by
      rw [← ZMod.natCast_eq_natCast_iff']
      push_cast
      constructor
      · intro h
        rw [← h]
        field_simp
        ring
      · intro h
        rw [h]
        field_simp
        ring
    constructor
    · rintro ⟨⟨x', y', h', e1, e2⟩, r0, rk, sn, s0, he⟩
      rw [ek] at e1
      obtain ⟨rfl, rfl⟩ := (Point.some.injEq ..).mp e1
      have rn : r < sm2n := by rw [e2]; exact Nat.mod_lt _ (by omega)
      refine ⟨rn, sn, ?_, (hz r rn).mpr r0, (hrk rn).mpr rk, (hz s sn).mpr s0, hsv.mp he⟩
      rw [← Nat.cast_add]
      exact ((zmod_eq_iff rn).mpr e2.symm).symm
    · rintro ⟨rn, sn, e2, r0, rk, s0, he⟩
      refine ⟨⟨x, y, hxy, ek, ?_⟩, (hz r rn).mp r0, (hrk rn).mp rk, sn, (hz s sn).mp s0, hsv.mpr he⟩
      rw [← Nat.cast_add] at e2
      exact ((zmod_eq_iff rn).mp e2.symm).symm
  generalize hR : (beVal Z : ZMod sm2n) + (x.val : ZMod sm2n) = R at *
  generalize hSS : (1 + (d : ZMod sm2n))⁻¹ * ((k : ZMod sm2n) - R * (d : ZMod sm2n)) = T at *
  have hcast : ∀ z : ZMod sm2n, ((z.val : Nat) : ZMod sm2n) = z := fun z => by rw [ZMod.natCast_val, ZMod.cast_id]
  by_cases hc : R = 0 ∨ R + (k : ZMod sm2n) = 0 ∨ T = 0
  · rw [if_pos hc] at hs
    have hno : ¬ ∃ r s, IsSm2Sig sm2G d (beVal Z) k r s := by
      rintro ⟨r, s, h⟩
      obtain ⟨-, -, q1, q2, q3, q4, q5⟩ := (key r s).mp h
      rw [q1] at q2 q3 q5
      rw [q5, hSS] at q4
      rcases hc with h | h | h
      · exact q2 h
      · exact q3 h
      · exact q4 h
    rw [hs]
    refine ⟨fun sig => ⟨fun h => by simp at h, fun ⟨r, s, h, _⟩ => absurd ⟨r, s, h⟩ hno⟩, fun _ => hno, fun _ => rfl⟩
  · rw [if_neg hc] at hs
    push Not at hc
    have hyes : IsSm2Sig sm2G d (beVal Z) k R.val T.val := by
      rw [key]
      refine ⟨ZMod.val_lt _, ZMod.val_lt _, ?_⟩
      rw [hcast, hcast, hSS]
      exact ⟨rfl, hc.1, hc.2.1, hc.2.2, rfl⟩
    rw [hs]
    refine ⟨fun sig => ⟨fun h => ?_, ?_⟩, fun h => by simp at h, fun h => absurd ⟨_, _, hyes⟩ h⟩
    · rw [Outcome.ok.injEq, Option.some.injEq] at h
      exact ⟨_, _, hyes, h.symm⟩
    · rintro ⟨r, s, h, hsig⟩
      obtain ⟨rn, sn, q1, q2, q3, q4, q5⟩ := (key r s).mp h
      rw [q1, hSS] at q5
      have er : r = R.val := by
        have := congrArg ZMod.val q1
        rwa [ZMod.val_natCast, Nat.mod_eq_of_lt rn] at this
      have es : s = T.val := by
        have := congrArg ZMod.val q5
        rwa [ZMod.val_natCast, Nat.mod_eq_of_lt sn] at this
      rw [hsig, er, es]

/-- **C44** `sign` throws exactly on an id of more than 65535 bits or a message of more than `2^61 - 1` octets in all;
otherwise it returns the standard's signature for the first answer of the generator that has one. -/
theorem C44_sign (hC : IsHash C H) (K : Sm2.Priv) (d : Nat) (hK : Sm2PrivIs sm2G K d) (hd : d ≤ sm2n - 2)
    (msg id : List Byte) (rnds : List (List Byte)) (hr : ∀ r ∈ rnds, r.length = 32) :
    (¬ (8 * id.length ≤ 65535 ∧ 8 * (C.DS + msg.length) < 2 ^ 64) → Sm2.sign C K msg rnds id = .throw) ∧
    (8 * id.length ≤ 65535 ∧ 8 * (C.DS + msg.length) < 2 ^ 64 →
      (∀ sig, Sm2.sign C K msg rnds id = .ok (some sig) ↔
        ∃ pre rnd post r s, rnds = pre ++ rnd :: post ∧
          (∀ q ∈ pre, ¬ ∃ r s, IsSm2Sig sm2G d (sm2E H id K.pub.x K.pub.y msg) (beVal q % (sm2n - 1) + 1) r s) ∧
          IsSm2Sig sm2G d (sm2E H id K.pub.x K.pub.y msg) (beVal rnd % (sm2n - 1) + 1) r s ∧
          sig = toBE 32 r ++ toBE 32 s) ∧
      (Sm2.sign C K msg rnds id = .ok none ↔
        ∀ q ∈ rnds, ¬ ∃ r s, IsSm2Sig sm2G d (sm2E H id K.pub.x K.pub.y msg) (beVal q % (sm2n - 1) + 1) r s)) := by
  obtain ⟨kp, d1, d2, lx, ly, -⟩ := hK
  unfold Sm2.sign
  rw [computeZ_ok hC id _ _ lx ly]
  by_cases g1 : 8 * id.length ≤ 65535
  · rw [if_pos g1, o_bind, digest_ok hC (sm2Z H id K.pub.x K.pub.y) msg (hC.len _)]
    by_cases g2 : 8 * (C.DS + msg.length) < 2 ^ 64
    · rw [if_pos g2, o_bind, List.take_of_length_le (by rw [hC.len]), kp]
      refine ⟨fun h => absurd ⟨g1, g2⟩ h, fun _ => ?_⟩
      unfold sm2E
      generalize H (sm2Z H id K.pub.x K.pub.y ++ msg) = Z
      clear lx ly g1 g2
      induction rnds with
      | nil => simp [Sm2.signLoop]
      | cons q rest ih =>
        obtain ⟨i1, i2⟩ := ih (fun r h => hr r (by simp [h]))
        obtain ⟨s1, s2⟩ := C44_sign_step d d1 hd Z q (hr q (by simp))
        unfold Sm2.signLoop
        by_cases hq : ∃ r s, IsSm2Sig sm2G d (beVal Z) (beVal q % (sm2n - 1) + 1) r s
        · obtain ⟨r0, s0, h0⟩ := hq
          have e := (s1 _).mpr ⟨r0, s0, h0, rfl⟩
          rw [e, o_bind]
          simp only
          constructor
          · intro sig
            constructor
            · intro h
              rw [Outcome.ok.injEq, Option.some.injEq] at h
              exact ⟨[], q, rest, r0, s0, rfl, by simp, h0, h.symm⟩
            · rintro ⟨pre, rnd, post, r, s, e1, e2, e3, e4⟩
              cases pre with
              | nil =>
                obtain ⟨rfl, rfl⟩ := List.cons.inj e1
                have := (s1 sig).mpr ⟨r, s, e3, e4⟩
                rw [e] at this
                exact this
              | cons p pre =>
                obtain ⟨rfl, -⟩ := List.cons.inj e1
                exact absurd ⟨r0, s0, h0⟩ (e2 q (by simp))
          · constructor
            · intro h; simp at h
            · intro h; exact absurd ⟨r0, s0, h0⟩ (h q (by simp))
        · rw [s2.mpr hq, o_bind]
          simp only
          constructor
          · intro sig
            rw [i1 sig]
            constructor
            · rintro ⟨pre, rnd, post, r, s, rfl, e2, e3, e4⟩
              refine ⟨q :: pre, rnd, post, r, s, rfl, ?_, e3, e4⟩
              intro q' hq'
              rcases List.mem_cons.mp hq' with rfl | h
              · exact hq
              · exact e2 q' h
            · rintro ⟨pre, rnd, post, r, s, e1, e2, e3, e4⟩
              cases pre with
              | nil =>
                obtain ⟨rfl, rfl⟩ := List.cons.inj e1
                exact absurd ⟨r, s, e3⟩ hq
              | cons p pre =>
                obtain ⟨rfl, rfl⟩ := List.cons.inj e1
                exact ⟨pre, rnd, post, r, s, rfl, fun q' h => e2 q' (by simp [h]), e3, e4⟩
          · rw [i2]
            constructor
            · intro h q' hq'
              rcases List.mem_cons.mp hq' with rfl | h'
              · exact hq
              · exact h q' h'
            · intro h q' hq'
              exact h q' (by simp [hq'])
    · rw [if_neg g2, t_bind]
      exact ⟨fun _ => rfl, fun h => absurd h.2 g2⟩
  · rw [if_neg g1, t_bind]
    exact ⟨fun _ => rfl, fun h => absurd h.1 g1⟩

/-- **C45** what `verify` decides, for every public key, message, id and 64 signature octets (within the length
limits of the id and the hash): it returns true exactly if the standard's equation holds, or the sum of points is the
point at infinity and `e ≡ r`. -/
theorem C45_verify (hC : IsHash C H) (pub : Sm2.Pub) (Q : Sm2Point) (hp : Sm2PubIs pub Q) (r s : Nat)
    (hr : r < 2 ^ 256) (hs : s < 2 ^ 256) (msg id : List Byte) (hid : 8 * id.length ≤ 65535)
    (hmsg : 8 * (C.DS + msg.length) < 2 ^ 64) :
    ∃ b, Sm2.verify C pub (toBE 32 r ++ toBE 32 s) msg id = .returns b ∧
      (b = true ↔ Sm2Valid sm2G Q (sm2E H id pub.x pub.y msg) r s ∨
        (1 ≤ r ∧ r < sm2n ∧ 1 ≤ s ∧ s < sm2n ∧ (r + s) % sm2n ≠ 0 ∧ s • sm2G + ((r + s) % sm2n) • Q = 0 ∧
          sm2E H id pub.x pub.y msg % sm2n = r)) := by
  classical
  have hr' : beVal (toBE 32 r) = r := by rw [beVal_toBE, Nat.mod_eq_of_lt (hr.trans_le (by decide))]
  have hs' : beVal (toBE 32 s) = s := by rw [beVal_toBE, Nat.mod_eq_of_lt (hs.trans_le (by decide))]
  have hv := verifyBody_ok hC hp (sigR := toBE 32 r) (sigS := toBE 32 s) msg id (toBE_len _ _) (toBE_len _ _)
  rw [hr', hs'] at hv
  unfold Sm2.verify
  rw [List.take_left' (toBE_len 32 r), List.drop_left' (toBE_len 32 r),
    List.take_of_length_le (by rw [toBE_len]), hv, if_neg (c := ¬ (_ ∧ _)) (not_not.mpr ⟨hid, hmsg⟩)]
  by_cases h : 1 ≤ r ∧ r < sm2n ∧ 1 ≤ s ∧ s < sm2n
  · rw [if_neg (not_not.mpr h)]
    refine ⟨_, rfl, ?_⟩
    rw [decide_eq_true_iff]
    obtain ⟨a1, a2, a3, a4⟩ := h
    constructor
    · rintro ⟨h0, h1 | ⟨h1, h2⟩⟩
      · exact Or.inl ⟨a1, a2, a3, a4, h0, h1⟩
      · exact Or.inr ⟨a1, a2, a3, a4, h0, h1, h2⟩
    · rintro (⟨-, -, -, -, h0, h1⟩ | ⟨-, -, -, -, h0, h1⟩)
      · exact ⟨h0, Or.inl h1⟩
      · exact ⟨h0, Or.inr h1⟩
  · rw [if_pos h]
    refine ⟨false, rfl, ?_⟩
    constructor
    · intro h; cases h
    · rintro (⟨a1, a2, a3, a4, -⟩ | ⟨a1, a2, a3, a4, -⟩) <;> exact absurd ⟨a1, a2, a3, a4⟩ h

/-- **C45 (part)** every signature satisfying the standard's equation is accepted, and every accepted one for which the
sum of points is not the point at infinity satisfies it. -/
theorem C45_verify_standard_partial (hC : IsHash C H) (pub : Sm2.Pub) (Q : Sm2Point) (hp : Sm2PubIs pub Q) (r s : Nat)
    (hr : r < 2 ^ 256) (hs : s < 2 ^ 256) (msg id : List Byte) (hid : 8 * id.length ≤ 65535)
    (hmsg : 8 * (C.DS + msg.length) < 2 ^ 64) :
    (Sm2Valid sm2G Q (sm2E H id pub.x pub.y msg) r s →
      Sm2.verify C pub (toBE 32 r ++ toBE 32 s) msg id = .returns true) ∧
    (Sm2.verify C pub (toBE 32 r ++ toBE 32 s) msg id = .returns true →
      s • sm2G + ((r + s) % sm2n) • Q ≠ 0 → Sm2Valid sm2G Q (sm2E H id pub.x pub.y msg) r s) := by
  obtain ⟨b, b1, b2⟩ := C45_verify hC pub Q hp r s hr hs msg id hid hmsg
  rw [b1]
  constructor
  · intro h
    rw [b2.mpr (Or.inl h)]
  · intro h hne
    rw [Noexcept.returns.injEq] at h
    rcases b2.mp h with h | h
    · exact h
    · exact absurd h.2.2.2.2.2.1 hne

/-- **C45 is false of the code**: for every public key of a private key `d` in `[1, n-2]` and every message whose
digest is not `0` modulo `n`, there is a signature that `verify` accepts although `s • G + t • Q` is the point at
infinity, so that the standard's equation fails.  (It takes the private key to compute it.) -/
theorem C45_infinity_accepted (hC : IsHash C H) (pub : Sm2.Pub) (d : Nat) (h1 : 1 ≤ d) (h2 : d ≤ sm2n - 2)
    (hp : Sm2PubIs pub (d • sm2G)) (msg id : List Byte) (hid : 8 * id.length ≤ 65535)
    (hmsg : 8 * (C.DS + msg.length) < 2 ^ 64) (he : sm2E H id pub.x pub.y msg % sm2n ≠ 0) :
    ∃ r s, r < 2 ^ 256 ∧ s < 2 ^ 256 ∧ Sm2.verify C pub (toBE 32 r ++ toBE 32 s) msg id = .returns true ∧
      ¬ Sm2Valid sm2G (d • sm2G) (sm2E H id pub.x pub.y msg) r s := by
  have hn : 2 < sm2n := by decide +kernel
  have hb : sm2n < 2 ^ 256 := by decide +kernel
  have : Fact sm2n.Prime := ⟨sm2n_prime⟩
  have hz : ∀ a : Nat, a < sm2n → a ≠ 0 → (a : ZMod sm2n) ≠ 0 := fun a ha h0 h => by
    rw [ZMod.natCast_eq_zero_iff] at h
    exact h0 (Nat.eq_zero_of_dvd_of_lt h ha)
  have hd0 : (d : ZMod sm2n) ≠ 0 := hz d (by omega) (by omega)
  have hd1 : (1 + (d : ZMod sm2n)) ≠ 0 := by
    have := hz (1 + d) (by omega) (by omega)
    push_cast at this
    exact this
  obtain ⟨r, hr⟩ : ∃ r, r = sm2E H id pub.x pub.y msg % sm2n := ⟨_, rfl⟩
  have rn : r < sm2n := by rw [hr]; exact Nat.mod_lt _ (by omega)
  rw [← hr] at he
  have hr0 := hz r rn he
  obtain ⟨σ, hσ⟩ : ∃ σ : ZMod sm2n, σ = -((r : ZMod sm2n) * d * (1 + (d : ZMod sm2n))⁻¹) := ⟨_, rfl⟩
  have hσ0 : σ ≠ 0 := by
    rw [hσ]
    exact neg_ne_zero.mpr (mul_ne_zero (mul_ne_zero hr0 hd0) (inv_ne_zero hd1))
  have sn : σ.val < sm2n := ZMod.val_lt _
  have hcast : ((σ.val : Nat) : ZMod sm2n) = σ := by rw [ZMod.natCast_val, ZMod.cast_id]
  have s0 : σ.val ≠ 0 := fun h => hσ0 (by rw [← hcast, h]; simp)
  have ht : (r : ZMod sm2n) + σ = r * (1 + (d : ZMod sm2n))⁻¹ := by
    rw [hσ]; field_simp; ring
  have ht0 : (r + σ.val) % sm2n ≠ 0 := by
    intro h
    have h' : ((r + σ.val : Nat) : ZMod sm2n) = 0 := (ZMod.natCast_eq_zero_iff _ _).mpr (Nat.dvd_of_mod_eq_zero h)
    push_cast at h'
    rw [hcast, ht] at h'
    exact mul_ne_zero hr0 (inv_ne_zero hd1) h'
  have hsum : σ.val • sm2G + ((r + σ.val) % sm2n) • (d • sm2G) = 0 := by
    rw [← mul_nsmul', ← add_nsmul, sm2_nsmul_eq_zero sm2G_ne, ← ZMod.natCast_eq_zero_iff]
    push_cast
    rw [ZMod.natCast_mod]
    push_cast
    rw [hcast, ht, hσ]
    field_simp
    ring
  refine ⟨r, σ.val, by omega, by omega, ?_, ?_⟩
  · obtain ⟨b, b1, b2⟩ := C45_verify hC pub _ hp r σ.val (by omega) (by omega) msg id hid hmsg
    rw [b1, b2.mpr (Or.inr ⟨by omega, rn, by omega, sn, ht0, hsum, hr.symm⟩)]
  · rintro ⟨-, -, -, -, -, x, y, h, e, -⟩
    rw [hsum] at e
    exact Point.some_ne_zero _ e.symm

/-- **C44** every signature produced by `sign` is accepted by `verify` with the public key of the signer: for every
private key in `[1, n-2]`, message, id and sequence of random answers. -/
theorem C44_sign_verify (hC : IsHash C H) (K : Sm2.Priv) (d : Nat) (hK : Sm2PrivIs sm2G K d) (hd : d ≤ sm2n - 2)
    (msg id : List Byte) (rnds : List (List Byte)) (hr : ∀ r ∈ rnds, r.length = 32) (sig : List Byte)
    (h : Sm2.sign C K msg rnds id = .ok (some sig)) : Sm2.verify C K.pub sig msg id = .returns true := by
  obtain ⟨g1, g2⟩ := C44_sign hC K d hK hd msg id rnds hr
  by_cases hl : 8 * id.length ≤ 65535 ∧ 8 * (C.DS + msg.length) < 2 ^ 64
  · obtain ⟨pre, rnd, post, r, s, e1, -, e3, e4⟩ := ((g2 hl).1 sig).mp h
    rw [e4]
    have hn : 2 < sm2n := by decide +kernel
    have hb : sm2n < 2 ^ 256 := by decide +kernel
    have hm : beVal rnd % (sm2n - 1) < sm2n - 1 := Nat.mod_lt _ (by omega)
    have hv := sig_valid (by omega) (by omega) e3
    exact (C45_verify_standard_partial hC K.pub _ hK.2.2.2 r s (hv.2.1.trans hb) (hv.2.2.2.1.trans hb) msg id
      hl.1 hl.2).1 hv
  · rw [g1 hl] at h
    cases h

/-- **C48** when `verify` returns: exactly when the signature is out of range (then it returns false), or the id has at
most 8191 octets and the message fits the hash.  Otherwise the exception thrown inside the `noexcept` function
terminates the process.  It never has undefined behaviour. -/
theorem C48_verify_terminates (hC : IsHash C H) (pub : Sm2.Pub) (Q : Sm2Point) (hp : Sm2PubIs pub Q) (r s : Nat)
    (hr : r < 2 ^ 256) (hs : s < 2 ^ 256) (msg id : List Byte) :
    (Sm2.verify C pub (toBE 32 r ++ toBE 32 s) msg id = .terminates ↔
      (1 ≤ r ∧ r < sm2n ∧ 1 ≤ s ∧ s < sm2n) ∧ (8191 < id.length ∨ 2 ^ 61 ≤ C.DS + msg.length)) ∧
    Sm2.verify C pub (toBE 32 r ++ toBE 32 s) msg id ≠ .ub := by
  classical
  have hr' : beVal (toBE 32 r) = r := by rw [beVal_toBE, Nat.mod_eq_of_lt (hr.trans_le (by decide))]
  have hs' : beVal (toBE 32 s) = s := by rw [beVal_toBE, Nat.mod_eq_of_lt (hs.trans_le (by decide))]
  have hv := verifyBody_ok hC hp (sigR := toBE 32 r) (sigS := toBE 32 s) msg id (toBE_len _ _) (toBE_len _ _)
  rw [hr', hs'] at hv
  unfold Sm2.verify
  rw [List.take_left' (toBE_len 32 r), List.drop_left' (toBE_len 32 r), List.take_of_length_le (by rw [toBE_len]), hv]
  by_cases h : 1 ≤ r ∧ r < sm2n ∧ 1 ≤ s ∧ s < sm2n
  · rw [if_neg (not_not.mpr h)]
    by_cases h2 : 8 * id.length ≤ 65535 ∧ 8 * (C.DS + msg.length) < 2 ^ 64
    · rw [if_neg (not_not.mpr h2)]
      refine ⟨⟨fun h => (by cases h), fun h => ?_⟩, fun h => by cases h⟩
      omega
    · rw [if_pos h2]
      refine ⟨⟨fun _ => ⟨h, by omega⟩, fun _ => rfl⟩, fun h => by cases h⟩
  · rw [if_pos h]
    exact ⟨⟨fun h => (by cases h), fun h' => absurd h'.1 h⟩, fun h => by cases h⟩

/-- **C48 (part)** `verify` returns for every signature if the id has at most 8191 octets and digest length and message
together have fewer than `2^61` octets. -/
theorem C48_verify_returns_partial (hC : IsHash C H) (pub : Sm2.Pub) (Q : Sm2Point) (hp : Sm2PubIs pub Q) (r s : Nat)
    (hr : r < 2 ^ 256) (hs : s < 2 ^ 256) (msg id : List Byte) (hid : id.length ≤ 8191)
    (hmsg : C.DS + msg.length < 2 ^ 61) :
    ∃ b, Sm2.verify C pub (toBE 32 r ++ toBE 32 s) msg id = .returns b := by
  obtain ⟨b, h, -⟩ := C45_verify hC pub Q hp r s hr hs msg id (by omega) (by omega)
  exact ⟨b, h⟩

end

/-- The base point as a public key (private key 1). -/
def gPub : Sm2.Pub :=
  ⟨⟨Sm2.fpFromBytes Sm2.sm2CurveGx, Sm2.fpFromBytes Sm2.sm2CurveGy⟩, Sm2.sm2CurveGx, Sm2.sm2CurveGy⟩

theorem gPub_is : Sm2PubIs gPub sm2G := by
  refine ⟨by decide, by decide, g_ok, ?_⟩
  have e1 : beVal gPub.x = sm2gx := by decide +kernel
  have e2 : beVal gPub.y = sm2gy := by decide +kernel
  rw [e1, e2]
  exact ⟨_, rfl⟩

/-- **C48 is false of the code**: with SM3, the public key `G`, an id of 8192 octets and the signature `r = s = 1`,
`verify` terminates the process. -/
theorem C48_verify_not_total :
    Sm2.verify Sm3.cls gPub (toBE 32 1 ++ toBE 32 1) [] (List.replicate 8192 0) = .terminates := by
  refine (C48_verify_terminates sm3_isHash gPub sm2G gPub_is 1 1 (by decide) (by decide) _ _).1.mpr ⟨?_, Or.inl ?_⟩
  · decide +kernel
  · rw [List.length_replicate]; decide

theorem sm2E_of {S : Type} {C : HashClass S} {H : List Byte → List Byte} (hC : IsHash C H) {id x y msg Z e : List Byte}
    (hx : x.length = 32) (hy : y.length = 32) (hi : 8 * id.length ≤ 65535) (hm : 8 * (C.DS + msg.length) < 2 ^ 64)
    (hz : Sm2.computeZ C id x y = .ok Z) (he : C.stream [Z.take C.DS, msg] [] = .ok e) (hn : beVal e % sm2n ≠ 0) :
    sm2E H id x y msg % sm2n ≠ 0 := by
  rw [computeZ_ok hC _ _ _ hx hy, if_pos hi, Outcome.ok.injEq] at hz
  subst hz
  rw [digest_ok hC (sm2Z H id x y) _ (hC.len _), if_pos hm, Outcome.ok.injEq] at he
  subst he
  exact hn

/-- The hypotheses of C45_infinity_accepted: SM3, public key `G` (`d = 1`), id `31`, message `61 62 63`. -/
example : Sm2PubIs gPub (1 • sm2G) ∧ 8 * ([0x31] : List Byte).length ≤ 65535 ∧
    8 * (Sm3.cls.DS + ([0x61, 0x62, 0x63] : List Byte).length) < 2 ^ 64 ∧
    sm2E Spec.SM3.hash [0x31] gPub.x gPub.y [0x61, 0x62, 0x63] % sm2n ≠ 0 := by
  refine ⟨by rw [one_nsmul]; exact gPub_is, by decide, by decide, ?_⟩
  exact sm2E_of sm3_isHash (Z := toBE 32 0x94d0fce4e1b1ba1cbf168b926587b6678b3bdb8d0c594725ee73b79355fad911) (e := toBE 32 0x72b404da1d3bbbc9d3fa429ce10c4d4193694d1f104e9118a7c02e541731aec3)
    (by decide) (by decide) (by decide) (by decide) (by decide +kernel) (by decide +kernel) (by decide +kernel)

/-- A key for C44: private key 1. -/
example : Sm2PrivIs sm2G ⟨toBE 32 1, gPub⟩ 1 ∧ 1 ≤ sm2n - 2 :=
  ⟨⟨rfl, by decide, by decide +kernel, by rw [one_nsmul]; exact gPub_is⟩, by decide +kernel⟩

/-- A signature in the sense of the standard: key 1, nonce 1 (the generator answers 0), the digest of the example
above. -/
example : IsSm2Sig sm2G 1 0x72b404da1d3bbbc9d3fa429ce10c4d4193694d1f104e9118a7c02e541731aec3 1
    0xa578b3063c553ce3339346e34b4616d6234c58df02b49cfa191a73dd4a7e238a
    0x2d43a67c61d5618e66365c8e5a5cf494a75bc3460f88b4189d50c015f7ab8ecd := by
  refine ⟨⟨_, _, _, one_nsmul _, ?_⟩, by decide +kernel, by decide +kernel, by decide +kernel, by decide +kernel,
    by decide +kernel⟩
  rw [ZMod.val_natCast]
  decide +kernel

/-! ## Key derivation and encryption -/

section
variable {S : Type} {C : HashClass S} {H : List Byte → List Byte}

/-- **C49** the derivation xors its input with the standard's key stream `H(Z ‖ 1) ‖ H(Z ‖ 2) ‖ ...` cut to the length
of the input; it reports failure exactly if that key stream is not empty and all zero, and throws exactly for inputs of
`v * (2^32 - 1)` octets or more. -/
theorem C49_kdf (hC : IsHash C H) (Z inp : List Byte) (hZ : 8 * (Z.length + 4) < 2 ^ 64) :
    (C.DS * (2 ^ 32 - 1) ≤ inp.length → Sm2.kdfXor C inp Z = .throw) ∧
    (inp.length < C.DS * (2 ^ 32 - 1) →
      (inp ≠ [] ∧ (∀ b ∈ sm2Kdf H C.DS Z inp.length, b = 0) → Sm2.kdfXor C inp Z = .ok none) ∧
      (¬ (inp ≠ [] ∧ (∀ b ∈ sm2Kdf H C.DS Z inp.length, b = 0)) →
        Sm2.kdfXor C inp Z = .ok (some (List.zipWith (· ^^^ ·) inp (sm2Kdf H C.DS Z inp.length))))) ∧
    (sm2Kdf H C.DS Z inp.length).length = inp.length := by
  have h := kdfXor_ok hC Z inp hZ
  refine ⟨fun h1 => by rw [h, if_pos h1], fun h1 => ⟨fun h2 => ?_, fun h2 => ?_⟩, sm2Kdf_len hC Z _⟩
  · rw [h, if_neg (by omega), if_pos h2]
  · rw [h, if_neg (by omega), if_neg h2]; rfl

/-- Two derived octets with SM3, computed. -/
example : 8 * (([1, 2, 3] : List Byte).length + 4) < 2 ^ 64 ∧
    Sm2.kdfXor Sm3.cls [0, 0] [1, 2, 3] = .ok (some [0x01, 0xc7]) := by
  decide +kernel

/-- **C46** the encryptor returns the standard's ciphertext for the first answer of the generator whose key stream is
not all zero; it throws exactly for plaintexts of `v * (2^32 - 1)` octets or more. -/
theorem C46_encrypt (hC : IsHash C H) (pub : Sm2.Pub) (Q : Sm2Point) (hp : Sm2PubIs pub Q) (pt : List Byte)
    (pc : Sm2.PC) (rnds : List (List Byte)) (hr : ∀ r ∈ rnds, r.length = 32) :
    (C.DS * (2 ^ 32 - 1) ≤ pt.length → rnds ≠ [] → Sm2.encrypt C pub pt pc rnds = .throw) ∧
    (pt.length < C.DS * (2 ^ 32 - 1) →
      (∃ ct, Sm2.encrypt C pub pt pc rnds = .ok (some ct)) ∨ Sm2.encrypt C pub pt pc rnds = .ok none) ∧
    (∀ ct, Sm2.encrypt C pub pt pc rnds = .ok (some ct) →
      ∃ rnd ∈ rnds, IsSm2Cipher H C.DS sm2G Q (beVal rnd % (sm2n - 1) + 1) pc pt ct) := by
  induction rnds with
  | nil =>
    refine ⟨fun _ h => absurd rfl h, fun _ => Or.inr rfl, fun ct h => ?_⟩
    unfold Sm2.encrypt at h
    simp at h
  | cons q rest ih =>
    obtain ⟨i1, i2, i3⟩ := ih (fun r h => hr r (by simp [h]))
    obtain ⟨x1, y1, h1, x2, y2, h2, e1, e2, e3⟩ := encryptStep_ok hC hp pt pc (hr q (by simp))
    unfold Sm2.encrypt
    rw [e3]
    by_cases h0 : pt.length ≥ C.DS * (2 ^ 32 - 1)
    · rw [if_pos h0, t_bind]
      exact ⟨fun _ _ => rfl, fun h => absurd h (by omega), fun ct h => (by cases h)⟩
    · rw [if_neg h0]
      refine ⟨fun h => absurd h (by omega), ?_⟩
      by_cases hz : pt ≠ [] ∧ (∀ b ∈ sm2Kdf H C.DS (fieldOctets x2 ++ fieldOctets y2) pt.length, b = 0)
      · rw [if_pos hz, o_bind]
        simp only
        exact ⟨i2, fun ct h => by obtain ⟨rnd, r1, r2⟩ := i3 ct h; exact ⟨rnd, by simp [r1], r2⟩⟩
      · rw [if_neg hz, o_bind]
        simp only
        refine ⟨fun _ => Or.inl ⟨_, rfl⟩, fun ct h => ?_⟩
        rw [Outcome.ok.injEq, Option.some.injEq] at h
        exact ⟨q, by simp, x1, y1, h1, x2, y2, h2, e1, e2, h.symm⟩

/-- **C46** a pass asks for another nonce exactly if the key stream is all zero (and the plaintext not empty). -/
theorem C46_encrypt_retry (hC : IsHash C H) (pub : Sm2.Pub) (Q : Sm2Point) (hp : Sm2PubIs pub Q) (pt : List Byte)
    (pc : Sm2.PC) (rnd : List Byte) (hr : rnd.length = 32) (hl : pt.length < C.DS * (2 ^ 32 - 1)) :
    Sm2.encryptStep C pub pt rnd pc = .ok none ↔ pt ≠ [] ∧ ∃ x2 y2 h2,
      (beVal rnd % (sm2n - 1) + 1) • Q = .some x2 y2 h2 ∧
      ∀ b ∈ sm2Kdf H C.DS (fieldOctets x2 ++ fieldOctets y2) pt.length, b = 0 := by
  obtain ⟨x1, y1, h1, x2, y2, h2, e1, e2, e3⟩ := encryptStep_ok hC hp pt pc hr
  rw [e3, if_neg (by omega)]
  by_cases hz : pt ≠ [] ∧ (∀ b ∈ sm2Kdf H C.DS (fieldOctets x2 ++ fieldOctets y2) pt.length, b = 0)
  · rw [if_pos hz]
    exact ⟨fun _ => ⟨hz.1, x2, y2, h2, e2, hz.2⟩, fun _ => rfl⟩
  · rw [if_neg hz]
    refine ⟨fun h => by simp at h, ?_⟩
    rintro ⟨hne, x, y, h, e, hk⟩
    rw [e2] at e
    obtain ⟨rfl, rfl⟩ := (Point.some.injEq ..).mp e
    exact absurd ⟨hne, hk⟩ hz

/-- **C46** decryption, for every octet string: it returns `pt` exactly if `pt` is the standard's plaintext of that
string (of fewer than `v * (2^32 - 1)` octets); in all other cases it throws. -/
theorem C46_decrypt (hC : IsHash C H) (K : Sm2.Priv) (d : Nat) (hK : Sm2PrivIs sm2G K d) (ct : List Byte) :
    (∀ pt, Sm2.decrypt C K ct = .ok pt ↔ IsSm2Plain H C.DS d ct pt ∧ pt.length < C.DS * (2 ^ 32 - 1)) ∧
    (Sm2.decrypt C K ct = .throw ↔ ¬ ∃ pt, IsSm2Plain H C.DS d ct pt ∧ pt.length < C.DS * (2 ^ 32 - 1)) := by
  rcases decrypt_ok hC hK ct with ⟨pt, h1, h2, h3⟩ | ⟨h1, h2⟩
  · rw [h1]
    refine ⟨fun pt' => ⟨fun h => ?_, fun h => ?_⟩, fun h => by simp at h, fun h => absurd ⟨pt, h2, h3⟩ h⟩
    · rw [Outcome.ok.injEq] at h
      subst h
      exact ⟨h2, h3⟩
    · rw [Outcome.ok.injEq]
      obtain ⟨C1, C3, C2, P, x2, y2, g2, e, f3, k1, k2, k3, rfl, k5⟩ := h2
      obtain ⟨⟨C1', C3', C2', P', x2', y2', g2', e', f3', k1', k2', k3', rfl, k5'⟩, -⟩ := h
      obtain ⟨rfl, rfl, rfl⟩ := cut_unique ⟨e, decodes_form k1, f3⟩ ⟨e', decodes_form k1', f3'⟩
      have := decodes_unique k1 k1'
      subst this
      rw [k2] at k2'
      obtain ⟨rfl, rfl⟩ := (Point.some.injEq ..).mp k2'
      rfl
  · rw [h1]
    exact ⟨fun pt => ⟨fun h => by simp at h, fun h => absurd ⟨pt, h⟩ h2⟩, fun _ => h2, fun _ => rfl⟩

/-- **C46** decryption inverts encryption: for every key pair, plaintext, point encoding and sequence of random answers
on which the encryptor returns a ciphertext. -/
theorem C46_decrypt_encrypt (hC : IsHash C H) (K : Sm2.Priv) (d : Nat) (hK : Sm2PrivIs sm2G K d) (pt : List Byte)
    (pc : Sm2.PC) (rnds : List (List Byte)) (hr : ∀ r ∈ rnds, r.length = 32) (ct : List Byte)
    (h : Sm2.encrypt C K.pub pt pc rnds = .ok (some ct)) : Sm2.decrypt C K ct = .ok pt := by
  induction rnds with
  | nil => unfold Sm2.encrypt at h; simp at h
  | cons q rest ih =>
    obtain ⟨x1, y1, h1, x2, y2, h2, e1, e2, e3⟩ := encryptStep_ok hC hK.2.2.2 pt pc (hr q (by simp))
    unfold Sm2.encrypt at h
    rw [e3] at h
    by_cases h0 : pt.length ≥ C.DS * (2 ^ 32 - 1)
    · rw [if_pos h0, t_bind] at h
      cases h
    · rw [if_neg h0] at h
      by_cases hz : pt ≠ [] ∧ (∀ b ∈ sm2Kdf H C.DS (fieldOctets x2 ++ fieldOctets y2) pt.length, b = 0)
      · rw [if_pos hz, o_bind] at h
        exact ih (fun r h => hr r (by simp [h])) h
      · rw [if_neg hz, o_bind] at h
        simp only at h
        rw [Outcome.ok.injEq, Option.some.injEq] at h
        refine ((C46_decrypt hC K d hK ct).1 pt).mpr ⟨cipher_plain hC e1 e2 (fun hne => ?_) h.symm, by omega⟩
        by_contra hcon
        push Not at hcon
        exact hz ⟨hne, hcon⟩

/-- **C50** the ciphertext has the length `ciphertext_len` announces (when that fits in `size_t`), and `plaintext_len`
of it is the length of the plaintext. -/
theorem C50_lengths (hC : IsHash C H) (pub : Sm2.Pub) (Q : Sm2Point) (hp : Sm2PubIs pub Q) (pt : List Byte)
    (pc : Sm2.PC) (rnds : List (List Byte)) (hr : ∀ r ∈ rnds, r.length = 32) (ct : List Byte)
    (h : Sm2.encrypt C pub pt pc rnds = .ok (some ct)) :
    ct.length = (if pc = .compressed then 33 else 65) + C.DS + pt.length ∧
    (ct.length < 2 ^ 64 → Sm2.ciphertextLen C pt.length pc = ct.length) ∧
    Sm2.plaintextLen C ct = .ok pt.length := by
  obtain ⟨-, -, h3⟩ := C46_encrypt hC pub Q hp pt pc rnds hr
  obtain ⟨rnd, -, x1, y1, h1, x2, y2, h2, e1, e2, rfl⟩ := h3 ct h
  have hl : (List.zipWith (· ^^^ ·) pt
      (sm2Kdf H C.DS (fieldOctets x2 ++ fieldOctets y2) pt.length)).length = pt.length := by
    rw [List.length_zipWith, sm2Kdf_len hC]; omega
  generalize List.zipWith (· ^^^ ·) pt (sm2Kdf H C.DS (fieldOctets x2 ++ fieldOctets y2) pt.length) = C2 at *
  have hH := hC.len (fieldOctets x2 ++ pt ++ fieldOctets y2)
  generalize H (fieldOctets x2 ++ pt ++ fieldOctets y2) = C3 at *
  have hlen : (encForm pc x1 y1 ++ C3 ++ C2).length = (if pc = .compressed then 33 else 65) + C.DS + pt.length := by
    rw [List.length_append, List.length_append, hH, hl]
    cases pc <;> simp [encForm, encUncompressed, encCompressed, encMixed, fieldOctets_len]
  refine ⟨hlen, fun hs => ?_, ?_⟩
  · rw [hlen] at hs ⊢
    unfold Sm2.ciphertextLen
    cases pc <;> simp at hs ⊢ <;> omega
  · have hsub : ∀ n, n + C.DS + pt.length < n + C.DS → False := fun n h => by omega
    cases pc with
    | uncompressed =>
      simp only [encForm, encUncompressed, List.cons_append, if_neg (show ¬ Sm2.PC.uncompressed = .compressed by decide)] at hlen ⊢
      unfold Sm2.plaintextLen
      simp only
      rw [if_neg (by decide), if_pos (by decide), o_bind, hlen, if_neg (by omega)]
      congr 1; omega
    | mix =>
      simp only [encForm, encMixed, List.cons_append, if_neg (show ¬ Sm2.PC.mix = .compressed by decide)] at hlen ⊢
      unfold Sm2.plaintextLen
      simp only
      rw [if_neg (by split <;> decide), if_pos (by split <;> decide), o_bind, hlen, if_neg (by omega)]
      congr 1; omega
    | compressed =>
      simp only [encForm, encCompressed, List.cons_append, if_true] at hlen ⊢
      unfold Sm2.plaintextLen
      simp only
      rw [if_pos (by split <;> decide), o_bind, hlen, if_neg (by omega)]
      congr 1; omega

/-- **C50** `plaintext_len` rejects an empty string, an unknown tag and a string shorter than point and digest for its
tag; otherwise it returns the number of octets after them.  Decryption never reads outside the string. -/
theorem C50_plaintext_len (ct : List Byte) :
    (∀ n, Sm2.plaintextLen C ct = .ok n ↔ ∃ b rest, ct = b :: rest ∧
      ((b = 0x02 ∨ b = 0x03) ∧ ct.length = 33 + C.DS + n ∨
       (b = 0x04 ∨ b = 0x06 ∨ b = 0x07) ∧ ct.length = 65 + C.DS + n)) ∧
    (Sm2.plaintextLen C ct = .throw ∨ ∃ n, Sm2.plaintextLen C ct = .ok n) ∧
    (∀ K d, IsHash C H → Sm2PrivIs sm2G K d → Sm2.decrypt C K ct ≠ .ub) := by
  refine ⟨fun n => ?_, ?_, fun K d hC hK h => ?_⟩
  · unfold Sm2.plaintextLen
    cases ct with
    | nil => simp
    | cons b rest =>
      simp only [List.cons.injEq]
      by_cases h1 : b = 0x02 ∨ b = 0x03
      · rw [if_pos h1, o_bind]
        have h2 : ¬ (b = 0x04 ∨ b = 0x06 ∨ b = 0x07) := fun h => full_not_comp h h1
        constructor
        · intro h
          by_cases hl : (b :: rest).length < 33 + C.DS
          · rw [if_pos hl] at h; cases h
          · rw [if_neg hl, Outcome.ok.injEq] at h
            exact ⟨b, rest, ⟨rfl, rfl⟩, Or.inl ⟨h1, by omega⟩⟩
        · rintro ⟨b', rest', ⟨rfl, rfl⟩, ⟨-, hl⟩ | ⟨h, -⟩⟩
          · rw [if_neg (by omega), hl]; congr 1; omega
          · exact absurd h h2
      · rw [if_neg h1]
        by_cases h2 : b = 0x04 ∨ b = 0x06 ∨ b = 0x07
        · rw [if_pos h2, o_bind]
          constructor
          · intro h
            by_cases hl : (b :: rest).length < 65 + C.DS
            · rw [if_pos hl] at h; cases h
            · rw [if_neg hl, Outcome.ok.injEq] at h
              exact ⟨b, rest, ⟨rfl, rfl⟩, Or.inr ⟨h2, by omega⟩⟩
          · rintro ⟨b', rest', ⟨rfl, rfl⟩, ⟨h, -⟩ | ⟨-, hl⟩⟩
            · exact absurd h h1
            · rw [if_neg (by omega), hl]; congr 1; omega
        · rw [if_neg h2, t_bind]
          constructor
          · intro h; cases h
          · rintro ⟨b', rest', ⟨rfl, rfl⟩, ⟨h, -⟩ | ⟨h, -⟩⟩
            · exact absurd h h1
            · exact absurd h h2
  · unfold Sm2.plaintextLen
    cases ct with
    | nil => exact Or.inl rfl
    | cons b rest =>
      simp only
      by_cases h1 : b = 0x02 ∨ b = 0x03
      · rw [if_pos h1, o_bind]
        split
        · exact Or.inl rfl
        · exact Or.inr ⟨_, rfl⟩
      · rw [if_neg h1]
        by_cases h2 : b = 0x04 ∨ b = 0x06 ∨ b = 0x07
        · rw [if_pos h2, o_bind]
          split
          · exact Or.inl rfl
          · exact Or.inr ⟨_, rfl⟩
        · rw [if_neg h2, t_bind]
          exact Or.inl rfl
  · rcases decrypt_ok hC hK ct with ⟨pt, h1, -⟩ | ⟨h1, -⟩ <;> rw [h1] at h <;> cases h

end

/-- A decryption computed by the standard exists: the hypotheses of C46 are met by key 1 with SM3. -/
example : Sm2PrivIs sm2G ⟨toBE 32 1, gPub⟩ 1 ∧ IsHash Sm3.cls Spec.SM3.hash :=
  ⟨⟨rfl, by decide, by decide +kernel, by rw [one_nsmul]; exact gPub_is⟩, sm3_isHash⟩

/-- The encryptor does return: one octet `61`, public key `G`, generator answer 0 (nonce 1). -/
example : ∃ ct, Sm2.encrypt Sm3.cls gPub [0x61] .compressed [toBE 32 0] = .ok (some ct) := by
  have hr : ∀ r ∈ [toBE 32 0], r.length = 32 := by simp [toBE_len]
  rcases (C46_encrypt sm3_isHash gPub sm2G gPub_is [0x61] .compressed [toBE 32 0] hr).2.1 (by decide) with h | h
  · exact h
  · exfalso
    have hs : Sm2.encryptStep Sm3.cls gPub [0x61] (toBE 32 0) .compressed = .ok none := by
      unfold Sm2.encrypt at h
      generalize Sm2.encryptStep Sm3.cls gPub [0x61] (toBE 32 0) .compressed = o at h
      rcases o with (_ | ct) | _ | _
      · rfl
      all_goals cases h
    obtain ⟨-, x2, y2, h2, e, hk⟩ := (C46_encrypt_retry sm3_isHash gPub sm2G gPub_is [0x61] .compressed _
      (toBE_len _ _) (by decide)).mp hs
    have h1 : beVal (toBE 32 0) % (sm2n - 1) + 1 = 1 := by decide +kernel
    rw [h1, one_nsmul] at e
    obtain ⟨rfl, rfl⟩ := (Point.some.injEq ..).mp e
    have hx : fieldOctets (sm2gx : ZMod sm2p) = toBE 32 sm2gx := by
      unfold fieldOctets
      rw [ZMod.val_natCast, Nat.mod_eq_of_lt (by decide +kernel)]
    have hy : fieldOctets (sm2gy : ZMod sm2p) = toBE 32 sm2gy := by
      unfold fieldOctets
      rw [ZMod.val_natCast, Nat.mod_eq_of_lt (by decide +kernel)]
    rw [hx, hy] at hk
    have hkdf := ((C49_kdf sm3_isHash (toBE 32 sm2gx ++ toBE 32 sm2gy) [0x61]
      (by simp [toBE_len])).2.1 (by decide)).1 ⟨by simp, hk⟩
    have hne : Sm2.kdfXor Sm3.cls [0x61] (toBE 32 sm2gx ++ toBE 32 sm2gy) ≠ .ok none := by decide +kernel
    exact hne hkdf

end Verif.Props
