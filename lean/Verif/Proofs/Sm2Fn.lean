import Verif.Spec.Sm2Scheme
import Verif.Proofs.Sm2Misc
/-! # Arithmetic modulo the group order in SM2: nonces, private keys, conversions -/
namespace Verif
open Spec

theorem ofOption_some {α : Type} (a : α) : Outcome.ofOption (some a) = .ok a := rfl
theorem o_bind {α β : Type} (a : α) (f : α → Outcome β) : (Outcome.ok a >>= f) = f a := rfl
theorem t_bind {α β : Type} (f : α → Outcome β) : ((Outcome.throw : Outcome α) >>= f) = .throw := rfl

/-- The residue class modulo `n`. -/
noncomputable abbrev fnVal (a : List W32) : ZMod sm2n := montVal sm2n a

abbrev IsFn := Is (Reduced sm2n) (montVal sm2n)

theorem fn_add {a b : List W32} {x y : ZMod sm2n} (ha : IsFn a x) (hb : IsFn b y) :
    IsFn (mont256Add Sm2.fnCtx a b) (x + y) := by
  obtain ⟨⟨h1, -, h2⟩, -⟩ := Props.C35_mont_linear Sm2.fnCtx_wf a b ha.1 hb.1
  exact ⟨h1, by rw [h2, ha.2, hb.2]⟩

theorem fn_sub {a b : List W32} {x y : ZMod sm2n} (ha : IsFn a x) (hb : IsFn b y) :
    IsFn (mont256Sub Sm2.fnCtx a b) (x - y) := by
  obtain ⟨-, ⟨h1, -, h2⟩, -⟩ := Props.C35_mont_linear Sm2.fnCtx_wf a b ha.1 hb.1
  exact ⟨h1, by rw [h2, ha.2, hb.2]⟩

theorem fn_mul {a b : List W32} {x y : ZMod sm2n} (ha : IsFn a x) (hb : IsFn b y) :
    IsFn (mont256Mul Sm2.fnCtx a b) (x * y) := by
  obtain ⟨h1, h2, -⟩ := Props.C34_mont_mul_sqr Sm2.fnCtx_wf a b ha.1 hb.1
  exact ⟨h1, by rw [h2, ha.2, hb.2]⟩

theorem fn_zero_iff {a : List W32} {x : ZMod sm2n} (ha : IsFn a x) :
    mont256EqualZero Sm2.fnCtx a = true ↔ x = 0 := by
  have hz : Reduced sm2n u256Zero := by unfold Reduced; decide +kernel
  have h0 : montVal sm2n u256Zero = 0 := by unfold montVal; rw [show val u256Zero = 0 by decide]; simp
  unfold mont256EqualZero
  rw [u256EqualZero_iff, ← ha.2, ← h0, Props.C34_unique Sm2.fnCtx_wf a u256Zero ha.1 hz]
  constructor
  · intro h
    exact val_inj _ _ (by rw [ha.1.1]; rfl) (by rw [h]; decide)
  · rintro rfl; decide

theorem fn_eq_iff {a b : List W32} {x y : ZMod sm2n} (ha : IsFn a x) (hb : IsFn b y) :
    mont256Equal Sm2.fnCtx a b = true ↔ x = y := by
  unfold mont256Equal
  rw [(Props.C31_cmp a b ha.1.1 hb.1.1).2, ← ha.2, ← hb.2, Props.C34_unique Sm2.fnCtx_wf a b ha.1 hb.1]
  exact ⟨fun h => val_inj _ _ (by rw [ha.1.1, hb.1.1]) h, fun h => by rw [h]⟩

theorem fn_one : IsFn (mont256SetOne Sm2.fnCtx) 1 := by
  refine ⟨by unfold Reduced; decide +kernel, ?_⟩
  have hp := Sm2.fnCtx_wf.P.2
  unfold mont256SetOne
  have := montVal_one Sm2.fnCtx_wf.ok
  rw [hp] at this
  exact this

theorem fn_inv {a : List W32} {x : ZMod sm2n} (ha : IsFn a x) :
    ∃ r, mont256Inv Sm2.fnCtx a = some r ∧ IsFn r x⁻¹ := by
  obtain ⟨r, r1, r2, r3, r4⟩ := Props.C37_mont_inv Sm2.fnCtx_wf sm2n_prime a ha.1
  refine ⟨r, r1, r2, ?_⟩
  have hz := fn_zero_iff ha
  unfold mont256EqualZero at hz
  rw [u256EqualZero_iff] at hz
  by_cases h0 : val a = 0
  · have hx := hz.mp h0
    rw [hx, inv_zero]
    unfold montVal
    rw [r4 h0]; simp
  · have h3 := r3 h0
    rw [ha.2] at h3
    exact eq_inv_of_mul_eq_one_left h3

theorem fn_fromBytes {bs : List Byte} (h : bs.length = 32) :
    IsFn (mont256FromBytes Sm2.fnCtx bs) (beVal bs : ZMod sm2n) := by
  obtain ⟨h1, h2, -⟩ := Props.C39_from_to_bytes Sm2.fnCtx_wf bs h
  exact ⟨h1, h2⟩

theorem fn_fromBytesEx (bs : List Byte) :
    ∃ r, mont256FromBytesEx Sm2.fnCtx bs = some r ∧ IsFn r (beVal bs : ZMod sm2n) := by
  obtain ⟨r, r1, r2, r3⟩ := Props.C39_from_bytes_ex Sm2.fnCtx_wf bs
  exact ⟨r, r1, r2, r3⟩

theorem fn_toBytes {a : List W32} {x : ZMod sm2n} (ha : IsFn a x) :
    mont256ToBytes Sm2.fnCtx a = toBE 32 x.val := by
  obtain ⟨m, x1, x2, x3, -⟩ := Props.C39_to_bytes Sm2.fnCtx_wf a ha.1
  rw [x3, ← ha.2, ← x2, ZMod.val_natCast, Nat.mod_eq_of_lt x1]

theorem fn_fromFp {a : List W32} (ha : Reduced sm2p a) : IsFn (Sm2.fnFromFp a) ((fpVal a).val : ZMod sm2n) := by
  unfold Sm2.fnFromFp
  have := fn_fromBytes (bs := Sm2.fpToBytes a) (by rw [fpToBytes_eq ha, fieldOctets_len])
  rw [fpToBytes_eq ha] at this ⊢
  unfold fieldOctets at this ⊢
  rw [beVal_toBE, Nat.mod_eq_of_lt ((ZMod.val_lt _).trans (by decide +kernel))] at this
  exact this

/-! ## Big numbers -/

theorem bnModNSub1_ok {a : List W32} (ha : a.length = 8) :
    (Sm2.bnModNSub1 a).length = 8 ∧ val (Sm2.bnModNSub1 a) = val a % (sm2n - 1) := by
  have hl : Sm2.nSub1.length = 8 := by decide +kernel
  have hv : val Sm2.nSub1 = sm2n - 1 := by decide +kernel
  have hlt := len8_lt ha
  have h2 : (2 : Nat) ^ 256 < 2 * (sm2n - 1) := by decide +kernel
  have hc := (Props.C31_cmp a Sm2.nSub1 ha hl).1
  unfold Sm2.bnModNSub1
  rw [hc, hv]
  by_cases h : val a < sm2n - 1
  · rw [if_neg (by omega : ¬ val a > sm2n - 1), if_pos h, if_neg (by decide)]
    exact ⟨ha, (Nat.mod_eq_of_lt h).symm⟩
  · have e : (if val a > sm2n - 1 then (1 : Int) else if val a < sm2n - 1 then -1 else 0) ≥ 0 := by
      rw [if_neg h]; split <;> decide
    rw [if_pos e]
    obtain ⟨s1, s2, -, s4⟩ := Props.C31_sub a Sm2.nSub1 ha hl
    rw [hv] at s2 s4
    rw [s4.mpr (by omega)] at s2
    refine ⟨s1, ?_⟩
    rw [Nat.mod_eq_sub_mod (by omega), Nat.mod_eq_of_lt (by omega)]
    have : (0 : CInt).toInt = 0 := rfl
    rw [this] at s2
    omega

theorem nonce_ok {rnd : List Byte} (h : rnd.length = 32) :
    Sm2.nonce rnd = toBE 32 (beVal rnd % (sm2n - 1) + 1) := by
  obtain ⟨l, v⟩ := u256FromBytes_spec rnd h
  obtain ⟨l1, v1⟩ := bnModNSub1_ok l
  unfold Sm2.nonce
  rw [v] at v1
  have hm : beVal rnd % (sm2n - 1) < sm2n - 1 := Nat.mod_lt _ (by decide +kernel)
  have hn : sm2n < 2 ^ 256 := by decide +kernel
  have l2 : (u256AddWord (Sm2.bnModNSub1 (u256FromBytes rnd)) 1).1.length = 8 := by
    unfold u256AddWord
    rw [addCarryLoop_len _ _ _ (by rw [l1]; rfl), l1]
  have hw := (Props.C31_word_ops (Sm2.bnModNSub1 (u256FromBytes rnd)) 1 l1).1
  rw [v1] at hw
  have hlt := len8_lt l2
  simp only
  rw [u256ToBytes_eq l2]
  congr 1
  have h1 : (1 : W32).toNat = 1 := rfl
  rw [h1] at hw
  generalize val (u256AddWord (Sm2.bnModNSub1 (u256FromBytes rnd)) 1).1 = X at *
  generalize (u256AddWord (Sm2.bnModNSub1 (u256FromBytes rnd)) 1).2.toNat = Y at *
  rcases Nat.eq_zero_or_pos Y with hY | hY
  · subst hY; omega
  · exfalso
    have : 2 ^ 256 * 1 ≤ 2 ^ 256 * Y := Nat.mul_le_mul_left _ hY
    omega

theorem nonce_len {rnd : List Byte} (h : rnd.length = 32) : (Sm2.nonce rnd).length = 32 := by
  rw [nonce_ok h, toBE_len]

theorem nonce_val {rnd : List Byte} (h : rnd.length = 32) :
    beVal (Sm2.nonce rnd) = beVal rnd % (sm2n - 1) + 1 := by
  have hm : beVal rnd % (sm2n - 1) < sm2n - 1 := Nat.mod_lt _ (by decide +kernel)
  have hn : sm2n < 256 ^ 32 := by decide +kernel
  rw [nonce_ok h, beVal_toBE, Nat.mod_eq_of_lt (by omega)]

theorem nonce_range {rnd : List Byte} (h : rnd.length = 32) :
    1 ≤ beVal (Sm2.nonce rnd) ∧ beVal (Sm2.nonce rnd) < sm2n := by
  have hm : beVal rnd % (sm2n - 1) < sm2n - 1 := Nat.mod_lt _ (by decide +kernel)
  rw [nonce_val h]; omega

/-! ## Multiples of the base point in affine form -/

theorem mulG_affine {k : List Byte} (hk : k.length = 32) (h1 : 1 ≤ beVal k) (h2 : beVal k < sm2n) :
    ∃ R a, Sm2.jMulG k = some R ∧ Sm2.jToA R = some a ∧ Sm2IsAffine a (beVal k • sm2G) := by
  obtain ⟨R, r1, r2⟩ := jMulA_ok hk g_ok
  obtain ⟨a, a1, a2⟩ := jToA_ok r2 (nsmul_ne_zero_of sm2G_ne h1 h2)
  exact ⟨R, a, r1, a1, a2⟩

theorem mulA_affine {k : List Byte} (hk : k.length = 32) (h1 : 1 ≤ beVal k) (h2 : beVal k < sm2n)
    {A : Sm2.A} {Q : Sm2Point} (hA : Sm2IsAffine A Q) :
    ∃ R a, Sm2.jMulA k A = some R ∧ Sm2.jToA R = some a ∧ Sm2IsAffine a (beVal k • Q) := by
  have hQ : Q ≠ 0 := by obtain ⟨-, -, hs, rfl⟩ := hA; exact WeierstrassCurve.Affine.Point.some_ne_zero _
  obtain ⟨R, r1, r2⟩ := jMulA_ok hk hA
  obtain ⟨a, a1, a2⟩ := jToA_ok r2 (nsmul_ne_zero_of hQ h1 h2)
  exact ⟨R, a, r1, a1, a2⟩

/-- The key pair built from 32 octets of a number in `[1, n-1]`. -/
theorem withPub_ok {d : List Byte} (hd : d.length = 32) (h1 : 1 ≤ beVal d) (h2 : beVal d < sm2n) :
    ∃ K, Sm2.withPub d = .ok K ∧ K.priv = d ∧ Sm2PubIs K.pub (beVal d • sm2G) := by
  obtain ⟨R, a, r1, a1, a2⟩ := mulG_affine hd h1 h2
  unfold Sm2.withPub
  rw [r1, ofOption_some, o_bind, a1, ofOption_some, o_bind]
  refine ⟨⟨d, ⟨a, Sm2.fpToBytes a.x, Sm2.fpToBytes a.y⟩⟩, rfl, rfl, ?_⟩
  · have hA := a2
    obtain ⟨hx, hy, hs, e⟩ := a2
    have b1 : ∀ v : ZMod sm2p, (beVal (fieldOctets v) : ZMod sm2p) = v := by
      intro v
      unfold fieldOctets
      rw [beVal_toBE, Nat.mod_eq_of_lt ((ZMod.val_lt _).trans (by decide +kernel)), ZMod.natCast_val, ZMod.cast_id]
    refine ⟨by rw [fpToBytes_eq hx, fieldOctets_len], by rw [fpToBytes_eq hy, fieldOctets_len], hA, ?_⟩
    show ∃ h, _ = WeierstrassCurve.Affine.Point.some (beVal (Sm2.fpToBytes a.x) : ZMod sm2p)
      (beVal (Sm2.fpToBytes a.y) : ZMod sm2p) h
    rw [fpToBytes_eq hx, fpToBytes_eq hy, b1, b1]
    exact ⟨hs, e⟩

end Verif
