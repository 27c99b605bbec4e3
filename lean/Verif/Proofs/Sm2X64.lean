import Verif.Proofs.BuildSim
import Verif.Proofs.Sm2Scheme
import Verif.Spec.Sm2Build
/-! # SM2 with 64-bit limbs computes what SM2 with 32-bit limbs computes -/
set_option linter.constructorNameAsVariable false
namespace Verif
open Spec

abbrev RP := RS sm2p
abbrev RN := RS sm2n

theorem relA_mk {α β : Type} {R : α → β → Prop} {a b : α} {a' b' : β} (h : R a a') (k : R b b') :
    RelA R ⟨a, b⟩ ⟨a', b'⟩ := ⟨h, k⟩

theorem big_p : 2 ^ 255 < sm2p := by decide +kernel

set_option exponentiation.threshold 300 in
/-- The field operations of the two builds correspond. -/
theorem fp_sim : FpSim Sm2.fp X64.Sm2.fp RP where
  add := rs_add Sm2.fpCtx_wf X64.sm2FpCtx_wf
  sub := rs_sub Sm2.fpCtx_wf X64.sm2FpCtx_wf
  mul := rs_mul Sm2.fpCtx_wf X64.sm2FpCtx_wf
  sqr := rs_sqr Sm2.fpCtx_wf X64.sm2FpCtx_wf
  dbl := rs_dbl Sm2.fpCtx_wf X64.sm2FpCtx_wf
  tpl := rs_tpl Sm2.fpCtx_wf X64.sm2FpCtx_wf big_p
  inv := rs_inv Sm2.fpCtx_wf X64.sm2FpCtx_wf
  eq := rs_equal (ctx := Sm2.fpCtx) (ctx' := X64.sm2FpCtx)
  isZero := rs_equalZero (ctx := Sm2.fpCtx) (ctx' := X64.sm2FpCtx)
  one := rs_one Sm2.fpCtx_wf X64.sm2FpCtx_wf
  zero := rs_zero Sm2.fpCtx_wf

theorem fpFrom_sim {bs : List Byte} (h : bs.length = 32) : RP (Sm2.fpFromBytes bs) (X64.Sm2.fpFromBytes bs) :=
  rs_fromBytes Sm2.fpCtx_wf X64.sm2FpCtx_wf h

theorem fpTo_sim {a : List W32} {b : List W64} (h : RP a b) : Sm2.fpToBytes a = X64.Sm2.fpToBytes b :=
  rs_toBytes Sm2.fpCtx_wf X64.sm2FpCtx_wf h

theorem neg_sim {a : List W32} {b : List W64} (h : RP a b) (hne : fpVal a ≠ 0) :
    RP (Sm2.fp.neg a) (X64.Sm2.fp.neg b) :=
  rs_neg Sm2.fpCtx_wf X64.sm2FpCtx_wf h (fun h0 => hne ((sm2_montVal_zero h.l).mpr h0))

theorem n_ns : NS Sm2.nLimbs X64.Sm2.nLimbs := ⟨by decide +kernel, by decide +kernel, by decide +kernel⟩

theorem nSub1_ns : NS Sm2.nSub1 X64.Sm2.nSub1 := ⟨by decide +kernel, by decide +kernel, by decide +kernel⟩

/-! ## Scalar multiplication -/

theorem mulALoop_sim {e e3 : List W32} {f f3 : List W64} (he : NS e f) (he3 : NS e3 f3) {P N : Sm2.A} {P' N' : X64.Sm2.A}
    (hP : RelA RP P P') (hN : RelA RP N N') : ∀ (i : Nat), i < 256 → ∀ (T : Sm2.J) (T' : X64.Sm2.J), RelJ RP T T' →
      RelO (RelJ RP) (mulALoop Sm2.fp e e3 P N i T) (X64.Sm2.mulALoop X64.Sm2.fp f f3 P' N' i T')
  | 0, _, T, T', hT => .some hT
  | i + 1, hi, T, T', hT => by
    unfold mulALoop X64.Sm2.mulALoop mulAStep X64.Sm2.mulAStep
    have hd := sim_dbl fp_sim hT
    revert hd
    generalize ecJDbl Sm2.fp T = t
    generalize ecJDbl X64.Sm2.fp T' = t'
    intro hd
    cases hd with
    | none => exact .none
    | some hd =>
      rw [ns_bitTest he hi, ns_bitTest he3 hi]
      have ih := mulALoop_sim he he3 hP hN i (by omega)
      have hb : ∀ (b3 b : Bool) (D : Sm2.J) (D' : X64.Sm2.J), RelJ RP D D' →
          RelJ RP (if b3 = true ∧ b = false then ecJAddA Sm2.fp D P else if b3 = false ∧ b = true then
            ecJAddA Sm2.fp D N else D) (if b3 = true ∧ b = false then ecJAddA X64.Sm2.fp D' P' else
            if b3 = false ∧ b = true then ecJAddA X64.Sm2.fp D' N' else D') := by
        intro b3 b D D' hD
        split
        · exact sim_addA fp_sim hD hP
        · split
          · exact sim_addA fp_sim hD hN
          · exact hD
      generalize X64.u256BitTest f (i + 1) = b1
      generalize X64.u256BitTest f3 (i + 1) = b2
      cases b1 with
      | none => exact .none
      | some b1 =>
        cases b2 with
        | none => exact .none
        | some b2 =>
          dsimp only
          have := hb b2 b1 _ _ hd
          by_cases c1 : b2 = true ∧ b1 = false
          · simp only [if_pos c1] at this ⊢
            exact ih _ _ this
          · by_cases c2 : b2 = false ∧ b1 = true
            · simp only [if_neg c1, if_pos c2] at this ⊢
              exact ih _ _ this
            · simp only [if_neg c1, if_neg c2] at this ⊢
              exact ih _ _ this

theorem topBit_sim {x : List W32} {y : List W64} (h : NS x y) : ∀ i, i < 256 → topBit x i = X64.Sm2.topBit y i
  | 0, hi => by
    unfold topBit X64.Sm2.topBit
    rw [ns_bitTest h hi]
    rfl
  | i + 1, hi => by
    unfold topBit X64.Sm2.topBit
    rw [ns_bitTest h hi, topBit_sim h i (by omega)]
    rfl

theorem topBit_le {x : List W32} : ∀ i t, topBit x i = some t → t ≤ i
  | 0, t, h => by
    unfold topBit at h
    split at h
    · cases h; exact le_rfl
    · cases h
  | i + 1, t, h => by
    unfold topBit at h
    split at h
    · cases h; exact le_rfl
    · exact (topBit_le i t h).trans (Nat.le_succ _)
    · cases h

theorem jMulA_sim {k : List Byte} (hk : k.length = 32) {A : Sm2.A} {A' : X64.Sm2.A} (hA : RelA RP A A')
    (hne : fpVal A.y ≠ 0) : RelO (RelJ RP) (Sm2.jMulA k A) (X64.Sm2.jMulA k A') := by
  have h0 := ns_fromBytes hk
  have hneg : RelA RP (ecANeg Sm2.fp A) (ecANeg X64.Sm2.fp A') := ⟨hA.x, neg_sim hA.y hne⟩
  unfold Sm2.jMulA X64.Sm2.jMulA ecJMulA X64.Sm2.ecJMulA
  have h1 : NS (if u256Cmp (u256FromBytes k) Sm2.nLimbs ≥ 0 then (u256SubBorrow (u256FromBytes k) Sm2.nLimbs).1
      else u256FromBytes k) (if X64.u256Cmp (X64.u256FromBytes k) X64.Sm2.nLimbs ≥ 0 then
        (X64.u256SubBorrow (X64.u256FromBytes k) X64.Sm2.nLimbs).1 else X64.u256FromBytes k) := by
    rw [ns_cmp h0 n_ns]
    split
    · exact ns_sub h0 n_ns
    · exact h0
  dsimp only
  revert h1
  generalize (if u256Cmp (u256FromBytes k) Sm2.nLimbs ≥ 0 then (u256SubBorrow (u256FromBytes k) Sm2.nLimbs).1
      else u256FromBytes k) = e
  generalize (if X64.u256Cmp (X64.u256FromBytes k) X64.Sm2.nLimbs ≥ 0 then
        (X64.u256SubBorrow (X64.u256FromBytes k) X64.Sm2.nLimbs).1 else X64.u256FromBytes k) = f
  intro h1
  rw [ns_equalZero h1]
  obtain ⟨h3, hc⟩ := ns_tpl h1
  rw [hc]
  have hT := sim_fromA fp_sim hA
  by_cases hz : X64.u256EqualZero f = true
  · simp only [if_pos hz]
    exact .some (sim_inf fp_sim)
  · simp only [if_neg hz]
    by_cases c1 : (X64.u256TplCarry f).2 = 1
    · rw [if_pos c1, if_pos c1]
      exact mulALoop_sim h1 h3 hA hneg 255 (by omega) _ _ hT
    · rw [if_neg c1, if_neg c1]
      by_cases c2 : (X64.u256TplCarry f).2 = 2
      · rw [if_pos c2, if_pos c2]
        have hd := sim_dbl fp_sim hT
        revert hd
        generalize ecJDbl Sm2.fp _ = t
        generalize ecJDbl X64.Sm2.fp _ = t'
        intro hd
        cases hd with
        | none => exact .none
        | some hd => exact mulALoop_sim h1 h3 hA hneg 255 (by omega) _ _ hd
      · rw [if_neg c2, if_neg c2, ← topBit_sim h3 255 (by omega)]
        cases ht : topBit (u256TplCarry e).1 255 with
        | none => exact .none
        | some t =>
          have := topBit_le 255 t ht
          exact mulALoop_sim h1 h3 hA hneg (t - 1) (by omega) _ _ hT

theorem gx_len : Sm2.sm2CurveGx.length = 32 := by decide +kernel
theorem gy_len : Sm2.sm2CurveGy.length = 32 := by decide +kernel
theorem ca_len : Sm2.sm2CurveA.length = 32 := by decide +kernel
theorem cb_len : Sm2.sm2CurveB.length = 32 := by decide +kernel
theorem cn_len : Sm2.sm2CurveN.length = 32 := by decide +kernel

theorem g_sim : RelA RP ⟨Sm2.fpFromBytes Sm2.sm2CurveGx, Sm2.fpFromBytes Sm2.sm2CurveGy⟩
    ⟨X64.Sm2.fpFromBytes Sm2.sm2CurveGx, X64.Sm2.fpFromBytes Sm2.sm2CurveGy⟩ :=
  relA_mk (fpFrom_sim gx_len) (fpFrom_sim gy_len)

theorem affine_y_ne {A : Sm2.A} {Q : Sm2Point} (h : Sm2IsAffine A Q) : fpVal A.y ≠ 0 := by
  obtain ⟨-, -, hs, -⟩ := h
  exact sm2_y_ne (sm2_onCurve hs)

theorem jMulG_sim {k : List Byte} (hk : k.length = 32) : RelO (RelJ RP) (Sm2.jMulG k) (X64.Sm2.jMulG k) :=
  jMulA_sim hk g_sim (affine_y_ne g_ok)

/-! ## Octets -/

theorem toBytes04_sim {A : Sm2.A} {A' : X64.Sm2.A} (h : RelA RP A A') : Sm2.toBytes04 A = X64.Sm2.toBytes04 A' := by
  unfold Sm2.toBytes04 X64.Sm2.toBytes04
  rw [fpTo_sim h.x, fpTo_sim h.y]

theorem encPoint_sim {A : Sm2.A} {A' : X64.Sm2.A} (h : RelA RP A A') (pc : Sm2.PC) :
    Sm2.encPoint pc A = X64.Sm2.encPoint pc A' := by
  cases pc
  · show Sm2.toUncompressed A = X64.Sm2.toUncompressed A'
    unfold Sm2.toUncompressed X64.Sm2.toUncompressed
    rw [toBytes04_sim h]
  · show Sm2.toCompressed A = X64.Sm2.toCompressed A'
    unfold Sm2.toCompressed X64.Sm2.toCompressed
    rw [fpTo_sim h.x, fpTo_sim h.y]
  · show Sm2.toMix A = X64.Sm2.toMix A'
    unfold Sm2.toMix X64.Sm2.toMix
    rw [toBytes04_sim h]

theorem curveA_sim : RP (Sm2.fpFromBytes Sm2.sm2CurveA) (X64.Sm2.fpFromBytes Sm2.sm2CurveA) :=
  fpFrom_sim ca_len
theorem curveB_sim : RP (Sm2.fpFromBytes Sm2.sm2CurveB) (X64.Sm2.fpFromBytes Sm2.sm2CurveB) :=
  fpFrom_sim cb_len

theorem ecCheck_sim {A : Sm2.A} {A' : X64.Sm2.A} (h : RelA RP A A') : Sm2.ecCheck A = X64.Sm2.ecCheck A' :=
  sim_check fp_sim curveA_sim curveB_sim h

theorem fpSqrt_sim {a : List W32} {b : List W64} (h : RP a b) :
    RelO (RelO RP) (Sm2.fpSqrt a) (X64.Sm2.fpSqrt b) := by
  unfold Sm2.fpSqrt X64.Sm2.fpSqrt
  have hp := rs_pow Sm2.fpCtx_wf X64.sm2FpCtx_wf (e := setEpi8 Sm2.pSub3Div4Add1)
    (e' := X64.u256FromBytes Sm2.pSub3Div4Add1) h (by decide +kernel) (by decide +kernel) (by decide +kernel)
    (by decide +kernel)
  revert hp
  generalize mont256Pow _ _ _ = t
  generalize X64.mont256Pow _ _ _ = t'
  intro hp
  cases hp with
  | none => exact .none
  | some hp =>
    have hs := rs_sqr Sm2.fpCtx_wf X64.sm2FpCtx_wf hp
    dsimp only
    rw [rs_equal (ctx := Sm2.fpCtx) (ctx' := X64.sm2FpCtx) h hs]
    split
    · exact .some .none
    · exact .some (.some hp)

theorem recoverY_sim {x : List W32} {x' : List W64} (h : RP x x') (b : Byte) :
    RelO (RelO RP) (Sm2.recoverY x b) (X64.Sm2.recoverY x' b) := by
  have F := fp_sim
  have hy2 := F.add (F.add curveB_sim (F.mul curveA_sim h)) (F.mul (F.sqr h) h)
  have hx' : IsFp x (fpVal x) := ⟨h.l, rfl⟩
  have hval : fpVal (Sm2.fp.add (Sm2.fp.add (Sm2.fpFromBytes Sm2.sm2CurveB) (Sm2.fp.mul
      (Sm2.fpFromBytes Sm2.sm2CurveA) x)) (Sm2.fp.mul (Sm2.fp.sqr x) x))
      = fpVal x ^ 3 + (-3) * fpVal x + (sm2b : ZMod sm2p) := by
    have := (sm2fp_hom.is_add (sm2fp_hom.is_add curveB_ok (sm2fp_hom.is_mul curveA_ok hx'))
      (sm2fp_hom.is_mul (sm2fp_hom.is_sqr hx') hx')).2
    rw [fpVal, this]; ring
  unfold Sm2.recoverY X64.Sm2.recoverY
  dsimp only
  have hs := fpSqrt_sim hy2
  have ho := fpSqrt_ok hy2.l
  rw [hval] at ho
  revert hs ho
  generalize Sm2.fpSqrt _ = t
  generalize X64.Sm2.fpSqrt _ = t'
  intro hs ho
  cases hs with
  | none => exact .none
  | some hs =>
    cases hs with
    | none => exact .some .none
    | @some y y' hs =>
      dsimp only
      rw [fpTo_sim hs]
      split
      · refine .some (.some (neg_sim hs ?_))
        rcases ho with ⟨t, t1, t2, t3⟩ | ⟨t1, -⟩
        · cases t1
          exact sm2_y_ne t3
        · cases t1
      · exact .some (.some hs)

/-- The results of a parser in the two builds correspond. -/
inductive RelP : Sm2.ParseRes (Sm2.A × Nat) → Sm2.ParseRes (X64.Sm2.A × Nat) → Prop
  | ub : RelP .ub .ub
  | fail : RelP .fail .fail
  | ok {A A' n} (h : RelA RP A A') (hc : Sm2.ecCheck A = true) : RelP (.ok (A, n)) (.ok (A', n))

theorem fromBytes_sim (inp : List Byte) (inl : Nat) : RelP (Sm2.ecAFromBytes inp inl) (X64.Sm2.ecAFromBytes inp inl) := by
  unfold Sm2.ecAFromBytes X64.Sm2.ecAFromBytes
  split
  · exact .fail
  · cases inp with
    | nil => exact .ub
    | cons b rest =>
      dsimp only
      split
      · split
        · exact .ub
        · rename_i hr
          have h : RelA RP (Sm2.fromBytes04 rest) (X64.Sm2.fromBytes04 rest) :=
            relA_mk (fpFrom_sim (by rw [List.length_take]; omega))
              (fpFrom_sim (by rw [List.length_take, List.length_drop]; omega))
          rw [← ecCheck_sim h]
          split
          · rename_i hc; exact .ok h hc
          · exact .fail
      · split
        · split
          · exact .ub
          · rename_i hr
            have h : RP (Sm2.fpFromBytes (rest.take 32)) (X64.Sm2.fpFromBytes (rest.take 32)) :=
              fpFrom_sim (by rw [List.length_take]; omega)
            have hs := recoverY_sim h (if b = 0x02 then 0 else 1)
            revert hs
            generalize Sm2.recoverY _ _ = t
            generalize X64.Sm2.recoverY _ _ = t'
            intro hs
            cases hs with
            | none => exact .ub
            | some hs =>
              cases hs with
              | none => exact .fail
              | some hs =>
                dsimp only
                have hA := relA_mk h hs
                rw [← ecCheck_sim hA]
                split
                · rename_i hc; exact .ok hA hc
                · exact .fail
        · exact .fail

/-! ## Outcomes -/

theorem ofOpt_bind {α β γ : Type} {R : α → β → Prop} {x : Option α} {y : Option β} (h : RelO R x y)
    {f : α → Outcome γ} {g : β → Outcome γ} (hfg : ∀ a b, R a b → f a = g b) :
    (Outcome.ofOption x >>= f) = (Outcome.ofOption y >>= g) := by
  cases h with
  | none => rfl
  | some h => exact hfg _ _ h

/-- Outcomes of the two builds that correspond. -/
inductive RelOut {α β : Type} (R : α → β → Prop) : Outcome α → Outcome β → Prop
  | ok {a b} (h : R a b) : RelOut R (.ok a) (.ok b)
  | throw : RelOut R .throw .throw
  | ub : RelOut R .ub .ub

theorem relOut_bind {α β γ : Type} {R : α → β → Prop} {x : Outcome α} {y : Outcome β} (h : RelOut R x y)
    {f : α → Outcome γ} {g : β → Outcome γ} (hfg : ∀ a b, R a b → f a = g b) : (x >>= f) = (y >>= g) := by
  cases h with
  | ok h => exact hfg _ _ h
  | throw => rfl
  | ub => rfl

theorem bind_congr' {α γ : Type} (x : Outcome α) {f g : α → Outcome γ} (h : ∀ a, f a = g a) :
    (x >>= f) = (x >>= g) := by
  rw [funext h]

/-! ## The field of scalars -/

theorem fn_add_sim {a b : List W32} {a' b' : List W64} (ha : RN a a') (hb : RN b b') :
    RN (mont256Add Sm2.fnCtx a b) (X64.mont256Add X64.sm2FnCtx a' b') := rs_add Sm2.fnCtx_wf X64.sm2FnCtx_wf ha hb

theorem fn_from_sim {bs : List Byte} (h : bs.length = 32) :
    RN (mont256FromBytes Sm2.fnCtx bs) (X64.mont256FromBytes X64.sm2FnCtx bs) :=
  rs_fromBytes Sm2.fnCtx_wf X64.sm2FnCtx_wf h

theorem fn_to_sim {a : List W32} {b : List W64} (h : RN a b) :
    mont256ToBytes Sm2.fnCtx a = X64.mont256ToBytes X64.sm2FnCtx b := rs_toBytes Sm2.fnCtx_wf X64.sm2FnCtx_wf h

theorem fn_zero_sim {a : List W32} {b : List W64} (h : RN a b) :
    mont256EqualZero Sm2.fnCtx a = X64.mont256EqualZero X64.sm2FnCtx b := rs_equalZero h

theorem fp_len {a : List W32} (h : Reduced sm2p a) : (Sm2.fpToBytes a).length = 32 := by
  rw [fpToBytes_eq h, fieldOctets_len]

theorem fnFromFp_sim {a : List W32} {b : List W64} (h : RP a b) : RN (Sm2.fnFromFp a) (X64.Sm2.fnFromFp b) := by
  unfold Sm2.fnFromFp X64.Sm2.fnFromFp
  rw [← fpTo_sim h]
  exact fn_from_sim (fp_len h.l)

theorem modNSub1_sim {a : List W32} {b : List W64} (h : NS a b) : NS (Sm2.bnModNSub1 a) (X64.Sm2.bnModNSub1 b) := by
  unfold Sm2.bnModNSub1 X64.Sm2.bnModNSub1
  rw [ns_cmp h nSub1_ns]
  split
  · exact ns_sub h nSub1_ns
  · exact h

theorem nonce_sim {rnd : List Byte} (h : rnd.length = 32) : Sm2.nonce rnd = X64.Sm2.nonce rnd :=
  ns_toBytes (ns_inc (modNSub1_sim (ns_fromBytes h)))

/-! ## Keys -/

/-- Corresponding public keys: the same octets, the same point of the curve. -/
structure PubSim (K : Sm2.Pub) (K' : X64.Sm2.Pub) : Prop where
  x : K.x = K'.x
  y : K.y = K'.y
  P : RelA RP K.P K'.P
  valid : ∃ Q, Sm2PubIs K Q

structure PrivSim (K : Sm2.Priv) (K' : X64.Sm2.Priv) : Prop where
  priv : K.priv = K'.priv
  len : K.priv.length = 32
  pub : PubSim K.pub K'.pub

theorem pubIs_of {x y : List Byte} (hx : x.length = 32) (hy : y.length = 32) {A : Sm2.A}
    (ex : A.x = Sm2.fpFromBytes x) (ey : A.y = Sm2.fpFromBytes y) {Q : Sm2Point} (h : Sm2IsAffine A Q) :
    Sm2PubIs ⟨A, x, y⟩ Q := by
  refine ⟨hx, hy, h, ?_⟩
  obtain ⟨h1, h2, hs, rfl⟩ := h
  have e1 : fpVal A.x = (beVal x : ZMod sm2p) := by rw [ex]; exact (fpFromBytes_ok hx).2
  have e2 : fpVal A.y = (beVal y : ZMod sm2p) := by rw [ey]; exact (fpFromBytes_ok hy).2
  revert hs
  rw [e1, e2]
  intro hs
  exact ⟨hs, rfl⟩

theorem setPub_sim {x y : List Byte} (hx : x.length = 32) (hy : y.length = 32) :
    RelOut PubSim (Sm2.setPub x y) (X64.Sm2.setPub x y) := by
  unfold Sm2.setPub X64.Sm2.setPub
  have h := relA_mk (fpFrom_sim hx) (fpFrom_sim hy)
  dsimp only
  rw [← ecCheck_sim h]
  cases hc : Sm2.ecCheck ⟨Sm2.fpFromBytes x, Sm2.fpFromBytes y⟩ with
  | false => exact .throw
  | true =>
    obtain ⟨Q, hQ⟩ := (ecCheck_iff h.x.l h.y.l).mp hc
    exact .ok ⟨rfl, rfl, h, Q, pubIs_of hx hy rfl rfl hQ⟩

theorem withPub_sim {d : List Byte} (hd : d.length = 32) (h1 : 1 ≤ beVal d) (h2 : beVal d < sm2n) :
    RelOut PrivSim (Sm2.withPub d) (X64.Sm2.withPub d) := by
  obtain ⟨R, a, r1, a1, a2⟩ := mulG_affine hd h1 h2
  unfold Sm2.withPub X64.Sm2.withPub
  have hg := jMulG_sim hd
  rw [r1] at hg ⊢
  revert hg
  generalize X64.Sm2.jMulG d = t
  intro hg
  cases hg with
  | some hg =>
    rename_i R'
    have ht := sim_toA fp_sim hg
    rw [ofOption_some, ofOption_some, o_bind, o_bind, a1]
    have ht' : RelO (RelA RP) (some a) (X64.Sm2.jToA R') := by rw [← a1]; exact ht
    revert ht'
    generalize X64.Sm2.jToA R' = t
    intro ht'
    cases ht' with
    | some ht' =>
      rw [ofOption_some, ofOption_some, o_bind, o_bind]
      have hx := ht'.x
      have hy := ht'.y
      refine .ok ⟨rfl, hd, ?_⟩
      exact ⟨fpTo_sim hx, fpTo_sim hy, ht', _,
        pubIs_of (fp_len hx.l) (fp_len hy.l) (fpFrom_to hx.l).symm (fpFrom_to hy.l).symm a2⟩

theorem genPriv_sim {rnd : List Byte} (h : rnd.length = 32) : RelOut PrivSim (Sm2.genPriv rnd) (X64.Sm2.genPriv rnd) := by
  have hn := nonce_range h
  have hl := nonce_len h
  have hs := nonce_sim h
  show RelOut PrivSim (Sm2.withPub (Sm2.nonce rnd)) (X64.Sm2.withPub (X64.Sm2.nonce rnd))
  rw [← hs]
  exact withPub_sim hl hn.1 hn.2

theorem setPriv_sim {d : List Byte} (h : d.length = 32) : RelOut PrivSim (Sm2.setPriv d) (X64.Sm2.setPriv d) := by
  have hd := ns_fromBytes h
  have ht := modNSub1_sim hd
  obtain ⟨l, v⟩ := u256FromBytes_spec d h
  obtain ⟨l1, v1⟩ := bnModNSub1_ok l
  have hc := (Props.C31_cmp _ _ l l1).1
  have hz := u256EqualZero_iff (u256FromBytes d)
  unfold Sm2.setPriv X64.Sm2.setPriv
  dsimp only
  rw [← ns_equalZero hd, ← ns_cmp hd ht]
  split
  · exact .throw
  · rename_i hn
    rw [not_or, hc, v1, v] at hn
    rw [v] at hz
    have h0 : beVal d ≠ 0 := fun h0 => hn.1 (hz.mpr h0)
    have h2 : beVal d % (sm2n - 1) < sm2n - 1 := Nat.mod_lt _ (by decide +kernel)
    have h3 := hn.2
    have h4 : beVal d = beVal d % (sm2n - 1) := by
      by_contra hne
      apply h3
      split_ifs <;> omega
    exact withPub_sim h (by omega) (by omega)

/-! ## The schemes -/

section
variable {S : Type} (C : HashClass S)

theorem verify_sim {K : Sm2.Pub} {K' : X64.Sm2.Pub} (hK : PubSim K K') {sigR sigS : List Byte} (hr : sigR.length = 32)
    (hs : sigS.length = 32) (msg id : List Byte) :
    Sm2.verifyBody C K sigR sigS msg id = X64.Sm2.verifyBody C K' sigR sigS msg id := by
  have nr := ns_fromBytes hr
  have nss := ns_fromBytes hs
  have nn := ns_fromBytes cn_len
  have fr := fn_from_sim hr
  have fs := fn_from_sim hs
  have fsum := fn_add_sim fr fs
  obtain ⟨Q, q1, q2, q3, q4⟩ := hK.valid
  unfold Sm2.verifyBody X64.Sm2.verifyBody
  dsimp only
  rw [ns_equalZero nr, ns_equalZero nss, ns_cmp nr nn, ns_cmp nss nn, ← hK.x, ← hK.y, fn_zero_sim fsum, fn_to_sim fsum]
  split
  · rfl
  · refine bind_congr' _ fun Z => bind_congr' _ fun Z => ?_
    split
    · rfl
    · have htl : (X64.mont256ToBytes X64.sm2FnCtx (X64.mont256Add X64.sm2FnCtx
          (X64.mont256FromBytes X64.sm2FnCtx sigR) (X64.mont256FromBytes X64.sm2FnCtx sigS))).length = 32 := by
        obtain ⟨x, -, -, x3, -⟩ := X64.Props.C39_x64_to_bytes X64.sm2FnCtx_wf _ fsum.r
        rw [x3, toBE_len]
      have hA := relA_mk (fpFrom_sim q1) (fpFrom_sim q2)
      have hy : fpVal (EcA.mk (Sm2.fpFromBytes K.x) (Sm2.fpFromBytes K.y)).y ≠ 0 := by
        show fpVal (Sm2.fpFromBytes K.y) ≠ 0
        rw [(fpFromBytes_ok q2).2]
        obtain ⟨hq, -⟩ := q4
        exact sm2_y_ne (sm2_onCurve hq)
      refine ofOpt_bind (jMulG_sim hs) fun sG sG' hsG => ofOpt_bind (jMulA_sim htl hA hy) fun tP tP' htP =>
        ofOpt_bind (sim_add fp_sim hsG htP) fun R R' hR => ofOpt_bind (sim_toA fp_sim hR) fun a a' ha =>
        ofOpt_bind (rs_fromBytesEx Sm2.fnCtx_wf X64.sm2FnCtx_wf _) fun e e' he => ?_
      rw [rs_equal (ctx := Sm2.fnCtx) (ctx' := X64.sm2FnCtx) (fn_add_sim he (fnFromFp_sim ha.x)) fr]

theorem verify_sim' {K : Sm2.Pub} {K' : X64.Sm2.Pub} (hK : PubSim K K') {sig : List Byte} (hl : sig.length = 64)
    (msg id : List Byte) : Sm2.verify C K sig msg id = X64.Sm2.verify C K' sig msg id := by
  unfold Sm2.verify X64.Sm2.verify
  rw [verify_sim C hK (by rw [List.length_take]; omega) (by rw [List.length_take, List.length_drop]; omega)]

theorem signStep_sim {d Z rnd : List Byte} (hd : d.length = 32) (hr : rnd.length = 32) :
    Sm2.signStep d Z rnd = X64.Sm2.signStep d Z rnd := by
  have hl := nonce_len hr
  unfold Sm2.signStep X64.Sm2.signStep
  dsimp only
  rw [← nonce_sim hr]
  refine ofOpt_bind (jMulG_sim hl) fun kG kG' hk => ofOpt_bind (sim_toA fp_sim hk) fun a a' ha =>
    ofOpt_bind (rs_fromBytesEx Sm2.fnCtx_wf X64.sm2FnCtx_wf _) fun e e' he => ?_
  have h1 := fn_add_sim he (fnFromFp_sim ha.x)
  have hk := fn_from_sim hl
  have h2 := fn_add_sim h1 hk
  have hda := fn_from_sim hd
  rw [fn_zero_sim h1, fn_zero_sim h2]
  split
  · rfl
  · refine ofOpt_bind (rs_inv Sm2.fnCtx_wf X64.sm2FnCtx_wf (fn_add_sim (rs_one Sm2.fnCtx_wf X64.sm2FnCtx_wf) hda))
      fun s s' hs => ?_
    have h3 := rs_mul Sm2.fnCtx_wf X64.sm2FnCtx_wf hs
      (rs_sub Sm2.fnCtx_wf X64.sm2FnCtx_wf hk (rs_mul Sm2.fnCtx_wf X64.sm2FnCtx_wf h1 hda))
    rw [fn_zero_sim h3, fn_to_sim h1, fn_to_sim h3]

theorem signLoop_sim {d : List Byte} (hd : d.length = 32) (Z : List Byte) : ∀ rnds : List (List Byte),
    (∀ r ∈ rnds, r.length = 32) → Sm2.signLoop d Z rnds = X64.Sm2.signLoop d Z rnds
  | [], _ => rfl
  | r :: rest, h => by
    unfold Sm2.signLoop X64.Sm2.signLoop
    rw [signStep_sim hd (h r List.mem_cons_self), signLoop_sim hd Z rest fun x hx => h x (List.mem_cons_of_mem _ hx)]
    rfl

theorem sign_sim {K : Sm2.Priv} {K' : X64.Sm2.Priv} (hK : PrivSim K K') (msg : List Byte) {rnds : List (List Byte)}
    (hr : ∀ r ∈ rnds, r.length = 32) (id : List Byte) : Sm2.sign C K msg rnds id = X64.Sm2.sign C K' msg rnds id := by
  unfold Sm2.sign X64.Sm2.sign
  rw [← hK.pub.x, ← hK.pub.y, ← hK.priv]
  refine bind_congr' _ fun Z => bind_congr' _ fun Z => ?_
  exact signLoop_sim hK.len _ rnds hr

theorem encryptStep_sim {K : Sm2.Pub} {K' : X64.Sm2.Pub} (hK : PubSim K K') (pt : List Byte) {rnd : List Byte}
    (hr : rnd.length = 32) (pc : Sm2.PC) : Sm2.encryptStep C K pt rnd pc = X64.Sm2.encryptStep C K' pt rnd pc := by
  have hl := nonce_len hr
  obtain ⟨Q, q1, q2, q3, q4⟩ := hK.valid
  unfold Sm2.encryptStep X64.Sm2.encryptStep
  dsimp only
  rw [← nonce_sim hr]
  refine ofOpt_bind (jMulG_sim hl) fun kG kG' hk => ofOpt_bind (sim_toA fp_sim hk) fun a a' ha =>
    ofOpt_bind (jMulA_sim hl hK.P (affine_y_ne q3)) fun kP kP' hkP => ofOpt_bind (sim_toA fp_sim hkP) fun b b' hb => ?_
  rw [toBytes04_sim hb, encPoint_sim ha pc]
  refine bind_congr' _ fun o => ?_
  cases o <;> rfl

theorem encrypt_sim {K : Sm2.Pub} {K' : X64.Sm2.Pub} (hK : PubSim K K') (pt : List Byte) (pc : Sm2.PC) :
    ∀ rnds : List (List Byte), (∀ r ∈ rnds, r.length = 32) →
      Sm2.encrypt C K pt pc rnds = X64.Sm2.encrypt C K' pt pc rnds
  | [], _ => rfl
  | r :: rest, h => by
    unfold Sm2.encrypt X64.Sm2.encrypt
    rw [encryptStep_sim C hK pt (h r List.mem_cons_self) pc,
      encrypt_sim hK pt pc rest fun x hx => h x (List.mem_cons_of_mem _ hx)]
    rfl

theorem decrypt_sim {K : Sm2.Priv} {K' : X64.Sm2.Priv} (hK : PrivSim K K') (ct : List Byte) :
    Sm2.decrypt C K ct = X64.Sm2.decrypt C K' ct := by
  unfold Sm2.decrypt X64.Sm2.decrypt
  refine bind_congr' _ fun n => ?_
  unfold Sm2.decryptBody X64.Sm2.decryptBody
  have hp := fromBytes_sim (ct.take (ct.length - n - C.DS)) (ct.take (ct.length - n - C.DS)).length
  dsimp only
  revert hp
  generalize Sm2.ecAFromBytes _ _ = t
  generalize X64.Sm2.ecAFromBytes _ _ = t'
  intro hp
  cases hp with
  | ub => rfl
  | fail => rfl
  | ok h hc =>
    dsimp only
    split
    · rfl
    · obtain ⟨Q, hQ⟩ := (ecCheck_iff h.x.l h.y.l).mp hc
      rw [← hK.priv]
      refine ofOpt_bind (jMulA_sim hK.len h (affine_y_ne hQ)) fun j j' hj => ofOpt_bind (sim_toA fp_sim hj)
        fun a a' ha => ?_
      rw [toBytes04_sim ha]
      refine bind_congr' _ fun o => ?_
      cases o <;> rfl

theorem onPub_sim {K : Sm2.Pub} {K' : X64.Sm2.Pub} (hK : PubSim K K') (c : PubCall) (hc : c.Sized) :
    (sm2Portable C).onPub K c = (sm2X64 C).onPub K' c := by
  cases c with
  | getPub =>
    show Sm2Obs.octets K.x K.y = Sm2Obs.octets K'.x K'.y
    rw [hK.x, hK.y]
  | verify sig msg id =>
    have hl : sig.length = 64 := hc
    exact congrArg Sm2Obs.verdict (verify_sim' C hK hl msg id)
  | encrypt pt pc rnds =>
    show Sm2Obs.produced _ = Sm2Obs.produced _
    exact congrArg _ (encrypt_sim C hK pt pc rnds hc)

theorem onPriv_sim {K : Sm2.Priv} {K' : X64.Sm2.Priv} (hK : PrivSim K K') (c : PrivCall) (hc : c.Sized) :
    (sm2Portable C).onPriv K c = (sm2X64 C).onPriv K' c := by
  cases c with
  | onPub c => exact onPub_sim C hK.pub c hc
  | getPriv =>
    show Sm2Obs.octets K.priv [] = Sm2Obs.octets K'.priv []
    rw [hK.priv]
  | sign msg rnds id => exact congrArg Sm2Obs.produced (sign_sim C hK msg hc id)
  | decrypt ct => exact congrArg Sm2Obs.plain (decrypt_sim C hK ct)

theorem pubSession_eq {x y : List Byte} (hx : x.length = 32) (hy : y.length = 32) (calls : List PubCall)
    (hc : ∀ c ∈ calls, c.Sized) : (sm2Portable C).pubSession x y calls = (sm2X64 C).pubSession x y calls := by
  have e1 : (sm2Portable C).setPub = Sm2.setPub := by simp only [sm2Portable]
  have e2 : (sm2X64 C).setPub = X64.Sm2.setPub := by simp only [sm2X64]
  unfold Sm2Api.pubSession
  rw [e1, e2]
  refine relOut_bind (setPub_sim hx hy) fun K K' hK => ?_
  rw [List.map_congr_left fun c h => onPub_sim C hK c (hc c h)]

theorem privSession_eq {d : List Byte} (hd : d.length = 32) (calls : List PrivCall)
    (hc : ∀ c ∈ calls, c.Sized) : (sm2Portable C).privSession d calls = (sm2X64 C).privSession d calls := by
  have e1 : (sm2Portable C).setPriv = Sm2.setPriv := by simp only [sm2Portable]
  have e2 : (sm2X64 C).setPriv = X64.Sm2.setPriv := by simp only [sm2X64]
  unfold Sm2Api.privSession
  rw [e1, e2]
  refine relOut_bind (setPriv_sim hd) fun K K' hK => ?_
  rw [List.map_congr_left fun c h => onPriv_sim C hK c (hc c h)]

theorem genSession_eq {rnd : List Byte} (hr : rnd.length = 32) (calls : List PrivCall)
    (hc : ∀ c ∈ calls, c.Sized) : (sm2Portable C).genSession rnd calls = (sm2X64 C).genSession rnd calls := by
  have e1 : (sm2Portable C).genPriv = Sm2.genPriv := by simp only [sm2Portable]
  have e2 : (sm2X64 C).genPriv = X64.Sm2.genPriv := by simp only [sm2X64]
  unfold Sm2Api.genSession
  rw [e1, e2]
  refine relOut_bind (genPriv_sim hr) fun K K' hK => ?_
  rw [List.map_congr_left fun c h => onPriv_sim C hK c (hc c h)]

end

/-- What corresponds to an accepted key. -/
theorem relOut_ok {α β : Type} {R : α → β → Prop} {x : Outcome α} {b : β} (h : RelOut R x (.ok b)) :
    ∃ a, x = .ok a ∧ R a b := by
  cases h with
  | ok h => exact ⟨_, rfl, h⟩

theorem relOut_ok' {α β : Type} {R : α → β → Prop} {a : α} {y : Outcome β} (h : RelOut R (.ok a) y) :
    ∃ b, y = .ok b ∧ R a b := by
  cases h with
  | ok h => exact ⟨_, rfl, h⟩

/-- Two numbers in 32 octets each make 64 octets. -/
theorem sig_len {α β γ : Type} {p q t : α → β → γ → Nat → Nat → Prop} {sig : List Byte}
    (h : ∃ a b c r s, p a b c r s ∧ q a b c r s ∧ t a b c r s ∧ sig = toBE 32 r ++ toBE 32 s) : sig.length = 64 := by
  obtain ⟨_, _, _, r, s, -, -, -, e⟩ := h
  rw [e, List.length_append, toBE_len, toBE_len]

end Verif
