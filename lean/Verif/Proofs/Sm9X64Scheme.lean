import Verif.Proofs.Sm9X64Sim
/-! # SM9 with 64-bit limbs: hashing, octets, keys, signing and verification -/
set_option linter.constructorNameAsVariable false
set_option linter.unusedSectionVars false
namespace Verif
open Spec

/-! ## Numbers modulo `N` -/

theorem s9modNSub1_sim {a : List W32} {b : List W64} (h : NS a b) : NS (Sm9.bnModNSub1 a) (X64.Sm9.bnModNSub1 b) := by
  unfold Sm9.bnModNSub1 X64.Sm9.bnModNSub1
  rw [ns_cmp h s9nSub1_ns]
  split
  · exact ns_sub h s9nSub1_ns
  · exact h

theorem s9nonce_sim {rnd : List Byte} (h : rnd.length = 32) : Sm9.nonce rnd = X64.Sm9.nonce rnd :=
  ns_toBytes (ns_inc (s9modNSub1_sim (ns_fromBytes h)))

theorem s9nSub1_x : X64.Sm9.nSub1.length = 4 ∧ val X64.Sm9.nSub1 = sm9n - 1 := by decide +kernel

theorem s9mod_sim (data : List Byte) : RelO NS (u256Mod data Sm9.nSub1) (X64.u256Mod data X64.Sm9.nSub1) := by
  obtain ⟨r, r1, r2, r3⟩ := u256Mod_spec Sm9.nSub1 s9nSub1.1 (by rw [s9nSub1.2]; decide +kernel) data
  obtain ⟨s, s1, s2, s3⟩ := X64.u256Mod_spec X64.Sm9.nSub1 s9nSub1_x.1 (by rw [s9nSub1_x.2]; decide +kernel) data
  rw [r1, s1]
  refine .some ⟨r2, s2, ?_⟩
  rw [r3, s3, s9nSub1.2, s9nSub1_x.2]

theorem hn_sim {S : Type} (C : HashClass S) (Z1 Z2 : List Byte) (tag : Byte) :
    Sm9.hn C Z1 Z2 tag = X64.Sm9.hn C Z1 Z2 tag := by
  unfold Sm9.hn X64.Sm9.hn
  refine bind_congr' _ fun Ha => ?_
  refine ofOpt_bind (s9mod_sim (Ha.take 40)) fun a b h => ?_
  dsimp only
  rw [ns_toBytes (ns_inc h)]

abbrev R9N := RS sm9n

theorem s9fn_from_sim {bs : List Byte} (h : bs.length = 32) :
    R9N (mont256FromBytes Sm9.fnCtx bs) (X64.mont256FromBytes X64.sm9FnCtx bs) :=
  rs_fromBytes Sm9.fnCtx_wf X64.sm9FnCtx_wf h

/-! ## Points as octets -/

theorem s9toBytes04_sim {A : Sm9.A} {A' : X64.Sm9.A} (h : RelA RO A A') : Sm9.toBytes04 A = X64.Sm9.toBytes04 A' := by
  unfold Sm9.toBytes04 X64.Sm9.toBytes04
  rw [rtb h.x, rtb h.y]

theorem s9encPoint_sim {A : Sm9.A} {A' : X64.Sm9.A} (h : RelA RO A A') (pc : Sm2.PC) :
    Sm9.encPoint pc A = X64.Sm9.encPoint pc A' := by
  cases pc
  · show Sm9.toUncompressed A = X64.Sm9.toUncompressed A'
    unfold Sm9.toUncompressed X64.Sm9.toUncompressed
    rw [s9toBytes04_sim h]
  · show Sm9.toCompressed A = X64.Sm9.toCompressed A'
    unfold Sm9.toCompressed X64.Sm9.toCompressed
    rw [rtb h.x, rtb h.y]
  · show Sm9.toMix A = X64.Sm9.toMix A'
    unfold Sm9.toMix X64.Sm9.toMix
    rw [s9toBytes04_sim h]

theorem s9b_sim : RO (Sm9.fpFromBytes Sm9.sm9CurveB) (X64.Sm9.fpFromBytes Sm9.sm9CurveB) := rfb s9b_len

theorem s9ecCheck_sim {A : Sm9.A} {A' : X64.Sm9.A} (h : RelA RO A A') : Sm9.ecCheck A = X64.Sm9.ecCheck A' :=
  ws_check0 sm9_ws s9b_sim h

theorem s9b2_sim : R2 RO ⟨Sm9.fp.zero, Sm9.fpFromBytes Sm9.sm9CurveB⟩ ⟨X64.Sm9.fp.zero, X64.Sm9.fpFromBytes Sm9.sm9CurveB⟩ :=
  r2_mk sm9_ws.zero s9b_sim

theorem s9ec2Check_sim {A : Sm9.A2} {A' : X64.Sm9.A2} (h : RelA (R2 RO) A A') : Sm9.ec2Check A = X64.Sm9.ec2Check A' :=
  ws_check0 sm9_ws.two s9b2_sim h

theorem neg1_sim : RS sm9p (mont256Neg Sm9.fpCtx (mont256SetOne Sm9.fpCtx))
    (X64.mont256Neg X64.sm9FpCtx (X64.mont256SetOne X64.sm9FpCtx)) :=
  rs_neg Sm9.fpCtx_wf X64.sm9FpCtx_wf (rs_one Sm9.fpCtx_wf X64.sm9FpCtx_wf) (by decide +kernel)

theorem equalOne_sim {a : List W32} {b : List W64} (h : RS sm9p a b) :
    mont256EqualOne Sm9.fpCtx a = X64.mont256EqualOne X64.sm9FpCtx b :=
  rs_equal (ctx := Sm9.fpCtx) (ctx' := X64.sm9FpCtx) h (rs_one Sm9.fpCtx_wf X64.sm9FpCtx_wf)

theorem s9two_len : Sm9.twoPow2u1Data.length = 32 := by decide +kernel

theorem s9fpSqrt_sim {a : List W32} {b : List W64} (h : RO a b) :
    RelO (RelO RO) (Sm9.fpSqrt a) (X64.Sm9.fpSqrt b) := by
  unfold Sm9.fpSqrt X64.Sm9.fpSqrt
  have hp := rs_pow Sm9.fpCtx_wf X64.sm9FpCtx_wf (e := setEpi8 Sm9.uMul2Add1)
    (e' := X64.u256FromBytes Sm9.uMul2Add1) (ro_rs h) (by decide +kernel) (by decide +kernel) (by decide +kernel)
    (by decide +kernel)
  have hq := rs_pow Sm9.fpCtx_wf X64.sm9FpCtx_wf (e := setEpi8 Sm9.uAdd1)
    (e' := X64.u256FromBytes Sm9.uAdd1) (ro_rs h) (by decide +kernel) (by decide +kernel) (by decide +kernel)
    (by decide +kernel)
  dsimp only
  revert hp hq
  generalize mont256Pow Sm9.fpCtx a (setEpi8 Sm9.uMul2Add1) = t
  generalize X64.mont256Pow _ _ (X64.u256FromBytes Sm9.uMul2Add1) = t'
  generalize mont256Pow Sm9.fpCtx a (setEpi8 Sm9.uAdd1) = s
  generalize X64.mont256Pow _ _ (X64.u256FromBytes Sm9.uAdd1) = s'
  intro hp hq
  cases hp with
  | none => exact .none
  | some hp =>
    dsimp only
    rw [equalOne_sim hp, rs_equal (ctx := Sm9.fpCtx) (ctx' := X64.sm9FpCtx) hp neg1_sim]
    split
    · exact .some .none
    · cases hq with
      | none => exact .none
      | some hq =>
        dsimp only
        split
        · exact .some (.some (rs_ro (rs_mul Sm9.fpCtx_wf X64.sm9FpCtx_wf hq
            (rs_fromBytes Sm9.fpCtx_wf X64.sm9FpCtx_wf s9two_len))))
        · exact .some (.some (rs_ro hq))

theorem s9neg_sim {a : List W32} {b : List W64} (h : RO a b) (hne : montVal sm9p a ≠ 0) :
    RO (Sm9.fp.neg a) (X64.Sm9.fp.neg b) :=
  rs_ro (rs_neg Sm9.fpCtx_wf X64.sm9FpCtx_wf (ro_rs h) (fun h0 => hne ((montVal_zero_iff Sm9.fpCtx_wf h.l).mpr h0)))

theorem s9recoverY_sim {x : List W32} {x' : List W64} (h : RO x x') (b : Byte) :
    RelO (RelO RO) (Sm9.recoverY x b) (X64.Sm9.recoverY x' b) := by
  have W := sm9_ws
  have hy2 := W.add s9b_sim (W.mulO (W.sqrO h) h)
  have H := sm9fp_wk0
  have hx' : Is (Reduced sm9p) (montVal sm9p) x (montVal sm9p x) := ⟨h.l, rfl⟩
  have hval := (H.iAdd s9B_ok (H.iMulO (H.iSqr (H.w hx')) hx')).2
  have e : 5 + montVal sm9p x ^ 2 * montVal sm9p x = montVal sm9p x ^ 3 + 5 := by ring
  rw [e] at hval
  unfold Sm9.recoverY X64.Sm9.recoverY
  dsimp only
  have hs := s9fpSqrt_sim hy2
  have ho := sm9_fpSqrt hy2.l
  rw [hval] at ho
  revert hs ho
  generalize Sm9.fpSqrt _ = t
  generalize X64.Sm9.fpSqrt _ = t'
  intro hs ho
  cases hs with
  | none => exact .none
  | some hs =>
    cases hs with
    | none => exact .some .none
    | @some y y' hs =>
      dsimp only
      rw [rtb hs]
      split
      · refine .some (.some (s9neg_sim hs ?_))
        rcases ho with ⟨t, t1, t2, t3, -⟩ | ⟨t1, -⟩
        · cases t1
          exact sm9_y_ne t3
        · cases t1
      · exact .some (.some hs)

/-- The results of the decoder of points in the two builds correspond. -/
inductive RelP9 : Sm2.ParseRes (Sm9.A × Nat) → Sm2.ParseRes (X64.Sm9.A × Nat) → Prop
  | ub : RelP9 .ub .ub
  | fail : RelP9 .fail .fail
  | ok {A A' n} (h : RelA RO A A') : RelP9 (.ok (A, n)) (.ok (A', n))

theorem s9fromBytes_sim (inp : List Byte) (inl : Nat) : RelP9 (Sm9.ecAFromBytes inp inl) (X64.Sm9.ecAFromBytes inp inl) := by
  unfold Sm9.ecAFromBytes X64.Sm9.ecAFromBytes
  split
  · exact .fail
  · cases inp with
    | nil => exact .ub
    | cons b rest =>
      dsimp only
      split
      · split
        · exact .ub
        · rename_i hr
          have h : RelA RO (Sm9.fromBytes04 rest) (X64.Sm9.fromBytes04 rest) :=
            relA_mk (rfb (by rw [List.length_take]; omega))
              (rfb (by rw [List.length_take, List.length_drop]; omega))
          rw [← s9ecCheck_sim h]
          split
          · exact .ok h
          · exact .fail
      · split
        · split
          · exact .ub
          · rename_i hr
            have h : RO (Sm9.fpFromBytes (rest.take 32)) (X64.Sm9.fpFromBytes (rest.take 32)) :=
              rfb (by rw [List.length_take]; omega)
            have hs := s9recoverY_sim h (if b = 0x02 then 0 else 1)
            revert hs
            generalize Sm9.recoverY _ _ = t
            generalize X64.Sm9.recoverY _ _ = t'
            intro hs
            cases hs with
            | none => exact .ub
            | some hs =>
              cases hs with
              | none => exact .fail
              | some hs =>
                dsimp only
                have hA := relA_mk h hs
                rw [← s9ecCheck_sim hA]
                split
                · exact .ok hA
                · exact .fail
        · exact .fail

/-! ## Keys -/

/-- The public keys hold the same point and the same pairing value. -/
structure Pub9 (K : Sm9.MPub) (K' : X64.Sm9.MPub) : Prop where
  P : RelA (R2 RO) K.P K'.P
  e : R12 RO K.e K'.e

/-- The private keys hold the same point. -/
structure Priv9 (K : Sm9.SPriv) (K' : X64.Sm9.SPriv) : Prop where
  priv : RelA RO K.priv K'.priv
  pub : Pub9 K.pub K'.pub

/-- The counterpart of a public key. -/
def loPub (K : X64.Sm9.MPub) : Sm9.MPub := ⟨loA2 K.P, lo12 K.e⟩

theorem loPub_sim {K : X64.Sm9.MPub} (hx : All2 (X64.Reduced sm9p) K.P.x) (hy : All2 (X64.Reduced sm9p) K.P.y)
    (he : All12 (X64.Reduced sm9p) K.e) : Pub9 (loPub K) K := ⟨loA2_sim hx hy, lo12_ro he⟩

theorem relOut_bind2 {α β γ δ : Type} {R : α → β → Prop} {T : γ → δ → Prop} {x : Outcome α} {y : Outcome β} (h : RelOut R x y)
    {f : α → Outcome γ} {g : β → Outcome δ} (hfg : ∀ a b, R a b → RelOut T (f a) (g b)) : RelOut T (x >>= f) (y >>= g) := by
  cases h with
  | ok h => exact hfg _ _ h
  | throw => exact .throw
  | ub => exact .ub

theorem ub_bind' {α β : Type} (f : α → Outcome β) : (Outcome.ub >>= f) = .ub := rfl

theorem relO_out {α β : Type} {R : α → β → Prop} {x : Option α} {y : Option β} (h : RelO R x y) :
    RelOut R (Outcome.ofOption x) (Outcome.ofOption y) := by
  cases h with
  | none => exact .ub
  | some h => exact .ok h

theorem relOut_refl {α : Type} (x : Outcome α) : RelOut Eq x x := by
  cases x with
  | ok a => exact .ok rfl
  | throw => exact .throw
  | ub => exact .ub

section
variable {S : Type} {C : HashClass S} {H : List Byte → List Byte}

theorem s9hn_len (hC : IsHash C H) {Z1 Z2 : List Byte} {tag : Byte} {d : List Byte} (h : Sm9.hn C Z1 Z2 tag = .ok d) :
    d.length = 32 := by
  rw [hn_ok hC] at h
  split at h
  · rw [← Outcome.ok.inj h, toBE_len]
  · cases h

theorem fn_bytes_len {a : List W32} (h : Reduced sm9n a) : (mont256ToBytes Sm9.fnCtx a).length = 32 := by
  obtain ⟨x, -, -, x3, -⟩ := Props.C39_to_bytes Sm9.fnCtx_wf a h
  rw [x3, toBE_len]

/-- Key issue. -/
theorem genSignPriv_sim0 (hC : IsHash C H) {mk : Sm9.MPriv} {mk' : X64.Sm9.MPriv} (hk : mk.ks = mk'.ks) (hl : mk.ks.length = 32)
    (id : List Byte) (hid : Byte) :
    RelOut (fun K K' => RelA RO K.priv K'.priv ∧ K.pub = mk.pub ∧ K'.pub = mk'.pub)
      (Sm9.genSignPriv C mk id hid) (X64.Sm9.genSignPriv C mk' id hid) := by
  unfold Sm9.genSignPriv X64.Sm9.genSignPriv
  dsimp only
  rw [← hk, ← hn_sim]
  have sk := s9fn_from_sim hl
  have hlen := fun d => s9hn_len hC (Z1 := id) (Z2 := [hid]) (tag := 1) (d := d)
  revert hlen
  generalize Sm9.hn C id [hid] 1 = o
  intro hlen
  cases o with
  | throw => exact .throw
  | ub => exact .ub
  | ok h1 =>
    rw [o_bind, o_bind]
    have t1 := rs_add Sm9.fnCtx_wf X64.sm9FnCtx_wf (s9fn_from_sim (hlen h1 rfl)) sk
    rw [rs_equalZero (ctx := Sm9.fnCtx) (ctx' := X64.sm9FnCtx) t1]
    split
    · exact .throw
    · refine relOut_bind2 (relO_out (rs_inv Sm9.fnCtx_wf X64.sm9FnCtx_wf t1)) fun i i' hi => ?_
      have tm := rs_mul Sm9.fnCtx_wf X64.sm9FnCtx_wf sk hi
      rw [← rs_toBytes Sm9.fnCtx_wf X64.sm9FnCtx_wf tm]
      refine relOut_bind2 (relO_out (s9MulG_sim (fn_bytes_len tm.l))) fun T T' hT => ?_
      refine relOut_bind2 (relO_out (ws_toA sm9_ws hT)) fun D D' hD => ?_
      exact .ok ⟨hD, rfl, rfl⟩

theorem relOut_mono {α β : Type} {R T : α → β → Prop} (h : ∀ a b, R a b → T a b) {x : Outcome α} {y : Outcome β}
    (hx : RelOut R x y) : RelOut T x y := by
  cases hx with
  | ok k => exact .ok (h _ _ k)
  | throw => exact .throw
  | ub => exact .ub

theorem genSignPriv_sim (hC : IsHash C H) {mk : Sm9.MPriv} {mk' : X64.Sm9.MPriv} (hk : mk.ks = mk'.ks) (hl : mk.ks.length = 32)
    (hp : Pub9 mk.pub mk'.pub) (id : List Byte) (hid : Byte) :
    RelOut Priv9 (Sm9.genSignPriv C mk id hid) (X64.Sm9.genSignPriv C mk' id hid) :=
  relOut_mono (fun _ _ h => ⟨h.1, by rw [h.2.1, h.2.2]; exact hp⟩) (genSignPriv_sim0 hC hk hl id hid)

/-- One pass of signing: the same answer in both builds. -/
theorem s9signStep_sim (hC : IsHash C H) {key : Sm9.SPriv} {key' : X64.Sm9.SPriv} (hp : RelA RO key.priv key'.priv)
    (he : R12 RO key.pub.e key'.pub.e) (msg : List Byte) {rnd : List Byte} (hr : rnd.length = 32) (pc : Sm2.PC) :
    Sm9.signStep C key msg rnd pc = X64.Sm9.signStep C key' msg rnd pc := by
  have hln := s9nonce_len hr
  unfold Sm9.signStep X64.Sm9.signStep
  dsimp only
  rw [← s9nonce_sim hr]
  have hw := ws12_pow sm9_ws he (Sm9.nonce rnd)
  revert hw
  generalize fp12Pow Sm9.fp key.pub.e (Sm9.nonce rnd) = x
  generalize fp12Pow X64.Sm9.fp key'.pub.e (Sm9.nonce rnd) = x'
  intro hw
  refine ofOpt_bind hw fun W W' hW => ?_
  rw [← r12tb hW, ← hn_sim]
  have hlen := fun d => s9hn_len hC (Z1 := msg) (Z2 := Sm9.fp12ToBytes W) (tag := 2) (d := d)
  revert hlen
  generalize Sm9.hn C msg (Sm9.fp12ToBytes W) 2 = o
  intro hlen
  cases o with
  | throw => rw [t_bind, t_bind]
  | ub => rw [ub_bind', ub_bind']
  | ok h =>
    rw [o_bind, o_bind]
    have hs := rs_sub Sm9.fnCtx_wf X64.sm9FnCtx_wf (s9fn_from_sim hln) (s9fn_from_sim (hlen h rfl))
    rw [rs_equalZero (ctx := Sm9.fnCtx) (ctx' := X64.sm9FnCtx) hs, ← rs_toBytes Sm9.fnCtx_wf X64.sm9FnCtx_wf hs]
    split
    · rfl
    · refine ofOpt_bind (s9MulA_sim (fn_bytes_len hs.l) hp) fun T T' hT => ?_
      refine ofOpt_bind (ws_toA sm9_ws hT) fun D D' hD => ?_
      rw [s9encPoint_sim hD]

theorem s9sign_sim (hC : IsHash C H) {key : Sm9.SPriv} {key' : X64.Sm9.SPriv} (hp : RelA RO key.priv key'.priv)
    (he : R12 RO key.pub.e key'.pub.e) (msg : List Byte) (pc : Sm2.PC) : ∀ {rnds : List (List Byte)}
    (_ : ∀ r ∈ rnds, r.length = 32), Sm9.sign C key msg rnds pc = X64.Sm9.sign C key' msg rnds pc
  | [], _ => rfl
  | r :: rest, h => by
    unfold Sm9.sign X64.Sm9.sign Sm9.signLoop X64.Sm9.signLoop
    rw [s9signStep_sim hC hp he msg (h r List.mem_cons_self) pc]
    refine bind_congr' _ fun o => ?_
    cases o with
    | some s => rfl
    | none => exact s9sign_sim hC hp he msg pc fun r hr => h r (List.mem_cons_of_mem _ hr)

end
end Verif
