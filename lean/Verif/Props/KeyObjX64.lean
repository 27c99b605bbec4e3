import Verif.Proofs.KeyObjX64
import Verif.Props.KeyObj
import Verif.Props.Sm2X64
import Verif.Props.Sm9X64
import Verif.Props.Sm9X64Enc
/-!
# C98: a key object of the 64-bit build holds the key of the last accepted call

As C83, for the build with 64-bit limbs; `lastSome` and `keyOf` are those of Spec/KeyObj.lean.  An object before its first
accepted call is arbitrary.
-/
namespace Verif.X64.Props
open Verif Verif.Spec WeierstrassCurve WeierstrassCurve.Affine
open Verif.KeyObj (Ret run)

/-- The public key octets of an object are those of the point with multiple `d`, and the point stored beside them is the
one `set_pub` makes of them. -/
def HoldsPub (K : X64.Sm2.Pub) (d : Nat) : Prop :=
  (∃ x y h, d • sm2G = .some x y h ∧ X64.Sm2.getPub K = (fieldOctets x, fieldOctets y)) ∧
    X64.Sm2.setPub (X64.Sm2.getPub K).1 (X64.Sm2.getPub K).2 = .ok K

theorem withPub_octets {d : List Byte} {P : Verif.Sm2.Priv} (h : Verif.Sm2.withPub d = .ok P) :
    P.pub.x = Verif.Sm2.fpToBytes P.pub.P.x ∧ P.pub.y = Verif.Sm2.fpToBytes P.pub.P.y := by
  unfold Verif.Sm2.withPub at h
  rcases h1 : Verif.Sm2.jMulG d with _ | dG
  · rw [h1] at h; exact nomatch h
  · rw [h1, ofOption_some, o_bind] at h
    rcases h2 : Verif.Sm2.jToA dG with _ | a
    · rw [h2] at h; exact nomatch h
    · rw [h2, ofOption_some, o_bind, Outcome.ok.injEq] at h
      rw [← h]
      exact ⟨rfl, rfl⟩

theorem holds_of {P : Verif.Sm2.Priv} {K : X64.Sm2.Priv} {d : Nat} (hs : PrivSim P K) (hP : Sm2PrivIs sm2G P d)
    (hx : P.pub.x = Verif.Sm2.fpToBytes P.pub.P.x) (hy : P.pub.y = Verif.Sm2.fpToBytes P.pub.P.y) :
    X64.Sm2.getPriv K = toBE 32 d ∧ HoldsPub K.pub d := by
  refine ⟨hs.priv.symm.trans hP.1, ?_, X64.KeyObj.sm2Pub_back hs.pub hx hy⟩
  obtain ⟨-, -, -, -, -, ⟨r1, r2, hn, e⟩, -⟩ := hP
  refine ⟨_, _, hn, e, ?_⟩
  unfold X64.Sm2.getPub
  rw [← hs.pub.x, ← hs.pub.y, hx, hy]
  exact Prod.ext (fpToBytes_eq r1) (fpToBytes_eq r2)

/-- **C98** `SM2PrivateKey`: every call throws or is done according to the key it asks for; when none was accepted the
object is unchanged, otherwise it is the key pair of the last accepted call, whatever the object was before. -/
theorem C98_x64_sm2_priv (o : X64.Sm2.Priv) (cs : List Verif.KeyObj.PrivCall) (hc : ∀ c ∈ cs, CallLen c) :
    (run X64.KeyObj.sm2Call o cs).2 = cs.map (fun c => if (keyOf (sm2n - 2) sm2n c).isSome then Ret.done else Ret.thrown) ∧
    (lastSome (keyOf (sm2n - 2) sm2n) cs = none → (run X64.KeyObj.sm2Call o cs).1 = o) ∧
    ∀ d, lastSome (keyOf (sm2n - 2) sm2n) cs = some d →
      X64.Sm2.getPriv (run X64.KeyObj.sm2Call o cs).1 = toBE 32 d ∧ HoldsPub (run X64.KeyObj.sm2Call o cs).1.pub d ∧
      ∀ o', (run X64.KeyObj.sm2Call o' cs).1 = (run X64.KeyObj.sm2Call o cs).1 := by
  have key := run_last X64.KeyObj.sm2Call (keyOf (sm2n - 2) sm2n)
    (fun K d => X64.Sm2.getPriv K = toBE 32 d ∧ HoldsPub K.pub d) CallLen ?_ ?_ cs o hc
  · obtain ⟨k1, k2, k3⟩ := key
    exact ⟨k1, k2, fun d h => ⟨(k3 d h).1.1, (k3 d h).1.2, (k3 d h).2⟩⟩
  · rintro o (k | _ | r) hl h
    · refine X64.KeyObj.sm2SetPriv_throw ?_ o
      have hv : ¬ (1 ≤ beVal k ∧ beVal k ≤ sm2n - 2) := fun hv => by
        simp only [keyOf] at h
        rw [if_pos hv] at h
        cases h
      have hs := setPriv_sim (d := k) hl
      rw [(Verif.Props.C58_set_priv k hl).2 hv] at hs
      revert hs
      generalize X64.Sm2.setPriv k = t
      intro hs
      cases hs
      rfl
    · rfl
    · cases h
  · rintro (k | _ | r) d hl h
    · simp only [keyOf] at h
      by_cases hv : 1 ≤ beVal k ∧ beVal k ≤ sm2n - 2
      · rw [if_pos hv, Option.some.injEq] at h
        obtain ⟨P, k1, -, k3⟩ := (Verif.Props.C58_set_priv k hl).1 hv
        have hs := setPriv_sim (d := k) hl
        rw [k1] at hs
        obtain ⟨K, e, hs⟩ := relOut_ok' hs
        have hw : Verif.Sm2.withPub k = .ok P := by
          unfold Verif.Sm2.setPriv at k1
          dsimp only at k1
          split at k1
          · cases k1
          · exact k1
        obtain ⟨ox, oy⟩ := withPub_octets hw
        subst h
        exact ⟨K, holds_of hs k3 ox oy, fun o => X64.KeyObj.sm2SetPriv_ok e o⟩
      · rw [if_neg hv] at h; cases h
    · cases h
    · simp only [keyOf, Option.some.injEq] at h
      obtain ⟨P, k1, k2⟩ := Verif.Props.C47_gen_priv r hl
      have hs := genPriv_sim (rnd := r) hl
      rw [k1] at hs
      obtain ⟨K, e, hs⟩ := relOut_ok' hs
      obtain ⟨ox, oy⟩ := withPub_octets (d := Verif.Sm2.nonce r) k1
      subst h
      exact ⟨K, holds_of hs k2 ox oy, fun o => X64.KeyObj.sm2Store_ok e o⟩

/-- **C98** `SM2PublicKey`: `get_pub` returns the octets of the last accepted call, and the object is the one `set_pub` makes
of them. -/
theorem C98_x64_sm2_pub (o : X64.Sm2.Pub) (cs : List (List Byte × List Byte))
    (hc : ∀ c ∈ cs, c.1.length = 32 ∧ c.2.length = 32) :
    (run (fun o c => X64.KeyObj.sm2SetPub o c.1 c.2) o cs).2 =
      cs.map (fun c => if (Verif.Props.sm2PubOf c).isSome then Ret.done else Ret.thrown) ∧
    (lastSome Verif.Props.sm2PubOf cs = none → (run (fun o c => X64.KeyObj.sm2SetPub o c.1 c.2) o cs).1 = o) ∧
    ∀ c, lastSome Verif.Props.sm2PubOf cs = some c →
      (X64.Sm2.getPub (run (fun o c => X64.KeyObj.sm2SetPub o c.1 c.2) o cs).1 = c ∧
        X64.Sm2.setPub c.1 c.2 = .ok (run (fun o c => X64.KeyObj.sm2SetPub o c.1 c.2) o cs).1) ∧
      ∀ o', (run (fun o c => X64.KeyObj.sm2SetPub o c.1 c.2) o' cs).1 =
        (run (fun o c => X64.KeyObj.sm2SetPub o c.1 c.2) o cs).1 := by
  refine run_last (fun (o : X64.Sm2.Pub) (c : List Byte × List Byte) => X64.KeyObj.sm2SetPub o c.1 c.2)
    Verif.Props.sm2PubOf (fun P c => X64.Sm2.getPub P = c ∧ X64.Sm2.setPub c.1 c.2 = .ok P)
    (fun c => c.1.length = 32 ∧ c.2.length = 32) ?_ ?_ cs o hc
  · rintro o ⟨x, y⟩ ⟨hx, hy⟩ h
    unfold Verif.Props.sm2PubOf at h
    by_cases hn : sm2Curve.Nonsingular (beVal x : ZMod sm2p) (beVal y : ZMod sm2p)
    · rw [if_pos hn] at h; cases h
    · refine X64.KeyObj.sm2SetPub_throw ?_ o
      have hs := setPub_sim hx hy
      rw [(Verif.Props.C58_set_pub x y hx hy).2.2 hn] at hs
      revert hs
      generalize X64.Sm2.setPub x y = t
      intro hs
      cases hs
      rfl
  · rintro ⟨x, y⟩ c ⟨hx, hy⟩ h
    unfold Verif.Props.sm2PubOf at h
    by_cases hn : sm2Curve.Nonsingular (beVal x : ZMod sm2p) (beVal y : ZMod sm2p)
    · rw [if_pos hn, Option.some.injEq] at h
      obtain ⟨P, p1⟩ := (Verif.Props.C58_set_pub x y hx hy).2.1 hn
      obtain ⟨p2, p3, -⟩ := (Verif.Props.C58_set_pub x y hx hy).1 P p1
      have hs := setPub_sim hx hy
      rw [p1] at hs
      obtain ⟨K, e, hs⟩ := relOut_ok' hs
      subst h
      refine ⟨K, ⟨?_, e⟩, fun o => X64.KeyObj.sm2SetPub_ok e o⟩
      unfold X64.Sm2.getPub
      rw [← hs.x, ← hs.y, p2, p3]
    · rw [if_neg hn] at h; cases h

/-- **C98** `SM9SignMasterPrivateKey`: the object is the one `set_priv` makes of the last accepted key. -/
theorem C98_x64_sm9_master (o : X64.Sm9.MPriv) (cs : List Verif.KeyObj.PrivCall) (hc : ∀ c ∈ cs, CallLen c) :
    (run X64.KeyObj.sm9Call o cs).2 = cs.map (fun c => if (keyOf (sm9n - 1) sm9n c).isSome then Ret.done else Ret.thrown) ∧
    (lastSome (keyOf (sm9n - 1) sm9n) cs = none → (run X64.KeyObj.sm9Call o cs).1 = o) ∧
    ∀ d, lastSome (keyOf (sm9n - 1) sm9n) cs = some d →
      (X64.Sm9.getPriv (run X64.KeyObj.sm9Call o cs).1 = toBE 32 d ∧ X64.Sm9.setPriv (toBE 32 d) = .ok (run X64.KeyObj.sm9Call o cs).1) ∧
      ∀ o', (run X64.KeyObj.sm9Call o' cs).1 = (run X64.KeyObj.sm9Call o cs).1 := by
  obtain ⟨K, _, _, w, hw⟩ := sm9_field_exists
  classical
  have hn : 2 < sm9n := by decide +kernel
  have hb : sm9n < 256 ^ 32 := by decide +kernel
  have hset : ∀ k : List Byte, k.length = 32 → 1 ≤ beVal k → beVal k ≤ sm9n - 1 →
      ∃ mk, X64.Sm9.setPriv k = .ok mk ∧ X64.Sm9.getPriv mk = k := by
    intro k hl h1 h2
    obtain ⟨mk, m1, m2, -⟩ := C81_x64_set_priv_partial hw k hl h1 (by omega)
    exact ⟨mk, m1, m2⟩
  refine run_last X64.KeyObj.sm9Call (keyOf (sm9n - 1) sm9n)
    (fun K d => X64.Sm9.getPriv K = toBE 32 d ∧ X64.Sm9.setPriv (toBE 32 d) = .ok K) CallLen ?_ ?_ cs o hc
  · rintro o (k | _ | r) hl h
    · refine X64.KeyObj.sm9SetPriv_throw ((C81_x64_set_priv_range k hl).mpr ?_) o
      by_contra hv
      simp only [keyOf] at h
      rw [if_pos (by omega)] at h
      cases h
    · rfl
    · cases h
  · rintro (k | _ | r) d hl h
    · simp only [keyOf] at h
      by_cases hv : 1 ≤ beVal k ∧ beVal k ≤ sm9n - 1
      · rw [if_pos hv, Option.some.injEq] at h
        obtain ⟨K, k1, k2⟩ := hset k hl hv.1 hv.2
        have e : toBE 32 d = k := by rw [← h, ← (show k.length = 32 from hl), toBE_beVal]
        rw [e]
        exact ⟨K, ⟨k2, k1⟩, fun o => X64.KeyObj.sm9SetPriv_ok k1 o⟩
      · rw [if_neg hv] at h; cases h
    · cases h
    · simp only [keyOf, Option.some.injEq] at h
      have hm := Nat.mod_lt (beVal r) (show 0 < sm9n - 1 by omega)
      obtain ⟨K, k1, k2⟩ := hset (toBE 32 (beVal r % (sm9n - 1) + 1)) (toBE_len _ _)
        (by rw [beVal_toBE, Nat.mod_eq_of_lt (by omega)]; omega)
        (by rw [beVal_toBE, Nat.mod_eq_of_lt (by omega)]; omega)
      subst h
      refine ⟨K, ⟨k2, k1⟩, fun o => X64.KeyObj.sm9Store_ok ?_ o⟩
      exact (C81_x64_gen_priv r hl).trans k1

section
variable {K : Type} [Field K] [Algebra (ZMod sm9p) K] [DecidableEq K] {w : K} (hw : w ^ 12 = -2)
include hw

/-- **C98** `SM9SignMasterPublicKey`: the object is the one `set_pub` makes of the last accepted octets. -/
theorem C98_x64_sm9_pub (o : X64.Sm9.MPub) (cs : List (List Byte × List Byte))
    (hc : ∀ c ∈ cs, c.1.length = 64 ∧ c.2.length = 64) :
    (run (fun o c => X64.KeyObj.sm9SetPub o c.1 c.2) o cs).2 =
      cs.map (fun c => if (Verif.Props.sm9PubOf w c).isSome then Ret.done else Ret.thrown) ∧
    (lastSome (Verif.Props.sm9PubOf w) cs = none → (run (fun o c => X64.KeyObj.sm9SetPub o c.1 c.2) o cs).1 = o) ∧
    ∀ c, lastSome (Verif.Props.sm9PubOf w) cs = some c →
      X64.Sm9.setPub c.1 c.2 = .ok (run (fun o c => X64.KeyObj.sm9SetPub o c.1 c.2) o cs).1 ∧
      ∀ o', (run (fun o c => X64.KeyObj.sm9SetPub o c.1 c.2) o' cs).1 =
        (run (fun o c => X64.KeyObj.sm9SetPub o c.1 c.2) o cs).1 := by
  refine run_last (fun (o : X64.Sm9.MPub) (c : List Byte × List Byte) => X64.KeyObj.sm9SetPub o c.1 c.2)
    (Verif.Props.sm9PubOf w) (fun P c => X64.Sm9.setPub c.1 c.2 = .ok P) (fun c => c.1.length = 64 ∧ c.2.length = 64)
    ?_ ?_ cs o hc
  · rintro o ⟨x, y⟩ ⟨hx, hy⟩ h
    refine X64.KeyObj.sm9SetPub_throw ((C81_x64_set_pub hw x y hx hy).1 fun hn => ?_) o
    simp only [Verif.Props.sm9PubOf] at h
    rw [if_pos hn] at h
    cases h
  · rintro ⟨x, y⟩ c ⟨hx, hy⟩ h
    simp only [Verif.Props.sm9PubOf] at h
    split_ifs at h with hn
    obtain ⟨P, -, p1, -⟩ := (C81_x64_set_pub hw x y hx hy).2 hn
    rw [Option.some.injEq] at h
    rw [← h]
    exact ⟨P, p1, fun o => X64.KeyObj.sm9SetPub_ok p1 o⟩

end

/-! ## `SM9SignPrivateKey` -/

/-- **C98 (part)** `SM9SignPrivateKey::set_priv` with a private point that is not on the curve changes nothing; with both
points on their curves the object is replaced as a whole.  Missing: a public key that is rejected, see below. -/
theorem C98_x64_sm9_sign_priv_partial (o : X64.Sm9.SPriv) (px py x y : List Byte) (hx : px.length = 32)
    (hy : py.length = 32) :
    ((beVal py : ZMod sm9p) ^ 2 ≠ (beVal px : ZMod sm9p) ^ 3 + 5 →
      X64.KeyObj.sm9SetSignPriv o px py x y = (o, .thrown)) ∧
    ∀ K, X64.Sm9.setSignPriv px py x y = .ok K → X64.KeyObj.sm9SetSignPriv o px py x y = (K, .done) := by
  have hs : RelA RO ⟨Verif.Sm9.fpFromBytes px, Verif.Sm9.fpFromBytes py⟩ ⟨X64.Sm9.fpFromBytes px, X64.Sm9.fpFromBytes py⟩ :=
    relA_mk (rfb hx) (rfb hy)
  constructor
  · intro h
    obtain ⟨x1, x2⟩ := s9From_ok hx
    obtain ⟨y1, y2⟩ := s9From_ok hy
    unfold X64.KeyObj.sm9SetSignPriv
    simp only
    rw [if_pos]
    rw [Bool.not_eq_true', ← s9ecCheck_sim hs]
    refine Bool.eq_false_iff.mpr fun h' => ?_
    obtain ⟨Q, -, -, hn, -⟩ := (s9Check_iff (P := ⟨Verif.Sm9.fpFromBytes px, Verif.Sm9.fpFromBytes py⟩) x1 y1).mp h'
    have := sm9_onCurve hn
    rw [x2, y2] at this
    exact h this
  · intro K h
    unfold X64.Sm9.setSignPriv at h
    unfold X64.KeyObj.sm9SetSignPriv
    simp only at h ⊢
    by_cases hk : (!X64.Sm9.ecCheck ⟨X64.Sm9.fpFromBytes px, X64.Sm9.fpFromBytes py⟩) = true
    · rw [if_pos hk] at h; exact nomatch h
    · rw [if_neg hk] at h ⊢
      rcases hp : X64.Sm9.setPub x y with P | _ | _
      · rw [hp, o_bind, Outcome.ok.injEq] at h
        rw [X64.KeyObj.sm9SetPub_ok hp, ← h]
      · rw [hp] at h; exact nomatch h
      · rw [hp] at h; exact nomatch h

/-- **C98 is false of `SM9SignPrivateKey::set_priv`** in this build too: with a private point of the curve and a public key
that is rejected, the call throws and has changed the object, which then exports the new private point together with the
old public key. -/
theorem C98_x64_sm9_sign_priv_violated (o : X64.Sm9.SPriv) (px py x y : List Byte) (hx : px.length = 32)
    (hy : py.length = 32) (hp : beVal px < sm9p ∧ beVal py < sm9p)
    (hon : (beVal py : ZMod sm9p) ^ 2 = (beVal px : ZMod sm9p) ^ 3 + 5) (hrej : X64.Sm9.setPub x y = .throw) :
    (X64.KeyObj.sm9SetSignPriv o px py x y).2 = .thrown ∧
    X64.Sm9.getSignPriv (X64.KeyObj.sm9SetSignPriv o px py x y).1 =
      (px, py, (X64.Sm9.getPub o.pub).1, (X64.Sm9.getPub o.pub).2) := by
  have hs : RelA RO ⟨Verif.Sm9.fpFromBytes px, Verif.Sm9.fpFromBytes py⟩ ⟨X64.Sm9.fpFromBytes px, X64.Sm9.fpFromBytes py⟩ :=
    relA_mk (rfb hx) (rfb hy)
  obtain ⟨x1, x2⟩ := s9From_ok hx
  obtain ⟨y1, y2⟩ := s9From_ok hy
  have hn : sm9Curve.Nonsingular (beVal px : ZMod sm9p) (beVal py : ZMod sm9p) := sm9_nonsing hon
  have hk := (s9Check_iff (P := ⟨Verif.Sm9.fpFromBytes px, Verif.Sm9.fpFromBytes py⟩) x1 y1).mpr
    ⟨_, x1, y1, some_congr (h := hn) rfl x2.symm y2.symm⟩
  rw [s9ecCheck_sim hs] at hk
  have e : X64.KeyObj.sm9SetSignPriv o px py x y =
      (⟨⟨X64.Sm9.fpFromBytes px, X64.Sm9.fpFromBytes py⟩, o.pub⟩, .thrown) := by
    unfold X64.KeyObj.sm9SetSignPriv
    simp only
    rw [hk, Bool.not_true, if_neg (by decide), X64.KeyObj.sm9SetPub_throw hrej]
  rw [e]
  refine ⟨rfl, ?_⟩
  unfold X64.Sm9.getSignPriv
  simp only
  rw [← rtb hs.x, ← rtb hs.y, s9To_eq x1, s9To_eq y1, x2, y2]
  unfold sm9Octets
  rw [ZMod.val_natCast, ZMod.val_natCast, Nat.mod_eq_of_lt hp.1, Nat.mod_eq_of_lt hp.2]
  rw [show toBE 32 (beVal px) = px by rw [← hx, toBE_beVal], show toBE 32 (beVal py) = py by rw [← hy, toBE_beVal]]

/-- A history with accepted and rejected keys and a generator that throws: the object holds the key 9 at the end. -/
example (o : X64.Sm2.Priv) : X64.Sm2.getPriv (run X64.KeyObj.sm2Call o
      [.setPriv (toBE 32 5), .genPriv (some (toBE 32 8)), .setPriv (toBE 32 0), .setPriv (toBE 32 sm2n),
        .genPriv none]).1 = toBE 32 9 := by
  refine ((C98_x64_sm2_priv o _ ?_).2.2 9 ?_).1
  · simp [CallLen, toBE_len]
  · decide +kernel

/-- The generator and the pair of 64 zero octets meet the hypotheses of `C98_x64_sm9_sign_priv_violated`. -/
example : (beVal Verif.Sm9.sm9CurveGx < sm9p ∧ beVal Verif.Sm9.sm9CurveGy < sm9p) ∧
    (beVal Verif.Sm9.sm9CurveGy : ZMod sm9p) ^ 2 = (beVal Verif.Sm9.sm9CurveGx : ZMod sm9p) ^ 3 + 5 ∧
    X64.Sm9.setPub (List.replicate 64 0) (List.replicate 64 0) = .throw := by
  refine ⟨by decide +kernel, ?_, ?_⟩
  · have : (beVal Verif.Sm9.sm9CurveGy ^ 2) % sm9p = (beVal Verif.Sm9.sm9CurveGx ^ 3 + 5) % sm9p := by decide +kernel
    have := (ZMod.natCast_eq_natCast_iff _ _ _).mpr this
    push_cast at this
    exact this
  · have hc : X64.Sm9.ec2Check ⟨X64.Sm9.fp2FromBytes (List.replicate 64 0), X64.Sm9.fp2FromBytes (List.replicate 64 0)⟩ =
        false := by decide +kernel
    unfold X64.Sm9.setPub
    dsimp only
    rw [hc]
    rfl

end Verif.X64.Props
