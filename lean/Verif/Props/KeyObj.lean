import Verif.Proofs.KeyObj
/-!
# C83: a key object holds the key of the last accepted call

A key object may be given one key after another.  For every history of calls, accepted and rejected ones, including a
random generator that throws in the middle of `gen_priv`, the object is what it was before the first call or the key of
the last accepted call; nothing of an earlier key is left in it.  `lastSome` (Spec/KeyObj.lean) is the last accepted
call of a history, `keyOf` the private key a call asks for.  An object before its first accepted call is arbitrary.

The exception is `SM9SignPrivateKey::set_priv`.
-/
namespace Verif.Props
open Verif Spec KeyObj WeierstrassCurve WeierstrassCurve.Affine

/-- **C83** `SM2PrivateKey`: every call throws or is done according to the key it asks for; when none was accepted the
object is unchanged, otherwise it is the key pair of the last accepted call, whatever the object was before. -/
theorem C83_sm2_priv (o : Sm2.Priv) (cs : List PrivCall) (hc : ∀ c ∈ cs, CallLen c) :
    (run sm2Call o cs).2 =
      cs.map (fun c => if (keyOf (sm2n - 2) sm2n c).isSome then Ret.done else Ret.thrown) ∧
    (lastSome (keyOf (sm2n - 2) sm2n) cs = none → (run sm2Call o cs).1 = o) ∧
    ∀ d, lastSome (keyOf (sm2n - 2) sm2n) cs = some d →
      Sm2PrivIs sm2G (run sm2Call o cs).1 d ∧ Sm2.getPriv (run sm2Call o cs).1 = toBE 32 d ∧
      ∀ o', (run sm2Call o' cs).1 = (run sm2Call o cs).1 := by
  have key := run_last sm2Call (keyOf (sm2n - 2) sm2n)
    (fun K d => Sm2PrivIs sm2G K d ∧ Sm2.getPriv K = toBE 32 d) CallLen ?_ ?_ cs o hc
  · obtain ⟨k1, k2, k3⟩ := key
    exact ⟨k1, k2, fun d h => ⟨(k3 d h).1.1, (k3 d h).1.2, (k3 d h).2⟩⟩
  · rintro o (k | _ | r) hl h
    · refine sm2SetPriv_throw hl (fun hv => ?_) o
      simp only [keyOf] at h
      rw [if_pos hv] at h
      cases h
    · rfl
    · cases h
  · rintro (k | _ | r) d hl h
    · simp only [keyOf] at h
      by_cases hv : 1 ≤ beVal k ∧ beVal k ≤ sm2n - 2
      · rw [if_pos hv, Option.some.injEq] at h
        obtain ⟨K, k1, k2, k3⟩ := (C58_set_priv k hl).1 hv
        subst h
        refine ⟨K, ⟨k3, ?_⟩, fun o => sm2SetPriv_ok k1 o⟩
        rw [k2, ← (show k.length = 32 from hl), toBE_beVal]
      · rw [if_neg hv] at h; cases h
    · cases h
    · simp only [keyOf, Option.some.injEq] at h
      obtain ⟨K, k1, k2⟩ := C47_gen_priv r hl
      subst h
      exact ⟨K, ⟨k2, k2.1⟩, fun o => sm2Store_ok k1 o⟩

/-- The point a `set_pub` call of `SM2PublicKey` names, if the curve has it. -/
noncomputable def sm2PubOf (c : List Byte × List Byte) : Option (List Byte × List Byte) :=
  open Classical in
  if sm2Curve.Nonsingular (beVal c.1 : ZMod sm2p) (beVal c.2 : ZMod sm2p) then some c else none

/-- **C83** `SM2PublicKey`: the same; `get_pub` returns the octets of the last accepted call, and the object holds that
point of the curve. -/
theorem C83_sm2_pub (o : Sm2.Pub) (cs : List (List Byte × List Byte))
    (hc : ∀ c ∈ cs, c.1.length = 32 ∧ c.2.length = 32) :
    (run (fun o c => sm2SetPub o c.1 c.2) o cs).2 =
      cs.map (fun c => if (sm2PubOf c).isSome then Ret.done else Ret.thrown) ∧
    (lastSome sm2PubOf cs = none → (run (fun o c => sm2SetPub o c.1 c.2) o cs).1 = o) ∧
    ∀ c, lastSome sm2PubOf cs = some c →
      Sm2.getPub (run (fun o c => sm2SetPub o c.1 c.2) o cs).1 = c ∧
      (∃ Q, Sm2PubIs (run (fun o c => sm2SetPub o c.1 c.2) o cs).1 Q) ∧
      ∀ o', (run (fun o c => sm2SetPub o c.1 c.2) o' cs).1 = (run (fun o c => sm2SetPub o c.1 c.2) o cs).1 := by
  have key := run_last (fun (o : Sm2.Pub) (c : List Byte × List Byte) => sm2SetPub o c.1 c.2) sm2PubOf
    (fun P c => Sm2.getPub P = c ∧ ∃ Q, Sm2PubIs P Q) (fun c => c.1.length = 32 ∧ c.2.length = 32) ?_ ?_ cs o hc
  · obtain ⟨k1, k2, k3⟩ := key
    exact ⟨k1, k2, fun d h => ⟨(k3 d h).1.1, (k3 d h).1.2, (k3 d h).2⟩⟩
  · rintro o ⟨x, y⟩ ⟨hx, hy⟩ h
    unfold sm2PubOf at h
    by_cases hn : sm2Curve.Nonsingular (beVal x : ZMod sm2p) (beVal y : ZMod sm2p)
    · rw [if_pos hn] at h; cases h
    · exact sm2SetPub_throw ((C58_set_pub x y hx hy).2.2 hn) o
  · rintro ⟨x, y⟩ c ⟨hx, hy⟩ h
    unfold sm2PubOf at h
    by_cases hn : sm2Curve.Nonsingular (beVal x : ZMod sm2p) (beVal y : ZMod sm2p)
    · rw [if_pos hn, Option.some.injEq] at h
      obtain ⟨P, p1⟩ := (C58_set_pub x y hx hy).2.1 hn
      obtain ⟨p2, p3, p4⟩ := (C58_set_pub x y hx hy).1 P p1
      refine ⟨P, ⟨?_, p4⟩, fun o => sm2SetPub_ok p1 o⟩
      rw [← h]
      unfold Sm2.getPub
      rw [p2, p3]
    · rw [if_neg hn] at h; cases h

/-- **C83** `SM9SignMasterPrivateKey`: the same; the object is the one `set_priv` makes of the last accepted key. -/
theorem C83_sm9_master (o : Sm9.MPriv) (cs : List PrivCall) (hc : ∀ c ∈ cs, CallLen c) :
    (run sm9Call o cs).2 =
      cs.map (fun c => if (keyOf (sm9n - 1) sm9n c).isSome then Ret.done else Ret.thrown) ∧
    (lastSome (keyOf (sm9n - 1) sm9n) cs = none → (run sm9Call o cs).1 = o) ∧
    ∀ d, lastSome (keyOf (sm9n - 1) sm9n) cs = some d →
      Sm9.getPriv (run sm9Call o cs).1 = toBE 32 d ∧ Sm9.setPriv (toBE 32 d) = .ok (run sm9Call o cs).1 ∧
      ∀ o', (run sm9Call o' cs).1 = (run sm9Call o cs).1 := by
  obtain ⟨K, _, _, w, hw⟩ := sm9_field_exists
  classical
  have hn : 2 < sm9n := by decide +kernel
  have hb : sm9n < 256 ^ 32 := by decide +kernel
  have hset : ∀ k : List Byte, k.length = 32 → 1 ≤ beVal k → beVal k ≤ sm9n - 1 →
      ∃ mk, Sm9.setPriv k = .ok mk ∧ Sm9.getPriv mk = k := by
    intro k hl h1 h2
    obtain ⟨mk, m1, m2, -⟩ := C67_set_priv_partial hw k hl h1 (by omega)
    exact ⟨mk, m1, m2⟩
  have key := run_last sm9Call (keyOf (sm9n - 1) sm9n)
    (fun K d => Sm9.getPriv K = toBE 32 d ∧ Sm9.setPriv (toBE 32 d) = .ok K) CallLen ?_ ?_ cs o hc
  · obtain ⟨k1, k2, k3⟩ := key
    exact ⟨k1, k2, fun d h => ⟨(k3 d h).1.1, (k3 d h).1.2, (k3 d h).2⟩⟩
  · rintro o (k | _ | r) hl h
    · refine sm9SetPriv_throw hl (fun hv => ?_) o
      simp only [keyOf] at h
      rw [if_pos hv] at h
      cases h
    · rfl
    · cases h
  · rintro (k | _ | r) d hl h
    · simp only [keyOf] at h
      by_cases hv : 1 ≤ beVal k ∧ beVal k ≤ sm9n - 1
      · rw [if_pos hv, Option.some.injEq] at h
        obtain ⟨K, k1, k2⟩ := hset k hl hv.1 hv.2
        have e : toBE 32 d = k := by rw [← h, ← (show k.length = 32 from hl), toBE_beVal]
        rw [e]
        exact ⟨K, ⟨k2, k1⟩, fun o => sm9SetPriv_ok k1 o⟩
      · rw [if_neg hv] at h; cases h
    · cases h
    · simp only [keyOf, Option.some.injEq] at h
      have hm := Nat.mod_lt (beVal r) (show 0 < sm9n - 1 by omega)
      obtain ⟨K, k1, k2⟩ := hset (toBE 32 (beVal r % (sm9n - 1) + 1)) (toBE_len _ _)
        (by rw [beVal_toBE, Nat.mod_eq_of_lt (by omega)]; omega)
        (by rw [beVal_toBE, Nat.mod_eq_of_lt (by omega)]; omega)
      subst h
      refine ⟨K, ⟨k2, k1⟩, fun o => sm9Store_ok ?_ o⟩
      exact (C67_gen_priv r hl).trans k1

section
variable {K : Type} [Field K] [Algebra (ZMod sm9p) K] [DecidableEq K] {w : K} (hw : w ^ 12 = -2)

/-- The pair of octet strings of a `set_pub` call of `SM9SignMasterPublicKey`, if it is a point of the curve over `F_p²`. -/
noncomputable def sm9PubOf (w : K) (c : List Byte × List Byte) : Option (List Byte × List Byte) :=
  open Classical in
  let X : K := beVal (c.1.drop 32) + beVal (c.1.take 32) * w ^ 6
  let Y : K := beVal (c.2.drop 32) + beVal (c.2.take 32) * w ^ 6
  if Y ^ 2 = X ^ 3 + 5 * w ^ 6 then some c else none

include hw
/-- **C83** `SM9SignMasterPublicKey`: the same; the object is the one `set_pub` makes of the last accepted octets. -/
theorem C83_sm9_pub (o : Sm9.MPub) (cs : List (List Byte × List Byte))
    (hc : ∀ c ∈ cs, c.1.length = 64 ∧ c.2.length = 64) :
    (run (fun o c => sm9SetPub o c.1 c.2) o cs).2 =
      cs.map (fun c => if (sm9PubOf w c).isSome then Ret.done else Ret.thrown) ∧
    (lastSome (sm9PubOf w) cs = none → (run (fun o c => sm9SetPub o c.1 c.2) o cs).1 = o) ∧
    ∀ c, lastSome (sm9PubOf w) cs = some c →
      Sm9.setPub c.1 c.2 = .ok (run (fun o c => sm9SetPub o c.1 c.2) o cs).1 ∧
      ∀ o', (run (fun o c => sm9SetPub o c.1 c.2) o' cs).1 = (run (fun o c => sm9SetPub o c.1 c.2) o cs).1 := by
  refine run_last (fun (o : Sm9.MPub) (c : List Byte × List Byte) => sm9SetPub o c.1 c.2) (sm9PubOf w)
    (fun P c => Sm9.setPub c.1 c.2 = .ok P) (fun c => c.1.length = 64 ∧ c.2.length = 64) ?_ ?_ cs o hc
  · rintro o ⟨x, y⟩ ⟨hx, hy⟩ h
    refine sm9SetPub_throw ((C69_set_pub hw x y hx hy).1 fun hn => ?_) o
    simp only [sm9PubOf] at h
    rw [if_pos hn] at h
    cases h
  · rintro ⟨x, y⟩ c ⟨hx, hy⟩ h
    simp only [sm9PubOf] at h
    split_ifs at h with hn
    obtain ⟨P, -, p1, -⟩ := (C69_set_pub hw x y hx hy).2 hn
    rw [Option.some.injEq] at h
    rw [← h]
    exact ⟨P, p1, fun o => sm9SetPub_ok p1 o⟩

end

/-- The histories are not all rejected: the third key is accepted, the others are not, and a generator that throws
leaves it in place. -/
example : lastSome (keyOf (sm2n - 2) sm2n)
      [.setPriv (toBE 32 5), .genPriv (some (toBE 32 8)), .setPriv (toBE 32 0), .setPriv (toBE 32 sm2n),
        .genPriv none] = some 9 ∧
    ∀ c ∈ [PrivCall.setPriv (toBE 32 5), .genPriv (some (toBE 32 8)), .setPriv (toBE 32 0), .setPriv (toBE 32 sm2n),
        .genPriv none], CallLen c := by
  constructor
  · decide +kernel
  · simp [CallLen, toBE_len]

/-! ## `SM9SignPrivateKey` -/

/-- **C83 (part)** `SM9SignPrivateKey::set_priv` with a private point that is not on the curve changes nothing; with
both points on their curves the object is replaced as a whole.  Missing: a public key that is rejected, see below. -/
theorem C83_sm9_sign_priv_partial (o : Sm9.SPriv) (px py x y : List Byte) (hx : px.length = 32) (hy : py.length = 32) :
    ((beVal py : ZMod sm9p) ^ 2 ≠ (beVal px : ZMod sm9p) ^ 3 + 5 → sm9SetSignPriv o px py x y = (o, .thrown)) ∧
    ∀ K, Sm9.setSignPriv px py x y = .ok K → sm9SetSignPriv o px py x y = (K, .done) := by
  obtain ⟨x1, x2⟩ := s9From_ok hx
  obtain ⟨y1, y2⟩ := s9From_ok hy
  have hc := s9Check_iff (P := ⟨Sm9.fpFromBytes px, Sm9.fpFromBytes py⟩) x1 y1
  constructor
  · intro h
    unfold sm9SetSignPriv
    simp only
    rw [if_pos]
    rw [Bool.not_eq_true']
    refine Bool.eq_false_iff.mpr fun h' => ?_
    obtain ⟨Q, -, -, hn, -⟩ := hc.mp h'
    have := sm9_onCurve hn
    rw [x2, y2] at this
    exact h this
  · intro K h
    unfold Sm9.setSignPriv at h
    unfold sm9SetSignPriv
    simp only at h ⊢
    by_cases hk : (!Sm9.ecCheck ⟨Sm9.fpFromBytes px, Sm9.fpFromBytes py⟩) = true
    · rw [if_pos hk] at h; exact nomatch h
    · rw [if_neg hk] at h ⊢
      rcases hp : Sm9.setPub x y with P | _ | _
      · rw [hp, o_bind, Outcome.ok.injEq] at h
        rw [sm9SetPub_ok hp, ← h]
      · rw [hp] at h; exact nomatch h
      · rw [hp] at h; exact nomatch h

/-- **C83 is false of `SM9SignPrivateKey::set_priv`**: with a private point of the curve and a public key that is
rejected, the call throws and has changed the object, which then exports the new private point together with the old
public key. -/
theorem C83_sm9_sign_priv_violated (o : Sm9.SPriv) (px py x y : List Byte) (hx : px.length = 32) (hy : py.length = 32)
    (hp : beVal px < sm9p ∧ beVal py < sm9p)
    (hon : (beVal py : ZMod sm9p) ^ 2 = (beVal px : ZMod sm9p) ^ 3 + 5) (hrej : Sm9.setPub x y = .throw) :
    (sm9SetSignPriv o px py x y).2 = .thrown ∧
    Sm9.getSignPriv (sm9SetSignPriv o px py x y).1 = (px, py, (Sm9.getPub o.pub).1, (Sm9.getPub o.pub).2) := by
  obtain ⟨x1, x2⟩ := s9From_ok hx
  obtain ⟨y1, y2⟩ := s9From_ok hy
  have hn : sm9Curve.Nonsingular (beVal px : ZMod sm9p) (beVal py : ZMod sm9p) := sm9_nonsing hon
  have hk := (s9Check_iff (P := ⟨Sm9.fpFromBytes px, Sm9.fpFromBytes py⟩) x1 y1).mpr
    ⟨_, x1, y1, some_congr (h := hn) rfl x2.symm y2.symm⟩
  have e : sm9SetSignPriv o px py x y = (⟨⟨Sm9.fpFromBytes px, Sm9.fpFromBytes py⟩, o.pub⟩, .thrown) := by
    unfold sm9SetSignPriv
    simp only
    rw [hk, Bool.not_true, if_neg (by decide), sm9SetPub_throw hrej]
  rw [e]
  refine ⟨rfl, ?_⟩
  unfold Sm9.getSignPriv
  simp only
  rw [s9To_eq x1, s9To_eq y1, x2, y2]
  unfold sm9Octets
  rw [ZMod.val_natCast, ZMod.val_natCast, Nat.mod_eq_of_lt hp.1, Nat.mod_eq_of_lt hp.2]
  rw [show toBE 32 (beVal px) = px by rw [← hx, toBE_beVal], show toBE 32 (beVal py) = py by rw [← hy, toBE_beVal]]

/-- The generator and the pair of 64 zero octets meet the hypotheses. -/
example : Sm9.sm9CurveGx.length = 32 ∧ Sm9.sm9CurveGy.length = 32 ∧
    (beVal Sm9.sm9CurveGx < sm9p ∧ beVal Sm9.sm9CurveGy < sm9p) ∧
    (beVal Sm9.sm9CurveGy : ZMod sm9p) ^ 2 = (beVal Sm9.sm9CurveGx : ZMod sm9p) ^ 3 + 5 ∧
    Sm9.setPub (List.replicate 64 0) (List.replicate 64 0) = .throw := by
  refine ⟨rfl, rfl, by decide +kernel, ?_, ?_⟩
  · have : (beVal Sm9.sm9CurveGy ^ 2) % sm9p = (beVal Sm9.sm9CurveGx ^ 3 + 5) % sm9p := by decide +kernel
    have := (ZMod.natCast_eq_natCast_iff _ _ _).mpr this
    push_cast at this
    exact this
  · obtain ⟨K, _, _, w, hw⟩ := sm9_field_exists
    classical
    refine (C69_set_pub hw _ _ (by simp) (by simp)).1 ?_
    have h0 : beVal ((List.replicate 64 (0 : Byte)).drop 32) = 0 := by decide +kernel
    have h1 : beVal ((List.replicate 64 (0 : Byte)).take 32) = 0 := by decide +kernel
    rw [h0, h1]
    intro h
    have h5 : (5 : K) * w ^ 6 = 0 := by simpa using h.symm
    have h6 : w ^ 6 = 0 ∨ (5 : K) = 0 := (mul_eq_zero.mp h5).symm
    have hc : ∀ n : Nat, (n : K) = 0 → (n : ZMod sm9p) = 0 := fun n h => by
      have := (algebraMap (ZMod sm9p) K).injective (a₁ := (n : ZMod sm9p)) (a₂ := 0) (by simpa using h)
      exact this
    rcases h6 with h6 | h6
    · have : w ^ 12 = 0 := by rw [show w ^ 12 = (w ^ 6) ^ 2 by ring, h6]; ring
      rw [hw] at this
      have := hc 2 (by push_cast; exact neg_eq_zero.mp this)
      exact absurd ((ZMod.natCast_eq_zero_iff _ _).mp this) (by decide +kernel)
    · have := hc 5 (by exact_mod_cast h6)
      exact absurd ((ZMod.natCast_eq_zero_iff _ _).mp this) (by decide +kernel)

end Verif.Props
