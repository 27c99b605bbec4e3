import Verif.Props.Hash
/-!
# C88: a hash or MAC object used for several messages

Histories of calls on one `SM3` or `HMac<SM3>` object.  A message begins with the construction or `reset()` (for the MAC: with
`set_key`) and ends with `do_final`.
-/
namespace Verif.Props
open Verif Verif.Sm3

/-- A call on an `SM3` object. -/
inductive MdCall where
  | reset
  | update (d : List Byte)
  | final (d : List Byte)

/-- The digests a history hands to the caller, in order. -/
def mdRun : List MdCall → HashObj Ctx → Outcome (List (List Byte))
  | [], _ => .ok []
  | .reset :: cs, h => mdRun cs (cls.reset h)
  | .update d :: cs, h => do
    let h ← hashUpdate cls.BS cls.impl h d
    mdRun cs h
  | .final d :: cs, h => do
    let r ← hashFinal cls.BS cls.impl h d
    let l ← mdRun cs r.1
    .ok (r.2 :: l)

/-- What the standard says about them: `p` is the message so far, `none` between `do_final` and the next `reset`. -/
def mdSpec : List MdCall → Option (List Byte) → List (Option (List Byte))
  | [], _ => []
  | .reset :: cs, _ => mdSpec cs (some [])
  | .update d :: cs, p => mdSpec cs (p.map (· ++ d))
  | .final d :: cs, p => p.map (fun m => Spec.SM3.hash (m ++ d)) :: mdSpec cs none

/-- The octets hashed in a history, at most. -/
def mdBytes : List MdCall → Nat
  | [] => 0
  | .reset :: cs => mdBytes cs
  | .update d :: cs => d.length + mdBytes cs
  | .final d :: cs => d.length + mdBytes cs

/-- A call on an `HMac<SM3>` object. -/
inductive MacCall where
  | setKey (K : List Byte)
  | update (d : List Byte)
  | final (d : List Byte)

/-- The MACs a history hands to the caller, in order. -/
def macRun : List MacCall → HMac Ctx → Outcome (List (List Byte))
  | [], _ => .ok []
  | .setKey K :: cs, h => do
    let h ← h.setKey cls K
    macRun cs h
  | .update d :: cs, h => do
    let h ← h.update cls d
    macRun cs h
  | .final d :: cs, h => do
    let r ← h.final cls d
    let l ← macRun cs r.1
    .ok (r.2 :: l)

/-- What RFC 2104 says about them: `p` is the key and the message so far. -/
def macSpec : List MacCall → Option (List Byte × List Byte) → List (Option (List Byte))
  | [], _ => []
  | .setKey K :: cs, _ => macSpec cs (some (K, []))
  | .update d :: cs, p => macSpec cs (p.map fun q => (q.1, q.2 ++ d))
  | .final d :: cs, p => p.map (fun q => Spec.hmac Spec.SM3.hash 64 q.1 (q.2 ++ d)) :: macSpec cs none

/-- The octets keyed and authenticated in a history, at most. -/
def macBytes : List MacCall → Nat
  | [] => 0
  | .setKey K :: cs => K.length + macBytes cs
  | .update d :: cs => d.length + macBytes cs
  | .final d :: cs => d.length + macBytes cs

/-- The digests agree with the specification wherever that says something. -/
def Agrees (out : List (List Byte)) (spec : List (Option (List Byte))) : Prop :=
  List.Forall₂ (fun o s => ∀ x, s = some x → o = x) out spec

namespace HashObjAux

theorem upd {m d : List Byte} {h h' : HashObj Ctx} (i : absorb 64 (impl compress) init m = .ok h)
    (e : hashUpdate cls.BS cls.impl h d = .ok h') : absorb 64 (impl compress) init (m ++ d) = .ok h' := by
  rw [← absorb_append _ impl_lawful, i, Outcome.ok_bind]
  exact e

theorem fin {m d : List Byte} {h : HashObj Ctx} (i : absorb 64 (impl compress) init m = .ok h) :
    (hashFinal cls.BS cls.impl h d >>= fun r => .ok r.2) =
      if 8 * (m ++ d).length < 2 ^ 64 then .ok (Spec.SM3.hash (m ++ d)) else .throw := by
  have := final_absorb m d
  rw [i, Outcome.ok_bind] at this
  exact this

/-- A MAC object in the middle of a message. -/
def Live (K m : List Byte) (o : HMac Ctx) : Prop := o.K = Spec.hmacKey Spec.SM3.hash 64 K ∧ 8 * K.length < 2 ^ 64 ∧
  absorb 64 (impl compress) init ((Spec.hmacKey Spec.SM3.hash 64 K).map (· ^^^ 0x36) ++ m) = .ok o.h

theorem key_len (K m : List Byte) : ((Spec.hmacKey Spec.SM3.hash 64 K).map (· ^^^ 0x36) ++ m).length = 64 + m.length := by
  rw [List.length_append, List.length_map, hmacKey_len]

theorem mac_final {K m d : List Byte} {o : HMac Ctx} (l : Live K m o) (hM : 8 * (64 + (m ++ d).length) < 2 ^ 64) :
    ∃ o', o.final cls d = .ok (o', Spec.hmac Spec.SM3.hash 64 K (m ++ d)) := by
  obtain ⟨l1, l2, l3⟩ := l
  have h := hmac_spec o K [m] d l2 (by simpa using hM)
  obtain ⟨h0, e0⟩ := absorb_ok ((Spec.hmacKey Spec.SM3.hash 64 K).map (· ^^^ 0x36)) (by
    rw [List.length_map, hmacKey_len]; decide)
  rw [setKey_spec o K l2, e0] at h
  simp only [Outcome.ok_bind, List.foldlM_cons, List.foldlM_nil, List.flatten_cons, List.flatten_nil, List.append_nil] at h
  have hu : HMac.update (⟨Spec.hmacKey Spec.SM3.hash 64 K, h0⟩ : HMac Ctx) cls m = .ok o := by
    show (hashUpdate 64 (impl compress) h0 m >>= fun h => .ok (⟨Spec.hmacKey Spec.SM3.hash 64 K, h⟩ : HMac Ctx)) = _
    have := absorb_append (impl compress) impl_lawful init ((Spec.hmacKey Spec.SM3.hash 64 K).map (· ^^^ 0x36)) m
    rw [e0, Outcome.ok_bind, l3] at this
    rw [this, Outcome.ok_bind, ← l1]
  rw [hu, Outcome.ok_bind] at h
  change (o.final cls d >>= fun r => .ok r.2) = _ at h
  cases e : o.final cls d with
  | ok r =>
    rw [e, Outcome.ok_bind] at h
    obtain ⟨o', x⟩ := r
    exact ⟨o', by rw [show x = _ from Outcome.ok.inj h]⟩
  | throw => rw [e] at h; cases h
  | ub => rw [e] at h; cases h

theorem mac_upd {K m d : List Byte} {o o' : HMac Ctx} (l : Live K m o) (e : o.update cls d = .ok o') : Live K (m ++ d) o' := by
  obtain ⟨l1, l2, l3⟩ := l
  have e' : (hashUpdate cls.BS cls.impl o.h d >>= fun h => .ok (⟨o.K, h⟩ : HMac Ctx)) = .ok o' := e
  cases hu : hashUpdate cls.BS cls.impl o.h d with
  | throw => rw [hu] at e'; cases e'
  | ub => rw [hu] at e'; cases e'
  | ok h =>
    rw [hu, Outcome.ok_bind] at e'
    have := Outcome.ok.inj e'
    subst this
    exact ⟨l1, l2, by rw [← List.append_assoc]; exact upd l3 hu⟩

theorem mac_key {K : List Byte} {o o' : HMac Ctx} (hK : 8 * K.length < 2 ^ 64) (e : o.setKey cls K = .ok o') : Live K [] o' := by
  rw [setKey_spec o K hK] at e
  cases hu : absorb 64 (impl compress) init ((Spec.hmacKey Spec.SM3.hash 64 K).map (· ^^^ 0x36)) with
  | throw => rw [hu] at e; cases e
  | ub => rw [hu] at e; cases e
  | ok h =>
    rw [hu, Outcome.ok_bind] at e
    have := Outcome.ok.inj e
    subst this
    exact ⟨rfl, hK, by rw [List.append_nil]; exact hu⟩

/-- A key that is accepted is short enough. -/
theorem key_bound {K : List Byte} {o o' : HMac Ctx} (e : o.setKey cls K = .ok o') : 8 * K.length < 2 ^ 64 := by
  by_cases h : K.length > cls.BS
  · unfold HMac.setKey at e
    dsimp only at e
    rw [if_pos h] at e
    have hf := final_fresh K
    by_contra hn
    rw [if_neg hn] at hf
    have : hashFinal cls.BS cls.impl (cls.reset o.h) K = .throw := by
      change (hashFinal cls.BS cls.impl (cls.reset o.h) K >>= fun r => .ok r.2) = _ at hf
      cases hh : hashFinal cls.BS cls.impl (cls.reset o.h) K with
      | ok r => rw [hh] at hf; cases hf
      | throw => rfl
      | ub => rw [hh] at hf; cases hf
    rw [this] at e
    cases e
  · have : cls.BS = 64 := rfl
    omega

/-- A message that is accepted is short enough. -/
theorem mac_bound {K m d : List Byte} {o : HMac Ctx} {r} (l : Live K m o) (e : o.final cls d = .ok r) :
    8 * (64 + (m ++ d).length) < 2 ^ 64 := by
  obtain ⟨l1, l2, l3⟩ := l
  unfold HMac.final at e
  cases hu : o.update cls d with
  | throw => rw [hu] at e; cases e
  | ub => rw [hu] at e; cases e
  | ok o' =>
    rw [hu, Outcome.ok_bind] at e
    obtain ⟨-, -, l3'⟩ := mac_upd ⟨l1, l2, l3⟩ hu
    have hf := fin (d := []) l3'
    rw [List.append_nil] at hf
    by_contra hn
    rw [if_neg (by rw [key_len]; exact hn)] at hf
    cases hh : hashFinal cls.BS cls.impl o'.h [] with
    | ok r => rw [hh] at hf; cases hf
    | throw => rw [hh] at e; cases e
    | ub => rw [hh] at hf; cases hf

end HashObjAux
open HashObjAux

/-- C88: whatever calls are made on an `SM3` object, in whatever order, every digest of a message begun by construction or
`reset()` is the digest of exactly that message, whatever the object went through before. -/
theorem C88_sm3_history (cs : List MdCall) (out : List (List Byte)) (h : mdRun cs cls.fresh = .ok out) :
    Agrees out (mdSpec cs (some [])) := by
  have gen : ∀ (cs : List MdCall) (o : HashObj Ctx) (p : Option (List Byte)) (out : List (List Byte)),
      (∀ m, p = some m → absorb 64 (impl compress) init m = .ok o) → mdRun cs o = .ok out → Agrees out (mdSpec cs p) := by
    intro cs
    induction cs with
    | nil =>
      intro o p out _ e
      rw [← Outcome.ok.inj e]
      exact List.Forall₂.nil
    | cons c cs ih =>
      intro o p out hp e
      cases c with
      | reset =>
        refine ih _ _ _ ?_ e
        intro m hm
        cases hm
        exact fresh_absorb.symm
      | update d =>
        unfold mdRun at e
        cases hu : hashUpdate cls.BS cls.impl o d with
        | throw => rw [hu] at e; cases e
        | ub => rw [hu] at e; cases e
        | ok o' =>
          rw [hu, Outcome.ok_bind] at e
          refine ih _ _ _ ?_ e
          intro m hm
          cases p with
          | none => cases hm
          | some q => cases hm; exact upd (hp q rfl) hu
      | final d =>
        unfold mdRun at e
        cases hu : hashFinal cls.BS cls.impl o d with
        | throw => rw [hu] at e; cases e
        | ub => rw [hu] at e; cases e
        | ok r =>
          rw [hu, Outcome.ok_bind] at e
          cases hr : mdRun cs r.1 with
          | throw => rw [hr] at e; cases e
          | ub => rw [hr] at e; cases e
          | ok l =>
            rw [hr, Outcome.ok_bind] at e
            rw [← Outcome.ok.inj e]
            refine List.Forall₂.cons ?_ (ih _ _ _ (by intro m hm; cases hm) hr)
            intro x hx
            cases p with
            | none => cases hx
            | some q =>
              cases hx
              have hf := fin (d := d) (hp q rfl)
              rw [hu, Outcome.ok_bind] at hf
              split at hf
              · exact Outcome.ok.inj hf
              · cases hf
  exact gen cs _ _ _ (by intro m hm; cases hm; exact fresh_absorb.symm) h

/-- The caller begins every message: after `do_final` the next call is `reset()`. -/
def MdOrderly : List MdCall → Bool → Prop
  | [], _ => True
  | .reset :: cs, _ => MdOrderly cs true
  | .update _ :: cs, live => live = true ∧ MdOrderly cs true
  | .final _ :: cs, live => live = true ∧ MdOrderly cs false

/-- The caller begins every message with `set_key`. -/
def MacOrderly : List MacCall → Bool → Prop
  | [], _ => True
  | .setKey _ :: cs, _ => MacOrderly cs true
  | .update _ :: cs, live => live = true ∧ MacOrderly cs true
  | .final _ :: cs, live => live = true ∧ MacOrderly cs false

/-- C88: and if the caller begins every message and all of them together have fewer than `2^61` octets, no call fails: the
digests are those of the messages, one for each `do_final`. -/
theorem C88_sm3_history_total (cs : List MdCall) (hl : 8 * mdBytes cs < 2 ^ 64) (hd : MdOrderly cs true) :
    ∃ out, mdRun cs cls.fresh = .ok out ∧ out.map some = mdSpec cs (some []) := by
  have gen : ∀ (cs : List MdCall) (o : HashObj Ctx) (p : Option (List Byte)),
      (∀ m, p = some m → absorb 64 (impl compress) init m = .ok o ∧ 8 * (m.length + mdBytes cs) < 2 ^ 64) →
      8 * mdBytes cs < 2 ^ 64 → MdOrderly cs p.isSome → ∃ out, mdRun cs o = .ok out ∧ out.map some = mdSpec cs p := by
    intro cs
    induction cs with
    | nil => intro o p _ _ _; exact ⟨[], rfl, rfl⟩
    | cons c cs ih =>
      intro o p hp hb hd
      cases c with
      | reset =>
        refine ih _ (some []) ?_ hb hd
        intro m hm
        cases hm
        exact ⟨fresh_absorb.symm, by simpa [mdBytes] using hb⟩
      | update d =>
        cases p with
        | none => cases hd.1
        | some m =>
          obtain ⟨h1, h2⟩ := hp m rfl
          simp only [mdBytes] at h2 hb
          obtain ⟨o', ho⟩ := absorb_ok (m ++ d) (by rw [List.length_append]; omega)
          have hu : hashUpdate cls.BS cls.impl o d = .ok o' := by
            have := absorb_append (impl compress) impl_lawful init m d
            rw [h1, Outcome.ok_bind, ho] at this
            exact this
          unfold mdRun
          rw [hu, Outcome.ok_bind]
          refine ih o' (some (m ++ d)) ?_ (by omega) hd.2
          intro x hx
          cases hx
          exact ⟨ho, by rw [List.length_append]; omega⟩
      | final d =>
        cases p with
        | none => cases hd.1
        | some m =>
          obtain ⟨h1, h2⟩ := hp m rfl
          simp only [mdBytes] at h2 hb
          have hf := fin (d := d) h1
          rw [if_pos (by rw [List.length_append]; omega)] at hf
          unfold mdRun
          cases hu : hashFinal cls.BS cls.impl o d with
          | throw => rw [hu] at hf; cases hf
          | ub => rw [hu] at hf; cases hf
          | ok r =>
            rw [hu, Outcome.ok_bind] at hf
            obtain ⟨l, hl, hs⟩ := ih r.1 none (by intro x hx; cases hx) (by omega) hd.2
            rw [Outcome.ok_bind, hl, Outcome.ok_bind]
            exact ⟨_, rfl, by rw [List.map_cons, hs, Outcome.ok.inj hf]; rfl⟩
  exact gen cs _ (some []) (by intro m hm; cases hm; exact ⟨fresh_absorb.symm, by simpa using hl⟩) hl hd

/-- C88: whatever calls are made on an `HMac<SM3>` object, in whatever order, every MAC of a message begun by `set_key` is
the RFC 2104 MAC of exactly that message under that key, whatever keys and messages came before. -/
theorem C88_hmac_history (cs : List MacCall) (o : HMac Ctx) (out : List (List Byte)) (h : macRun cs o = .ok out) :
    Agrees out (macSpec cs none) := by
  have gen : ∀ (cs : List MacCall) (o : HMac Ctx) (p : Option (List Byte × List Byte)) (out : List (List Byte)),
      (∀ K m, p = some (K, m) → Live K m o) → macRun cs o = .ok out → Agrees out (macSpec cs p) := by
    intro cs
    induction cs with
    | nil =>
      intro o p out _ e
      rw [← Outcome.ok.inj e]
      exact List.Forall₂.nil
    | cons c cs ih =>
      intro o p out hp e
      cases c with
      | setKey K =>
        unfold macRun at e
        cases hu : o.setKey cls K with
        | throw => rw [hu] at e; cases e
        | ub => rw [hu] at e; cases e
        | ok o' =>
          rw [hu, Outcome.ok_bind] at e
          refine ih _ _ _ ?_ e
          intro K' m hm
          cases hm
          exact mac_key (key_bound hu) hu
      | update d =>
        unfold macRun at e
        cases hu : o.update cls d with
        | throw => rw [hu] at e; cases e
        | ub => rw [hu] at e; cases e
        | ok o' =>
          rw [hu, Outcome.ok_bind] at e
          refine ih _ _ _ ?_ e
          intro K m hm
          cases p with
          | none => cases hm
          | some q => cases hm; exact mac_upd (hp q.1 q.2 rfl) hu
      | final d =>
        unfold macRun at e
        cases hu : o.final cls d with
        | throw => rw [hu] at e; cases e
        | ub => rw [hu] at e; cases e
        | ok r =>
          rw [hu, Outcome.ok_bind] at e
          cases hr : macRun cs r.1 with
          | throw => rw [hr] at e; cases e
          | ub => rw [hr] at e; cases e
          | ok l =>
            rw [hr, Outcome.ok_bind] at e
            rw [← Outcome.ok.inj e]
            refine List.Forall₂.cons ?_ (ih _ _ _ (by intro K m hm; cases hm) hr)
            intro x hx
            cases p with
            | none => cases hx
            | some q =>
              cases hx
              have lv := hp q.1 q.2 rfl
              obtain ⟨o', hf⟩ := mac_final lv (mac_bound lv hu)
              rw [hu] at hf
              rw [Outcome.ok.inj hf]
  exact gen cs _ _ _ (by intro K m hm; cases hm) h

/-- C88: and if the caller begins every message with `set_key`, and keys and messages together have fewer than `2^61 - 64`
octets, no call fails. -/
theorem C88_hmac_history_total (cs : List MacCall) (o : HMac Ctx) (hl : 8 * (64 + macBytes cs) < 2 ^ 64)
    (hd : MacOrderly cs false) : ∃ out, macRun cs o = .ok out ∧ out.map some = macSpec cs none := by
  have gen : ∀ (cs : List MacCall) (o : HMac Ctx) (p : Option (List Byte × List Byte)),
      (∀ K m, p = some (K, m) → Live K m o ∧ 8 * (64 + m.length + macBytes cs) < 2 ^ 64) →
      8 * (64 + macBytes cs) < 2 ^ 64 → MacOrderly cs p.isSome →
      ∃ out, macRun cs o = .ok out ∧ out.map some = macSpec cs p := by
    intro cs
    induction cs with
    | nil => intro o p _ _ _; exact ⟨[], rfl, rfl⟩
    | cons c cs ih =>
      intro o p hp hb hd
      cases c with
      | setKey K =>
        simp only [macBytes] at hb
        have hK : 8 * K.length < 2 ^ 64 := by omega
        have hs := setKey_spec o K hK
        obtain ⟨h0, e0⟩ := absorb_ok ((Spec.hmacKey Spec.SM3.hash 64 K).map (· ^^^ 0x36)) (by
          rw [List.length_map, hmacKey_len]; decide)
        rw [e0, Outcome.ok_bind] at hs
        have hs' : o.setKey cls K = .ok _ := hs
        unfold macRun
        rw [hs', Outcome.ok_bind]
        refine ih _ (some (K, [])) ?_ (by omega) hd
        intro K' m hm
        cases hm
        exact ⟨mac_key hK hs', by simp only [List.length_nil]; omega⟩
      | update d =>
        cases p with
        | none => cases hd.1
        | some q =>
          obtain ⟨K, m⟩ := q
          obtain ⟨lv, h2⟩ := hp K m rfl
          simp only [macBytes] at h2 hb
          obtain ⟨h', ho⟩ := absorb_ok ((Spec.hmacKey Spec.SM3.hash 64 K).map (· ^^^ 0x36) ++ (m ++ d)) (by
            rw [key_len, List.length_append]; omega)
          have hu : o.update cls d = .ok ⟨o.K, h'⟩ := by
            show (hashUpdate 64 (impl compress) o.h d >>= fun h => .ok (⟨o.K, h⟩ : HMac Ctx)) = _
            have := absorb_append (impl compress) impl_lawful init
              ((Spec.hmacKey Spec.SM3.hash 64 K).map (· ^^^ 0x36) ++ m) d
            rw [lv.2.2, Outcome.ok_bind, List.append_assoc, ho] at this
            rw [this, Outcome.ok_bind]
          unfold macRun
          rw [hu, Outcome.ok_bind]
          refine ih _ (some (K, m ++ d)) ?_ (by omega) hd.2
          intro K' m' hm
          cases hm
          exact ⟨mac_upd lv hu, by rw [List.length_append]; omega⟩
      | final d =>
        cases p with
        | none => cases hd.1
        | some q =>
          obtain ⟨K, m⟩ := q
          obtain ⟨lv, h2⟩ := hp K m rfl
          simp only [macBytes] at h2 hb
          obtain ⟨o', hf⟩ := mac_final (d := d) lv (by rw [List.length_append]; omega)
          unfold macRun
          rw [hf, Outcome.ok_bind]
          obtain ⟨l, hl, hs⟩ := ih o' none (by intro K m hx; cases hx) (by omega) hd.2
          rw [hl, Outcome.ok_bind]
          exact ⟨_, rfl, by rw [List.map_cons, hs]; rfl⟩
  exact gen cs o none (by intro K m hm; cases hm) hl hd

/-- The digests of two `do_final` calls on one object with no `reset()` between them. -/
def finalTwice (m : List Byte) : Outcome (List Byte × List Byte) := do
  let r ← hashFinal cls.BS cls.impl cls.fresh m
  let r' ← hashFinal cls.BS cls.impl r.1 m
  .ok (r.2, r'.2)

theorem finalTwice_differ : (match finalTwice [0x61, 0x62, 0x63] with | .ok (a, b) => a != b | _ => false) = true := by
  decide +kernel

/-- C88: the `reset()` is needed, `do_final` does not begin a message: without `reset()` the second digest of the same message
is another string, not its digest, and no error is reported. -/
theorem C88_sm3_final_needs_reset : ∃ out, mdRun [.final [0x61, 0x62, 0x63], .final [0x61, 0x62, 0x63]] cls.fresh = .ok out ∧
    out ≠ [Spec.SM3.hash [0x61, 0x62, 0x63], Spec.SM3.hash [0x61, 0x62, 0x63]] := by
  have h := finalTwice_differ
  unfold finalTwice at h
  simp only [mdRun]
  cases e : hashFinal cls.BS cls.impl cls.fresh [0x61, 0x62, 0x63] with
  | throw => rw [e] at h; cases h
  | ub => rw [e] at h; cases h
  | ok r =>
    rw [e, Outcome.ok_bind] at h
    cases e' : hashFinal cls.BS cls.impl r.1 [0x61, 0x62, 0x63] with
    | throw => rw [e'] at h; cases h
    | ub => rw [e'] at h; cases h
    | ok r' =>
      rw [e', Outcome.ok_bind] at h
      refine ⟨[r.2, r'.2], by simp only [Outcome.ok_bind, e'], ?_⟩
      intro hc
      injection hc with h1 h2
      injection h2 with h2 _
      simp [h1, h2] at h

/-- The MACs of two `do_final` calls on one object with no `set_key` between them. -/
def macTwice (K m : List Byte) : Outcome (List Byte × List Byte) := do
  let o ← (⟨[], cls.fresh⟩ : HMac Ctx).setKey cls K
  let r ← o.final cls m
  let r' ← r.1.final cls m
  .ok (r.2, r'.2)

theorem macTwice_differ : (match macTwice [0x6b] [0x61] with | .ok (a, b) => a != b | _ => false) = true := by
  decide +kernel

/-- C88: likewise for the MAC, `set_key` is needed: after `do_final` the object keeps the key but not its inner state, and the second MAC of
the same message is wrong without an error. -/
theorem C88_hmac_final_needs_key (o : HMac Ctx) : ∃ out, macRun [.setKey [0x6b], .final [0x61], .final [0x61]] o = .ok out ∧
    out ≠ [Spec.hmac Spec.SM3.hash 64 [0x6b] [0x61], Spec.hmac Spec.SM3.hash 64 [0x6b] [0x61]] := by
  have h := macTwice_differ
  unfold macTwice at h
  have hk : o.setKey cls [0x6b] = (⟨[], cls.fresh⟩ : HMac Ctx).setKey cls [0x6b] :=
    (setKey_spec o [0x6b] (by decide)).trans (setKey_spec _ [0x6b] (by decide)).symm
  simp only [macRun]
  rw [hk]
  cases e0 : (⟨[], cls.fresh⟩ : HMac Ctx).setKey cls [0x6b] with
  | throw => rw [e0] at h; cases h
  | ub => rw [e0] at h; cases h
  | ok o1 =>
    rw [e0, Outcome.ok_bind] at h
    cases e : o1.final cls [0x61] with
    | throw => rw [e] at h; cases h
    | ub => rw [e] at h; cases h
    | ok r =>
      rw [e, Outcome.ok_bind] at h
      cases e' : r.1.final cls [0x61] with
      | throw => rw [e'] at h; cases h
      | ub => rw [e'] at h; cases h
      | ok r' =>
        rw [e', Outcome.ok_bind] at h
        refine ⟨[r.2, r'.2], by simp only [Outcome.ok_bind, e, e'], ?_⟩
        intro hc
        injection hc with h1 h2
        injection h2 with h2 _
        simp [h1, h2] at h

/-- The hypotheses are met by a history with two messages, the first abandoned half-way. -/
example : ∃ out, mdRun [.update [1, 2], .reset, .update [3], .final [4], .reset, .final []] cls.fresh = .ok out ∧
    out.map some = [some (Spec.SM3.hash [3, 4]), some (Spec.SM3.hash [])] :=
  C88_sm3_history_total _ (by decide) ⟨rfl, rfl, rfl, rfl, trivial⟩

example (o : HMac Ctx) : ∃ out, macRun [.setKey [1], .update [2], .setKey [3], .final [4], .setKey [5], .final []] o = .ok out ∧
    out.map some = [some (Spec.hmac Spec.SM3.hash 64 [3] [4]), some (Spec.hmac Spec.SM3.hash 64 [5] [])] :=
  C88_hmac_history_total _ o (by decide) ⟨rfl, rfl, rfl, trivial⟩

end Verif.Props
