import Verif.Model.HashMem
import Verif.Proofs.SignMem
import Verif.Props.HashObj
/-!
# C105: hash and MAC objects on shared buffers

A program of the caller: stores of their own to the memory, interleaved in any order with calls on any number of `SM3` and
`HMac<SM3>` objects.  Data, keys and digests are places in one memory and may overlap in any way.
-/
namespace Verif.Props
open Verif Verif.Sm3 Verif.HashMem

/-- What the standards say: the memory, the message so far of each hash object (`none` between `do_final` and the next
`reset`), key and message so far of each MAC object. -/
structure HSpec where
  mem : Mem
  md : Nat → Option (List Byte)
  mac : Nat → Option (List Byte × List Byte)

/-- The effect of a step; `none` if the caller leaves the memory or has not begun the message. -/
def HSpec.call (s : HSpec) : Call → Option HSpec
  | .store p bs => if p + bs.length ≤ s.mem.length then some { s with mem := wrm s.mem p bs } else none
  | .reset k => some { s with md := Function.update s.md k (some []) }
  | .update k p n => if p + n ≤ s.mem.length then
      (s.md k).map fun x => { s with md := Function.update s.md k (some (x ++ rdm s.mem p n)) } else none
  | .final k d p n => if p + n ≤ s.mem.length ∧ d + 32 ≤ s.mem.length then
      (s.md k).map fun x => { s with mem := wrm s.mem d (Spec.SM3.hash (x ++ rdm s.mem p n)), md := Function.update s.md k none }
      else none
  | .setKey k p n => if p + n ≤ s.mem.length then
      some { s with mac := Function.update s.mac k (some (rdm s.mem p n, [])) } else none
  | .macUpdate k p n => if p + n ≤ s.mem.length then
      (s.mac k).map fun q => { s with mac := Function.update s.mac k (some (q.1, q.2 ++ rdm s.mem p n)) } else none
  | .macFinal k d p n => if p + n ≤ s.mem.length ∧ d + 32 ≤ s.mem.length then
      (s.mac k).map fun q => { s with
        mem := wrm s.mem d (Spec.hmac Spec.SM3.hash 64 q.1 (q.2 ++ rdm s.mem p n)), mac := Function.update s.mac k none }
      else none

/-- The effect of a program. -/
def HSpec.run : List Call → HSpec → Option HSpec
  | [], s => some s
  | c :: cs, s => (s.call c).bind (HSpec.run cs)

/-- Octets a program hashes, at most. -/
def hmBytes : List Call → Nat
  | [] => 0
  | .store _ _ :: cs => hmBytes cs
  | .reset _ :: cs => hmBytes cs
  | .update _ _ n :: cs => n + hmBytes cs
  | .final _ _ _ n :: cs => n + hmBytes cs
  | .setKey _ _ n :: cs => n + hmBytes cs
  | .macUpdate _ _ n :: cs => n + hmBytes cs
  | .macFinal _ _ _ n :: cs => n + hmBytes cs

namespace HashMemAux
open HashObjAux

theorem get_ok {m : Mem} {p n : Nat} (h : p + n ≤ m.length) : get m p n = .ok (rdm m p n) := if_pos h

theorem storeWords_eq : ∀ (i : Nat) (m : Mem) (d : Nat) (bs : List Byte), bs.length = 4 * i → d + 4 * i ≤ m.length →
    storeWords i m d bs = .ok (wrm m d bs)
  | 0, m, d, bs, hl, _ => by
    have : bs = [] := List.length_eq_zero_iff.1 (by omega)
    subst this
    show Outcome.ok m = .ok (m.take d ++ [] ++ m.drop (d + 0))
    rw [List.append_nil, Nat.add_zero, List.take_append_drop]
  | i + 1, m, d, bs, hl, hd => by
    have h4 : (bs.take 4).length = 4 := by rw [List.length_take]; omega
    unfold storeWords
    rw [if_pos (by omega), storeWords_eq i _ _ _ (by rw [List.length_drop]; omega) (by rw [wrm_len (by omega)]; omega),
      SignMem.wrm_two h4 (by rw [List.length_drop]; omega), List.take_append_drop]

theorem put_same {α} (f : Nat → α) (k : Nat) (a : α) : put f k a k = a := if_pos rfl
theorem put_other {α} (f : Nat → α) {k j : Nat} (a : α) (h : j ≠ k) : put f k a j = f j := if_neg h

theorem upd_ok {m d : List Byte} {o : HashObj Ctx} (h1 : absorb 64 (impl compress) init m = .ok o)
    (hl : 8 * (m ++ d).length < 2 ^ 64) :
    ∃ o', hashUpdate cls.BS cls.impl o d = .ok o' ∧ absorb 64 (impl compress) init (m ++ d) = .ok o' := by
  obtain ⟨o', ho⟩ := absorb_ok (m ++ d) hl
  refine ⟨o', ?_, ho⟩
  have := absorb_append (impl compress) impl_lawful init m d
  rw [h1, Outcome.ok_bind, ho] at this
  exact this

theorem fin_ok {m d : List Byte} {o : HashObj Ctx} (h1 : absorb 64 (impl compress) init m = .ok o)
    (hl : 8 * (m ++ d).length < 2 ^ 64) :
    ∃ h r, hashUpdate cls.BS cls.impl o d = .ok h ∧ cls.impl.finalBlock h.st h.buf = .ok r ∧
      r.2 = Spec.SM3.hash (m ++ d) := by
  have hf := fin (d := d) h1
  rw [if_pos hl] at hf
  obtain ⟨h, hu, _⟩ := upd_ok h1 hl
  unfold hashFinal at hf
  rw [hu, Outcome.ok_bind] at hf
  cases e : cls.impl.finalBlock h.st h.buf with
  | throw => rw [e] at hf; cases hf
  | ub => rw [e] at hf; cases hf
  | ok r => rw [e] at hf; exact ⟨h, r, hu, e, Outcome.ok.inj hf⟩

theorem macUpd_ok {K m d : List Byte} {o : HMac Ctx} (lv : Live K m o) (hl : 8 * (64 + (m ++ d).length) < 2 ^ 64) :
    ∃ o', o.update cls d = .ok o' ∧ Live K (m ++ d) o' := by
  obtain ⟨h', ho, _⟩ := upd_ok (d := d) lv.2.2 (by rw [List.append_assoc, key_len]; exact hl)
  have hu : o.update cls d = .ok ⟨o.K, h'⟩ := by
    show (hashUpdate cls.BS cls.impl o.h d >>= fun h => .ok (⟨o.K, h⟩ : HMac Ctx)) = _
    rw [ho, Outcome.ok_bind]
  exact ⟨_, hu, mac_upd lv hu⟩

theorem key_ok {K : List Byte} (o : HMac Ctx) (hK : 8 * K.length < 2 ^ 64) :
    ∃ o', o.setKey cls K = .ok o' ∧ Live K [] o' := by
  obtain ⟨h0, e0⟩ := absorb_ok ((Spec.hmacKey Spec.SM3.hash 64 K).map (· ^^^ 0x36)) (by
    rw [List.length_map, hmacKey_len]; decide)
  have hs := setKey_spec o K hK
  rw [e0, Outcome.ok_bind] at hs
  exact ⟨_, hs, mac_key hK hs⟩

/-- `HMac::do_final` up to the store of the digest. -/
theorem macFinal_call {w : World} {k d p n : Nat} {o' : HMac Ctx} {x D : List Byte} (hg : get w.mem p n = .ok x)
    (hf : (w.mac k).final cls x = .ok (o', D)) (hl : D.length = 32) (hd : d + 32 ≤ w.mem.length) :
    call w (.macFinal k d p n) = .ok { w with mem := wrm w.mem d D, mac := put w.mac k o' } := by
  unfold HMac.final at hf
  rw [call]
  rw [hg, Outcome.ok_bind]
  cases e1 : (w.mac k).update cls x with
  | throw => rw [e1] at hf; cases hf
  | ub => rw [e1] at hf; cases hf
  | ok o =>
  rw [e1, Outcome.ok_bind] at hf
  rw [Outcome.ok_bind]
  cases e2 : hashFinal cls.BS cls.impl o.h [] with
  | throw => rw [e2] at hf; cases hf
  | ub => rw [e2] at hf; cases hf
  | ok i =>
  rw [e2, Outcome.ok_bind] at hf
  rw [Outcome.ok_bind]
  dsimp only at hf ⊢
  cases e3 : hashUpdate cls.BS cls.impl (cls.reset i.1) (o.K.map (· ^^^ 0x5c)) with
  | throw => rw [e3] at hf; cases hf
  | ub => rw [e3] at hf; cases hf
  | ok h1 =>
  rw [e3, Outcome.ok_bind] at hf
  rw [Outcome.ok_bind]
  cases e4 : hashUpdate cls.BS cls.impl h1 i.2 with
  | throw => rw [e4] at hf; cases hf
  | ub => rw [e4] at hf; cases hf
  | ok h2 =>
  rw [e4, Outcome.ok_bind] at hf
  rw [Outcome.ok_bind]
  unfold hashFinal at hf
  cases e5 : hashUpdate cls.BS cls.impl h2 [] with
  | throw => rw [e5] at hf; cases hf
  | ub => rw [e5] at hf; cases hf
  | ok h3 =>
  rw [e5, Outcome.ok_bind] at hf
  rw [Outcome.ok_bind]
  cases e6 : cls.impl.finalBlock h3.st h3.buf with
  | throw => rw [e6] at hf; cases hf
  | ub => rw [e6] at hf; cases hf
  | ok r =>
  rw [e6, Outcome.ok_bind, Outcome.ok_bind] at hf
  obtain ⟨rfl, rfl⟩ := Prod.mk.inj (Outcome.ok.inj hf)
  rw [Outcome.ok_bind, storeWords_eq 8 _ _ _ hl hd, Outcome.ok_bind]

/-- The objects are in the middle of the messages the specification has, with room for `b` octets. -/
structure Inv (b : Nat) (w : World) (s : HSpec) : Prop where
  mem : w.mem = s.mem
  md : ∀ k m, s.md k = some m → absorb 64 (impl compress) init m = .ok (w.md k) ∧ 8 * (64 + m.length + b) < 2 ^ 64
  mac : ∀ k K m, s.mac k = some (K, m) → Live K m (w.mac k) ∧ 8 * (64 + m.length + b) < 2 ^ 64

theorem put_md {b b' : Nat} {f : Nat → Option (List Byte)} {g : Nat → HashObj Ctx} {k : Nat} {x : Option (List Byte)}
    {o : HashObj Ctx} (hb : b' ≤ b)
    (h : ∀ k m, f k = some m → absorb 64 (impl compress) init m = .ok (g k) ∧ 8 * (64 + m.length + b) < 2 ^ 64)
    (hx : ∀ m, x = some m → absorb 64 (impl compress) init m = .ok o ∧ 8 * (64 + m.length + b') < 2 ^ 64) :
    ∀ j m, Function.update f k x j = some m → absorb 64 (impl compress) init m = .ok (put g k o j) ∧
      8 * (64 + m.length + b') < 2 ^ 64 := by
  intro j m hm
  by_cases hj : j = k
  · subst hj
    rw [Function.update_self] at hm
    rw [put_same]
    exact hx m hm
  · rw [Function.update_of_ne hj] at hm
    rw [put_other _ _ hj]
    obtain ⟨a, c⟩ := h j m hm
    exact ⟨a, by omega⟩

theorem put_mac {b b' : Nat} {f : Nat → Option (List Byte × List Byte)} {g : Nat → HMac Ctx} {k : Nat}
    {x : Option (List Byte × List Byte)} {o : HMac Ctx} (hb : b' ≤ b)
    (h : ∀ k K m, f k = some (K, m) → Live K m (g k) ∧ 8 * (64 + m.length + b) < 2 ^ 64)
    (hx : ∀ K m, x = some (K, m) → Live K m o ∧ 8 * (64 + m.length + b') < 2 ^ 64) :
    ∀ j K m, Function.update f k x j = some (K, m) → Live K m (put g k o j) ∧ 8 * (64 + m.length + b') < 2 ^ 64 := by
  intro j K m hm
  by_cases hj : j = k
  · subst hj
    rw [Function.update_self] at hm
    rw [put_same]
    exact hx K m hm
  · rw [Function.update_of_ne hj] at hm
    rw [put_other _ _ hj]
    obtain ⟨a, c⟩ := h j K m hm
    exact ⟨a, by omega⟩

theorem Inv.less {b b' : Nat} {w : World} {s : HSpec} (i : Inv b w s) (h : b' ≤ b) : Inv b' w s :=
  ⟨i.mem, fun k m hm => ⟨(i.md k m hm).1, by have := (i.md k m hm).2; omega⟩,
    fun k K m hm => ⟨(i.mac k K m hm).1, by have := (i.mac k K m hm).2; omega⟩⟩

theorem run_ok : ∀ (cs : List Call) (w : World) (s s' : HSpec), Inv (hmBytes cs) w s → 8 * (64 + hmBytes cs) < 2 ^ 64 →
    s.run cs = some s' → ∃ w', run cs w = .ok w' ∧ Inv 0 w' s' := by
  intro cs
  induction cs with
  | nil =>
    intro w s s' i _ h
    cases h
    exact ⟨w, rfl, i⟩
  | cons c cs ih =>
    intro w s s' i hb h
    obtain ⟨s1, h1, h2⟩ := Option.bind_eq_some_iff.1 h
    have key : ∃ w1, call w c = .ok w1 ∧ Inv (hmBytes cs) w1 s1 ∧ hmBytes cs ≤ hmBytes (c :: cs) := by
      obtain ⟨wm, wd, wc⟩ := w
      obtain ⟨im, imd, imac⟩ := i
      dsimp only at im imd imac
      subst im
      cases c with
      | store p bs =>
        simp only [HSpec.call] at h1
        split_ifs at h1 with hc
        cases h1
        exact ⟨⟨wrm s.mem p bs, wd, wc⟩, by rw [call, if_pos hc], ⟨rfl, imd, imac⟩, le_rfl⟩
      | reset k =>
        cases h1
        refine ⟨⟨s.mem, put wd k (cls.reset (wd k)), wc⟩, rfl, ⟨rfl, put_md le_rfl imd ?_, imac⟩, le_rfl⟩
        intro m hm
        cases hm
        exact ⟨fresh_absorb.symm, by simpa [hmBytes] using hb⟩
      | update k p n =>
        simp only [HSpec.call] at h1
        split_ifs at h1 with hc
        obtain ⟨x, hx, h1⟩ := Option.map_eq_some_iff.1 h1
        subst h1
        obtain ⟨a1, a2⟩ := imd k x hx
        simp only [hmBytes] at a2 hb
        have hl := rdm_len hc
        obtain ⟨o', u1, u2⟩ := upd_ok (d := rdm s.mem p n) a1 (by rw [List.length_append, hl]; omega)
        refine ⟨⟨s.mem, put wd k o', wc⟩, by rw [call, get_ok hc, Outcome.ok_bind, u1, Outcome.ok_bind],
          ⟨rfl, put_md (b' := hmBytes cs) (by simp only [hmBytes]; omega) imd ?_, fun k K m hm => ⟨(imac k K m hm).1, ?_⟩⟩, ?_⟩
        · intro m hm
          cases hm
          exact ⟨u2, by rw [List.length_append, hl]; omega⟩
        · have := (imac k K m hm).2; simp only [hmBytes] at this; omega
        · simp only [hmBytes]; omega
      | final k d p n =>
        simp only [HSpec.call] at h1
        split_ifs at h1 with hc
        obtain ⟨x, hx, h1⟩ := Option.map_eq_some_iff.1 h1
        subst h1
        obtain ⟨a1, a2⟩ := imd k x hx
        simp only [hmBytes] at a2 hb
        have hl := rdm_len hc.1
        obtain ⟨o', r, u1, u2, u3⟩ := fin_ok (d := rdm s.mem p n) a1 (by rw [List.length_append, hl]; omega)
        refine ⟨⟨wrm s.mem d r.2, put wd k ⟨o'.buf, r.1⟩, wc⟩, by
          rw [call]
          rw [ get_ok hc.1, Outcome.ok_bind, u1, Outcome.ok_bind, u2, Outcome.ok_bind,
            storeWords_eq 8 _ _ _ (by rw [u3]; exact hash_len _) hc.2, Outcome.ok_bind],
          ⟨by rw [u3], put_md (b' := hmBytes cs) (by simp only [hmBytes]; omega) imd (fun m hm => by cases hm),
            fun k K m hm => ⟨(imac k K m hm).1, ?_⟩⟩, ?_⟩
        · have := (imac k K m hm).2; simp only [hmBytes] at this; omega
        · simp only [hmBytes]; omega
      | setKey k p n =>
        simp only [HSpec.call] at h1
        split_ifs at h1 with hc
        cases h1
        simp only [hmBytes] at hb
        have hl := rdm_len hc
        obtain ⟨o', u1, u2⟩ := key_ok (K := rdm s.mem p n) (wc k) (by rw [hl]; omega)
        refine ⟨⟨s.mem, wd, put wc k o'⟩, by rw [call, get_ok hc, Outcome.ok_bind, u1, Outcome.ok_bind],
          ⟨rfl, fun k m hm => ⟨(imd k m hm).1, ?_⟩, put_mac (b' := hmBytes cs) (by simp only [hmBytes]; omega) imac ?_⟩, ?_⟩
        · have := (imd k m hm).2; simp only [hmBytes] at this; omega
        · intro K m hm
          cases hm
          exact ⟨u2, by simp only [List.length_nil]; omega⟩
        · simp only [hmBytes]; omega
      | macUpdate k p n =>
        simp only [HSpec.call] at h1
        split_ifs at h1 with hc
        obtain ⟨⟨K, x⟩, hx, h1⟩ := Option.map_eq_some_iff.1 h1
        subst h1
        obtain ⟨a1, a2⟩ := imac k K x hx
        simp only [hmBytes] at a2 hb
        have hl := rdm_len hc
        obtain ⟨o', u1, u2⟩ := macUpd_ok (d := rdm s.mem p n) a1 (by rw [List.length_append, hl]; omega)
        refine ⟨⟨s.mem, wd, put wc k o'⟩, by rw [call, get_ok hc, Outcome.ok_bind, u1, Outcome.ok_bind],
          ⟨rfl, fun k m hm => ⟨(imd k m hm).1, ?_⟩, put_mac (b' := hmBytes cs) (by simp only [hmBytes]; omega) imac ?_⟩, ?_⟩
        · have := (imd k m hm).2; simp only [hmBytes] at this; omega
        · intro K m hm
          cases hm
          exact ⟨u2, by dsimp only; rw [List.length_append, hl]; omega⟩
        · simp only [hmBytes]; omega
      | macFinal k d p n =>
        simp only [HSpec.call] at h1
        split_ifs at h1 with hc
        obtain ⟨⟨K, x⟩, hx, h1⟩ := Option.map_eq_some_iff.1 h1
        subst h1
        obtain ⟨a1, a2⟩ := imac k K x hx
        simp only [hmBytes] at a2 hb
        have hl := rdm_len hc.1
        obtain ⟨o', hf⟩ := mac_final (d := rdm s.mem p n) a1 (by rw [List.length_append, hl]; omega)
        refine ⟨⟨wrm s.mem d _, wd, put wc k o'⟩, macFinal_call (get_ok hc.1) hf (hash_len _) hc.2,
          ⟨rfl, fun k m hm => ⟨(imd k m hm).1, ?_⟩,
            put_mac (b' := hmBytes cs) (by simp only [hmBytes]; omega) imac (fun K m hm => by cases hm)⟩, ?_⟩
        · have := (imd k m hm).2; simp only [hmBytes] at this; omega
        · simp only [hmBytes]; omega
    obtain ⟨w1, e1, i1, hle⟩ := key
    obtain ⟨w', e2, i2⟩ := ih w1 s1 s' i1 (by omega) h2
    exact ⟨w', by unfold run; rw [e1, Outcome.ok_bind, e2], i2⟩

end HashMemAux
open HashMemAux

/-- **C105.**  Any number of new `SM3` objects and of `HMac<SM3>` objects in any state, any interleaving of the caller's
stores with calls on them, data, keys and digests anywhere in one memory: if the caller stays inside the memory, begins
every message, and hashes fewer than `2^61 - 64` octets in all, no call fails and the memory ends as the standards say:
every digest is that of the octets as they were at the time of the calls that passed them. -/
theorem C105_history (cs : List Call) (m : Mem) (macs : Nat → HMac Ctx) (s' : HSpec)
    (hb : 8 * (64 + hmBytes cs) < 2 ^ 64) (h : HSpec.run cs ⟨m, fun _ => some [], fun _ => none⟩ = some s') :
    ∃ w', run cs ⟨m, fun _ => cls.fresh, macs⟩ = .ok w' ∧ w'.mem = s'.mem := by
  obtain ⟨w', e, i⟩ := run_ok cs ⟨m, fun _ => cls.fresh, macs⟩ _ s' ⟨rfl, fun k x hx => by
    cases hx
    exact ⟨fresh_absorb.symm, by simpa using hb⟩, fun k K x hx => by cases hx⟩ hb h
  exact ⟨w', e, i.mem⟩

/-- **C105**, one call: `do_final(digest, in, inl)` with the digest anywhere, over the data or not, leaves the digest of
the data as it was, and no other octet changes. -/
theorem C105_digest_over_data (m : Mem) (d p n : Nat) (macs : Nat → HMac Ctx) (hp : p + n ≤ m.length)
    (hd : d + 32 ≤ m.length) (hn : 8 * (64 + n) < 2 ^ 64) :
    ∃ w', run [.final 0 d p n] ⟨m, fun _ => cls.fresh, macs⟩ = .ok w' ∧
      w'.mem = wrm m d (Spec.SM3.hash (rdm m p n)) := by
  have h : HSpec.run [.final 0 d p n] ⟨m, fun _ => some [], fun _ => none⟩ =
      some ⟨wrm m d (Spec.SM3.hash (rdm m p n)), Function.update (fun _ => some []) 0 none, fun _ => none⟩ := by
    simp only [HSpec.run, HSpec.call]
    rw [if_pos ⟨hp, hd⟩, Option.map_some, Option.bind_some, List.nil_append]
  obtain ⟨w', e, hw⟩ := C105_history _ m macs _ (by simpa [hmBytes] using hn) h
  exact ⟨w', e, hw⟩

/-- **C105**, one message: a MAC stored over its own key and data. -/
theorem C105_mac_over_key (m : Mem) (d p n q l : Nat) (macs : Nat → HMac Ctx) (hp : p + n ≤ m.length)
    (hq : q + l ≤ m.length) (hd : d + 32 ≤ m.length) (hn : 8 * (64 + (l + n)) < 2 ^ 64) :
    ∃ w', run [.setKey 0 q l, .macFinal 0 d p n] ⟨m, fun _ => cls.fresh, macs⟩ = .ok w' ∧
      w'.mem = wrm m d (Spec.hmac Spec.SM3.hash 64 (rdm m q l) (rdm m p n)) := by
  have h : HSpec.run [.setKey 0 q l, .macFinal 0 d p n] ⟨m, fun _ => some [], fun _ => none⟩ =
      some ⟨wrm m d (Spec.hmac Spec.SM3.hash 64 (rdm m q l) (rdm m p n)), fun _ => some [],
        Function.update (Function.update (fun _ => none) 0 (some (rdm m q l, []))) 0 none⟩ := by
    simp only [HSpec.run, HSpec.call]
    rw [if_pos hq, Option.bind_some]
    dsimp only
    rw [if_pos ⟨hp, hd⟩, Function.update_self, Option.map_some, Option.bind_some, List.nil_append]
  obtain ⟨w', e, hw⟩ := C105_history _ m macs _ (by simpa [hmBytes, Nat.add_comm] using hn) h
  exact ⟨w', e, hw⟩

/-- Two objects interleaved on one buffer: the second hashes what the first has stored over its own data. -/
example (m : Mem) (a : List Byte) (hm : m.length = 40) (ha : a.length = 3) (macs : Nat → HMac Ctx) :
    ∃ w', run [.update 0 0 3, .store 0 a, .update 1 0 3, .final 0 0 0 40, .final 1 8 0 32]
        ⟨m, fun _ => cls.fresh, macs⟩ = .ok w' ∧
      rdm w'.mem 8 32 = Spec.SM3.hash (a ++ Spec.SM3.hash (rdm m 0 3 ++ wrm m 0 a)) := by
  have l1 : (wrm m 0 a).length = 40 := by rw [wrm_len (by rw [ha, hm]; decide), hm]
  have l2 : ∀ x, (wrm (wrm m 0 a) 0 (Spec.SM3.hash x)).length = 40 := fun x => by
    rw [wrm_len (by rw [hash_len, l1]; decide), l1]
  have h1 : rdm (wrm m 0 a) 0 3 = a := SignMem.rdm_wrm_same' ha (by rw [hm]; decide)
  have h2 : ∀ x, rdm (wrm (wrm m 0 a) 0 (Spec.SM3.hash x)) 0 32 = Spec.SM3.hash x := fun x =>
    SignMem.rdm_wrm_same' (hash_len _) (by rw [l1]; decide)
  have h3 : rdm (wrm m 0 a) 0 40 = wrm m 0 a := by
    unfold rdm; rw [List.drop_zero, List.take_of_length_le (by rw [l1])]
  have h : ∃ s', HSpec.run [.update 0 0 3, .store 0 a, .update 1 0 3, .final 0 0 0 40, .final 1 8 0 32]
      ⟨m, fun _ => some [], fun _ => none⟩ = some s' ∧ s'.mem = wrm (wrm (wrm m 0 a) 0
        (Spec.SM3.hash (rdm m 0 3 ++ wrm m 0 a))) 8
        (Spec.SM3.hash (a ++ Spec.SM3.hash (rdm m 0 3 ++ wrm m 0 a))) := by
    simp [HSpec.run, HSpec.call, hm, ha, l1, l2, h1, h2, h3]
  obtain ⟨s', hs, hm'⟩ := h
  obtain ⟨w', e, hw⟩ := C105_history _ m macs s' (by simp [hmBytes]) hs
  refine ⟨w', e, ?_⟩
  rw [hw, hm']
  exact SignMem.rdm_wrm_same' (hash_len _) (by rw [l2])

end Verif.Props
