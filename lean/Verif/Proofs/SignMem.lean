import Mathlib.Data.List.TakeWhile
import Verif.Model.SignMem
import Verif.Proofs.Sm2Mem
import Verif.Proofs.Sm9X64Scheme
import Verif.Proofs.Sm9X64Verify
import Verif.Proofs.Sm9Keys
/-! # Signing on memory: what the programs of Model/SignMem leave -/
set_option linter.unusedSectionVars false
namespace Verif.SignMem
open Spec

section
variable {α β : Type}

theorem b_ok (a : α) (f : α → SM β) (s : St) : (run (.ok a) >>= f) s = f a s := rfl
theorem b_throw (f : α → SM β) (s : St) : (run (.throw : Outcome α) >>= f) s = (s, .throw) := rfl
theorem b_ub (f : α → SM β) (s : St) : (run (.ub : Outcome α) >>= f) s = (s, .ub) := rfl
theorem b_rd (p n : Nat) (f : List Byte → SM β) (s : St) : (rd p n >>= f) s = f (rdm s.m p n) s := rfl
theorem b_rdw (p n : Nat) (f : List Byte → SM β) (s : St) : (rdw p n >>= f) s = f (rdm s.w p n) s := rfl
theorem b_wr (p : Nat) (bs : List Byte) (f : Unit → SM β) (s : St) :
    (wr p bs >>= f) s = f () ⟨wrm s.m p bs, s.w⟩ := rfl
theorem b_wrw (p : Nat) (bs : List Byte) (f : Unit → SM β) (s : St) :
    (wrw p bs >>= f) s = f () ⟨s.m, wrm s.w p bs⟩ := rfl
theorem p_ok (a : α) (s : St) : (pure a : SM α) s = (s, .ok a) := rfl
theorem r_ok (o : Outcome α) (s : St) : run o s = (s, o) := rfl
theorem b_of (x : SM α) (f : α → SM β) {s s' : St} {a : α} (h : x s = (s', .ok a)) : (x >>= f) s = f a s' := by
  show SM.bind x f s = _
  unfold SM.bind
  rw [h]
theorem b_of_throw (x : SM α) (f : α → SM β) {s s' : St} (h : x s = (s', .throw)) : (x >>= f) s = (s', .throw) := by
  show SM.bind x f s = _
  unfold SM.bind
  rw [h]
theorem b_of_ub (x : SM α) (f : α → SM β) {s s' : St} (h : x s = (s', .ub)) : (x >>= f) s = (s', .ub) := by
  show SM.bind x f s = _
  unfold SM.bind
  rw [h]
end

/-- The caller's memory `m` after a call that ends as `o` and may leave octets at `sig`, and the result. -/
inductive Ends {α : Type} (f : List Byte → α) (z : α) (m : Mem) (sig L : Nat) (n : Nat) :
    Outcome (Option (List Byte)) → St × Outcome α → Prop
  | some {w : Mem} (b : List Byte) (h : w.length = n) (hb : b.length = L) : Ends f z m sig L n (.ok (some b)) (⟨wrm m sig b, w⟩, .ok (f b))
  | none {w : Mem} (h : w.length = n) : Ends f z m sig L n (.ok none) (⟨m, w⟩, .ok z)
  | throw {w : Mem} (h : w.length = n) : Ends f z m sig L n .throw (⟨m, w⟩, .throw)
  | ub {w : Mem} (h : w.length = n) : Ends f z m sig L n .ub (⟨m, w⟩, .ub)

theorem rdm_wrm_same' {m : Mem} {o n : Nat} {bs : List Byte} (hn : bs.length = n) (h : o + n ≤ m.length) :
    rdm (wrm m o bs) o n = bs := by
  subst hn; exact rdm_wrm_same h

theorem wrm_len' {m : Mem} {o n k : Nat} {bs : List Byte} (hm : m.length = k) (hn : bs.length = n) (h : o + n ≤ k) :
    (wrm m o bs).length = k := by
  subst hn; subst hm; exact wrm_len h

theorem wrm_two {m : Mem} {o n : Nat} {a b : List Byte} (hn : a.length = n) (h : o + n + b.length ≤ m.length) :
    wrm (wrm m o a) (o + n) b = wrm m o (a ++ b) := by
  subst hn; exact wrm_wrm h

section
variable {S : Type} {C : HashClass S} {H : List Byte → List Byte}

/-! ## SM2 -/

theorem fnlen {a : List W32} {x : ZMod sm2n} (h : IsFn a x) : (mont256ToBytes Sm2.fnCtx a).length = 32 := by
  rw [fn_toBytes h, toBE_len]

theorem sm2Pass_ends {priv : List Byte} (hp : priv.length = 32) {sig : Nat} {rnd : List Byte} (hr : rnd.length = 32)
    {s : St} (hw : s.w.length = C.DS + 32) (ho : sig + 64 ≤ s.m.length) :
    Ends (fun _ => true) false s.m sig 64 (C.DS + 32) (Sm2.signStep priv (rdm s.w 0 C.DS) rnd)
      (sm2Pass C priv sig (sig + 32) rnd s) ∧ rdm (sm2Pass C priv sig (sig + 32) rnd s).1.w 0 C.DS = rdm s.w 0 C.DS := by
  have hln := nonce_len hr
  obtain ⟨n1, n2⟩ := nonce_range hr
  obtain ⟨kG, a, g1, g2, g3⟩ := mulG_affine hln n1 n2
  obtain ⟨e, e1, e2⟩ := fn_fromBytesEx (rdm s.w 0 C.DS)
  have hk := fn_fromBytes hln
  have hr' := fn_add e2 (fn_fromFp g3.1)
  have hd' := fn_fromBytes hp
  obtain ⟨i, i1, i2⟩ := fn_inv (fn_add fn_one hd')
  have hs := fn_mul i2 (fn_sub hk (fn_mul hr' hd'))
  have l1 := wrm_len' hw hr (o := C.DS) le_rfl
  have l2 := wrm_len' l1 hln (o := C.DS) le_rfl
  have q1 : rdm (wrm s.w C.DS rnd) C.DS 32 = rnd := rdm_wrm_same' hr (by omega)
  have q2 : rdm (wrm (wrm s.w C.DS rnd) C.DS (Sm2.nonce rnd)) C.DS 32 = Sm2.nonce rnd := rdm_wrm_same' hln (by omega)
  have q3 : rdm (wrm (wrm s.w C.DS rnd) C.DS (Sm2.nonce rnd)) 0 C.DS = rdm s.w 0 C.DS := by
    rw [rdm_wrm_disj (by omega) (Or.inl (by omega)), rdm_wrm_disj (by omega) (Or.inl (by omega))]
  have hn : u256ToBytes (u256AddWord (Sm2.bnModNSub1 (u256FromBytes rnd)) 1).1 = Sm2.nonce rnd := rfl
  unfold sm2Pass Sm2.signStep
  simp only [b_wrw, b_rdw]
  rw [q1, hn, q2, g1, ofOption_some, b_ok, o_bind, g2, ofOption_some, b_ok, o_bind, b_rdw]
  dsimp only
  rw [q3, e1, ofOption_some, b_ok, o_bind, b_rdw]
  dsimp only
  rw [q2]
  split
  · exact ⟨.none l2, q3⟩
  · rw [i1, ofOption_some, b_ok, o_bind]
    split
    · exact ⟨.none l2, q3⟩
    · rw [b_wr, b_wr, p_ok]
      dsimp only
      have lr := fnlen hr'
      have ls := fnlen hs
      rw [wrm_two lr (by rw [ls]; omega)]
      exact ⟨.some _ l2 (by rw [List.length_append, lr, ls]), q3⟩

theorem sm2Loop_ends {priv : List Byte} (hp : priv.length = 32) {sig : Nat} : ∀ (rnds : List (List Byte)),
    (∀ r ∈ rnds, r.length = 32) → ∀ (s : St), s.w.length = C.DS + 32 → sig + 64 ≤ s.m.length →
    Ends (fun _ => true) false s.m sig 64 (C.DS + 32) (Sm2.signLoop priv (rdm s.w 0 C.DS) rnds)
      (sm2Loop C priv sig (sig + 32) rnds s)
  | [], _, s, hw, _ => .none hw
  | rnd :: rest, hr, s, hw, ho => by
    obtain ⟨h1, h2⟩ := sm2Pass_ends (C := C) hp (hr rnd List.mem_cons_self) hw ho
    unfold sm2Loop Sm2.signLoop
    revert h1 h2
    generalize Sm2.signStep priv (rdm s.w 0 C.DS) rnd = o
    generalize hx : sm2Pass C priv sig (sig + 32) rnd s = x
    intro h1 h2
    cases h1 with
    | some b hl hb => rw [b_of _ _ hx, o_bind]; exact .some b hl hb
    | throw hl => rw [b_of_throw _ _ hx]; exact .throw hl
    | ub hl => rw [b_of_ub _ _ hx]; exact .ub hl
    | @none w hl =>
      rw [b_of _ _ hx, o_bind]
      have ih := sm2Loop_ends hp rest (fun r h => hr r (List.mem_cons_of_mem _ h)) ⟨s.m, w⟩ hl ho
      rw [h2] at ih
      exact ih

theorem sm2Sign_ends (hC : IsHash C H) {K : Sm2.Priv} (hp : K.priv.length = 32) {sig msg n id l : Nat}
    {rnds : List (List Byte)} (hr : ∀ r ∈ rnds, r.length = 32) {s : St} (hw : s.w.length = C.DS + 32)
    (ho : sig + 64 ≤ s.m.length) :
    Ends (fun _ => true) false s.m sig 64 (C.DS + 32) (Sm2.sign C K (rdm s.m msg n) rnds (rdm s.m id l))
      (sm2Sign C K sig msg n id l rnds s) := by
  unfold sm2Sign sm2SignAt Sm2.sign
  rw [b_rd]
  have hz : ∀ Z, Sm2.computeZ C (rdm s.m id l) K.pub.x K.pub.y = .ok Z → Z.length = C.DS := by
    intro Z hZ
    unfold Sm2.computeZ at hZ
    simp only at hZ
    split at hZ
    · cases hZ
    · rw [hC.stream] at hZ
      split at hZ
      · rw [← Outcome.ok.inj hZ, hC.len]
      · cases hZ
  cases ez : Sm2.computeZ C (rdm s.m id l) K.pub.x K.pub.y with
  | throw => rw [b_throw, t_bind]; exact .throw hw
  | ub => rw [b_ub, ub_bind']; exact .ub hw
  | ok Z =>
    have lz := hz Z ez
    rw [b_ok, o_bind, b_wrw, b_rdw, b_rd]
    dsimp only
    rw [List.take_of_length_le (by omega)]
    have l1 := wrm_len' hw lz (o := 0) (by omega)
    rw [rdm_wrm_same' lz (by omega)]
    cases es : C.stream [Z, rdm s.m msg n] [] with
    | throw => rw [b_throw, t_bind]; exact .throw l1
    | ub => rw [b_ub, ub_bind']; exact .ub l1
    | ok e =>
      have le : e.length = C.DS := by
        rw [hC.stream] at es
        split at es
        · rw [← Outcome.ok.inj es, hC.len]
        · cases es
      rw [b_ok, o_bind, b_wrw, List.take_of_length_le (by omega)]
      dsimp only
      have l2 := wrm_len' l1 le (o := 0) (by omega)
      have := sm2Loop_ends (C := C) hp (sig := sig) rnds hr ⟨s.m, wrm (wrm s.w 0 Z) 0 e⟩ l2 ho
      dsimp only at this
      rw [rdm_wrm_same' le (by omega)] at this
      exact this

/-! ## SM9 -/

/-- The loop of `sign` never throws. -/
theorem signLoop_ok {d Z : List Byte} (hd : d.length = 32) : ∀ rnds : List (List Byte), (∀ r ∈ rnds, r.length = 32) →
    ∃ o, Sm2.signLoop d Z rnds = .ok o
  | [], _ => ⟨_, rfl⟩
  | q :: rest, h => by
    obtain ⟨x, y, hn, -, e⟩ := signStep_ok (Z := Z) hd (h q List.mem_cons_self)
    unfold Sm2.signLoop
    rw [e]
    dsimp only
    split
    · rw [o_bind]; exact signLoop_ok hd rest fun r hr => h r (List.mem_cons_of_mem _ hr)
    · rw [o_bind]; exact ⟨_, rfl⟩

theorem sign_isOk (hC : IsHash C H) {K : Sm2.Priv} (hp : K.priv.length = 32) (lx : K.pub.x.length = 32)
    (ly : K.pub.y.length = 32) {msg id : List Byte} {rnds : List (List Byte)} (hr : ∀ r ∈ rnds, r.length = 32)
    (h1 : 8 * id.length ≤ 65535) (h2 : 8 * (C.DS + msg.length) < 2 ^ 64) : ∃ o, Sm2.sign C K msg rnds id = .ok o := by
  unfold Sm2.sign
  rw [computeZ_ok hC id _ _ lx ly, if_pos h1, o_bind, digest_ok hC (sm2Z H id K.pub.x K.pub.y) msg (hC.len _), if_pos h2,
    o_bind]
  exact signLoop_ok hp rnds hr

/-- The leading zeros of an exponent that is not zero, whatever lies behind it. -/
theorem lead_rest {rb rest : List Byte} (hl : rb.length = 32) (h0 : beVal rb ≠ 0) :
    (rb ++ rest).takeWhile (· == 0) = rb.takeWhile (· == 0) ∧ (rb.takeWhile (· == 0)).length < rb.length := by
  have hx : ∃ x ∈ rb, (x == 0) = false := by
    by_contra hc
    push Not at hc
    apply h0
    have : rb = List.replicate 32 0 := by
      rw [List.eq_replicate_iff]
      exact ⟨hl, fun b hb => by simpa using hc b hb⟩
    rw [this]
    decide +kernel
  obtain ⟨x, x1, x2⟩ := hx
  have hne : (rb.takeWhile (· == 0)).length ≠ rb.length := fun hc => by
    have := List.takeWhile_eq_self_iff.mp (List.IsPrefix.eq_of_length (List.takeWhile_prefix _) hc) x x1
    rw [x2] at this
    cases this
  refine ⟨?_, lt_of_le_of_ne (List.takeWhile_prefix _).length_le hne⟩
  rw [List.takeWhile_append, if_neg hne]

/-- The exponentiation does not look behind an exponent that is not zero. -/
theorem pow_rest (e : Sm9.F12) {rb rest : List Byte} (hl : rb.length = 32) (h0 : beVal rb ≠ 0) :
    fp12Pow Sm9.fp e (rb ++ rest) = fp12Pow Sm9.fp e rb := by
  obtain ⟨ht, hi⟩ := lead_rest (rest := rest) hl h0
  unfold fp12Pow
  dsimp only
  rw [ht, List.getElem?_append_left hi, List.take_left' hl, List.take_of_length_le (l := rb) (by omega)]

/-- The counterpart with 64-bit limbs of a residue. -/
def hi (a : List W32) : List W64 := X64.Sm9.fpFromBytes (Sm9.fpToBytes a)

theorem fplen {a : List W32} (h : Reduced sm9p a) : (Sm9.fpToBytes a).length = 32 := by
  obtain ⟨x, -, -, h3, -⟩ := Props.C39_to_bytes Sm9.fpCtx_wf a h
  unfold Sm9.fpToBytes
  rw [h3, toBE_len]

theorem hi_ro {a : List W32} (h : Reduced sm9p a) : RO a (hi a) := by
  have := rfb (fplen h)
  rwa [fp_from_to a h] at this

theorem mulA_red {k : List Byte} (hk : k.length = 32) {A : Sm9.A} (hx : Reduced sm9p A.x) (hy : Reduced sm9p A.y)
    {R : Sm9.J} {a : Sm9.A} (h1 : Sm9.jMulA k A = some R) (h2 : Sm9.jToA R = some a) :
    Reduced sm9p a.x ∧ Reduced sm9p a.y := by
  have g := s9MulA_sim hk (A' := ⟨hi A.x, hi A.y⟩) (relA_mk (hi_ro hx) (hi_ro hy))
  rw [h1] at g
  obtain ⟨R', -, r⟩ := relO_some g
  have t := ws_toA sm9_ws r
  have h2' : ecJToA Sm9.fp R = some a := h2
  rw [h2'] at t
  obtain ⟨a', -, q⟩ := relO_some t
  exact ⟨q.x.1, q.y.1⟩

theorem enc_len (pc : Sm2.PC) {A : Sm9.A} (hx : Reduced sm9p A.x) (hy : Reduced sm9p A.y) :
    (Sm9.encPoint pc A).length = Sm2.c1Len pc := by
  have lx := fplen hx
  have ly := fplen hy
  cases pc
  · show (Sm9.toUncompressed A).length = 65
    unfold Sm9.toUncompressed Sm9.toBytes04
    rw [List.length_cons, List.length_append, lx, ly]
  · show (Sm9.toCompressed A).length = 33
    unfold Sm9.toCompressed
    rw [List.length_cons, lx]
  · show (Sm9.toMix A).length = 65
    unfold Sm9.toMix Sm9.toBytes04
    rw [List.length_cons, List.length_append, lx, ly]

/-- What a signing key holds is reduced. -/
structure KeyOk (key : Sm9.SPriv) : Prop where
  x : Reduced sm9p key.priv.x
  y : Reduced sm9p key.priv.y
  e : All12 (Reduced sm9p) key.pub.e

theorem hnTo_ok {h : Nat} {Z1 Z2 d : List Byte} {tag : Byte} (e : Sm9.hn C Z1 Z2 tag = .ok d) (s : St) :
    hnTo C h Z1 Z2 tag s = (⟨s.m, wrm s.w h d⟩, .ok ()) := by
  unfold hnTo
  rw [e, b_ok]
  rfl
theorem hnTo_throw {h : Nat} {Z1 Z2 : List Byte} {tag : Byte} (e : Sm9.hn C Z1 Z2 tag = .throw) (s : St) :
    hnTo C h Z1 Z2 tag s = (s, .throw) := by
  unfold hnTo
  rw [e, b_throw]
theorem hnTo_ub {h : Nat} {Z1 Z2 : List Byte} {tag : Byte} (e : Sm9.hn C Z1 Z2 tag = .ub) (s : St) :
    hnTo C h Z1 Z2 tag s = (s, .ub) := by
  unfold hnTo
  rw [e, b_ub]

section
variable {F : Type} [Field F] [Algebra (ZMod sm9p) F] [DecidableEq F] {w : F} (hw0 : w ^ 12 = -2)
include hw0

/-- A key that the library has issued is as `KeyOk` says. -/
theorem issued_ok (hC : IsHash C H) {key : List Byte} (hl : key.length = 32) {mk : Sm9.MPriv} (hmk : Sm9.setPriv key = .ok mk)
    {id : List Byte} {hid : Byte} {sk : Sm9.SPriv} (hsk : Sm9.genSignPriv C mk id hid = .ok sk) : KeyOk sk := by
  have h0 := s9setPriv_sim hw0 hl
  rw [hmk] at h0
  obtain ⟨mk', -, h1, h2, -⟩ := relOut_ok' h0
  have sg := genSignPriv_sim0 hC (h1.trans h2.symm) (by rw [h1]; exact hl) id hid
  rw [hsk] at sg
  obtain ⟨sk', -, g1, g2, -⟩ := relOut_ok' sg
  obtain ⟨-, -, he⟩ := setPriv_red hw0 hl hmk
  exact ⟨g1.x.l, g1.y.l, by rw [g2]; exact he⟩

theorem sm9Pass_ends (hC : IsHash C H) {key : Sm9.SPriv} (hk : KeyOk key) {sig msg n : Nat} (pc : Sm2.PC)
    {rnd : List Byte} (hr : rnd.length = 32) {s : St} (hw : s.w.length = 384)
    (ho : sig + 32 + Sm2.c1Len pc ≤ s.m.length) :
    Ends (fun b => some b.length) none s.m sig (32 + Sm2.c1Len pc) 384 (Sm9.signStep C key (rdm s.m msg n) rnd pc)
      (sm9Pass C key sig msg n pc rnd s) := by
  have hln := s9nonce_len hr
  obtain ⟨n1, n2⟩ := s9nonce_range hr
  have htk : (Sm9.nonce rnd).take 32 = Sm9.nonce rnd := List.take_of_length_le (by omega)
  obtain ⟨W, w1, w2, -⟩ := Props.C61_fp12_pow_partial hw0 key.pub.e hk.e (Sm9.nonce rnd) (by rw [htk]; omega)
  have l384 := (Props.C51_bytes W w2).1
  have l1 := wrm_len' hw hr (o := 0) (by omega)
  have l2 := wrm_len' l1 hln (o := 0) (by omega)
  have l3 := wrm_len' l2 l384 (o := 0) (by omega)
  have q1 : rdm (wrm s.w 0 rnd) 0 32 = rnd := rdm_wrm_same' hr (by omega)
  have hn : u256ToBytes (u256AddWord (Sm9.bnModNSub1 (u256FromBytes rnd)) 1).1 = Sm9.nonce rnd := rfl
  have q2 : rdm (wrm (wrm s.w 0 rnd) 0 (Sm9.nonce rnd)) 0 384 =
      Sm9.nonce rnd ++ rdm (wrm (wrm s.w 0 rnd) 0 (Sm9.nonce rnd)) 32 352 := by
    rw [show (384 : Nat) = 32 + 352 from rfl, rdm_append, rdm_wrm_same' hln (by omega)]
  have q3 : rdm (wrm (wrm (wrm s.w 0 rnd) 0 (Sm9.nonce rnd)) 0 (Sm9.fp12ToBytes W)) 0 384 = Sm9.fp12ToBytes W :=
    rdm_wrm_same' l384 (by omega)
  have hrf : u256ToMont Sm9.fnCtx (u256AddWord (Sm9.bnModNSub1 (u256FromBytes rnd)) 1).1 =
      mont256FromBytes Sm9.fnCtx (Sm9.nonce rnd) := by
    unfold mont256FromBytes
    rw [← hn, u256From_to]
  unfold sm9Pass Sm9.signStep
  simp only [b_wrw, b_rdw]
  rw [q1, hn, q2, pow_rest _ hln (by omega), w1, ofOption_some, b_ok, o_bind, b_wrw, b_rd, b_rdw]
  dsimp only
  rw [q3]
  cases eh : Sm9.hn C (rdm s.m msg n) (Sm9.fp12ToBytes W) 2 with
  | throw => rw [b_of_throw _ _ (hnTo_throw eh _), t_bind]; exact .throw l3
  | ub => rw [b_of_ub _ _ (hnTo_ub eh _), ub_bind']; exact .ub l3
  | ok h =>
    have lh := s9hn_len hC eh
    have l4 := wrm_len' l3 lh (o := 32) (by omega)
    rw [b_of _ _ (hnTo_ok eh _), o_bind, b_rdw]
    dsimp only
    rw [rdm_wrm_same' lh (by omega), hrf]
    have is := s9fn_sub (s9fn_fromBytes hln) (s9fn_fromBytes lh)
    have ll := fn_bytes_len is.1
    revert ll
    generalize mont256Sub Sm9.fnCtx (mont256FromBytes Sm9.fnCtx (Sm9.nonce rnd)) (mont256FromBytes Sm9.fnCtx h) = l
    intro ll
    split
    · exact .none l4
    · have l5 := wrm_len' l4 ll (o := 64) (by omega)
      rw [b_wrw, b_rdw]
      dsimp only
      rw [rdm_wrm_same' ll (by omega)]
      cases em : Sm9.jMulA (mont256ToBytes Sm9.fnCtx l) key.priv with
      | none => exact .ub l5
      | some R =>
        rw [ofOption_some, b_ok, o_bind]
        cases ea : Sm9.jToA R with
        | none => exact .ub l5
        | some A =>
          obtain ⟨rx, ry⟩ := mulA_red ll hk.x hk.y em ea
          have le := enc_len pc rx ry
          rw [ofOption_some, b_ok, o_bind, b_rdw, b_wr]
          dsimp only
          rw [rdm_wrm_disj (p := 32) (by omega) (Or.inl (by omega)), rdm_wrm_same' lh (by omega)]
          have hm : wrm (wrm s.m sig h) (sig + 32) (Sm9.encPoint pc A) = wrm s.m sig (h ++ Sm9.encPoint pc A) :=
            wrm_two lh (by omega)
          have hlen : (h ++ Sm9.encPoint pc A).length = 32 + Sm2.c1Len pc := by rw [List.length_append, lh, le]
          have := Ends.some (f := fun b => some b.length) (z := none) (m := s.m) (sig := sig) (h ++ Sm9.encPoint pc A) l5 hlen
          rw [← hm] at this
          rw [hlen] at this
          cases pc <;> exact this

theorem sm9Sign_ends (hC : IsHash C H) {key : Sm9.SPriv} (hk : KeyOk key) {sig msg n : Nat} (pc : Sm2.PC) :
    ∀ (rnds : List (List Byte)), (∀ r ∈ rnds, r.length = 32) → ∀ (s : St), s.w.length = 384 →
    sig + 32 + Sm2.c1Len pc ≤ s.m.length →
    Ends (fun b => some b.length) none s.m sig (32 + Sm2.c1Len pc) 384 (Sm9.sign C key (rdm s.m msg n) rnds pc)
      (sm9Sign C key sig msg n pc rnds s)
  | [], _, s, hw, _ => .none hw
  | rnd :: rest, hr, s, hw, ho => by
    have h1 := sm9Pass_ends hw0 hC hk (msg := msg) (n := n) pc (hr rnd List.mem_cons_self) hw ho
    have ih := fun w hl => sm9Sign_ends hC hk (msg := msg) (n := n) pc rest (fun r h => hr r (List.mem_cons_of_mem _ h)) ⟨s.m, w⟩ hl ho
    unfold Sm9.sign at ih ⊢
    unfold sm9Sign Sm9.signLoop
    revert h1
    generalize Sm9.signStep C key (rdm s.m msg n) rnd pc = o
    generalize hx : sm9Pass C key sig msg n pc rnd s = x
    intro h1
    cases h1 with
    | some b hl hb => rw [b_of _ _ hx, o_bind]; exact .some b hl hb
    | throw hl => rw [b_of_throw _ _ hx]; exact .throw hl
    | ub hl => rw [b_of_ub _ _ hx]; exact .ub hl
    | @none w hl =>
      rw [b_of _ _ hx, o_bind]
      exact ih w hl

theorem sm9Verify_eq (hC : IsHash C H) {pub : Sm9.MPub} (qx : All2 (Reduced sm9p) pub.P.x)
    (qy : All2 (Reduced sm9p) pub.P.y) (he : All12 (Reduced sm9p) pub.e) {sig sl msg n id l : Nat} {hid : Byte} {s : St}
    (hw : s.w.length = 384) (hs : sig + sl ≤ s.m.length) :
    ∃ w', sm9Verify C pub sig sl msg n id l hid s =
      (⟨s.m, w'⟩, Sm9.verifyBody C pub (rdm s.m sig sl) (rdm s.m msg n) (rdm s.m id l) hid) := by
  have ll : (rdm s.m sig sl).length = sl := rdm_len hs
  unfold sm9Verify Sm9.verifyBody
  rw [ll]
  by_cases h32 : sl < 32
  · rw [if_pos h32, if_pos h32]; exact ⟨_, rfl⟩
  · rw [if_neg h32, if_neg h32, b_rd, rdm_drop]
    cases ed : Sm9.ecAFromBytes (rdm s.m (sig + 32) (sl - 32)) (sl - 32) with
    | ub => exact ⟨_, rfl⟩
    | fail => exact ⟨_, rfl⟩
    | ok r =>
      obtain ⟨A, n'⟩ := r
      dsimp only
      by_cases hn : n' + 32 = sl
      · have hn' : n' = sl - 32 := by omega
        subst hn'
        rw [if_neg (not_not.mpr hn), if_neg (not_not.mpr hn), b_rd]
        obtain ⟨b, rest, hd, hb⟩ := s9dec_tag ed
        obtain ⟨⟨Q, hx, hy, -⟩, -⟩ := Props.C65_decode_on_curve _ _ _ _ ed
        have hd' : (rdm s.m sig sl).drop 32 = b :: rest := by rw [rdm_drop]; exact hd
        obtain ⟨t, t1, t2, -⟩ := sigPow_total hw0 he (by omega) hd' hb
        unfold Sm9.verifyTail
        rw [t1, ofOption_some, b_ok, o_bind, b_rd]
        dsimp only
        cases eh : Sm9.hn C (rdm s.m id l) [hid] 1 with
        | throw => rw [b_of_throw _ _ (hnTo_throw eh _), t_bind]; exact ⟨_, rfl⟩
        | ub => rw [b_of_ub _ _ (hnTo_ub eh _), ub_bind']; exact ⟨_, rfl⟩
        | ok h1 =>
          have lh := s9hn_len hC eh
          rw [b_of _ _ (hnTo_ok eh _), o_bind, b_rdw]
          dsimp only
          rw [rdm_wrm_same' lh (by omega)]
          have l1 := wrm_len' hw lh (o := 0) (by omega)
          obtain ⟨T, B, b1, b2, b3, b4⟩ := verPoint_total hw0 qx qy lh
          obtain ⟨U, u1, u2⟩ := pairing_total hw0 hx hy b3 b4
          obtain ⟨m1, m2⟩ := (Props.C51_fp12 hw0 U t u2 t2).2.2.1
          have l384 := (Props.C51_bytes _ m1).1
          have l2 := wrm_len' l1 l384 (o := 0) (by omega)
          rw [b1, ofOption_some, b_ok, o_bind, b2, ofOption_some, b_ok, o_bind, u1, ofOption_some, b_ok, o_bind, b_wrw, b_rd,
            b_rdw]
          dsimp only
          rw [rdm_wrm_same' l384 (by omega)]
          cases eh2 : Sm9.hn C (rdm s.m msg n) (Sm9.fp12ToBytes (fp12Mul Sm9.fp U t)) 2 with
          | throw => rw [b_of_throw _ _ (hnTo_throw eh2 _), t_bind]; exact ⟨_, rfl⟩
          | ub => rw [b_of_ub _ _ (hnTo_ub eh2 _), ub_bind']; exact ⟨_, rfl⟩
          | ok h2 =>
            have lh2 := s9hn_len hC eh2
            rw [b_of _ _ (hnTo_ok eh2 _), o_bind, b_rdw, b_rd]
            dsimp only
            rw [rdm_wrm_same' lh2 (by omega), rdm_take _ _ _ _ (by omega)]
            exact ⟨_, rfl⟩
      · rw [if_pos hn, if_pos hn]; exact ⟨_, rfl⟩

omit hw0 [DecidableEq F] [Algebra (ZMod sm9p) F] [Field F] in
theorem sm9Gen_eq (hC : IsHash C H) {mk : Sm9.MPriv} {id l : Nat} {hid : Byte} {s : St} (hl : mk.ks.length = 32)
    (hw : s.w.length = 32) :
    ∃ w', sm9GenSignPriv C mk id l hid s = (⟨s.m, w'⟩, Sm9.genSignPriv C mk (rdm s.m id l) hid) := by
  unfold sm9GenSignPriv Sm9.genSignPriv
  dsimp only
  rw [b_rd]
  cases eh : Sm9.hn C (rdm s.m id l) [hid] 1 with
  | throw => rw [b_of_throw _ _ (hnTo_throw eh _), t_bind]; exact ⟨_, rfl⟩
  | ub => rw [b_of_ub _ _ (hnTo_ub eh _), ub_bind']; exact ⟨_, rfl⟩
  | ok h1 =>
    have lh := s9hn_len hC eh
    rw [b_of _ _ (hnTo_ok eh _), o_bind, b_rdw]
    dsimp only
    rw [rdm_wrm_same' lh (by omega)]
    have l1 := wrm_len' hw lh (o := 0) (by omega)
    have hf := s9fn_fromBytes hl
    have ha := s9fn_add (s9fn_fromBytes lh) hf
    obtain ⟨i, i1, i2⟩ := s9fn_inv ha
    have hm := fn_bytes_len (s9fn_mul hf i2).1
    split
    · exact ⟨_, rfl⟩
    · rw [i1, ofOption_some, b_ok, o_bind, b_wrw, b_rdw]
      dsimp only
      rw [rdm_wrm_same' hm (by omega)]
      cases ej : Sm9.jMulG (mont256ToBytes Sm9.fnCtx (mont256Mul Sm9.fnCtx (mont256FromBytes Sm9.fnCtx mk.ks) i)) with
      | none => exact ⟨_, rfl⟩
      | some R =>
        rw [ofOption_some, b_ok, o_bind]
        cases ea : Sm9.jToA R with
        | none => exact ⟨_, rfl⟩
        | some A => rw [ofOption_some, b_ok, o_bind]; exact ⟨_, rfl⟩

end
end
end Verif.SignMem
