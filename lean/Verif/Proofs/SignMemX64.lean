import Verif.Model.SignMemX64
import Verif.Proofs.SignMem
import Verif.Proofs.Sm9X64Verify
/-! # Signing on memory in the build with 64-bit limbs -/
set_option linter.unusedSectionVars false
namespace Verif.X64.SignMem
open Verif.Spec
open Verif.SignMem (St SM run rd wr rdw wrw Ends b_ok b_throw b_ub b_rd b_rdw b_wr b_wrw p_ok r_ok b_of b_of_throw b_of_ub
  rdm_wrm_same' wrm_len' wrm_two)

theorem relO_right {α β : Type} {R : α → β → Prop} {x : Option α} {b : β} (h : RelO R x (some b)) :
    ∃ a, x = some a ∧ R a b := by
  cases h with
  | some h => exact ⟨_, rfl, h⟩

section
variable {S : Type} {C : HashClass S} {H : List Byte → List Byte}

/-! ## SM2 -/

theorem fnlen {a : List W64} (h : X64.Reduced sm2n a) : (X64.mont256ToBytes X64.sm2FnCtx a).length = 32 := by
  obtain ⟨x, -, -, h3, -⟩ := X64.Props.C39_x64_to_bytes X64.sm2FnCtx_wf a h
  rw [h3, toBE_len]

theorem sm2Pass_ends {priv : List Byte} (hp : priv.length = 32) {sig : Nat} {rnd : List Byte} (hr : rnd.length = 32)
    {s : St} (hw : s.w.length = C.DS + 32) (ho : sig + 64 ≤ s.m.length) :
    Ends (fun _ => true) false s.m sig 64 (C.DS + 32) (X64.Sm2.signStep priv (rdm s.w 0 C.DS) rnd)
      (sm2Pass C priv sig (sig + 32) rnd s) ∧ rdm (sm2Pass C priv sig (sig + 32) rnd s).1.w 0 C.DS = rdm s.w 0 C.DS := by
  have hln : (X64.Sm2.nonce rnd).length = 32 := by rw [← nonce_sim hr]; exact nonce_len hr
  have hk := fn_from_sim hln
  have hd' := fn_from_sim hp
  have l1 := wrm_len' hw hr (o := C.DS) le_rfl
  have l2 := wrm_len' l1 hln (o := C.DS) le_rfl
  have q1 : rdm (wrm s.w C.DS rnd) C.DS 32 = rnd := rdm_wrm_same' hr (by omega)
  have q2 : rdm (wrm (wrm s.w C.DS rnd) C.DS (X64.Sm2.nonce rnd)) C.DS 32 = X64.Sm2.nonce rnd :=
    rdm_wrm_same' hln (by omega)
  have q3 : rdm (wrm (wrm s.w C.DS rnd) C.DS (X64.Sm2.nonce rnd)) 0 C.DS = rdm s.w 0 C.DS := by
    rw [rdm_wrm_disj (by omega) (Or.inl (by omega)), rdm_wrm_disj (by omega) (Or.inl (by omega))]
  have hn : X64.u256ToBytes (X64.u256AddWord (X64.Sm2.bnModNSub1 (X64.u256FromBytes rnd)) 1).1 = X64.Sm2.nonce rnd := rfl
  unfold sm2Pass X64.Sm2.signStep
  simp only [b_wrw, b_rdw]
  rw [q1, hn, q2]
  cases g1 : X64.Sm2.jMulG (X64.Sm2.nonce rnd) with
  | none => exact ⟨.ub l2, q3⟩
  | some kG =>
    have s1 := jMulG_sim hln
    rw [g1] at s1
    obtain ⟨kG0, -, t1⟩ := relO_right s1
    rw [ofOption_some, b_ok, o_bind]
    cases g2 : X64.Sm2.jToA kG with
    | none => exact ⟨.ub l2, q3⟩
    | some a =>
      have s2 := sim_toA fp_sim t1
      have g2' : ecJToA X64.Sm2.fp kG = some a := g2
      rw [g2'] at s2
      obtain ⟨a0, -, t2⟩ := relO_right s2
      rw [ofOption_some, b_ok, o_bind, b_rdw]
      dsimp only
      rw [q3]
      cases e1 : X64.mont256FromBytesEx X64.sm2FnCtx (rdm s.w 0 C.DS) with
      | none => exact ⟨.ub l2, q3⟩
      | some e =>
        have s3 := rs_fromBytesEx Sm2.fnCtx_wf X64.sm2FnCtx_wf (rdm s.w 0 C.DS)
        rw [e1] at s3
        obtain ⟨e0, -, t3⟩ := relO_right s3
        have hr' := fn_add_sim t3 (fnFromFp_sim t2.x)
        rw [ofOption_some, b_ok, o_bind, b_rdw]
        dsimp only
        rw [q2]
        split
        · exact ⟨.none l2, q3⟩
        · have s4 := rs_inv Sm2.fnCtx_wf X64.sm2FnCtx_wf (fn_add_sim (rs_one Sm2.fnCtx_wf X64.sm2FnCtx_wf) hd')
          revert s4
          generalize Verif.mont256Inv Verif.Sm2.fnCtx _ = i0
          cases i1 : X64.mont256Inv X64.sm2FnCtx
            (X64.mont256Add X64.sm2FnCtx (X64.mont256SetOne X64.sm2FnCtx) (X64.mont256FromBytes X64.sm2FnCtx priv)) with
          | none => intro _; exact ⟨.ub l2, q3⟩
          | some i =>
            intro s4
            obtain ⟨i0', -, t4⟩ := relO_right s4
            rw [ofOption_some, b_ok, o_bind]
            split
            · exact ⟨.none l2, q3⟩
            · rw [b_wr, b_wr, p_ok]
              dsimp only
              have lr := fnlen hr'.r
              have ls := fnlen (rs_mul Sm2.fnCtx_wf X64.sm2FnCtx_wf t4
                (rs_sub Sm2.fnCtx_wf X64.sm2FnCtx_wf hk (rs_mul Sm2.fnCtx_wf X64.sm2FnCtx_wf hr' hd'))).r
              rw [wrm_two lr (by rw [ls]; omega)]
              exact ⟨.some _ l2 (by rw [List.length_append, lr, ls]), q3⟩

theorem sm2Loop_ends {priv : List Byte} (hp : priv.length = 32) {sig : Nat} : ∀ (rnds : List (List Byte)),
    (∀ r ∈ rnds, r.length = 32) → ∀ (s : St), s.w.length = C.DS + 32 → sig + 64 ≤ s.m.length →
    Ends (fun _ => true) false s.m sig 64 (C.DS + 32) (X64.Sm2.signLoop priv (rdm s.w 0 C.DS) rnds)
      (sm2Loop C priv sig (sig + 32) rnds s)
  | [], _, s, hw, _ => .none hw
  | rnd :: rest, hr, s, hw, ho => by
    obtain ⟨h1, h2⟩ := sm2Pass_ends (C := C) hp (hr rnd List.mem_cons_self) hw ho
    unfold sm2Loop X64.Sm2.signLoop
    revert h1 h2
    generalize X64.Sm2.signStep priv (rdm s.w 0 C.DS) rnd = o
    generalize hx : sm2Pass C priv sig (sig + 32) rnd s = x
    intro h1 h2
    cases h1 with
    | some b hl hb => rw [b_of _ _ hx, o_bind]; exact .some b hl hb
    | throw hl => rw [b_of_throw _ _ hx]; exact .throw hl
    | ub hl => rw [b_of_ub _ _ hx]; exact .ub hl
    | @none w hl =>
      rw [b_of _ _ hx, o_bind]
      have ih := sm2Loop_ends hp rest (fun r h => hr r (List.mem_cons_of_mem _ h)) ⟨s.m, w⟩ hl ho
      rw [h2] at ih
      exact ih

theorem sm2Sign_ends (hC : IsHash C H) {K : X64.Sm2.Priv} (hp : K.priv.length = 32) {sig msg n id l : Nat}
    {rnds : List (List Byte)} (hr : ∀ r ∈ rnds, r.length = 32) {s : St} (hw : s.w.length = C.DS + 32)
    (ho : sig + 64 ≤ s.m.length) :
    Ends (fun _ => true) false s.m sig 64 (C.DS + 32) (X64.Sm2.sign C K (rdm s.m msg n) rnds (rdm s.m id l))
      (sm2Sign C K sig msg n id l rnds s) := by
  unfold sm2Sign sm2SignAt X64.Sm2.sign
  rw [b_rd]
  have hz : ∀ Z, Verif.Sm2.computeZ C (rdm s.m id l) K.pub.x K.pub.y = .ok Z → Z.length = C.DS := by
    intro Z hZ
    unfold Verif.Sm2.computeZ at hZ
    simp only at hZ
    split at hZ
    · cases hZ
    · rw [hC.stream] at hZ
      split at hZ
      · rw [← Outcome.ok.inj hZ, hC.len]
      · cases hZ
  cases ez : Verif.Sm2.computeZ C (rdm s.m id l) K.pub.x K.pub.y with
  | throw => rw [b_throw, t_bind]; exact .throw hw
  | ub => rw [b_ub, ub_bind']; exact .ub hw
  | ok Z =>
    have lz := hz Z ez
    rw [b_ok, o_bind, b_wrw, b_rdw, b_rd]
    dsimp only
    rw [List.take_of_length_le (by omega)]
    have l1 := wrm_len' hw lz (o := 0) (by omega)
    rw [rdm_wrm_same' lz (by omega)]
    cases es : C.stream [Z, rdm s.m msg n] [] with
    | throw => rw [b_throw, t_bind]; exact .throw l1
    | ub => rw [b_ub, ub_bind']; exact .ub l1
    | ok e =>
      have le : e.length = C.DS := by
        rw [hC.stream] at es
        split at es
        · rw [← Outcome.ok.inj es, hC.len]
        · cases es
      rw [b_ok, o_bind, b_wrw, List.take_of_length_le (by omega)]
      dsimp only
      have l2 := wrm_len' l1 le (o := 0) (by omega)
      have := sm2Loop_ends (C := C) hp (sig := sig) rnds hr ⟨s.m, wrm (wrm s.w 0 Z) 0 e⟩ l2 ho
      dsimp only at this
      rw [rdm_wrm_same' le (by omega)] at this
      exact this

/-! ## SM9 -/

/-- The exponentiation does not look behind an exponent that is not zero. -/
theorem pow_rest (e : X64.Sm9.F12) {rb rest : List Byte} (hl : rb.length = 32) (h0 : beVal rb ≠ 0) :
    fp12Pow X64.Sm9.fp e (rb ++ rest) = fp12Pow X64.Sm9.fp e rb := by
  obtain ⟨ht, hi⟩ := Verif.SignMem.lead_rest (rest := rest) hl h0
  unfold fp12Pow
  dsimp only
  rw [ht, List.getElem?_append_left hi, List.take_left' hl, List.take_of_length_le (l := rb) (by omega)]

theorem fplen {a : List W64} (h : X64.Reduced sm9p a) : (X64.Sm9.fpToBytes a).length = 32 := by
  rw [← rtb (lo_ro h)]
  exact Verif.SignMem.fplen (lo_ro h).l

theorem mulA_red {k : List Byte} (hk : k.length = 32) {A : X64.Sm9.A} (hx : X64.Reduced sm9p A.x)
    (hy : X64.Reduced sm9p A.y) {R : X64.Sm9.J} {a : X64.Sm9.A} (h1 : X64.Sm9.jMulA k A = some R)
    (h2 : X64.Sm9.jToA R = some a) : X64.Reduced sm9p a.x ∧ X64.Reduced sm9p a.y := by
  have g := s9MulA_sim hk (loA_sim hx hy)
  rw [h1] at g
  obtain ⟨R', -, r⟩ := relO_right g
  have t := ws_toA sm9_ws r
  have h2' : ecJToA X64.Sm9.fp R = some a := h2
  rw [h2'] at t
  obtain ⟨a', -, q⟩ := relO_right t
  exact ⟨q.x.r, q.y.r⟩

theorem enc_len (pc : Verif.Sm2.PC) {A : X64.Sm9.A} (hx : X64.Reduced sm9p A.x) (hy : X64.Reduced sm9p A.y) :
    (X64.Sm9.encPoint pc A).length = Verif.Sm2.c1Len pc := by
  have s := loA_sim hx hy
  rw [← s9encPoint_sim s]
  exact Verif.SignMem.enc_len pc s.x.l s.y.l

/-- What a signing key holds is reduced. -/
structure KeyOk (key : X64.Sm9.SPriv) : Prop where
  x : X64.Reduced sm9p key.priv.x
  y : X64.Reduced sm9p key.priv.y
  e : All12 (X64.Reduced sm9p) key.pub.e

theorem hnlen (hC : IsHash C H) {Z1 Z2 : List Byte} {tag : Byte} {d : List Byte} (h : X64.Sm9.hn C Z1 Z2 tag = .ok d) :
    d.length = 32 := by
  rw [← hn_sim] at h
  exact s9hn_len hC h

theorem fn9len {a : List W64} (h : X64.Reduced sm9n a) : (X64.mont256ToBytes X64.sm9FnCtx a).length = 32 := by
  obtain ⟨x, -, -, h3, -⟩ := X64.Props.C39_x64_to_bytes X64.sm9FnCtx_wf a h
  rw [h3, toBE_len]

theorem hnTo_ok {h : Nat} {Z1 Z2 d : List Byte} {tag : Byte} (e : X64.Sm9.hn C Z1 Z2 tag = .ok d) (s : St) :
    hnTo C h Z1 Z2 tag s = (⟨s.m, wrm s.w h d⟩, .ok ()) := by
  unfold hnTo
  rw [e, b_ok]
  rfl
theorem hnTo_throw {h : Nat} {Z1 Z2 : List Byte} {tag : Byte} (e : X64.Sm9.hn C Z1 Z2 tag = .throw) (s : St) :
    hnTo C h Z1 Z2 tag s = (s, .throw) := by
  unfold hnTo
  rw [e, b_throw]
theorem hnTo_ub {h : Nat} {Z1 Z2 : List Byte} {tag : Byte} (e : X64.Sm9.hn C Z1 Z2 tag = .ub) (s : St) :
    hnTo C h Z1 Z2 tag s = (s, .ub) := by
  unfold hnTo
  rw [e, b_ub]

section
variable {F : Type} [Field F] [Algebra (ZMod sm9p) F] [DecidableEq F] {w : F} (hw0 : w ^ 12 = -2)
include hw0

/-- A key that the library has issued is as `KeyOk` says. -/
theorem issued_ok (hC : IsHash C H) {key : List Byte} (hl : key.length = 32) {mk : X64.Sm9.MPriv}
    (hmk : X64.Sm9.setPriv key = .ok mk) {id : List Byte} {hid : Byte} {sk : X64.Sm9.SPriv}
    (hsk : X64.Sm9.genSignPriv C mk id hid = .ok sk) : KeyOk sk := by
  have h0 := s9setPriv_sim hw0 hl
  rw [hmk] at h0
  obtain ⟨mk', -, h1, h2, -⟩ := relOut_ok h0
  have sg := genSignPriv_sim0 hC (h1.trans h2.symm) (by rw [h1]; exact hl) id hid
  rw [hsk] at sg
  obtain ⟨sk', -, g1, -, g2⟩ := relOut_ok sg
  exact ⟨g1.x.r, g1.y.r, by rw [g2]; exact (xsetPriv_inv hw0 hl hmk).2.2.2.2.2⟩

theorem sm9Pass_ends (hC : IsHash C H) {key : X64.Sm9.SPriv} (hk : KeyOk key) {sig msg n : Nat} (pc : Verif.Sm2.PC)
    {rnd : List Byte} (hr : rnd.length = 32) {s : St} (hw : s.w.length = 384)
    (ho : sig + 32 + Verif.Sm2.c1Len pc ≤ s.m.length) :
    Ends (fun b => some b.length) none s.m sig (32 + Verif.Sm2.c1Len pc) 384 (X64.Sm9.signStep C key (rdm s.m msg n) rnd pc)
      (sm9Pass C key sig msg n pc rnd s) := by
  have hln : (X64.Sm9.nonce rnd).length = 32 := by rw [← s9nonce_sim hr]; exact s9nonce_len hr
  have n1 : 1 ≤ beVal (X64.Sm9.nonce rnd) := by rw [← s9nonce_sim hr]; exact (s9nonce_range hr).1
  have htk : (X64.Sm9.nonce rnd).take 32 = X64.Sm9.nonce rnd := List.take_of_length_le (by omega)
  obtain ⟨W, w1, w2, -⟩ := x12Pow hw0 (is_rfl hk.e) (X64.Sm9.nonce rnd) (by rw [htk]; omega)
  have l384 := x384 w2
  have l1 := wrm_len' hw hr (o := 0) (by omega)
  have l2 := wrm_len' l1 hln (o := 0) (by omega)
  have l3 := wrm_len' l2 l384 (o := 0) (by omega)
  have q1 : rdm (wrm s.w 0 rnd) 0 32 = rnd := rdm_wrm_same' hr (by omega)
  have hn : X64.u256ToBytes (X64.u256AddWord (X64.Sm9.bnModNSub1 (X64.u256FromBytes rnd)) 1).1 = X64.Sm9.nonce rnd := rfl
  have q2 : rdm (wrm (wrm s.w 0 rnd) 0 (X64.Sm9.nonce rnd)) 0 384 =
      X64.Sm9.nonce rnd ++ rdm (wrm (wrm s.w 0 rnd) 0 (X64.Sm9.nonce rnd)) 32 352 := by
    rw [show (384 : Nat) = 32 + 352 from rfl, rdm_append, rdm_wrm_same' hln (by omega)]
  have q3 : rdm (wrm (wrm (wrm s.w 0 rnd) 0 (X64.Sm9.nonce rnd)) 0 (X64.Sm9.fp12ToBytes W)) 0 384 = X64.Sm9.fp12ToBytes W :=
    rdm_wrm_same' l384 (by omega)
  have hrf : X64.u256ToMont X64.sm9FnCtx (X64.u256AddWord (X64.Sm9.bnModNSub1 (X64.u256FromBytes rnd)) 1).1 =
      X64.mont256FromBytes X64.sm9FnCtx (X64.Sm9.nonce rnd) := by
    unfold X64.mont256FromBytes
    rw [← hn, X64.u256From_to]
  unfold sm9Pass X64.Sm9.signStep
  simp only [b_wrw, b_rdw]
  rw [q1, hn, q2, pow_rest _ hln (by omega), w1, ofOption_some, b_ok, o_bind, b_wrw, b_rd, b_rdw]
  dsimp only
  rw [q3]
  cases eh : X64.Sm9.hn C (rdm s.m msg n) (X64.Sm9.fp12ToBytes W) 2 with
  | throw => rw [b_of_throw _ _ (hnTo_throw eh _), t_bind]; exact .throw l3
  | ub => rw [b_of_ub _ _ (hnTo_ub eh _), ub_bind']; exact .ub l3
  | ok h =>
    have lh := hnlen hC eh
    have l4 := wrm_len' l3 lh (o := 32) (by omega)
    rw [b_of _ _ (hnTo_ok eh _), o_bind, b_rdw]
    dsimp only
    rw [rdm_wrm_same' lh (by omega), hrf]
    have is := rs_sub Sm9.fnCtx_wf X64.sm9FnCtx_wf (s9fn_from_sim hln) (s9fn_from_sim lh)
    have ll := fn9len is.r
    revert ll
    generalize X64.mont256Sub X64.sm9FnCtx (X64.mont256FromBytes X64.sm9FnCtx (X64.Sm9.nonce rnd))
      (X64.mont256FromBytes X64.sm9FnCtx h) = l
    intro ll
    split
    · exact .none l4
    · have l5 := wrm_len' l4 ll (o := 64) (by omega)
      rw [b_wrw, b_rdw]
      dsimp only
      rw [rdm_wrm_same' ll (by omega)]
      cases em : X64.Sm9.jMulA (X64.mont256ToBytes X64.sm9FnCtx l) key.priv with
      | none => exact .ub l5
      | some R =>
        rw [ofOption_some, b_ok, o_bind]
        cases ea : X64.Sm9.jToA R with
        | none => exact .ub l5
        | some A =>
          obtain ⟨rx, ry⟩ := mulA_red ll hk.x hk.y em ea
          have le := enc_len pc rx ry
          rw [ofOption_some, b_ok, o_bind, b_rdw, b_wr]
          dsimp only
          rw [rdm_wrm_disj (p := 32) (by omega) (Or.inl (by omega)), rdm_wrm_same' lh (by omega)]
          have hm : wrm (wrm s.m sig h) (sig + 32) (X64.Sm9.encPoint pc A) = wrm s.m sig (h ++ X64.Sm9.encPoint pc A) :=
            wrm_two lh (by omega)
          have hlen : (h ++ X64.Sm9.encPoint pc A).length = 32 + Verif.Sm2.c1Len pc := by rw [List.length_append, lh, le]
          have := Ends.some (f := fun b => some b.length) (z := none) (m := s.m) (sig := sig) (h ++ X64.Sm9.encPoint pc A) l5 hlen
          rw [← hm] at this
          rw [hlen] at this
          cases pc <;> exact this

theorem sm9Sign_ends (hC : IsHash C H) {key : X64.Sm9.SPriv} (hk : KeyOk key) {sig msg n : Nat} (pc : Verif.Sm2.PC) :
    ∀ (rnds : List (List Byte)), (∀ r ∈ rnds, r.length = 32) → ∀ (s : St), s.w.length = 384 →
    sig + 32 + Verif.Sm2.c1Len pc ≤ s.m.length →
    Ends (fun b => some b.length) none s.m sig (32 + Verif.Sm2.c1Len pc) 384 (X64.Sm9.sign C key (rdm s.m msg n) rnds pc)
      (sm9Sign C key sig msg n pc rnds s)
  | [], _, s, hw, _ => .none hw
  | rnd :: rest, hr, s, hw, ho => by
    have h1 := sm9Pass_ends hw0 hC hk (msg := msg) (n := n) pc (hr rnd List.mem_cons_self) hw ho
    have ih := fun w hl => sm9Sign_ends hC hk (msg := msg) (n := n) pc rest
      (fun r h => hr r (List.mem_cons_of_mem _ h)) ⟨s.m, w⟩ hl ho
    unfold X64.Sm9.sign at ih ⊢
    unfold sm9Sign X64.Sm9.signLoop
    revert h1
    generalize X64.Sm9.signStep C key (rdm s.m msg n) rnd pc = o
    generalize hx : sm9Pass C key sig msg n pc rnd s = x
    intro h1
    cases h1 with
    | some b hl hb => rw [b_of _ _ hx, o_bind]; exact .some b hl hb
    | throw hl => rw [b_of_throw _ _ hx]; exact .throw hl
    | ub hl => rw [b_of_ub _ _ hx]; exact .ub hl
    | @none w hl =>
      rw [b_of _ _ hx, o_bind]
      exact ih w hl

theorem sm9Verify_eq (hC : IsHash C H) {pub : X64.Sm9.MPub} (qx : All2 (X64.Reduced sm9p) pub.P.x)
    (qy : All2 (X64.Reduced sm9p) pub.P.y) (he : All12 (X64.Reduced sm9p) pub.e) {sig sl msg n id l : Nat} {hid : Byte}
    {s : St} (hw : s.w.length = 384) (hs : sig + sl ≤ s.m.length) :
    ∃ w', sm9Verify C pub sig sl msg n id l hid s =
      (⟨s.m, w'⟩, X64.Sm9.verifyBody C pub (rdm s.m sig sl) (rdm s.m msg n) (rdm s.m id l) hid) := by
  have ll : (rdm s.m sig sl).length = sl := rdm_len hs
  unfold sm9Verify X64.Sm9.verifyBody
  rw [ll]
  by_cases h32 : sl < 32
  · rw [if_pos h32, if_pos h32]; exact ⟨_, rfl⟩
  · rw [if_neg h32, if_neg h32, b_rd, rdm_drop]
    cases ed : X64.Sm9.ecAFromBytes (rdm s.m (sig + 32) (sl - 32)) (sl - 32) with
    | ub => exact ⟨_, rfl⟩
    | fail => exact ⟨_, rfl⟩
    | ok r =>
      obtain ⟨A, n'⟩ := r
      dsimp only
      by_cases hn : n' + 32 = sl
      · have hn' : n' = sl - 32 := by omega
        subst hn'
        rw [if_neg (not_not.mpr hn), if_neg (not_not.mpr hn), b_rd]
        have sd := s9fromBytes_sim (rdm s.m (sig + 32) (sl - 32)) (sl - 32)
        rw [ed] at sd
        obtain ⟨A0, a1, a2⟩ := relP9_ok sd
        obtain ⟨b, rest, hd, hb⟩ := s9dec_tag a1
        have hd' : (rdm s.m sig sl).drop 32 = b :: rest := by rw [rdm_drop]; exact hd
        obtain ⟨t, t1, t2, -⟩ := xsigPow_total hw0 he (by omega) hd' hb
        unfold X64.Sm9.verifyTail
        rw [t1, ofOption_some, b_ok, o_bind, b_rd]
        dsimp only
        cases eh : X64.Sm9.hn C (rdm s.m id l) [hid] 1 with
        | throw => rw [b_of_throw _ _ (hnTo_throw eh _), t_bind]; exact ⟨_, rfl⟩
        | ub => rw [b_of_ub _ _ (hnTo_ub eh _), ub_bind']; exact ⟨_, rfl⟩
        | ok h1 =>
          have lh := hnlen hC eh
          rw [b_of _ _ (hnTo_ok eh _), o_bind, b_rdw]
          dsimp only
          rw [rdm_wrm_same' lh (by omega)]
          have l1 := wrm_len' hw lh (o := 0) (by omega)
          have sP := loA2_sim qx qy
          obtain ⟨T, B, b1, b2, b3, b4⟩ := verPoint_total hw0 (r2_l sP.x) (r2_l sP.y) lh
          have s1 := s9Mul2G_sim lh
          rw [b1] at s1
          obtain ⟨T', c1, hT⟩ := relO_some s1
          have s2 : RelO (RelA (R2 RO)) (Verif.Sm9.j2ToA (Verif.Sm9.j2AddA T (loA2 pub.P))) (X64.Sm9.j2ToA (X64.Sm9.j2AddA T' pub.P)) :=
            ws_toA sm9_ws.two (ws_addA sm9_ws.two hT (relA_wk sm9_ws.two sP))
          rw [b2] at s2
          obtain ⟨B', c2, hB⟩ := relO_some s2
          obtain ⟨f, -, -, U, u1, u2, -⟩ := x12Pairing hw0 a2 hB
          have m := x12Mul hw0 (a := U) (b := t) (s := X64.fp12Den w U) (t := X64.fp12Den w t) ⟨u2, rfl⟩ ⟨t2, rfl⟩
          have l384 := x384 m.1
          have l2 := wrm_len' l1 l384 (o := 0) (by omega)
          rw [c1, ofOption_some, b_ok, o_bind, c2, ofOption_some, b_ok, o_bind, u1, ofOption_some, b_ok, o_bind, b_wrw, b_rd,
            b_rdw]
          dsimp only
          rw [rdm_wrm_same' l384 (by omega)]
          cases eh2 : X64.Sm9.hn C (rdm s.m msg n) (X64.Sm9.fp12ToBytes (fp12Mul X64.Sm9.fp U t)) 2 with
          | throw => rw [b_of_throw _ _ (hnTo_throw eh2 _), t_bind]; exact ⟨_, rfl⟩
          | ub => rw [b_of_ub _ _ (hnTo_ub eh2 _), ub_bind']; exact ⟨_, rfl⟩
          | ok h2 =>
            have lh2 := hnlen hC eh2
            rw [b_of _ _ (hnTo_ok eh2 _), o_bind, b_rdw, b_rd]
            dsimp only
            rw [rdm_wrm_same' lh2 (by omega), rdm_take _ _ _ _ (by omega)]
            exact ⟨_, rfl⟩
      · rw [if_pos hn, if_pos hn]; exact ⟨_, rfl⟩

omit hw0 [DecidableEq F] [Algebra (ZMod sm9p) F] [Field F] in
theorem sm9Gen_eq (hC : IsHash C H) {mk : X64.Sm9.MPriv} {id l : Nat} {hid : Byte} {s : St} (hl : mk.ks.length = 32)
    (hw : s.w.length = 32) :
    ∃ w', sm9GenSignPriv C mk id l hid s = (⟨s.m, w'⟩, X64.Sm9.genSignPriv C mk (rdm s.m id l) hid) := by
  unfold sm9GenSignPriv X64.Sm9.genSignPriv
  dsimp only
  rw [b_rd]
  cases eh : X64.Sm9.hn C (rdm s.m id l) [hid] 1 with
  | throw => rw [b_of_throw _ _ (hnTo_throw eh _), t_bind]; exact ⟨_, rfl⟩
  | ub => rw [b_of_ub _ _ (hnTo_ub eh _), ub_bind']; exact ⟨_, rfl⟩
  | ok h1 =>
    have lh := hnlen hC eh
    rw [b_of _ _ (hnTo_ok eh _), o_bind, b_rdw]
    dsimp only
    rw [rdm_wrm_same' lh (by omega)]
    have l1 := wrm_len' hw lh (o := 0) (by omega)
    have hf := s9fn_from_sim hl
    have ha := rs_add Sm9.fnCtx_wf X64.sm9FnCtx_wf (s9fn_from_sim lh) hf
    have hi := rs_inv Sm9.fnCtx_wf X64.sm9FnCtx_wf ha
    split
    · exact ⟨_, rfl⟩
    · revert hi
      generalize Verif.mont256Inv Verif.Sm9.fnCtx _ = i0
      cases ei : X64.mont256Inv X64.sm9FnCtx (X64.mont256Add X64.sm9FnCtx (X64.mont256FromBytes X64.sm9FnCtx h1)
        (X64.mont256FromBytes X64.sm9FnCtx mk.ks)) with
      | none => intro _; exact ⟨_, rfl⟩
      | some i =>
        intro hi
        obtain ⟨i0', -, ti⟩ := relO_right hi
        have hm := fn9len (rs_mul Sm9.fnCtx_wf X64.sm9FnCtx_wf hf ti).r
        rw [ofOption_some, b_ok, o_bind, b_wrw, b_rdw]
        dsimp only
        rw [rdm_wrm_same' hm (by omega)]
        cases ej : X64.Sm9.jMulG (X64.mont256ToBytes X64.sm9FnCtx (X64.mont256Mul X64.sm9FnCtx
          (X64.mont256FromBytes X64.sm9FnCtx mk.ks) i)) with
        | none => exact ⟨_, rfl⟩
        | some R =>
          rw [ofOption_some, b_ok, o_bind]
          cases ea : X64.Sm9.jToA R with
          | none => exact ⟨_, rfl⟩
          | some A => rw [ofOption_some, b_ok, o_bind]; exact ⟨_, rfl⟩

end
end
end Verif.X64.SignMem
