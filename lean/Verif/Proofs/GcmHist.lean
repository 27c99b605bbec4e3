import Verif.Proofs.Gcm
import Verif.Proofs.Modes3
import Verif.Proofs.ModeHist
import Verif.Spec.GcmHist
/-! # Helper lemmas: histories of messages on a GCM object -/
namespace Verif.Gcm
open Verif Verif.Spec Verif.Spec.Modes Verif.Spec.Gcm Verif.Ghash

/-- What a `final_block` does, rejection included. -/
abbrev StepX := St → List Byte → Outcome (St × List Byte × Bool)

def FinXOk (Inv : St → Prop) (fstep : StepX) (fin : St → Mem → List Byte → Nat → Outcome (St × Mem × Bool)) : Prop :=
  ∀ s m r o, Inv s → r.length < 16 → o + r.length ≤ m.length →
    fin s m r o = (fstep s r >>= fun x => .ok (x.1, wrm m o x.2.1, x.2.2))

def FStepXOk (Inv : St → Prop) (fstep : StepX) : Prop :=
  ∀ s r s' w b, Inv s → r.length < 16 → fstep s r = .ok (s', w, b) → w.length = r.length

def endX (fstep : StepX) (last : Option Nat) (h : ModeObj St) (m : Mem) (o : Nat) (w : List Byte) :
    Outcome (ModeObj St × Mem × Nat × Bool) :=
  match last with
  | none => .ok (h, wrm m o w, o + w.length, false)
  | some _ => fstep h.st h.buf >>= fun r =>
      .ok (⟨h.buf, r.1⟩, wrm m o (w ++ r.2.1), o + (w.length + if r.2.2 then 0 else h.buf.length), r.2.2)

theorem msgX_eq {Inv : St → Prop} {step : Step St} {fstep : StepX} {upd : BlockFn St}
    {fin : St → Mem → List Byte → Nat → Outcome (St × Mem × Bool)}
    (hs : StepOk 16 Inv step) (hu : BatchesOk true 16 Inv step upd) (hfs : FStepXOk Inv fstep)
    (hfin : FinXOk Inv fstep fin) (last : Option Nat) :
    ∀ (ns : List Nat) (h : ModeObj St) (m : Mem) (o i : Nat), Inv h.st → h.buf.length < 16 →
      StreamPlaced true h.buf.length m o i ns (last.getD 0) →
      msgRunX upd fin last h m o i ns =
        (feed 16 step h (rdm m i (ns.sum + last.getD 0)) >>= fun r => endX fstep last r.1 m o r.2) := by
  have hBS : 0 < 16 := by decide
  have hu' : BatchesOk true 16 Inv step (⟨upd, fun _ _ _ _ => .ub⟩ : ModeImpl St).upd := hu
  intro ns
  induction ns with
  | nil =>
    intro h m o i hi hb hp
    cases last with
    | none =>
      simp only [msgRunX, List.sum_nil, Option.getD_none, Nat.add_zero]
      unfold feed
      have : rdm m i 0 = [] := by unfold rdm; simp
      simp only [this, List.append_nil, Nat.div_eq_of_lt hb, chop, runBlocks, Outcome.ok_bind, Nat.zero_mul, List.drop_zero,
        endX, wrm_nil, List.length_nil, Nat.add_zero]
    | some n =>
      obtain ⟨p1, p2, p3⟩ := hp
      simp only [List.sum_nil, Nat.zero_add, Option.getD_some] at p1 p2 p3 ⊢
      have hle : (h.buf.length + n) / 16 * 16 ≤ h.buf.length + n := Nat.div_mul_le_self _ _
      simp only [msgRunX, finalX]
      rw [modeUpdate_eq (ip := true) hBS hs hu' h hi hb m o i n 0 ⟨p1, by omega, by
        rcases p3 with p | p | p
        · left; omega
        · right; left; omega
        · right; right; exact ⟨rfl, p.2⟩⟩]
      simp only [bind_assoc, Outcome.ok_bind]
      cases h1 : feed 16 step h (rdm m i n) with
      | throw => rfl
      | ub => rfl
      | ok r =>
        obtain ⟨h', w⟩ := r
        obtain ⟨hi', hb', hw, hbl⟩ := feed_ok hBS hs hi h1
        rw [rdm_len p1] at hw hbl
        have hdm := Nat.div_add_mod (h.buf.length + n) 16
        rw [Nat.mul_comm] at hdm
        simp only [Outcome.ok_bind]
        have houtl : (if n ≠ 0 ∧ h.buf ≠ [] ∧ h.buf.length + n < 16 then 0 else w.length) = w.length := by
          split_ifs with hc
          · rw [hw, Nat.div_eq_of_lt hc.2.2]
          · rfl
        rw [houtl, hfin h'.st (wrm m o w) h'.buf (o + w.length) hi' hb' (by rw [wrm_len (by omega)]; omega)]
        simp only [endX, bind_assoc, Outcome.ok_bind]
        cases h2 : fstep h'.st h'.buf with
        | throw => rfl
        | ub => rfl
        | ok r =>
          obtain ⟨s', w', rej⟩ := r
          have hw' := hfs _ _ _ _ _ hi' hb' h2
          simp only [Outcome.ok_bind, Outcome.ok.injEq, Prod.mk.injEq, true_and, and_true]
          refine ⟨wrm_wrm (by omega), ?_⟩
          cases rej <;> simp
  | cons n ns ih =>
    intro h m o i hi hb ⟨p1, p2, p3⟩
    simp only [List.sum_cons] at p1 p2 p3 ⊢
    have hle : (h.buf.length + n) / 16 * 16 ≤ h.buf.length + n := Nat.div_mul_le_self _ _
    simp only [msgRunX]
    rw [modeUpdate_eq (ip := true) hBS hs hu' h hi hb m o i n 0 ⟨by omega, by omega, by
      rcases p3 with p | p | p
      · left; omega
      · right; left; omega
      · right; right; exact ⟨rfl, p.2⟩⟩]
    simp only [bind_assoc, Outcome.ok_bind]
    have hX : rdm m i (n + ns.sum + last.getD 0) = rdm m i n ++ rdm m (i + n) (ns.sum + last.getD 0) := by
      rw [Nat.add_assoc, rdm_append]
    rw [hX, feed_append hBS]
    simp only [bind_assoc, Outcome.ok_bind]
    cases h1 : feed 16 step h (rdm m i n) with
    | throw => rfl
    | ub => rfl
    | ok r =>
      obtain ⟨h', w⟩ := r
      obtain ⟨hi', hb', hw, hbl⟩ := feed_ok hBS hs hi h1
      rw [rdm_len (by omega)] at hw hbl
      have hdm := Nat.div_add_mod (h.buf.length + n) 16
      rw [Nat.mul_comm] at hdm
      simp only [Outcome.ok_bind]
      have houtl : (if n ≠ 0 ∧ h.buf ≠ [] ∧ h.buf.length + n < 16 then 0 else w.length) = w.length := by
        split_ifs with hc
        · rw [hw, Nat.div_eq_of_lt hc.2.2]
        · rfl
      have hwl : (wrm m o w).length = m.length := wrm_len (by omega)
      rw [houtl, ih h' (wrm m o w) (o + w.length) (i + n) hi' hb' ⟨by omega, by omega, by
        rcases p3 with p | p | p
        · left; omega
        · right; left; omega
        · right; right; exact ⟨rfl, by omega⟩⟩]
      have hrd : rdm (wrm m o w) (i + n) (ns.sum + last.getD 0) = rdm m (i + n) (ns.sum + last.getD 0) := by
        apply rdm_wrm_disj (by omega)
        rcases p3 with p | p | p
        · omega
        · omega
        · omega
      rw [hrd]
      cases h2 : feed 16 step h' (rdm m (i + n) (ns.sum + last.getD 0)) with
      | throw => rfl
      | ub => rfl
      | ok r =>
        obtain ⟨h'', w2⟩ := r
        obtain ⟨hi'', hb'', hw2, hbl2⟩ := feed_ok hBS hs hi' h2
        rw [rdm_len (by omega)] at hw2 hbl2
        have hdm2 := Nat.div_add_mod (h'.buf.length + (ns.sum + last.getD 0)) 16
        rw [Nat.mul_comm] at hdm2
        simp only [Outcome.ok_bind]
        unfold endX
        have e1 : wrm (wrm m o w) (o + w.length) w2 = wrm m o (w ++ w2) := wrm_wrm (by omega)
        have e2 : o + w.length + w2.length = o + (w ++ w2).length := by rw [List.length_append]; omega
        cases last with
        | none => simp only [e1, e2]
        | some k =>
          dsimp only
          cases h3 : fstep h''.st h''.buf with
          | ub => rfl
          | throw => rfl
          | ok r =>
            obtain ⟨s', w', rej⟩ := r
            have hw' := hfs _ _ _ _ _ hi'' hb'' h3
            simp only [Option.getD_some] at *
            have e3 : wrm (wrm m o w) (o + w.length) (w2 ++ w') = wrm m o (w ++ w2 ++ w') := by
              rw [wrm_wrm (by rw [List.length_append]; omega), List.append_assoc]
            simp only [Outcome.ok_bind, e3, Outcome.ok.injEq, Prod.mk.injEq, true_and, and_true]
            rw [List.length_append]
            omega

/-! ## Encryption -/

def encTailX (E : List Byte → List Byte) : StepX := fun s r => encTail E s r >>= fun x => .ok (x.1, x.2, false)

theorem encTailX_ok {E : List Byte → List Byte} (hE : LenOk 16 E) : FStepXOk EncInv (encTailX E) := by
  intro s r s' w b hi hr h
  unfold encTailX at h
  cases h1 : encTail E s r with
  | throw => rw [h1] at h; cases h
  | ub => rw [h1] at h; cases h
  | ok x =>
    rw [h1] at h
    simp only [Outcome.ok_bind, Outcome.ok.injEq, Prod.mk.injEq] at h
    rw [← h.2.1]
    exact encTail_ok hE s r x.1 x.2 hi hr h1

theorem encFinX_ok {C : BCipher} (hBS : C.BS = 16) (hE : LenOk 16 C.E) : FinXOk EncInv (encTailX C.E) (encFinX C) := by
  intro s m r o hi hr hm
  unfold encFinX encTailX
  rw [encFin_ok hBS hE s m r o hi hr hm]
  simp only [bind_assoc, Outcome.ok_bind]

theorem ct_split {E : List Byte → List Byte} (iv X : List Byte) :
    ciphertext E iv X = (gctrBlocks E (inc32 (J0 E iv)) (chop 16 (X.length / 16) X)).flatten ++
      xorB (tail 16 X) (E (inc32^[X.length / 16] (inc32 (J0 E iv)))) := by
  obtain ⟨bl, r, hl, hr, hX, hbl, hrr⟩ := split16 X
  have h := gctr_split E (inc32 (J0 E iv)) bl r hl hr
  rw [← hX, hbl, hrr, chop_len] at h
  exact h

theorem ct_whole {E : List Byte → List Byte} (iv X : List Byte) :
    ciphertext E iv (whole 16 X) = (gctrBlocks E (inc32 (J0 E iv)) (chop 16 (X.length / 16) X)).flatten := by
  unfold ciphertext gctr
  rw [whole_blocks (by decide)]

theorem whole_len (X : List Byte) : (whole 16 X).length = X.length / 16 * 16 := by
  unfold whole
  rw [List.length_take]
  omega

theorem ct_len {E : List Byte → List Byte} (hE : LenOk 16 E) (iv X : List Byte) : (ciphertext E iv X).length = X.length := by
  have hj : (inc32 (J0 E iv)).length = 16 := inc32_len _ (J0_len iv)
  obtain ⟨bl, r, hl, hr, rfl, _, _⟩ := split16 X
  have hk := hE _ (incN_len bl.length _ hj)
  unfold ciphertext
  rw [gctr_split E _ bl r hl hr, List.length_append, xorB_flat_len hE _ hj bl hl, xorB_len (by omega),
    List.length_append, flat_len hl]

attribute [local irreducible] absorbB digest lenBlock in
theorem encMsg_spec {a : GMsg} {PAR : Nat} (hP : 0 < PAR) (hE : LenOk 16 a.E) (s : St) (buf : List Byte) (hb : buf.length < 16)
    (hlen : buf.length + a.len ≤ maxLen) (hp : StreamPlaced true buf.length a.m a.o a.i a.ns (a.last.getD 0)) :
    ∃ st rej, msgRunX (encUpd ⟨16, PAR, a.E, a.E⟩) (encFinX ⟨16, PAR, a.E, a.E⟩) a.last
        ⟨buf, initSt a.E s a.iv a.aad (zeros 16)⟩ a.m a.o a.i a.ns =
      .ok (⟨tail 16 (buf ++ a.text), st⟩, (encEffect a (buf ++ a.text)).1, (encEffect a (buf ++ a.text)).2.1, rej) ∧
      st.tag = (encEffect a (buf ++ a.text)).2.2 ∧ st.hash.buf = [] := by
  obtain ⟨E, iv, aad, tag, m, o, i, ns, last⟩ := a
  dsimp only at *
  have hi : EncInv (initSt E s iv aad (zeros 16)) := ⟨inc32_len _ (J0_len iv), rfl, Nat.zero_le _⟩
  rw [msgX_eq (encStep_ok (E := E) hE) (encUpd_ok (C := ⟨16, PAR, E, E⟩) rfl hP hE) (encTailX_ok hE)
    (encFinX_ok (C := ⟨16, PAR, E, E⟩) rfl hE) last ns ⟨buf, initSt E s iv aad (zeros 16)⟩ m o i hi hb hp]
  have htl : (rdm m i (ns.sum + last.getD 0)).length = ns.sum + last.getD 0 := rdm_len hp.1
  unfold GMsg.text GMsg.len at *
  dsimp only at *
  have hXl : (buf ++ rdm m i (ns.sum + last.getD 0)).length ≤ maxLen := by rw [List.length_append, htl]; exact hlen
  generalize rdm m i (ns.sum + last.getD 0) = T at *
  unfold feed
  dsimp only
  generalize hX : buf ++ T = X at *
  rw [enc_run _ _ hi, chop_len]
  have hct0 : (initSt E s iv aad (zeros 16)).ctLen = 0 := rfl
  have hle := Nat.div_mul_le_self X.length 16
  rw [hct0, Nat.zero_add, if_neg (by omega), Outcome.ok_bind]
  have hcl := chop_mem (BS := 16) (l := X) (n := X.length / 16) hle
  have hgl := gctrBlocks_len hE (inc32 (J0 E iv)) (inc32_len _ (J0_len iv)) _ hcl
  have hfl : (gctrBlocks E (inc32 (J0 E iv)) (chop 16 (X.length / 16) X)).flatten.length = X.length / 16 * 16 := by
    rw [flat_len hgl, gctrBlocks_count, chop_len]
  unfold encEffect endX
  dsimp only [initSt]
  cases last with
  | none =>
    rw [if_neg (by simp), Outcome.ok_bind]
    refine ⟨_, false, congrArg Outcome.ok (congrArg₂ Prod.mk rfl ?_), rfl, rfl⟩
    rw [ct_whole, whole_len, hfl]
  | some k =>
    rw [if_pos (by simp), Outcome.ok_bind]
    unfold encTailX encTail
    dsimp only
    have hd : (X.drop (X.length / 16 * 16)).length = X.length - X.length / 16 * 16 := by rw [List.length_drop]
    rw [if_neg (by omega), Outcome.ok_bind, Outcome.ok_bind]
    refine ⟨_, false, congrArg Outcome.ok (congrArg₂ Prod.mk rfl (congrArg₂ Prod.mk ?_ (congrArg₂ Prod.mk ?_ rfl))), ?_, rfl⟩
    · rw [ct_split]; rfl
    · rw [hfl, if_neg (by simp)]; omega
    · dsimp only
      have hpp : pad16 (ciphertext E iv X) = (gctrBlocks E (inc32 (J0 E iv)) (chop 16 (X.length / 16) X)).flatten ++
          pad16 (xorB (tail 16 X) (E (inc32^[X.length / 16] (inc32 (J0 E iv))))) := by
        rw [ct_split]; exact pad_split _ hgl _
      have t := tag_parts hE aad (pad16 (ciphertext E iv X)) (pad_len _) (aad.length * 8) (X.length * 8)
      conv at t => lhs; rw [hpp, pad_blocks _ hgl _ (pad_len _), List.foldl_append]
      unfold Spec.Gcm.tag
      rw [ct_len hE, Nat.mul_comm 8, Nat.mul_comm 8, ← t]
      have e : X.length / 16 * 16 + (X.drop (X.length / 16 * 16)).length = X.length := by omega
      rw [e]
      rfl

/-! ## Decryption -/

def decTailX (E : List Byte → List Byte) : StepX := fun s r =>
  if s.ctLen + r.length ≥ 2 ^ 64 then .throw
  else
    let h := absorbB ((blocks 16 (r ++ s.stat.take ((16 - r.length % 16) % 16))).foldl absorbB s.hash.st)
      (lenBlock (s.aadLen * 8) ((s.ctLen + r.length) * 8))
    .ok ({ s with counter := if r.length = 0 then s.counter else inc32 s.counter, ctLen := s.ctLen + r.length,
                       hash := ⟨[], h⟩, stat := E s.counter0 }, xorB r (E s.counter),
      decide (xorB (digest h) (E s.counter0) ≠ s.tag))

theorem decTailX_ok {E : List Byte → List Byte} (hE : LenOk 16 E) : FStepXOk DecInv (decTailX E) := by
  intro s r s' w b hi hr h
  unfold decTailX at h
  simp only at h
  by_cases hc : s.ctLen + r.length ≥ 2 ^ 64
  · rw [if_pos hc] at h; exact absurd h (by simp)
  · rw [if_neg hc] at h
    simp only [Outcome.ok.injEq, Prod.mk.injEq] at h
    have := hE _ hi.1
    rw [← h.2.1, xorB_len (by omega)]

attribute [local irreducible] absorbB digest lenBlock in
theorem decFinX_ok {C : BCipher} (hBS : C.BS = 16) : FinXOk DecInv (decTailX C.E) (decFinX C) := by
  intro s m r o hi hr hm
  have hh : s.hash = ⟨[], s.hash.st⟩ := by rw [← hi.2.1]
  unfold decFinX decTailX
  by_cases h0 : r.length = 0
  · have : r = [] := List.length_eq_zero_iff.mp h0
    subst this
    rw [if_neg (by simp), Outcome.ok_bind]
    simp only
    rw [if_neg (by have := hi.2.2.1; simp only [List.length_nil]; omega), hh,
      hash_whole _ (by rw [lenBlock_len]), Outcome.ok_bind, hash_final, Outcome.ok_bind,
      blocks_len16 _ (lenBlock_len _ _)]
    have e : blocks 16 (([] : List Byte) ++ s.stat.take ((16 - ([] : List Byte).length % 16) % 16)) = [] := by
      simp only [List.length_nil]
      rw [show (16 - 0 % 16) % 16 = 0 from rfl, List.take_zero]
      unfold blocks; simp
    rw [e]
    simp only [List.length_nil, Nat.add_zero, List.foldl_nil, List.foldl_cons, Outcome.ok_bind, xorB, List.zipWith_nil_left,
      wrm_nil, if_true]
    rfl
  · rw [if_pos h0]
    dsimp only
    by_cases hc : s.ctLen + r.length ≥ 2 ^ 64
    · rw [if_pos hc, if_pos hc]; rfl
    · rw [if_neg hc, if_neg hc, hh]
      have hp := hash_pad r (s.stat.take ((16 - r.length % 16) % 16))
        (by rw [List.length_take, hi.2.2.2]; omega) s.hash.st
      rw [← bind_assoc, hp, Outcome.ok_bind, gctr_fin hBS _ hi.1 m r o hr hm h0, Outcome.ok_bind, Outcome.ok_bind]
      dsimp only
      rw [hash_whole _ (by rw [lenBlock_len]), Outcome.ok_bind, hash_final, Outcome.ok_bind,
        blocks_len16 _ (lenBlock_len _ _), if_neg h0]
      simp only [List.foldl_cons, List.foldl_nil, Outcome.ok_bind]
      rfl

attribute [local irreducible] absorbB digest lenBlock in
theorem decMsg_spec {a : GMsg} {PAR : Nat} (hP : 0 < PAR) (hE : LenOk 16 a.E) (s : St) (hst : s.stat.length = 16)
    (buf : List Byte) (hb : buf.length < 16)
    (hlen : buf.length + a.len ≤ maxLen) (hp : StreamPlaced true buf.length a.m a.o a.i a.ns (a.last.getD 0)) :
    ∃ st, msgRunX (decUpd ⟨16, PAR, a.E, a.E⟩) (decFinX ⟨16, PAR, a.E, a.E⟩) a.last
        ⟨buf, initSt a.E s a.iv a.aad a.tag⟩ a.m a.o a.i a.ns =
      .ok (⟨tail 16 (buf ++ a.text), st⟩, decEffect a (buf ++ a.text) (tagWith a.E a.iv a.aad (buf ++ a.text) s.stat)) ∧
      st.stat = (if a.last.isSome then a.E (J0 a.E a.iv) else s.stat) ∧ st.hash.buf = [] := by
  obtain ⟨E, iv, aad, tag0, m, o, i, ns, last⟩ := a
  dsimp only at *
  have hmax : maxLen < 2 ^ 64 := maxLen_lt
  have hi : DecInv (initSt E s iv aad tag0) := ⟨inc32_len _ (J0_len iv), rfl, Nat.two_pow_pos _, hst⟩
  rw [msgX_eq (decStep_ok (E := E) hE) (decUpd_ok (C := ⟨16, PAR, E, E⟩) rfl hP hE) (decTailX_ok hE)
    (decFinX_ok (C := ⟨16, PAR, E, E⟩) rfl) last ns ⟨buf, initSt E s iv aad tag0⟩ m o i hi hb hp]
  have htl : (rdm m i (ns.sum + last.getD 0)).length = ns.sum + last.getD 0 := rdm_len hp.1
  unfold GMsg.text GMsg.len at *
  dsimp only at *
  have hXl : (buf ++ rdm m i (ns.sum + last.getD 0)).length ≤ maxLen := by rw [List.length_append, htl]; exact hlen
  generalize rdm m i (ns.sum + last.getD 0) = T at *
  unfold feed
  dsimp only
  generalize hX : buf ++ T = X at *
  rw [dec_run _ _ hi, chop_len]
  have hct0 : (initSt E s iv aad tag0).ctLen = 0 := rfl
  have hle := Nat.div_mul_le_self X.length 16
  rw [hct0, Nat.zero_add, if_neg (by omega), Outcome.ok_bind]
  have hcl := chop_mem (BS := 16) (l := X) (n := X.length / 16) hle
  have hgl := gctrBlocks_len hE (inc32 (J0 E iv)) (inc32_len _ (J0_len iv)) _ hcl
  have hfl : (gctrBlocks E (inc32 (J0 E iv)) (chop 16 (X.length / 16) X)).flatten.length = X.length / 16 * 16 := by
    rw [flat_len hgl, gctrBlocks_count, chop_len]
  unfold decEffect endX
  dsimp only [initSt]
  cases last with
  | none =>
    rw [if_neg (by simp), Outcome.ok_bind]
    refine ⟨_, congrArg Outcome.ok (congrArg₂ Prod.mk rfl ?_), rfl, rfl⟩
    rw [ct_whole, whole_len, hfl]
  | some k =>
    rw [if_pos (by simp), Outcome.ok_bind]
    unfold decTailX
    dsimp only
    have hd : (X.drop (X.length / 16 * 16)).length = X.length - X.length / 16 * 16 := by rw [List.length_drop]
    rw [if_neg (by omega), Outcome.ok_bind]
    have hm : X.length % 16 = (X.drop (X.length / 16 * 16)).length % 16 := by omega
    have hrp : (X.drop (X.length / 16 * 16) ++
        s.stat.take ((16 - (X.drop (X.length / 16 * 16)).length % 16) % 16)).length % 16 = 0 := by
      rw [List.length_append, List.length_take, hst]; omega
    have hsp : (chop 16 (X.length / 16) X).flatten ++ X.drop (X.length / 16 * 16) = X := by
      rw [chop_flatten, List.take_append_drop]
    have hpad : X ++ s.stat.take ((16 - X.length % 16) % 16) = (chop 16 (X.length / 16) X).flatten ++
        (X.drop (X.length / 16 * 16) ++ s.stat.take ((16 - (X.drop (X.length / 16 * 16)).length % 16) % 16)) := by
      rw [← List.append_assoc, hsp, hm]
    have hpm : (X ++ s.stat.take ((16 - X.length % 16) % 16)).length % 16 = 0 := by
      rw [List.length_append, List.length_take, hst]; omega
    have tp := tag_parts hE aad _ hpm (aad.length * 8) (X.length * 8)
    conv at tp => lhs; rw [hpad, pad_blocks _ hcl _ hrp, List.foldl_append]
    have e : X.length / 16 * 16 + (X.drop (X.length / 16 * 16)).length = X.length := by omega
    have et : xorB (digest (absorbB ((blocks 16 (X.drop (X.length / 16 * 16) ++
        s.stat.take ((16 - (X.drop (X.length / 16 * 16)).length % 16) % 16))).foldl absorbB
          ((chop 16 (X.length / 16) X).foldl absorbB ((blocks 16 (pad16 aad)).foldl absorbB (ghashInit (hashKey E)))))
        (lenBlock (aad.length * 8) ((X.length / 16 * 16 + (X.drop (X.length / 16 * 16)).length) * 8))))
        (E (J0 E iv)) = tagWith E iv aad X s.stat := by
      unfold tagWith
      rw [e, tp, Nat.mul_comm 8, Nat.mul_comm 8]
    rw [et]
    refine ⟨_, congrArg Outcome.ok (congrArg₂ Prod.mk rfl (congrArg₂ Prod.mk ?_ (congrArg₂ Prod.mk ?_ ?_))), rfl, rfl⟩
    · rw [ct_split]; rfl
    · rw [hfl, whole_len]
      by_cases ht : tagWith E iv aad X s.stat = tag0
      · rw [if_pos ht, if_neg (by simp [ht])]; omega
      · rw [if_neg ht, if_pos (by simp [ht])]; rfl
    · dsimp only

end Verif.Gcm
