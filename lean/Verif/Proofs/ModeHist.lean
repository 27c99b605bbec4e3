import Verif.Proofs.Modes3
import Verif.Spec.ModeHist
/-! # Helper lemmas: histories of messages on a mode object -/
namespace Verif
open Spec Spec.Modes

/-- The end of a message in terms of `fstep`. -/
def msgEnd {S} (fstep : Step S) (last : Option Nat) (h : ModeObj S) (m : Mem) (o : Nat) (w : List Byte) :
    Outcome (ModeObj S × Mem × Nat × Bool) :=
  match last with
  | none => .ok (h, wrm m o w, o + w.length, false)
  | some _ => match fstep h.st h.buf with
    | .ok r => .ok (⟨h.buf, r.1⟩, wrm m o (w ++ r.2), o + (w.length + h.buf.length), false)
    | .throw => .ok (h, wrm m o w, o + w.length, true)
    | .ub => .ub

theorem msg_eq {S} {ip : Bool} {BS : Nat} (hBS : 0 < BS) {Inv : S → Prop} {step fstep : Step S} {I : ModeImpl S}
    (hs : StepOk BS Inv step) (hu : BatchesOk ip BS Inv step I.upd) (hfs : FStepOk BS Inv fstep)
    (hfin : FinOk BS Inv fstep I.fin) (last : Option Nat) :
    ∀ (ns : List Nat) (h : ModeObj S) (m : Mem) (o i : Nat), Inv h.st → h.buf.length < BS →
      StreamPlaced ip h.buf.length m o i ns (last.getD 0) →
      msgRun BS I last h m o i ns =
        (feed BS step h (rdm m i (ns.sum + last.getD 0)) >>= fun r => msgEnd fstep last r.1 m o r.2) := by
  intro ns
  induction ns with
  | nil =>
    intro h m o i hi hb hp
    cases last with
    | none =>
      simp only [msgRun, List.sum_nil, Option.getD_none, Nat.add_zero]
      unfold feed
      have : rdm m i 0 = [] := by unfold rdm; simp
      simp only [this, List.append_nil, Nat.div_eq_of_lt hb, chop, runBlocks, Outcome.ok_bind, Nat.zero_mul, List.drop_zero,
        msgEnd, wrm_nil, List.length_nil, Nat.add_zero]
    | some n =>
      obtain ⟨p1, p2, p3⟩ := hp
      simp only [List.sum_nil, Nat.zero_add, Option.getD_some] at p1 p2 p3 ⊢
      have hle : (h.buf.length + n) / BS * BS ≤ h.buf.length + n := Nat.div_mul_le_self _ _
      simp only [msgRun, modeFinalExc]
      rw [modeUpdate_eq (ip := ip) hBS hs hu h hi hb m o i n 0 ⟨p1, by omega, by
        rcases p3 with p | p | p
        · left; omega
        · right; left; omega
        · right; right; exact p⟩]
      simp only [bind_assoc, Outcome.ok_bind]
      cases h1 : feed BS step h (rdm m i n) with
      | throw => rfl
      | ub => rfl
      | ok r =>
        obtain ⟨h', w⟩ := r
        obtain ⟨hi', hb', hw, hbl⟩ := feed_ok hBS hs hi h1
        rw [rdm_len p1] at hw hbl
        have hdm := Nat.div_add_mod (h.buf.length + n) BS
        rw [Nat.mul_comm] at hdm
        simp only [Outcome.ok_bind]
        have houtl : (if n ≠ 0 ∧ h.buf ≠ [] ∧ h.buf.length + n < BS then 0 else w.length) = w.length := by
          split_ifs with hc
          · rw [hw, Nat.div_eq_of_lt hc.2.2]; simp
          · rfl
        rw [houtl, hfin h'.st (wrm m o w) h'.buf (o + w.length) hi' hb' (by rw [wrm_len (by omega)]; omega)]
        simp only [msgEnd]
        cases h2 : fstep h'.st h'.buf with
        | throw => rfl
        | ub => rfl
        | ok r =>
          obtain ⟨s', w'⟩ := r
          have hw' := hfs _ _ _ _ hi' hb' h2
          simp only [Outcome.ok_bind, Outcome.ok.injEq, Prod.mk.injEq, true_and, and_true]
          exact wrm_wrm (by omega)
  | cons n ns ih =>
    intro h m o i hi hb ⟨p1, p2, p3⟩
    simp only [List.sum_cons] at p1 p2 p3 ⊢
    have hle : (h.buf.length + n) / BS * BS ≤ h.buf.length + n := Nat.div_mul_le_self _ _
    simp only [msgRun]
    rw [modeUpdate_eq (ip := ip) hBS hs hu h hi hb m o i n 0 ⟨by omega, by omega, by
      rcases p3 with p | p | p
      · left; omega
      · right; left; omega
      · right; right; exact p⟩]
    simp only [bind_assoc, Outcome.ok_bind]
    have hX : rdm m i (n + ns.sum + last.getD 0) = rdm m i n ++ rdm m (i + n) (ns.sum + last.getD 0) := by
      rw [Nat.add_assoc, rdm_append]
    rw [hX, feed_append hBS]
    simp only [bind_assoc, Outcome.ok_bind]
    cases h1 : feed BS step h (rdm m i n) with
    | throw => rfl
    | ub => rfl
    | ok r =>
      obtain ⟨h', w⟩ := r
      obtain ⟨hi', hb', hw, hbl⟩ := feed_ok hBS hs hi h1
      rw [rdm_len (by omega)] at hw hbl
      have hdm := Nat.div_add_mod (h.buf.length + n) BS
      rw [Nat.mul_comm] at hdm
      simp only [Outcome.ok_bind]
      have houtl : (if n ≠ 0 ∧ h.buf ≠ [] ∧ h.buf.length + n < BS then 0 else w.length) = w.length := by
        split_ifs with hc
        · rw [hw, Nat.div_eq_of_lt hc.2.2]; simp
        · rfl
      have hwl : (wrm m o w).length = m.length := wrm_len (by omega)
      rw [houtl, ih h' (wrm m o w) (o + w.length) (i + n) hi' hb' ⟨by omega, by omega, by
        rcases p3 with p | p | p
        · left; omega
        · right; left; omega
        · right; right; exact ⟨p.1, by omega⟩⟩]
      have hrd : rdm (wrm m o w) (i + n) (ns.sum + last.getD 0) = rdm m (i + n) (ns.sum + last.getD 0) := by
        apply rdm_wrm_disj (by omega)
        rcases p3 with p | p | p
        · omega
        · omega
        · omega
      rw [hrd]
      cases h2 : feed BS step h' (rdm m (i + n) (ns.sum + last.getD 0)) with
      | throw => rfl
      | ub => rfl
      | ok r =>
        obtain ⟨h'', w2⟩ := r
        obtain ⟨hi'', hb'', hw2, hbl2⟩ := feed_ok hBS hs hi' h2
        rw [rdm_len (by omega)] at hw2 hbl2
        have hdm2 := Nat.div_add_mod (h'.buf.length + (ns.sum + last.getD 0)) BS
        rw [Nat.mul_comm] at hdm2
        simp only [Outcome.ok_bind]
        unfold msgEnd
        have e1 : wrm (wrm m o w) (o + w.length) w2 = wrm m o (w ++ w2) := wrm_wrm (by omega)
        have e2 : o + w.length + w2.length = o + (w ++ w2).length := by rw [List.length_append]; omega
        cases last with
        | none => simp only [e1, e2]
        | some k =>
          dsimp only
          cases h3 : fstep h''.st h''.buf with
          | ub => rfl
          | throw => simp only [e1, e2]
          | ok r =>
            obtain ⟨s', w'⟩ := r
            have hw' := hfs _ _ _ _ hi'' hb'' h3
            simp only [Option.getD_some] at *
            have e3 : wrm (wrm m o w) (o + w.length) (w2 ++ w') = wrm m o (w ++ w2 ++ w') := by
              rw [wrm_wrm (by rw [List.length_append]; omega), List.append_assoc]
            simp only [e3, Outcome.ok.injEq, Prod.mk.injEq, true_and, and_true]
            rw [List.length_append]
            omega

theorem whole_blocks {b : Nat} (hb : 0 < b) (X : List Byte) : blocks b (whole b X) = chop b (X.length / b) X := by
  have hle : X.length / b * b ≤ X.length := Nat.div_mul_le_self _ _
  have hl : (whole b X).length = X.length / b * b := by unfold whole; rw [List.length_take]; omega
  rw [blocks_eq hb, hl, Nat.mul_div_cancel _ hb, if_pos (by
    apply List.drop_eq_nil_of_le; omega), List.append_nil]
  unfold whole
  have h := chop_append_left (BS := b) (n := X.length / b) (l := X.take (X.length / b * b)) (e := X.drop (X.length / b * b)) (by
    rw [List.length_take]; omega)
  rw [List.take_append_drop] at h
  exact h.symm

theorem tail_nil_iff {b : Nat} (X : List Byte) : tail b X = [] ↔ (tail b X).length = 0 :=
  List.length_eq_zero_iff.symm

theorem hist_whole {ip : Bool} {BS : Nat} (hBS : 0 < BS) {Inv : List Byte → Prop} {step : Step (List Byte)}
    {I : ModeImpl (List Byte)} (hs : StepOk BS Inv step) (hu : BatchesOk ip BS Inv step I.upd)
    (hfin : FinOk BS Inv noPartial I.fin) (E D : List Byte → List Byte) (n : Name) (hn : wholeBlocks n = true)
    (iv : List Byte) (hi : Inv iv)
    (hrun : ∀ bl, ∃ s', runBlocks step iv bl = .ok (s', (out E D BS iv n bl).flatten))
    (buf : List Byte) (hb : buf.length < BS) (m : Mem) (o i : Nat) (ns : List Nat) (last : Option Nat)
    (hp : StreamPlaced ip buf.length m o i ns (last.getD 0)) :
    ∃ st, msgRun BS I last ⟨buf, iv⟩ m o i ns =
      .ok (⟨tail BS (buf ++ rdm m i (ns.sum + last.getD 0)), st⟩,
        effect E D BS n iv (buf ++ rdm m i (ns.sum + last.getD 0)) m o last) := by
  rw [msg_eq hBS hs hu (noPartial_fstep BS Inv) hfin last ns ⟨buf, iv⟩ m o i hi hb hp]
  generalize rdm m i (ns.sum + last.getD 0) = T
  unfold feed
  dsimp only
  generalize hX : buf ++ T = X
  obtain ⟨s', h⟩ := hrun (chop BS (X.length / BS) X)
  have hl := (runBlocks_ok hs _ _ _ _ hi (chop_mem (Nat.div_mul_le_self _ _)) h).2
  rw [chop_len] at hl
  rw [h]
  simp only [Outcome.ok_bind]
  unfold effect msgEnd
  rw [whole_blocks hBS]
  cases last with
  | none =>
    simp only [Option.isSome_none, Bool.false_eq_true, false_and, if_false]
    exact ⟨s', by rw [hl]; rfl⟩
  | some k =>
    simp only [Option.isSome_some, true_and, hn, true_imp_iff, noPartial]
    by_cases hz : tail BS X = []
    · rw [if_pos hz]
      have hd : X.drop (X.length / BS * BS) = [] := hz
      have hlen : X.length / BS * BS = X.length := by
        have := List.length_drop (i := X.length / BS * BS) (l := X)
        rw [hd, List.length_nil] at this
        have := Nat.div_mul_le_self X.length BS
        omega
      rw [hd, if_pos (by rfl)]
      refine ⟨s', ?_⟩
      rw [blocks_eq hBS, if_pos hd, List.append_nil, hz]
      simp only [List.append_nil, List.length_nil, Nat.add_zero]
      rw [hl, hlen]
    · rw [if_neg hz, if_neg (fun e : (X.drop (X.length / BS * BS)).length = 0 => hz (List.length_eq_zero_iff.mp e))]
      exact ⟨s', by rw [hl]; rfl⟩

theorem hist_any {ip : Bool} {BS : Nat} (hBS : 0 < BS) {Inv : List Byte → Prop} {step fstep : Step (List Byte)}
    {I : ModeImpl (List Byte)} (hs : StepOk BS Inv step) (hu : BatchesOk ip BS Inv step I.upd)
    (hfs : FStepOk BS Inv fstep) (hfin : FinOk BS Inv fstep I.fin)
    (E D : List Byte → List Byte) (n : Name) (hn : wholeBlocks n = false) (iv : List Byte) (hi : Inv iv)
    (hf : ∀ s r, ∃ s', fstep s r = .ok (s', xorB r (E s)))
    (hrun : ∀ bl, ∃ s', runBlocks step iv bl = .ok (s', (out E D BS iv n bl).flatten) ∧
      ∀ r, out E D BS iv n (bl ++ [r]) = out E D BS iv n bl ++ [xorB r (E s')])
    (buf : List Byte) (hb : buf.length < BS) (m : Mem) (o i : Nat) (ns : List Nat) (last : Option Nat)
    (hp : StreamPlaced ip buf.length m o i ns (last.getD 0)) :
    ∃ st, msgRun BS I last ⟨buf, iv⟩ m o i ns =
      .ok (⟨tail BS (buf ++ rdm m i (ns.sum + last.getD 0)), st⟩,
        effect E D BS n iv (buf ++ rdm m i (ns.sum + last.getD 0)) m o last) := by
  rw [msg_eq hBS hs hu hfs hfin last ns ⟨buf, iv⟩ m o i hi hb hp]
  generalize rdm m i (ns.sum + last.getD 0) = T
  unfold feed
  dsimp only
  generalize hX : buf ++ T = X
  obtain ⟨s', h, h2⟩ := hrun (chop BS (X.length / BS) X)
  have hl := (runBlocks_ok hs _ _ _ _ hi (chop_mem (Nat.div_mul_le_self _ _)) h).2
  rw [chop_len] at hl
  rw [h]
  simp only [Outcome.ok_bind]
  unfold effect msgEnd
  rw [whole_blocks hBS]
  cases last with
  | none =>
    simp only [Option.isSome_none, Bool.false_eq_true, false_and, if_false]
    exact ⟨s', by rw [hl]; rfl⟩
  | some k =>
    simp only [Option.isSome_some, true_and, hn, Bool.false_eq_true, false_imp_iff, if_true]
    obtain ⟨s'', h3⟩ := hf s' (X.drop (X.length / BS * BS))
    rw [h3]
    dsimp only
    have hle : X.length / BS * BS ≤ X.length := Nat.div_mul_le_self _ _
    refine ⟨s'', ?_⟩
    rw [blocks_eq hBS]
    have e : o + (X.length / BS * BS + (X.drop (X.length / BS * BS)).length) = o + X.length := by
      rw [List.length_drop]; omega
    rw [hl, e]
    by_cases hz : X.drop (X.length / BS * BS) = []
    · rw [if_pos hz, List.append_nil, hz]
      simp only [xorB, List.zipWith_nil_left, List.append_nil]
      unfold tail
      rw [hz]
    · rw [if_neg hz, h2]
      simp only [List.flatten_append, List.flatten_cons, List.flatten_nil, List.append_nil]
      rfl

theorem msg_spec {C : BCipher} (hC : CipherOk C) (n : Name) (iv : List Byte) (hiv : iv.length = C.BS)
    (buf : List Byte) (hb : buf.length < C.BS) (m : Mem) (o i : Nat) (ns : List Nat) (last : Option Nat)
    (hp : StreamPlaced (inplaceOk C n) buf.length m o i ns (last.getD 0)) :
    ∃ st, msgRun C.BS (modeImpl C n) last ⟨buf, iv⟩ m o i ns =
      .ok (⟨tail C.BS (buf ++ rdm m i (ns.sum + last.getD 0)), st⟩,
        effect C.E C.D C.BS n iv (buf ++ rdm m i (ns.sum + last.getD 0)) m o last) := by
  have hE : LenOk C.BS C.E := hC.lenE
  have hD : LenOk C.BS C.D := hC.lenD
  have ip : ∀ n, n ≠ Name.cbcDec → inplaceOk C n = true := fun n h => decide_eq_true (Or.inl h)
  cases n with
  | ecbEnc =>
    rw [ip _ (by simp)] at hp
    exact hist_whole hC.bs (ecb_stepOk hE) (ecb_updOk hE) ecb_finOk C.E C.D .ecbEnc rfl iv trivial
      (fun bl => ⟨iv, ecb_run _ _ _⟩) buf hb m o i ns last hp
  | ecbDec =>
    rw [ip _ (by simp)] at hp
    exact hist_whole hC.bs (ecb_stepOk hD) (ecb_updOk hD) ecb_finOk C.E C.D .ecbDec rfl iv trivial
      (fun bl => ⟨iv, ecb_run _ _ _⟩) buf hb m o i ns last hp
  | cbcEnc =>
    rw [ip _ (by simp)] at hp
    exact hist_whole hC.bs (cbcEnc_stepOk hE) (cbcEnc_updOk hE) cbc_finOk C.E C.D .cbcEnc rfl iv hiv
      (cbcEnc_run _ _) buf hb m o i ns last hp
  | cbcDec =>
    exact hist_whole hC.bs (cbcDec_stepOk hD) (cbcDec_updOk hC.bs hC.par hD (inplaceOk C .cbcDec) (by
        intro h; have := of_decide_eq_true h; simp at this; omega)) cbc_finOk C.E C.D .cbcDec rfl iv hiv
      (fun bl => ⟨_, cbcDec_run _ _ _⟩) buf hb m o i ns last hp
  | cfbEnc =>
    rw [ip _ (by simp)] at hp
    exact hist_any hC.bs (cfbEnc_stepOk hE) (cfbEnc_updOk hE) (xorTail_fstep hE) cfb_finOk C.E C.D .cfbEnc rfl iv hiv
      (fun s r => ⟨_, rfl⟩) (cfbEnc_run _ _) buf hb m o i ns last hp
  | cfbDec =>
    rw [ip _ (by simp)] at hp
    exact hist_any hC.bs (cfbDec_stepOk hE) (cfbDec_updOk hC.par hE) (xorTail_fstep hE) cfb_finOk C.E C.D .cfbDec rfl
      iv hiv (fun s r => ⟨_, rfl⟩) (fun bl => ⟨_, cfbDec_run _ _ _⟩) buf hb m o i ns last hp
  | ofb =>
    rw [ip _ (by simp)] at hp
    exact hist_any hC.bs (ofb_stepOk hE) (ofb_updOk hE) (xorTail_fstep hE) cfb_finOk C.E C.D .ofb rfl iv hiv
      (fun s r => ⟨_, rfl⟩) (ofb_run _ _) buf hb m o i ns last hp
  | ctr =>
    rw [ip _ (by simp)] at hp
    refine hist_any hC.bs (ctr_stepOk hE (ctrInc_len C.BS)) (ctr_updOk hC.par hE (ctrInc_len C.BS)) (ctrTail_fstep hE)
      ctr_finOk C.E C.D .ctr rfl iv hiv (fun s r => ⟨_, rfl⟩) ?_ buf hb m o i ns last hp
    intro bl
    have := ctr_run C.E C.BS iv bl 0
    rw [ctrBlock_zero hiv] at this
    exact ⟨_, this⟩

theorem tail_lt {b : Nat} (hb : 0 < b) (X : List Byte) : (tail b X).length < b := by
  unfold tail
  rw [List.length_drop]
  have h1 := Nat.div_add_mod X.length b
  have h2 := Nat.mod_lt X.length hb
  rw [Nat.mul_comm] at h1
  omega

end Verif
