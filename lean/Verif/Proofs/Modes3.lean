import Verif.Proofs.Modes2
/-! # Helper lemmas: all modes at once, against the specification -/
namespace Verif
open Spec Spec.Modes

/-- The class behind each mode name. -/
def modeImpl (C : BCipher) : Name → ModeImpl (List Byte)
  | .ecbEnc => ecbImpl C.E C.BS C.PAR
  | .ecbDec => ecbImpl C.D C.BS C.PAR
  | .cbcEnc => cbcEncImpl C
  | .cbcDec => cbcDecImpl C
  | .cfbEnc => cfbEncImpl C
  | .cfbDec => cfbDecImpl C
  | .ofb => ofbImpl C
  | .ctr => ctrImpl C (ctrInc C.BS)

/-- What the modes need from the cipher. -/
structure CipherOk (C : BCipher) : Prop where
  bs : 0 < C.BS
  par : 0 < C.PAR
  lenE : ∀ x, x.length = C.BS → (C.E x).length = C.BS
  lenD : ∀ x, x.length = C.BS → (C.D x).length = C.BS

/-- In-place operation is claimed for every mode except CBC decryption with more than one block per batch. -/
def inplaceOk (C : BCipher) (n : Name) : Bool := decide (n ≠ .cbcDec ∨ C.PAR = 1)

theorem drop_full {BS : Nat} {l : List Byte} (h : l.length % BS = 0) : l.drop (l.length / BS * BS) = [] := by
  apply List.drop_eq_nil_of_le
  have := Nat.div_add_mod l.length BS
  rw [Nat.mul_comm] at this
  omega

theorem finish_whole {ip : Bool} {BS : Nat} (hBS : 0 < BS) {Inv : List Byte → Prop} {step : Step (List Byte)}
    {I : ModeImpl (List Byte)} (hs : StepOk BS Inv step) (hu : BatchesOk ip BS Inv step I.upd)
    (hfin : FinOk BS Inv noPartial I.fin) (outF : List (List Byte) → List (List Byte)) (iv : List Byte) (hi : Inv iv)
    (hrun : ∀ bl, ∃ s', runBlocks step iv bl = .ok (s', (outF bl).flatten))
    (m : Mem) (o i : Nat) (ns : List Nat) (last outl : Nat) (hp : StreamPlaced ip 0 m o i ns last) :
    if (ns.sum + last) % BS = 0 then
      ∃ h', streamRun BS I true ⟨[], iv⟩ m o i ns last outl =
        .ok (h', wrm m o (outF (blocks BS (rdm m i (ns.sum + last)))).flatten, o + (ns.sum + last))
    else streamRun BS I true ⟨[], iv⟩ m o i ns last outl = .throw := by
  rw [stream_eq hBS hs hu (noPartial_fstep BS Inv) hfin last ns ⟨[], iv⟩ m o i outl hi hBS hp]
  have hX : (rdm m i (ns.sum + last)).length = ns.sum + last := rdm_len hp.1
  generalize rdm m i (ns.sum + last) = X at hX
  rw [← hX]
  unfold feed
  simp only [List.nil_append, bind_assoc, Outcome.ok_bind, List.length_nil, Nat.zero_add]
  obtain ⟨s', h⟩ := hrun (chop BS (X.length / BS) X)
  rw [h]
  simp only [Outcome.ok_bind, noPartial]
  have hdm := Nat.div_add_mod X.length BS
  rw [Nat.mul_comm] at hdm
  by_cases hz : X.length % BS = 0
  · rw [if_pos hz, if_pos (by rw [List.length_drop]; omega), blocks_eq hBS, if_pos (drop_full hz), List.append_nil]
    simp only [Outcome.ok_bind, List.append_nil, drop_full hz]
    exact ⟨_, rfl⟩
  · rw [if_neg hz, if_neg (by rw [List.length_drop]; omega)]; rfl

theorem finish_any {ip : Bool} {BS : Nat} (hBS : 0 < BS) {Inv : List Byte → Prop} {step fstep : Step (List Byte)}
    {I : ModeImpl (List Byte)} (hs : StepOk BS Inv step) (hu : BatchesOk ip BS Inv step I.upd)
    (hfs : FStepOk BS Inv fstep) (hfin : FinOk BS Inv fstep I.fin)
    (outF : List (List Byte) → List (List Byte)) (E : List Byte → List Byte) (iv : List Byte) (hi : Inv iv)
    (hf : ∀ s r, ∃ s', fstep s r = .ok (s', xorB r (E s)))
    (hrun : ∀ bl, ∃ s', runBlocks step iv bl = .ok (s', (outF bl).flatten) ∧
      ∀ r, outF (bl ++ [r]) = outF bl ++ [xorB r (E s')])
    (m : Mem) (o i : Nat) (ns : List Nat) (last outl : Nat) (hp : StreamPlaced ip 0 m o i ns last) :
      ∃ h', streamRun BS I true ⟨[], iv⟩ m o i ns last outl =
        .ok (h', wrm m o (outF (blocks BS (rdm m i (ns.sum + last)))).flatten, o + (ns.sum + last)) := by
  rw [stream_eq hBS hs hu hfs hfin last ns ⟨[], iv⟩ m o i outl hi hBS hp]
  generalize rdm m i (ns.sum + last) = X
  unfold feed
  simp only [List.nil_append, bind_assoc, Outcome.ok_bind, List.length_nil, Nat.zero_add]
  obtain ⟨s', h, h2⟩ := hrun (chop BS (X.length / BS) X)
  rw [h]
  simp only [Outcome.ok_bind]
  obtain ⟨s'', h3⟩ := hf s' (X.drop (X.length / BS * BS))
  rw [h3, blocks_eq hBS]
  by_cases hz : X.drop (X.length / BS * BS) = []
  · rw [if_pos hz, List.append_nil, hz]
    simp only [Outcome.ok_bind, xorB, List.zipWith_nil_left, List.append_nil]
    exact ⟨_, rfl⟩
  · rw [if_neg hz, h2]
    simp only [Outcome.ok_bind, List.flatten_append, List.flatten_cons, List.flatten_nil, List.append_nil]
    exact ⟨_, rfl⟩

theorem modes_spec {C : BCipher} (hC : CipherOk C) (n : Name) (iv : List Byte) (hiv : iv.length = C.BS)
    (m : Mem) (o i : Nat) (ns : List Nat) (last outl : Nat) (hp : StreamPlaced (inplaceOk C n) 0 m o i ns last) :
    if wholeBlocks n = true → (ns.sum + last) % C.BS = 0 then
      ∃ h', streamRun C.BS (modeImpl C n) true ⟨[], iv⟩ m o i ns last outl =
        .ok (h', wrm m o (out C.E C.D C.BS iv n (blocks C.BS (rdm m i (ns.sum + last)))).flatten, o + (ns.sum + last))
    else streamRun C.BS (modeImpl C n) true ⟨[], iv⟩ m o i ns last outl = .throw := by
  have hE : LenOk C.BS C.E := hC.lenE
  have hD : LenOk C.BS C.D := hC.lenD
  have ip : ∀ n, n ≠ Name.cbcDec → inplaceOk C n = true := fun n h => decide_eq_true (Or.inl h)
  cases n with
  | ecbEnc =>
    rw [ip _ (by simp)] at hp
    simp only [wholeBlocks, true_imp_iff]
    exact finish_whole hC.bs (ecb_stepOk hE) (ecb_updOk hE) ecb_finOk (ecb C.E) iv trivial
      (fun bl => ⟨iv, ecb_run _ _ _⟩) m o i ns last outl hp
  | ecbDec =>
    rw [ip _ (by simp)] at hp
    simp only [wholeBlocks, true_imp_iff]
    exact finish_whole hC.bs (ecb_stepOk hD) (ecb_updOk hD) ecb_finOk (ecb C.D) iv trivial
      (fun bl => ⟨iv, ecb_run _ _ _⟩) m o i ns last outl hp
  | cbcEnc =>
    rw [ip _ (by simp)] at hp
    simp only [wholeBlocks, true_imp_iff]
    exact finish_whole hC.bs (cbcEnc_stepOk hE) (cbcEnc_updOk hE) cbc_finOk (cbcEnc C.E iv) iv hiv
      (cbcEnc_run _ _) m o i ns last outl hp
  | cbcDec =>
    simp only [wholeBlocks, true_imp_iff]
    exact finish_whole hC.bs (cbcDec_stepOk hD) (cbcDec_updOk hC.bs hC.par hD (inplaceOk C .cbcDec) (by
        intro h; have := of_decide_eq_true h; simp at this; omega)) cbc_finOk (cbcDec C.D iv) iv hiv
      (fun bl => ⟨_, cbcDec_run _ _ _⟩) m o i ns last outl hp
  | cfbEnc =>
    rw [ip _ (by simp)] at hp
    simp only [wholeBlocks, Bool.false_eq_true, false_imp_iff, if_true]
    exact finish_any hC.bs (cfbEnc_stepOk hE) (cfbEnc_updOk hE) (xorTail_fstep hE) cfb_finOk (cfbEnc C.E iv) C.E iv hiv
      (fun s r => ⟨_, rfl⟩) (cfbEnc_run _ _) m o i ns last outl hp
  | cfbDec =>
    rw [ip _ (by simp)] at hp
    simp only [wholeBlocks, Bool.false_eq_true, false_imp_iff, if_true]
    exact finish_any hC.bs (cfbDec_stepOk hE) (cfbDec_updOk hC.par hE) (xorTail_fstep hE) cfb_finOk (cfbDec C.E iv) C.E
      iv hiv (fun s r => ⟨_, rfl⟩) (fun bl => ⟨_, cfbDec_run _ _ _⟩) m o i ns last outl hp
  | ofb =>
    rw [ip _ (by simp)] at hp
    simp only [wholeBlocks, Bool.false_eq_true, false_imp_iff, if_true]
    exact finish_any hC.bs (ofb_stepOk hE) (ofb_updOk hE) (xorTail_fstep hE) cfb_finOk (ofb C.E iv) C.E iv hiv
      (fun s r => ⟨_, rfl⟩) (ofb_run _ _) m o i ns last outl hp
  | ctr =>
    rw [ip _ (by simp)] at hp
    simp only [wholeBlocks, Bool.false_eq_true, false_imp_iff, if_true]
    refine finish_any hC.bs (ctr_stepOk hE (ctrInc_len C.BS)) (ctr_updOk hC.par hE (ctrInc_len C.BS)) (ctrTail_fstep hE)
      ctr_finOk (ctr C.E C.BS iv 0) C.E iv hiv (fun s r => ⟨_, rfl⟩) ?_ m o i ns last outl hp
    intro bl
    have := ctr_run C.E C.BS iv bl 0
    rw [ctrBlock_zero hiv] at this
    exact ⟨_, this⟩

/-! ## Block-shaped lists and inverse modes -/

def Shaped (b : Nat) : List (List Byte) → Prop
  | [] => True
  | [x] => 0 < x.length ∧ x.length ≤ b
  | x :: y :: r => x.length = b ∧ Shaped b (y :: r)

theorem shaped_cons {b : Nat} (hb : 0 < b) {x : List Byte} {r : List (List Byte)} (hx : x.length = b) (hr : Shaped b r) :
    Shaped b (x :: r) := by
  cases r with
  | nil => exact ⟨by omega, by omega⟩
  | cons y r => exact ⟨hx, hr⟩

theorem blocks_shaped {b : Nat} (hb : 0 < b) (l : List Byte) : Shaped b (blocks b l) := by
  rw [blocks_eq hb]
  have h := chop_mem (BS := b) (n := l.length / b) (l := l) (Nat.div_mul_le_self _ _)
  generalize chop b (l.length / b) l = cs at h
  have hdm := Nat.div_add_mod l.length b
  have hmod := Nat.mod_lt l.length hb
  rw [Nat.mul_comm] at hdm
  induction cs with
  | nil =>
    split_ifs with h0
    · trivial
    · rw [List.nil_append]
      exact ⟨List.length_pos_iff.mpr h0, by rw [List.length_drop]; omega⟩
  | cons c cs ih =>
    rw [List.cons_append]
    exact shaped_cons hb (h c (by simp)) (ih (fun x hx => h x (by simp [hx])))

theorem blocks_flatten {b : Nat} (hb : 0 < b) : ∀ (bl : List (List Byte)), Shaped b bl → blocks b bl.flatten = bl
  | [], _ => by unfold blocks; simp
  | [x], h => by
    have hne : x ≠ [] := List.length_pos_iff.mp h.1
    simp only [List.flatten_cons, List.flatten_nil, List.append_nil]
    unfold blocks
    rw [dif_neg (by simp only [hne, or_false]; omega), List.take_of_length_le h.2, List.drop_eq_nil_of_le h.2]
    unfold blocks; simp
  | x :: y :: r, h => by
    have hne : x ≠ [] := List.length_pos_iff.mp (by rw [h.1]; exact hb)
    rw [List.flatten_cons]
    unfold blocks
    rw [dif_neg (by simp only [List.append_eq_nil_iff, hne, false_and, or_false]; omega), ← h.1, List.take_left,
      List.drop_left, h.1, blocks_flatten hb (y :: r) h.2]

theorem flatten_blocks {b : Nat} (hb : 0 < b) (l : List Byte) : (blocks b l).flatten = l := by
  rw [blocks_eq hb, List.flatten_append, chop_flatten]
  split_ifs with h
  · rw [List.flatten_nil, List.append_nil, List.take_of_length_le]
    by_contra hc
    have := List.length_drop (i := l.length / b * b) (l := l)
    rw [h, List.length_nil] at this
    omega
  · rw [List.flatten_cons, List.flatten_nil, List.append_nil, List.take_append_drop]

/-- Same block lengths. -/
theorem shaped_of_lengths {b : Nat} : ∀ (x y : List (List Byte)), x.map List.length = y.map List.length →
    Shaped b x → Shaped b y
  | [], [], _, _ => trivial
  | [], _ :: _, h, _ => by simp at h
  | _ :: _, [], h, _ => by simp at h
  | [x], [y], h, hs => by
    simp only [List.map_cons, List.map_nil, List.cons.injEq, and_true] at h
    exact ⟨h ▸ hs.1, h ▸ hs.2⟩
  | [x], _ :: _ :: _, h, _ => by simp at h
  | _ :: _ :: _, [_], h, _ => by simp at h
  | x :: x2 :: xs, y :: y2 :: ys, h, hs => by
    simp only [List.map_cons, List.cons.injEq] at h
    refine ⟨by rw [← h.1]; exact hs.1, shaped_of_lengths (x2 :: xs) (y2 :: ys) ?_ hs.2⟩
    simp only [List.map_cons, List.cons.injEq]; exact h.2

theorem shaped_le {b : Nat} : ∀ (l : List (List Byte)), Shaped b l → ∀ x ∈ l, x.length ≤ b
  | [], _ => by simp
  | [x], h => by simp only [List.mem_singleton]; rintro y rfl; exact h.2
  | x :: y :: r, h => by
    intro z hz
    rcases List.mem_cons.mp hz with rfl | hz
    · exact Nat.le_of_eq h.1
    · exact shaped_le (y :: r) h.2 z hz

/-- Block-wise facts about an encryption mode: lengths kept, and the inverse mode undoes it. -/
theorem mode_inverse {C : BCipher} (hC : CipherOk C) (hDE : ∀ x, x.length = C.BS → C.D (C.E x) = x)
    (e d : Name) (hed : inverse e d) (iv : List Byte) (hiv : iv.length = C.BS) (ps : List (List Byte))
    (hsh : Shaped C.BS ps) (hw : wholeBlocks e = true → ∀ p ∈ ps, p.length = C.BS) :
    (out C.E C.D C.BS iv e ps).map List.length = ps.map List.length ∧
      out C.E C.D C.BS iv d (out C.E C.D C.BS iv e ps) = ps := by
  have hE := hC.lenE
  cases e <;> cases d <;> simp only [inverse] at hed
  case ecbEnc.ecbDec =>
    replace hw := hw rfl
    simp only [out, ecb]
    clear hsh
    induction ps with
    | nil => exact ⟨rfl, rfl⟩
    | cons p ps ih =>
      have hp := hw p (by simp)
      obtain ⟨a, b⟩ := ih (fun x hx => hw x (by simp [hx]))
      simp only [List.map_cons, List.cons.injEq, a, b, and_true]
      exact ⟨by rw [hE p hp, hp], hDE p hp⟩
  case cbcEnc.cbcDec =>
    replace hw := hw rfl
    simp only [out]
    clear hsh
    induction ps generalizing iv with
    | nil => exact ⟨rfl, rfl⟩
    | cons p ps ih =>
      have hp := hw p (by simp)
      have hx : (xorB p iv).length = C.BS := by rw [xorB_len (by omega), hp]
      have hc := hE _ hx
      obtain ⟨a, b⟩ := ih (C.E (xorB p iv)) hc (fun x hx => hw x (by simp [hx]))
      simp only [cbcEnc, cbcDec, List.map_cons, List.cons.injEq, a, b, and_true]
      exact ⟨by rw [hc, hp], by rw [hDE _ hx, xorB_xorB (by omega)]⟩
  case cfbEnc.cfbDec =>
    simp only [out]
    clear hw
    induction ps generalizing iv with
    | nil => exact ⟨rfl, rfl⟩
    | cons p ps ih =>
      have hp := shaped_le _ hsh p (by simp)
      have hiv' := hE iv hiv
      have hlen : (xorB p (C.E iv)).length = p.length := xorB_len (by omega)
      cases ps with
      | nil => simp only [cfbEnc, cfbDec, List.map_cons, List.map_nil, hlen, xorB_xorB (show p.length ≤ (C.E iv).length by omega), and_self]
      | cons q qs =>
        obtain ⟨a, b⟩ := ih (xorB p (C.E iv)) (by rw [hlen]; exact hsh.1) hsh.2
        rw [cfbEnc, cfbDec, b]
        rw [List.map_cons, a, hlen, xorB_xorB (by omega)]
        exact ⟨rfl, rfl⟩
  case ofb.ofb =>
    have hle := shaped_le _ hsh
    simp only [out]
    clear hw hsh
    induction ps generalizing iv with
    | nil => exact ⟨rfl, rfl⟩
    | cons p ps ih =>
      have hp := hle p (by simp)
      have hiv' := hE iv hiv
      obtain ⟨a, b⟩ := ih (C.E iv) hiv' (fun x hx => hle x (by simp [hx]))
      simp only [ofb, List.map_cons, List.cons.injEq, a, b, and_true]
      exact ⟨xorB_len (by omega), xorB_xorB (by omega)⟩
  case ctr.ctr =>
    have hle := shaped_le _ hsh
    simp only [out]
    clear hw hsh
    generalize 0 = j
    induction ps generalizing j with
    | nil => exact ⟨rfl, rfl⟩
    | cons p ps ih =>
      have hp := hle p (by simp)
      have hiv' := hE (ctrBlock C.BS iv j) (toBE_len _ _)
      obtain ⟨a, b⟩ := ih (fun x hx => hle x (by simp [hx])) (j + 1)
      simp only [ctr, List.map_cons, List.cons.injEq, a, b, and_true]
      exact ⟨xorB_len (by omega), xorB_xorB (by omega)⟩

theorem blocks_whole {b : Nat} (hb : 0 < b) {l : List Byte} (h : l.length % b = 0) : ∀ x ∈ blocks b l, x.length = b := by
  rw [blocks_eq hb, if_pos (drop_full h), List.append_nil]
  exact chop_mem (Nat.div_mul_le_self _ _)

/-! ## Callers that do not clear their length variable -/

theorem update_outl_irrelevant {S} (BS : Nat) (I : ModeImpl S) (st : S) (m : Mem) (o i inl a b : Nat) :
    modeUpdate BS I ⟨[], st⟩ m o i inl a = modeUpdate BS I ⟨[], st⟩ m o i inl b := by
  unfold modeUpdate
  by_cases h : inl = 0
  · rw [if_pos h, if_pos h]
  · rw [if_neg h, if_neg h]; rfl

theorem stream_nozero {S} {BS : Nat} (I : ModeImpl S) (last : Nat) :
    ∀ (ns : List Nat) (st : S) (m : Mem) (o i outl outl' : Nat), (∀ n ∈ ns, n % BS = 0) →
      streamRun BS I false ⟨[], st⟩ m o i ns last outl = streamRun BS I true ⟨[], st⟩ m o i ns last outl' := by
  intro ns
  induction ns with
  | nil =>
    intro st m o i outl outl' _
    simp only [streamRun, modeFinal, Bool.false_eq_true, if_false, if_true]
    rw [update_outl_irrelevant BS I st m o i last outl 0]
  | cons n ns ih =>
    intro st m o i outl outl' hn
    have hn0 := hn n (by simp)
    have hrest : ∀ k ∈ ns, k % BS = 0 := fun k hk => hn k (by simp [hk])
    simp only [streamRun, Bool.false_eq_true, if_false, if_true]
    rw [update_outl_irrelevant BS I st m o i n outl 0]
    have hb : ∀ r, modeUpdate BS I ⟨[], st⟩ m o i n 0 = .ok r → r.1.buf = [] := by
      intro r h
      unfold modeUpdate at h
      by_cases h0 : n = 0
      · rw [if_pos h0] at h; cases h; rfl
      · rw [if_neg h0, if_pos (by rfl)] at h
        unfold modeBulk at h
        simp only [bind_assoc] at h
        cases hu : I.upd st m (.ptr i) o (n / BS) with
        | throw => rw [hu] at h; cases h
        | ub => rw [hu] at h; cases h
        | ok x =>
          rw [hu] at h
          simp only [Outcome.ok_bind, Outcome.ok.injEq] at h
          rw [← h]
          have := Nat.div_add_mod n BS
          rw [Nat.mul_comm] at this
          simp only [rdm]
          rw [show n - n / BS * BS = 0 by omega]; simp
    cases h1 : modeUpdate BS I ⟨[], st⟩ m o i n 0 with
    | throw => rfl
    | ub => rfl
    | ok r =>
      obtain ⟨⟨buf, st'⟩, m', e⟩ := r
      have := hb _ h1
      simp only at this
      subst this
      exact ih st' m' (o + e) (i + n) e e hrest

end Verif
