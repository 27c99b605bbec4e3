import Verif.Proofs.Modes
import Verif.Proofs.MontCtx
import Verif.Spec.StreamCaller
/-! # Helper lemmas: the concrete modes -/
namespace Verif
open Spec Spec.Modes

def FStepOk {S} (BS : Nat) (Inv : S → Prop) (fstep : Step S) : Prop :=
  ∀ s r s' w, Inv s → r.length < BS → fstep s r = .ok (s', w) → w.length = r.length

theorem stream_eq {S} {ip : Bool} {BS : Nat} (hBS : 0 < BS) {Inv : S → Prop} {step fstep : Step S} {I : ModeImpl S}
    (hs : StepOk BS Inv step) (hu : BatchesOk ip BS Inv step I.upd) (hfs : FStepOk BS Inv fstep)
    (hfin : FinOk BS Inv fstep I.fin) (last : Nat) :
    ∀ (ns : List Nat) (h : ModeObj S) (m : Mem) (o i outl : Nat), Inv h.st → h.buf.length < BS →
      StreamPlaced ip h.buf.length m o i ns last →
      streamRun BS I true h m o i ns last outl =
        (feed BS step h (rdm m i (ns.sum + last)) >>= fun r => fstep r.1.st r.1.buf >>= fun r' =>
          .ok (⟨r.1.buf, r'.1⟩, wrm m o (r.2 ++ r'.2), o + (h.buf.length + (ns.sum + last)))) := by
  intro ns
  induction ns with
  | nil =>
    intro h m o i outl hi hb ⟨p1, p2, p3⟩
    simp only [List.sum_nil, Nat.zero_add] at p1 p2 p3 ⊢
    have hle : (h.buf.length + last) / BS * BS ≤ h.buf.length + last := Nat.div_mul_le_self _ _
    simp only [streamRun, if_true, modeFinal]
    rw [modeUpdate_eq (ip := ip) hBS hs hu h hi hb m o i last 0 ⟨p1, by omega, by
      rcases p3 with p | p | p
      · left; omega
      · right; left; omega
      · right; right; exact p⟩]
    simp only [bind_assoc, Outcome.ok_bind]
    cases h1 : feed BS step h (rdm m i last) with
    | throw => rfl
    | ub => rfl
    | ok r =>
      obtain ⟨h', w⟩ := r
      obtain ⟨hi', hb', hw, hbl⟩ := feed_ok hBS hs hi h1
      rw [rdm_len p1] at hw hbl
      have hdm := Nat.div_add_mod (h.buf.length + last) BS
      rw [Nat.mul_comm] at hdm
      simp only [Outcome.ok_bind]
      have houtl : (if last ≠ 0 ∧ h.buf ≠ [] ∧ h.buf.length + last < BS then 0 else w.length) = w.length := by
        split_ifs with hc
        · rw [hw, Nat.div_eq_of_lt hc.2.2]; simp
        · rfl
      rw [houtl, hfin h'.st (wrm m o w) h'.buf (o + w.length) hi' hb' (by rw [wrm_len (by omega)]; omega)]
      simp only [bind_assoc, Outcome.ok_bind]
      cases h2 : fstep h'.st h'.buf with
      | throw => rfl
      | ub => rfl
      | ok r =>
        obtain ⟨s', w'⟩ := r
        have hw' := hfs _ _ _ _ hi' hb' h2
        simp only [Outcome.ok_bind, Outcome.ok.injEq, Prod.mk.injEq, true_and]
        exact ⟨wrm_wrm (by omega), by omega⟩
  | cons n ns ih =>
    intro h m o i outl hi hb ⟨p1, p2, p3⟩
    simp only [List.sum_cons] at p1 p2 p3 ⊢
    have hle : (h.buf.length + n) / BS * BS ≤ h.buf.length + n := Nat.div_mul_le_self _ _
    simp only [streamRun, if_true]
    rw [modeUpdate_eq (ip := ip) hBS hs hu h hi hb m o i n 0 ⟨by omega, by omega, by
      rcases p3 with p | p | p
      · left; omega
      · right; left; omega
      · right; right; exact p⟩]
    simp only [bind_assoc, Outcome.ok_bind]
    have hX : rdm m i (n + ns.sum + last) = rdm m i n ++ rdm m (i + n) (ns.sum + last) := by
      rw [Nat.add_assoc, rdm_append]
    rw [hX, feed_append hBS]
    simp only [bind_assoc, Outcome.ok_bind]
    cases h1 : feed BS step h (rdm m i n) with
    | throw => rfl
    | ub => rfl
    | ok r =>
      obtain ⟨h', w⟩ := r
      obtain ⟨hi', hb', hw, hbl⟩ := feed_ok hBS hs hi h1
      rw [rdm_len (by omega)] at hw hbl
      have hdm := Nat.div_add_mod (h.buf.length + n) BS
      rw [Nat.mul_comm] at hdm
      simp only [Outcome.ok_bind]
      have houtl : (if n ≠ 0 ∧ h.buf ≠ [] ∧ h.buf.length + n < BS then 0 else w.length) = w.length := by
        split_ifs with hc
        · rw [hw, Nat.div_eq_of_lt hc.2.2]; simp
        · rfl
      have hwl : (wrm m o w).length = m.length := wrm_len (by omega)
      rw [houtl, ih h' (wrm m o w) (o + w.length) (i + n) _ hi' hb' ⟨by omega, by omega, by
        rcases p3 with p | p | p
        · left; omega
        · right; left; omega
        · right; right; exact ⟨p.1, by omega⟩⟩]
      have hrd : rdm (wrm m o w) (i + n) (ns.sum + last) = rdm m (i + n) (ns.sum + last) := by
        apply rdm_wrm_disj (by omega)
        rcases p3 with p | p | p
        · omega
        · omega
        · omega
      rw [hrd]
      cases h2 : feed BS step h' (rdm m (i + n) (ns.sum + last)) with
      | throw => rfl
      | ub => rfl
      | ok r =>
        obtain ⟨h'', w2⟩ := r
        obtain ⟨hi'', hb'', hw2, hbl2⟩ := feed_ok hBS hs hi' h2
        rw [rdm_len (by omega)] at hw2 hbl2
        have hdm2 := Nat.div_add_mod (h'.buf.length + (ns.sum + last)) BS
        rw [Nat.mul_comm] at hdm2
        simp only [Outcome.ok_bind]
        cases h3 : fstep h''.st h''.buf with
        | throw => rfl
        | ub => rfl
        | ok r =>
          obtain ⟨s', w'⟩ := r
          have hw' := hfs _ _ _ _ hi'' hb'' h3
          simp only [Outcome.ok_bind, Outcome.ok.injEq, Prod.mk.injEq, true_and]
          refine ⟨?_, by omega⟩
          rw [wrm_wrm (by rw [List.length_append]; omega), List.append_assoc]

/-! ## Blocks of the specification -/

theorem blocks_eq {BS : Nat} (hBS : 0 < BS) (l : List Byte) :
    blocks BS l = chop BS (l.length / BS) l ++
      (if l.drop (l.length / BS * BS) = [] then [] else [l.drop (l.length / BS * BS)]) := by
  induction hn : l.length using Nat.strong_induction_on generalizing l with
  | _ n ih =>
    subst hn
    unfold blocks
    by_cases hl : l = []
    · subst hl; simp [chop]
    · have hpos : 0 < l.length := List.length_pos_iff.mpr hl
      rw [dif_neg (by simp only [hl, or_false]; omega)]
      by_cases hlt : l.length < BS
      · rw [Nat.div_eq_of_lt hlt, List.take_of_length_le (by omega), List.drop_eq_nil_of_le (by omega)]
        simp only [chop, List.nil_append, Nat.zero_mul, List.drop_zero, hl, if_false]
        unfold blocks; simp
      · have hd : l.length / BS = (l.drop BS).length / BS + 1 := by
          rw [List.length_drop, ← Nat.add_div_right _ hBS]; congr 1; omega
        rw [ih (l.drop BS).length (by rw [List.length_drop]; omega) (l.drop BS) rfl, hd, chop, List.cons_append,
          Nat.succ_mul, List.drop_drop, Nat.add_comm BS]

theorem xorB_append {a b c d : List Byte} (h : a.length = c.length) :
    xorB (a ++ b) (c ++ d) = xorB a c ++ xorB b d := by
  unfold xorB; exact List.zipWith_append h

theorem xorB_len {a b : List Byte} (h : a.length ≤ b.length) : (xorB a b).length = a.length := by
  unfold xorB; rw [List.length_zipWith, Nat.min_eq_left h]

theorem xorB_take {a b : List Byte} {n : Nat} (h : a.length ≤ n) : xorB a (b.take n) = xorB a b := by
  induction a generalizing b n with
  | nil => rfl
  | cons x xs ih =>
    cases n with
    | zero => simp at h
    | succ n =>
      cases b with
      | nil => rfl
      | cons y ys =>
        simp only [List.length_cons, Nat.add_le_add_iff_right] at h
        simp only [List.take_succ_cons, xorB, List.zipWith_cons_cons, List.cons.injEq, true_and]
        exact ih h

theorem xorB_xorB {a b : List Byte} (h : a.length ≤ b.length) : xorB (xorB a b) b = a := by
  induction a generalizing b with
  | nil => rfl
  | cons x xs ih =>
    cases b with
    | nil => simp at h
    | cons y ys =>
      simp only [List.length_cons, Nat.add_le_add_iff_right] at h
      simp only [xorB, List.zipWith_cons_cons, List.cons.injEq]
      exact ⟨by rw [BitVec.xor_assoc, BitVec.xor_self, BitVec.xor_zero], ih h⟩

/-- Length-preserving block functions. -/
def LenOk (BS : Nat) (E : List Byte → List Byte) : Prop := ∀ x, x.length = BS → (E x).length = BS

/-! ### ECB -/

def ecbStep (f : List Byte → List Byte) : Step (List Byte) := fun s b => .ok (s, f b)
def noPartial : Step (List Byte) := fun s r => if r.length = 0 then .ok (s, []) else .throw

theorem ecb_run (f : List Byte → List Byte) (s : List Byte) (bl : List (List Byte)) :
    runBlocks (ecbStep f) s bl = .ok (s, (ecb f bl).flatten) := by
  induction bl with
  | nil => rfl
  | cons b bs ih => simp only [runBlocks, ecbStep, Outcome.ok_bind] at ih ⊢; rw [ih]; rfl

theorem ecb_stepOk {BS : Nat} {f : List Byte → List Byte} (hf : LenOk BS f) :
    StepOk BS (fun _ => True) (ecbStep f) := by
  intro s b s' c _ hb h
  simp only [ecbStep, Outcome.ok.injEq, Prod.mk.injEq] at h
  exact ⟨trivial, by rw [← h.2]; exact hf b hb⟩

theorem ecb_updOk {BS PAR : Nat} {f : List Byte → List Byte} (hf : LenOk BS f) :
    BatchesOk true BS (fun _ => True) (ecbStep f) (ecbImpl f BS PAR).upd := by
  apply cipherBlocks_ok (ecb_stepOk hf)
  intro K s m src o bl h0 hK hi hl hr hsafe hm
  rw [ecb_run]
  simp only [cipherBatch, Outcome.ok_bind, hr, mapBlocks_eq hl]; rfl

theorem noPartial_fstep (BS : Nat) (Inv : List Byte → Prop) : FStepOk BS Inv noPartial := by
  intro s r s' w _ _ h
  unfold noPartial at h
  split_ifs at h with h0
  simp only [Outcome.ok.injEq, Prod.mk.injEq] at h
  rw [← h.2, h0]; rfl

theorem ecb_finOk {BS PAR : Nat} {f : List Byte → List Byte} :
    FinOk BS (fun _ => True) noPartial (ecbImpl f BS PAR).fin := by
  intro s m r o _ hr hm
  simp only [ecbImpl, noPartial]
  by_cases h0 : r.length = 0
  · rw [if_pos h0, if_pos h0, Outcome.ok_bind, wrm_nil]
  · rw [if_neg h0, if_neg h0, if_pos (by omega)]; rfl

/-! ### CBC -/

def cbcEncMealy (E : List Byte → List Byte) : Step (List Byte) := fun iv b => .ok (E (xorB b iv), E (xorB b iv))
def cbcDecMealy (D : List Byte → List Byte) : Step (List Byte) := fun iv c => .ok (c, xorB (D c) iv)

theorem cbcEnc_run (E : List Byte → List Byte) (iv : List Byte) (bl : List (List Byte)) :
    ∃ s', runBlocks (cbcEncMealy E) iv bl = .ok (s', (cbcEnc E iv bl).flatten) := by
  induction bl generalizing iv with
  | nil => exact ⟨iv, rfl⟩
  | cons b bs ih =>
    obtain ⟨s', h⟩ := ih (E (xorB b iv))
    exact ⟨s', by simp only [runBlocks, cbcEncMealy, Outcome.ok_bind] at h ⊢; rw [h]; rfl⟩

theorem cbcEnc_stepOk {BS : Nat} {E : List Byte → List Byte} (hE : LenOk BS E) :
    StepOk BS (fun s => s.length = BS) (cbcEncMealy E) := by
  intro s b s' c hi hb h
  simp only [cbcEncMealy, Outcome.ok.injEq, Prod.mk.injEq] at h
  have : (E (xorB b s)).length = BS := hE _ (by rw [xorB_len (by omega), hb])
  exact ⟨by rw [← h.1]; exact this, by rw [← h.2]; exact this⟩

theorem one_block {bl : List (List Byte)} (h0 : 0 < bl.length) (h1 : bl.length ≤ 1) : ∃ b, bl = [b] := by
  cases bl with
  | nil => simp at h0
  | cons b bs =>
    cases bs with
    | nil => exact ⟨b, rfl⟩
    | cons c cs => simp at h1

theorem cbcEnc_updOk {C : BCipher} (hE : LenOk C.BS C.E) :
    BatchesOk true C.BS (fun s => s.length = C.BS) (cbcEncMealy C.E) (cbcEncImpl C).upd := by
  apply singles_ok (cbcEnc_stepOk hE)
  intro s m src o bl h0 hK hi hl hr hsafe hm
  obtain ⟨b, rfl⟩ := one_block h0 hK
  simp only [List.length_singleton, Nat.one_mul, List.flatten_cons, List.flatten_nil, List.append_nil] at hr
  simp only [runBlocks, cbcEncMealy, cbcEncStep, Outcome.ok_bind, List.append_nil, hr]
  rfl

theorem cbc_finOk {BS : Nat} {Inv : List Byte → Prop} {upd : BlockFn (List Byte)} :
    FinOk BS Inv noPartial (cbcFin upd BS) := by
  intro s m r o _ hr hm
  simp only [cbcFin, noPartial]
  by_cases h0 : r.length = 0
  · rw [if_pos h0, if_pos h0, Outcome.ok_bind, wrm_nil]
  · rw [if_neg h0, if_neg h0, if_pos (by omega)]; rfl

theorem cbcDec_run (D : List Byte → List Byte) (iv : List Byte) (bl : List (List Byte)) :
    runBlocks (cbcDecMealy D) iv bl = .ok (bl.getLastD iv, (cbcDec D iv bl).flatten) := by
  induction bl generalizing iv with
  | nil => rfl
  | cons b bs ih =>
    simp only [runBlocks, cbcDecMealy, Outcome.ok_bind] at ih ⊢
    rw [ih]
    simp only [Outcome.ok_bind, cbcDec, List.flatten_cons, List.getLastD_cons]

theorem cbcDec_stepOk {BS : Nat} {D : List Byte → List Byte} (hD : LenOk BS D) :
    StepOk BS (fun s => s.length = BS) (cbcDecMealy D) := by
  intro s b s' c hi hb h
  simp only [cbcDecMealy, Outcome.ok.injEq, Prod.mk.injEq] at h
  have := hD b hb
  exact ⟨by rw [← h.1]; exact hb, by rw [← h.2, xorB_len (by omega), this]⟩

theorem cbcDec_flat {BS : Nat} {D : List Byte → List Byte} (hD : LenOk BS D) :
    ∀ (bs : List (List Byte)) (b : List Byte), b.length = BS → (∀ x ∈ bs, x.length = BS) →
      xorB (bs.map D).flatten (b :: bs).flatten = (cbcDec D b bs).flatten := by
  intro bs
  induction bs with
  | nil => intro b _ _; rfl
  | cons c cs ih =>
    intro b hb hl
    have hc := hl c (by simp)
    rw [List.map_cons, List.flatten_cons, List.flatten_cons, xorB_append (by rw [hD c hc, hb]),
      ih c hc (fun x hx => hl x (by simp [hx]))]
    simp only [cbcDec, List.flatten_cons]

theorem last_block {BS : Nat} {m : Mem} {src : Src} {iv : List Byte} {bl : List (List Byte)}
    (h0 : 0 < bl.length) (hl : ∀ b ∈ bl, b.length = BS) (hr : src.read m (bl.length * BS) = bl.flatten) :
    (src.adv ((bl.length - 1) * BS)).read m BS = bl.getLastD iv := by
  have h1 : (src.adv ((bl.length - 1) * BS)).read m BS = (src.read m (bl.length * BS)).drop ((bl.length - 1) * BS) := by
    rw [Src.read_drop, ← Nat.sub_mul]
    congr 1
    rw [show bl.length - (bl.length - 1) = 1 by omega, Nat.one_mul]
  rw [h1, hr]
  rcases List.eq_nil_or_concat bl with rfl | ⟨xs, x, rfl⟩
  · simp at h0
  · have hxs : ∀ b ∈ xs, b.length = BS := fun b hb => hl b (by simp [hb])
    simp only [List.concat_eq_append, List.length_append, List.length_singleton, Nat.add_sub_cancel, List.flatten_append,
      List.flatten_cons, List.flatten_nil, List.append_nil]
    rw [← flatten_len hxs, List.drop_left]
    simp [List.getLastD_eq_getLast?]

theorem cbcDec_batch {BS : Nat} (hBS : 0 < BS) {D : List Byte → List Byte} (hD : LenOk BS D) (ip : Bool) (K : Nat)
    (hK1 : ip = true → K ≤ 1) :
    BatchOk ip BS (fun s => s.length = BS) (cbcDecMealy D) (cbcDecBatch D BS) K := by
  intro s m src o bl h0 hK hi hl hr hsafe hm
  rw [cbcDec_run]
  simp only [cbcDecBatch, Outcome.ok_bind]
  rw [last_block (iv := s) h0 hl hr, hr, mapBlocks_eq hl]
  cases bl with
  | nil => simp at h0
  | cons b bs =>
    have hb := hl b (by simp)
    have hDb := hD b hb
    have hbs : ∀ x ∈ bs, x.length = BS := fun x hx => hl x (by simp [hx])
    have hmap : (bs.map D).flatten.length = bs.length * BS := by
      rw [flatten_len (BS := BS)]
      · simp
      · intro x hx
        obtain ⟨y, hy, rfl⟩ := List.mem_map.mp hx
        exact hD y (hbs y hy)
    simp only [List.length_cons, Nat.add_sub_cancel, Nat.succ_mul] at hm hsafe hr ⊢
    rw [List.map_cons, List.flatten_cons, ← hDb, List.take_left, List.drop_left, hDb]
    have hx : (xorB (D b) s).length = BS := by rw [xorB_len (by omega), hDb]
    have hw1 : ∀ x, xorBytes x s = xorB x s := fun _ => rfl
    have hread : xorBytes (bs.map D).flatten (src.read (wrm m o (xorB (D b) s)) (bs.length * BS)) =
        (cbcDec D b bs).flatten := by
      rw [← cbcDec_flat hD bs b hb hbs, ← hr]
      by_cases hz : bs.length = 0
      · have : bs = [] := List.length_eq_zero_iff.mp hz
        subst this; rfl
      · have : src.read (wrm m o (xorB (D b) s)) (bs.length * BS) = (src.read m (bs.length * BS + BS)).take (bs.length * BS) := by
          rw [Src.read_take _ _ (by omega)]
          cases src with
          | buf c => rfl
          | ptr p =>
            simp only [SafeAt, Src.read] at hsafe ⊢
            apply rdm_wrm_disj (by omega)
            rcases hsafe with h | h | h
            · left; omega
            · right; omega
            · simp only [List.length_cons] at hK
              have := hK1 h.1; omega
        rw [this]
        exact xorB_take (by omega)
    have hcl : (cbcDec D b bs).flatten.length = bs.length * BS := by
      rw [← cbcDec_flat hD bs b hb hbs, xorB_len, hmap]
      rw [hmap, flatten_len (BS := BS) (by intro x hx; exact hl x hx), List.length_cons, Nat.succ_mul]; omega
    rw [hw1, hread]
    simp only [cbcDec, List.flatten_cons]
    congr 2
    rw [← wrm_wrm (by omega), hx]

theorem cbcDec_updOk {C : BCipher} (hBS : 0 < C.BS) (hP : 0 < C.PAR) (hD : LenOk C.BS C.D) (ip : Bool)
    (h1 : ip = true → C.PAR ≤ 1) :
    BatchesOk ip C.BS (fun s => s.length = C.BS) (cbcDecMealy C.D) (cbcDecImpl C).upd :=
  batches_ok hP (cbcDec_stepOk hD) (cbcDec_batch hBS hD ip C.PAR h1)

/-! ### CFB -/

def cfbEncMealy (E : List Byte → List Byte) : Step (List Byte) := fun iv b => .ok (xorB b (E iv), xorB b (E iv))
def cfbDecMealy (E : List Byte → List Byte) : Step (List Byte) := fun iv c => .ok (c, xorB c (E iv))
/-- Final partial block of CFB and OFB. -/
def xorTail (E : List Byte → List Byte) : Step (List Byte) := fun iv r =>
  .ok (if r.length = 0 then iv else E iv, xorB r (E iv))

theorem xorTail_fstep {BS : Nat} {E : List Byte → List Byte} (hE : LenOk BS E) :
    FStepOk BS (fun s => s.length = BS) (xorTail E) := by
  intro s r s' w hi hr h
  simp only [xorTail, Outcome.ok.injEq, Prod.mk.injEq] at h
  have := hE s hi
  rw [← h.2, xorB_len (by omega)]

theorem cfb_finOk {BS : Nat} {E : List Byte → List Byte} :
    FinOk BS (fun s => s.length = BS) (xorTail E) (cfbFin E) := by
  intro s m r o _ hr hm
  simp only [cfbFin, xorTail, Outcome.ok_bind]
  by_cases h0 : r.length = 0
  · have : r = [] := List.length_eq_zero_iff.mp h0
    subst this
    rw [if_pos h0, if_pos h0]
    simp only [xorB, List.zipWith_nil_left, wrm_nil]
  · rw [if_neg h0, if_neg h0]; rfl

theorem cfbEnc_run (E : List Byte → List Byte) (iv : List Byte) (bl : List (List Byte)) :
    ∃ s', runBlocks (cfbEncMealy E) iv bl = .ok (s', (cfbEnc E iv bl).flatten) ∧
      ∀ r, cfbEnc E iv (bl ++ [r]) = cfbEnc E iv bl ++ [xorB r (E s')] := by
  induction bl generalizing iv with
  | nil => exact ⟨iv, rfl, fun r => rfl⟩
  | cons b bs ih =>
    obtain ⟨s', h, h2⟩ := ih (xorB b (E iv))
    refine ⟨s', ?_, ?_⟩
    · simp only [runBlocks, cfbEncMealy, Outcome.ok_bind] at h ⊢; rw [h]; rfl
    · intro r; simp only [List.cons_append, cfbEnc, h2]

theorem cfbEnc_stepOk {BS : Nat} {E : List Byte → List Byte} (hE : LenOk BS E) :
    StepOk BS (fun s => s.length = BS) (cfbEncMealy E) := by
  intro s b s' c hi hb h
  simp only [cfbEncMealy, Outcome.ok.injEq, Prod.mk.injEq] at h
  have := hE s hi
  have : (xorB b (E s)).length = BS := by rw [xorB_len (by omega), hb]
  exact ⟨by rw [← h.1]; exact this, by rw [← h.2]; exact this⟩

theorem cfbEnc_updOk {C : BCipher} (hE : LenOk C.BS C.E) :
    BatchesOk true C.BS (fun s => s.length = C.BS) (cfbEncMealy C.E) (cfbEncImpl C).upd := by
  apply singles_ok (cfbEnc_stepOk hE)
  intro s m src o bl h0 hK hi hl hr hsafe hm
  obtain ⟨b, rfl⟩ := one_block h0 hK
  simp only [List.length_singleton, Nat.one_mul, List.flatten_cons, List.flatten_nil, List.append_nil] at hr
  simp only [runBlocks, cfbEncMealy, cfbEncStep, Outcome.ok_bind, List.append_nil, hr]
  rfl

theorem cfbDec_run (E : List Byte → List Byte) (iv : List Byte) (bl : List (List Byte)) :
    runBlocks (cfbDecMealy E) iv bl = .ok (bl.getLastD iv, (cfbDec E iv bl).flatten) ∧
      ∀ r, cfbDec E iv (bl ++ [r]) = cfbDec E iv bl ++ [xorB r (E (bl.getLastD iv))] := by
  induction bl generalizing iv with
  | nil => exact ⟨rfl, fun r => rfl⟩
  | cons b bs ih =>
    obtain ⟨h1, h2⟩ := ih b
    refine ⟨?_, ?_⟩
    · simp only [runBlocks, cfbDecMealy, Outcome.ok_bind] at h1 ⊢
      rw [h1]
      simp only [Outcome.ok_bind, cfbDec, List.flatten_cons, List.getLastD_cons]
    · intro r; simp only [List.cons_append, cfbDec, h2, List.getLastD_cons]

theorem cfbDec_stepOk {BS : Nat} {E : List Byte → List Byte} (hE : LenOk BS E) :
    StepOk BS (fun s => s.length = BS) (cfbDecMealy E) := by
  intro s b s' c hi hb h
  simp only [cfbDecMealy, Outcome.ok.injEq, Prod.mk.injEq] at h
  have := hE s hi
  exact ⟨by rw [← h.1]; exact hb, by rw [← h.2, xorB_len (by omega), hb]⟩

theorem mapBlocks_take (f : List Byte → List Byte) (BS : Nat) : ∀ (n : Nat) (l : List Byte),
    mapBlocks f BS n (l.take (n * BS)) = mapBlocks f BS n l
  | 0, _ => rfl
  | n + 1, l => by
    rw [mapBlocks, mapBlocks, List.take_take, Nat.succ_mul, Nat.min_eq_left (by omega), List.drop_take,
      Nat.add_sub_cancel, mapBlocks_take f BS n]

theorem cfbDec_flat {BS : Nat} {E : List Byte → List Byte} (hE : LenOk BS E) :
    ∀ (bl : List (List Byte)) (iv : List Byte), iv.length = BS → (∀ x ∈ bl, x.length = BS) →
      xorB bl.flatten (mapBlocks E BS bl.length (iv ++ bl.flatten)) = (cfbDec E iv bl).flatten := by
  intro bl
  induction bl with
  | nil => intro b _ _; rfl
  | cons c cs ih =>
    intro iv hiv hl
    have hc := hl c (by simp)
    rw [List.length_cons, mapBlocks, ← hiv, List.take_left, List.drop_left, hiv, List.flatten_cons,
      xorB_append (by rw [hE iv hiv, hc]), ih c hc (fun x hx => hl x (by simp [hx]))]
    simp only [cfbDec, List.flatten_cons]

theorem cfbDec_batch {BS : Nat} {E : List Byte → List Byte} (hE : LenOk BS E) (K : Nat) :
    BatchOk true BS (fun s => s.length = BS) (cfbDecMealy E) (cfbDecBatch E BS) K := by
  intro s m src o bl h0 hK hi hl hr hsafe hm
  rw [(cfbDec_run E s bl).1]
  simp only [cfbDecBatch, Outcome.ok_bind]
  have hsub : bl.length * BS - BS = (bl.length - 1) * BS := by rw [Nat.sub_mul, Nat.one_mul]
  rw [hsub, last_block (iv := s) h0 hl hr, hr]
  have hbuf : s ++ src.read m ((bl.length - 1) * BS) = (s ++ bl.flatten).take (bl.length * BS) := by
    rw [List.take_append, hi, hsub, List.take_of_length_le (by rw [hi]; exact Nat.le_mul_of_pos_left _ h0), ← hr,
      Src.read_take _ _ (by exact Nat.mul_le_mul_right _ (by omega))]
  rw [hbuf, mapBlocks_take, ← cfbDec_flat hE bl s hi hl]
  rfl

theorem cfbDec_updOk {C : BCipher} (hP : 0 < C.PAR) (hE : LenOk C.BS C.E) :
    BatchesOk true C.BS (fun s => s.length = C.BS) (cfbDecMealy C.E) (cfbDecImpl C).upd :=
  batches_ok hP (cfbDec_stepOk hE) (cfbDec_batch hE C.PAR)

/-! ### OFB -/

def ofbMealy (E : List Byte → List Byte) : Step (List Byte) := fun iv b => .ok (E iv, xorB b (E iv))

theorem ofb_run (E : List Byte → List Byte) (iv : List Byte) (bl : List (List Byte)) :
    ∃ s', runBlocks (ofbMealy E) iv bl = .ok (s', (ofb E iv bl).flatten) ∧
      ∀ r, ofb E iv (bl ++ [r]) = ofb E iv bl ++ [xorB r (E s')] := by
  induction bl generalizing iv with
  | nil => exact ⟨iv, rfl, fun r => rfl⟩
  | cons b bs ih =>
    obtain ⟨s', h, h2⟩ := ih (E iv)
    refine ⟨s', ?_, ?_⟩
    · simp only [runBlocks, ofbMealy, Outcome.ok_bind] at h ⊢; rw [h]; rfl
    · intro r; simp only [List.cons_append, ofb, h2]

theorem ofb_stepOk {BS : Nat} {E : List Byte → List Byte} (hE : LenOk BS E) :
    StepOk BS (fun s => s.length = BS) (ofbMealy E) := by
  intro s b s' c hi hb h
  simp only [ofbMealy, Outcome.ok.injEq, Prod.mk.injEq] at h
  have := hE s hi
  exact ⟨by rw [← h.1]; exact this, by rw [← h.2, xorB_len (by omega), hb]⟩

theorem ofb_updOk {C : BCipher} (hE : LenOk C.BS C.E) :
    BatchesOk true C.BS (fun s => s.length = C.BS) (ofbMealy C.E) (ofbImpl C).upd := by
  apply singles_ok (ofb_stepOk hE)
  intro s m src o bl h0 hK hi hl hr hsafe hm
  obtain ⟨b, rfl⟩ := one_block h0 hK
  simp only [List.length_singleton, Nat.one_mul, List.flatten_cons, List.flatten_nil, List.append_nil] at hr
  simp only [runBlocks, ofbMealy, ofbStep, Outcome.ok_bind, List.append_nil, hr]
  rfl

/-! ### CTR -/

def ctrMealy (E inc : List Byte → List Byte) : Step (List Byte) := fun c b => .ok (inc c, xorB b (E c))
def ctrTail (E inc : List Byte → List Byte) : Step (List Byte) := fun c r =>
  .ok (if r.length = 0 then c else inc c, xorB r (E c))

theorem ctr_stepOk {BS : Nat} {E inc : List Byte → List Byte} (hE : LenOk BS E) (hI : LenOk BS inc) :
    StepOk BS (fun s => s.length = BS) (ctrMealy E inc) := by
  intro s b s' c hi hb h
  simp only [ctrMealy, Outcome.ok.injEq, Prod.mk.injEq] at h
  have := hE s hi
  exact ⟨by rw [← h.1]; exact hI s hi, by rw [← h.2, xorB_len (by omega), hb]⟩

theorem ctrTail_fstep {BS : Nat} {E inc : List Byte → List Byte} (hE : LenOk BS E) :
    FStepOk BS (fun s => s.length = BS) (ctrTail E inc) := by
  intro s r s' w hi hr h
  simp only [ctrTail, Outcome.ok.injEq, Prod.mk.injEq] at h
  have := hE s hi
  rw [← h.2, xorB_len (by omega)]

theorem ctrBlocks_flat {BS : Nat} {E inc : List Byte → List Byte} (hE : LenOk BS E) (hI : LenOk BS inc) :
    ∀ (bl : List (List Byte)) (c : List Byte), c.length = BS → (∀ x ∈ bl, x.length = BS) →
      runBlocks (ctrMealy E inc) c bl = .ok ((ctrBlocks inc bl.length c).2,
        xorB bl.flatten (mapBlocks E BS bl.length (ctrBlocks inc bl.length c).1)) := by
  intro bl
  induction bl with
  | nil => intro c _ _; rfl
  | cons b bs ih =>
    intro c hc hl
    have hb := hl b (by simp)
    have := ih (inc c) (hI c hc) (fun x hx => hl x (by simp [hx]))
    simp only [runBlocks, ctrMealy, Outcome.ok_bind] at this ⊢
    rw [this]
    simp only [Outcome.ok_bind, List.length_cons, ctrBlocks, mapBlocks]
    rw [← hc, List.take_left, List.drop_left, hc, List.flatten_cons, xorB_append (by rw [hE c hc, hb])]

theorem ctr_batch {BS : Nat} {E inc : List Byte → List Byte} (hE : LenOk BS E) (hI : LenOk BS inc) (K : Nat) :
    BatchOk true BS (fun s => s.length = BS) (ctrMealy E inc) (ctrBatch E inc BS) K := by
  intro s m src o bl h0 hK hi hl hr hsafe hm
  rw [ctrBlocks_flat hE hI bl s hi hl]
  simp only [ctrBatch, Outcome.ok_bind, hr]
  rfl

theorem ctr_updOk {C : BCipher} {inc : List Byte → List Byte} (hP : 0 < C.PAR) (hE : LenOk C.BS C.E)
    (hI : LenOk C.BS inc) :
    BatchesOk true C.BS (fun s => s.length = C.BS) (ctrMealy C.E inc) (ctrImpl C inc).upd :=
  batches_ok hP (ctr_stepOk hE hI) (ctr_batch hE hI C.PAR)

theorem ctr_finOk {C : BCipher} {inc : List Byte → List Byte} :
    FinOk C.BS (fun s => s.length = C.BS) (ctrTail C.E inc) (ctrImpl C inc).fin := by
  intro s m r o hi hr hm
  simp only [ctrImpl, ctrTail, Outcome.ok_bind]
  by_cases h0 : r.length = 0
  · have : r = [] := List.length_eq_zero_iff.mp h0
    subst this
    rw [if_pos h0, if_pos h0]
    simp only [xorB, List.zipWith_nil_left, wrm_nil]
  · rw [if_neg h0, if_neg h0]
    simp only [ctrBlocks, mapBlocks, List.append_nil]
    rw [List.take_of_length_le (by omega)]
    rfl

/-! ### Counter increment -/

theorem carry_shift (t : W64) : (t >>> 32).toNat = t.toNat / 2 ^ 32 := by
  rw [BitVec.toNat_ushiftRight, Nat.shiftRight_eq_div_pow]

theorem incWord_spec (carry : W64) (w : List Byte) (hw : w.length = 4) (hc : carry.toNat ≤ 1) :
    (incWord carry w).1.length = 4 ∧
      beVal (incWord carry w).1 + 2 ^ 32 * ((incWord carry w).2 >>> 32).toNat = beVal w + carry.toNat ∧
      ((incWord carry w).2 >>> 32).toNat ≤ 1 := by
  match w, hw with
  | [b0, b1, b2, b3], _ =>
    simp only [incWord]
    have hl := memLoad_toNat b0 b1 b2 b3
    have hbw : beVal [b0, b1, b2, b3] < 256 ^ 4 := beVal_lt _
    have hst : ∀ a : W32, beVal (memStore32BE a) = a.toNat := by
      intro a
      have := u256ToBytes_spec [a]
      simpa [u256ToBytes] using this
    have ht : ((memLoad32BE b0 b1 b2 b3).setWidth 64 + carry).toNat = (memLoad32BE b0 b1 b2 b3).toNat + carry.toNat := by
      rw [BitVec.toNat_add, BitVec.toNat_setWidth]
      have := (memLoad32BE b0 b1 b2 b3).isLt
      omega
    refine ⟨rfl, ?_, ?_⟩
    · rw [hst, low32, carry_shift, ht]
      have e : (memLoad32BE b0 b1 b2 b3).toNat = beVal [b0, b1, b2, b3] := by
        rw [hl]; simp only [beVal, List.foldl_cons, List.foldl_nil]; omega
      rw [e]; omega
    · rw [carry_shift, ht]
      have := (memLoad32BE b0 b1 b2 b3).isLt
      omega

theorem inc_of_words {n : Nat} (a b : List Byte) (hb : b.length = n) (k : Nat)
    (h : beVal b + 256 ^ n * k = beVal a + 1) : b = toBE n ((beVal a + 1) % 256 ^ n) := by
  have hlt := beVal_lt b
  rw [hb] at hlt
  have hbe : toBE b.length (beVal b) = b := toBE_beVal b
  rw [← h, Nat.add_mul_mod_self_left, Nat.mod_eq_of_lt hlt, ← hb, hbe]

theorem ctrInc8_spec (a : List Byte) (ha : a.length = 8) : ctrInc8 a = toBE 8 ((beVal a + 1) % 256 ^ 8) := by
  obtain ⟨l1, e1, c1⟩ := incWord_spec 1 ((a.drop 4).take 4) (by simp [ha]) (by decide)
  generalize hw1 : incWord 1 ((a.drop 4).take 4) = r1 at l1 e1 c1
  obtain ⟨l0, e0, c0⟩ := incWord_spec (r1.2 >>> 32) (a.take 4) (by simp [ha]) c1
  generalize hw0 : incWord (r1.2 >>> 32) (a.take 4) = r0 at l0 e0 c0
  have hsplit : a = a.take 4 ++ (a.drop 4).take 4 := by
    conv_lhs => rw [← List.take_append_drop 4 a]
    rw [List.take_of_length_le (l := a.drop 4) (by simp [ha])]
  have hr : ctrInc8 a = r0.1 ++ r1.1 := by simp only [ctrInc8, hw1, hw0]
  rw [hr]
  apply inc_of_words a _ (by rw [List.length_append]; omega) ((r0.2 >>> 32).toNat)
  conv_rhs => rw [hsplit]
  rw [beVal_append, beVal_append, l1, show ((a.drop 4).take 4).length = 4 by simp [ha]]
  have : (1 : W64).toNat = 1 := rfl
  omega

theorem ctrInc16_spec (a : List Byte) (ha : a.length = 16) : ctrInc16 a = toBE 16 ((beVal a + 1) % 256 ^ 16) := by
  obtain ⟨l3, e3, c3⟩ := incWord_spec 1 ((a.drop 12).take 4) (by simp [ha]) (by decide)
  generalize hw3 : incWord 1 ((a.drop 12).take 4) = r3 at l3 e3 c3
  obtain ⟨l2, e2, c2⟩ := incWord_spec (r3.2 >>> 32) ((a.drop 8).take 4) (by simp [ha]) c3
  generalize hw2 : incWord (r3.2 >>> 32) ((a.drop 8).take 4) = r2 at l2 e2 c2
  obtain ⟨l1, e1, c1⟩ := incWord_spec (r2.2 >>> 32) ((a.drop 4).take 4) (by simp [ha]) c2
  generalize hw1 : incWord (r2.2 >>> 32) ((a.drop 4).take 4) = r1 at l1 e1 c1
  obtain ⟨l0, e0, c0⟩ := incWord_spec (r1.2 >>> 32) (a.take 4) (by simp [ha]) c1
  generalize hw0 : incWord (r1.2 >>> 32) (a.take 4) = r0 at l0 e0 c0
  have hsplit : a = a.take 4 ++ (a.drop 4).take 4 ++ (a.drop 8).take 4 ++ (a.drop 12).take 4 := by
    have h1 : a.take 4 ++ (a.drop 4).take 4 = a.take 8 := (List.take_add (l := a) (i := 4) (j := 4)).symm
    have h2 : a.take 8 ++ (a.drop 8).take 4 = a.take 12 := (List.take_add (l := a) (i := 8) (j := 4)).symm
    have h3 : a.take 12 ++ (a.drop 12).take 4 = a.take 16 := (List.take_add (l := a) (i := 12) (j := 4)).symm
    rw [h1, h2, h3, List.take_of_length_le (by omega)]
  have hr : ctrInc16 a = r0.1 ++ r1.1 ++ r2.1 ++ r3.1 := by simp only [ctrInc16, hw3, hw2, hw1, hw0]
  rw [hr]
  apply inc_of_words a _ (by simp only [List.length_append]; omega) ((r0.2 >>> 32).toNat)
  conv_rhs => rw [hsplit]
  simp only [beVal_append, l1, l2, l3, show ((a.drop 4).take 4).length = 4 by simp [ha],
    show ((a.drop 8).take 4).length = 4 by simp [ha], show ((a.drop 12).take 4).length = 4 by simp [ha]]
  have : (1 : W64).toNat = 1 := rfl
  omega

theorem ctrIncLoop_spec : ∀ (bs : List Byte) (t : BitVec 16), t.toNat ≤ 1 →
    (ctrIncLoop bs t).length = bs.length ∧
      ∃ k, beVal (ctrIncLoop bs t).reverse + 256 ^ bs.length * k = beVal bs.reverse + t.toNat
  | [], t, ht => ⟨rfl, t.toNat, by simp [ctrIncLoop]⟩
  | b :: bs, t, ht => by
    have hsum : (t + b.setWidth 16).toNat = t.toNat + b.toNat := by
      rw [BitVec.toNat_add, BitVec.toNat_setWidth]
      have := b.isLt; omega
    have hlow : (((t + b.setWidth 16) &&& 0xFF#16).setWidth 8).toNat = (t.toNat + b.toNat) % 256 := by
      rw [BitVec.toNat_setWidth, BitVec.toNat_and, hsum, show (0xFF#16).toNat = 2 ^ 8 - 1 from rfl,
        Nat.and_two_pow_sub_one_eq_mod]; omega
    have hhi : ((t + b.setWidth 16) >>> 8).toNat = (t.toNat + b.toNat) / 256 := by
      rw [BitVec.toNat_ushiftRight, Nat.shiftRight_eq_div_pow, hsum]
    obtain ⟨h1, k, h2⟩ := ctrIncLoop_spec bs ((t + b.setWidth 16) >>> 8) (by rw [hhi]; have := b.isLt; omega)
    refine ⟨by simp [ctrIncLoop, h1], k, ?_⟩
    simp only [ctrIncLoop, List.reverse_cons, beVal_snoc, hlow, List.length_cons, Nat.pow_succ]
    rw [hhi] at h2
    have : 256 ^ bs.length * 256 * k = 256 * (256 ^ bs.length * k) := by ring
    rw [this]
    omega

theorem ctrIncN_spec (a : List Byte) : ctrIncN a = toBE a.length ((beVal a + 1) % 256 ^ a.length) := by
  obtain ⟨h1, k, h2⟩ := ctrIncLoop_spec a.reverse 1 (by decide)
  rw [List.length_reverse] at h1 h2
  rw [List.reverse_reverse] at h2
  exact inc_of_words a _ (by rw [ctrIncN, List.length_reverse, h1]) k h2

theorem ctrInc_spec (BS : Nat) (a : List Byte) (ha : a.length = BS) :
    ctrInc BS a = toBE BS ((beVal a + 1) % 256 ^ BS) := by
  unfold ctrInc
  by_cases h16 : BS = 16
  · rw [if_pos h16]; subst h16; exact ctrInc16_spec a ha
  · rw [if_neg h16]
    by_cases h8 : BS = 8
    · rw [if_pos h8]; subst h8; exact ctrInc8_spec a ha
    · rw [if_neg h8]; subst ha; exact ctrIncN_spec a

theorem ctrInc_len (BS : Nat) : LenOk BS (ctrInc BS) := by
  intro x hx; rw [ctrInc_spec BS x hx, toBE_len]

theorem ctrBlock_zero {BS : Nat} {iv : List Byte} (h : iv.length = BS) : ctrBlock BS iv 0 = iv := by
  unfold ctrBlock
  have := beVal_lt iv
  rw [Nat.add_zero, ← h, Nat.mod_eq_of_lt this, toBE_beVal]

theorem ctrBlock_succ (BS : Nat) (iv : List Byte) (j : Nat) :
    ctrInc BS (ctrBlock BS iv j) = ctrBlock BS iv (j + 1) := by
  unfold ctrBlock
  rw [ctrInc_spec BS _ (toBE_len _ _)]
  rw [beVal_toBE, Nat.mod_mod, Nat.mod_add_mod, Nat.add_assoc]

theorem ctr_run (E : List Byte → List Byte) (BS : Nat) (iv : List Byte) (bl : List (List Byte)) (j : Nat) :
    runBlocks (ctrMealy E (ctrInc BS)) (ctrBlock BS iv j) bl =
        .ok (ctrBlock BS iv (j + bl.length), (ctr E BS iv j bl).flatten) ∧
      ∀ r, ctr E BS iv j (bl ++ [r]) = ctr E BS iv j bl ++ [xorB r (E (ctrBlock BS iv (j + bl.length)))] := by
  induction bl generalizing j with
  | nil => exact ⟨rfl, fun r => rfl⟩
  | cons b bs ih =>
    obtain ⟨h1, h2⟩ := ih (j + 1)
    have e : j + 1 + bs.length = j + (bs.length + 1) := by omega
    refine ⟨?_, ?_⟩
    · simp only [runBlocks, ctrMealy, Outcome.ok_bind, ctrBlock_succ] at h1 ⊢
      rw [h1]
      simp only [Outcome.ok_bind, ctr, List.flatten_cons, List.length_cons, e]
    · intro r; simp only [List.cons_append, ctr, h2, List.length_cons, e]

end Verif
