import Verif.Spec.ModeMem
import Verif.Proofs.ModeHist
/-! # Helper lemmas: programs over several mode objects -/
namespace Verif.ModeMem
open Verif Verif.HashMem Spec Spec.Modes

/-- The block-level description of a mode under one IV. -/
structure Pack (C : BCipher) (n : Name) (iv : List Byte) where
  Inv : List Byte → Prop
  step : Step (List Byte)
  fstep : Step (List Byte)
  hs : StepOk C.BS Inv step
  hu : BatchesOk (inplaceOk C n) C.BS Inv step (modeImpl C n).upd
  hfs : FStepOk C.BS Inv fstep
  hfin : FinOk C.BS Inv fstep (modeImpl C n).fin
  hi : Inv iv
  hrun : ∀ X : List Byte, ∃ s', runBlocks step iv (chop C.BS (X.length / C.BS) X) =
      .ok (s', (out C.E C.D C.BS iv n (blocks C.BS (whole C.BS X))).flatten) ∧
    (wholeBlocks n = true ∧ tail C.BS X ≠ [] → fstep s' (tail C.BS X) = .throw) ∧
    (¬ (wholeBlocks n = true ∧ tail C.BS X ≠ []) → ∃ s'' w, fstep s' (tail C.BS X) = .ok (s'', w) ∧
      (out C.E C.D C.BS iv n (blocks C.BS X)).flatten =
        (out C.E C.D C.BS iv n (blocks C.BS (whole C.BS X))).flatten ++ w)

theorem run_whole {BS : Nat} (hBS : 0 < BS) {step : Step (List Byte)} (E D : List Byte → List Byte) (n : Name)
    (hn : wholeBlocks n = true) (iv : List Byte)
    (hrun : ∀ bl, ∃ s', runBlocks step iv bl = .ok (s', (out E D BS iv n bl).flatten)) (X : List Byte) :
    ∃ s', runBlocks step iv (chop BS (X.length / BS) X) = .ok (s', (out E D BS iv n (blocks BS (whole BS X))).flatten) ∧
    (wholeBlocks n = true ∧ tail BS X ≠ [] → noPartial s' (tail BS X) = .throw) ∧
    (¬ (wholeBlocks n = true ∧ tail BS X ≠ []) → ∃ s'' w, noPartial s' (tail BS X) = .ok (s'', w) ∧
      (out E D BS iv n (blocks BS X)).flatten = (out E D BS iv n (blocks BS (whole BS X))).flatten ++ w) := by
  rw [whole_blocks hBS]
  obtain ⟨s', h⟩ := hrun (chop BS (X.length / BS) X)
  refine ⟨s', h, fun ⟨_, hz⟩ => ?_, fun hz => ?_⟩
  · unfold noPartial
    rw [if_neg (fun e => hz (List.length_eq_zero_iff.mp e))]
  · have hz : tail BS X = [] := by
      by_contra hc
      exact hz ⟨hn, hc⟩
    refine ⟨s', [], by rw [hz]; rfl, ?_⟩
    have hd : X.drop (X.length / BS * BS) = [] := hz
    rw [blocks_eq hBS, if_pos hd, List.append_nil, List.append_nil]

theorem run_any {BS : Nat} (hBS : 0 < BS) {step fstep : Step (List Byte)} (E D : List Byte → List Byte) (n : Name)
    (hn : wholeBlocks n = false) (iv : List Byte) (hf : ∀ s r, ∃ s', fstep s r = .ok (s', xorB r (E s)))
    (hrun : ∀ bl, ∃ s', runBlocks step iv bl = .ok (s', (out E D BS iv n bl).flatten) ∧
      ∀ r, out E D BS iv n (bl ++ [r]) = out E D BS iv n bl ++ [xorB r (E s')]) (X : List Byte) :
    ∃ s', runBlocks step iv (chop BS (X.length / BS) X) = .ok (s', (out E D BS iv n (blocks BS (whole BS X))).flatten) ∧
    (wholeBlocks n = true ∧ tail BS X ≠ [] → fstep s' (tail BS X) = .throw) ∧
    (¬ (wholeBlocks n = true ∧ tail BS X ≠ []) → ∃ s'' w, fstep s' (tail BS X) = .ok (s'', w) ∧
      (out E D BS iv n (blocks BS X)).flatten = (out E D BS iv n (blocks BS (whole BS X))).flatten ++ w) := by
  rw [whole_blocks hBS]
  obtain ⟨s', h, h2⟩ := hrun (chop BS (X.length / BS) X)
  refine ⟨s', h, fun ⟨h', _⟩ => by simp [hn] at h', fun _ => ?_⟩
  obtain ⟨s'', h3⟩ := hf s' (tail BS X)
  refine ⟨s'', _, h3, ?_⟩
  rw [blocks_eq hBS]
  by_cases hz : X.drop (X.length / BS * BS) = []
  · have hz' : tail BS X = [] := hz
    rw [if_pos hz, List.append_nil, hz']
    simp [xorB]
  · rw [if_neg hz, h2]
    simp only [List.flatten_append, List.flatten_cons, List.flatten_nil, List.append_nil]
    rfl

/-- Every mode has one. -/
noncomputable def pack {C : BCipher} (hC : CipherOk C) (n : Name) (iv : List Byte)
    (hiv : n = .ecbEnc ∨ n = .ecbDec ∨ iv.length = C.BS) : Pack C n iv := by
  have hE : LenOk C.BS C.E := hC.lenE
  have hD : LenOk C.BS C.D := hC.lenD
  cases n with
  | ecbEnc => exact ⟨_, _, _, ecb_stepOk hE, ecb_updOk hE, noPartial_fstep _ _, ecb_finOk, trivial,
      run_whole hC.bs C.E C.D .ecbEnc rfl iv (fun bl => ⟨iv, ecb_run _ _ _⟩)⟩
  | ecbDec => exact ⟨_, _, _, ecb_stepOk hD, ecb_updOk hD, noPartial_fstep _ _, ecb_finOk, trivial,
      run_whole hC.bs C.E C.D .ecbDec rfl iv (fun bl => ⟨iv, ecb_run _ _ _⟩)⟩
  | cbcEnc =>
    have hiv : iv.length = C.BS := by simpa using hiv
    exact ⟨_, _, _, cbcEnc_stepOk hE, cbcEnc_updOk hE, noPartial_fstep _ _, cbc_finOk, hiv,
      run_whole hC.bs C.E C.D .cbcEnc rfl iv (cbcEnc_run _ _)⟩
  | cbcDec =>
    have hiv : iv.length = C.BS := by simpa using hiv
    exact ⟨_, _, _, cbcDec_stepOk hD, cbcDec_updOk hC.bs hC.par hD (inplaceOk C .cbcDec) (by
        intro h; have := of_decide_eq_true h; simp at this; omega), noPartial_fstep _ _, cbc_finOk, hiv,
      run_whole hC.bs C.E C.D .cbcDec rfl iv (fun bl => ⟨_, cbcDec_run _ _ _⟩)⟩
  | cfbEnc =>
    have hiv : iv.length = C.BS := by simpa using hiv
    exact ⟨_, _, _, cfbEnc_stepOk hE, cfbEnc_updOk hE, xorTail_fstep hE, cfb_finOk, hiv,
      run_any hC.bs C.E C.D .cfbEnc rfl iv (fun s r => ⟨_, rfl⟩) (cfbEnc_run _ _)⟩
  | cfbDec =>
    have hiv : iv.length = C.BS := by simpa using hiv
    exact ⟨_, _, _, cfbDec_stepOk hE, cfbDec_updOk hC.par hE, xorTail_fstep hE, cfb_finOk, hiv,
      run_any hC.bs C.E C.D .cfbDec rfl iv (fun s r => ⟨_, rfl⟩) (fun bl => ⟨_, cfbDec_run _ _ _⟩)⟩
  | ofb =>
    have hiv : iv.length = C.BS := by simpa using hiv
    exact ⟨_, _, _, ofb_stepOk hE, ofb_updOk hE, xorTail_fstep hE, cfb_finOk, hiv,
      run_any hC.bs C.E C.D .ofb rfl iv (fun s r => ⟨_, rfl⟩) (ofb_run _ _)⟩
  | ctr =>
    have hiv : iv.length = C.BS := by simpa using hiv
    refine ⟨_, _, _, ctr_stepOk hE (ctrInc_len C.BS), ctr_updOk hC.par hE (ctrInc_len C.BS), ctrTail_fstep hE, ctr_finOk,
      hiv, run_any hC.bs C.E C.D .ctr rfl iv (fun s r => ⟨_, rfl⟩) ?_⟩
    intro bl
    have := ctr_run C.E C.BS iv bl 0
    rw [ctrBlock_zero hiv] at this
    exact ⟨_, this⟩

/-- An object inside a message: what it has been fed. -/
def Holds {C : BCipher} {n : Name} {iv : List Byte} (P : Pack C n iv) (X : List Byte) (h : ModeObj (List Byte)) : Prop :=
  ∃ w, feed C.BS P.step ⟨[], iv⟩ X = .ok (h, w)

theorem feed_all {C : BCipher} {n : Name} {iv : List Byte} (P : Pack C n iv) (X : List Byte) :
    ∃ s', feed C.BS P.step ⟨[], iv⟩ X =
        .ok (⟨tail C.BS X, s'⟩, (out C.E C.D C.BS iv n (blocks C.BS (whole C.BS X))).flatten) ∧
      (wholeBlocks n = true ∧ tail C.BS X ≠ [] → P.fstep s' (tail C.BS X) = .throw) ∧
      (¬ (wholeBlocks n = true ∧ tail C.BS X ≠ []) → ∃ s'' w, P.fstep s' (tail C.BS X) = .ok (s'', w) ∧
        (out C.E C.D C.BS iv n (blocks C.BS X)).flatten =
          (out C.E C.D C.BS iv n (blocks C.BS (whole C.BS X))).flatten ++ w) := by
  obtain ⟨s', h, h2⟩ := P.hrun X
  refine ⟨s', ?_, h2⟩
  unfold feed
  simp only [List.nil_append]
  rw [h]
  rfl

theorem holds_nil {C : BCipher} {n : Name} {iv : List Byte} (P : Pack C n iv) : Holds P [] ⟨[], iv⟩ := by
  refine ⟨[], ?_⟩
  unfold feed
  simp [chop, runBlocks, Outcome.ok_bind]

/-- One more piece of input. -/
theorem holds_feed {C : BCipher} (hBS : 0 < C.BS) {n : Name} {iv : List Byte} (P : Pack C n iv) {X : List Byte}
    {h : ModeObj (List Byte)} (hh : Holds P X h) (d : List Byte) :
    h.buf = tail C.BS X ∧ P.Inv h.st ∧ ∃ s',
      feed C.BS P.step h d = .ok (⟨tail C.BS (X ++ d), s'⟩,
        (out C.E C.D C.BS iv n (blocks C.BS (whole C.BS (X ++ d)))).flatten.drop (X.length / C.BS * C.BS)) ∧
      Holds P (X ++ d) ⟨tail C.BS (X ++ d), s'⟩ ∧
      P.Inv s' ∧
      (out C.E C.D C.BS iv n (blocks C.BS (whole C.BS (X ++ d)))).flatten.length = (X ++ d).length / C.BS * C.BS ∧
      (wholeBlocks n = true ∧ tail C.BS (X ++ d) ≠ [] → P.fstep s' (tail C.BS (X ++ d)) = .throw) ∧
      (¬ (wholeBlocks n = true ∧ tail C.BS (X ++ d) ≠ []) → ∃ s'' w, P.fstep s' (tail C.BS (X ++ d)) = .ok (s'', w) ∧
        (out C.E C.D C.BS iv n (blocks C.BS (X ++ d))).flatten =
          (out C.E C.D C.BS iv n (blocks C.BS (whole C.BS (X ++ d)))).flatten ++ w) := by
  obtain ⟨w0, h0⟩ := hh
  obtain ⟨s0, e0, -⟩ := feed_all P X
  rw [h0] at e0
  simp only [Outcome.ok.injEq, Prod.mk.injEq] at e0
  obtain ⟨eh, -⟩ := e0
  have k0 := feed_ok hBS P.hs (h := ⟨[], iv⟩) P.hi h0
  obtain ⟨s', e, t1, t2⟩ := feed_all P (X ++ d)
  have kk := feed_ok hBS P.hs (h := ⟨[], iv⟩) P.hi e
  refine ⟨by rw [eh], k0.1, s', ?_, ⟨_, e⟩, kk.1, by simpa using kk.2.2.1, t1, t2⟩
  have ea := e
  rw [feed_append hBS, h0] at ea
  simp only [Outcome.ok_bind] at ea
  cases hf : feed C.BS P.step h d with
  | throw => rw [hf] at ea; cases ea
  | ub => rw [hf] at ea; cases ea
  | ok r =>
    rw [hf] at ea
    simp only [Outcome.ok_bind, Outcome.ok.injEq, Prod.mk.injEq] at ea
    obtain ⟨r1, r2⟩ := r
    obtain ⟨ea1, ea2⟩ := ea
    simp only at ea1 ea2
    have l0 : w0.length = X.length / C.BS * C.BS := by simpa using k0.2.2.1
    rw [← ea2, ← l0, List.drop_left, ea1]

end Verif.ModeMem

namespace Verif.ModeMem
open Verif Verif.HashMem Spec Spec.Modes

theorem tail_len {b : Nat} (X : List Byte) : (tail b X).length + X.length / b * b = X.length := by
  unfold tail
  rw [List.length_drop]
  have := Nat.div_mul_le_self X.length b
  omega

theorem grow {b : Nat} (hb : 0 < b) (X : List Byte) (n : Nat) :
    (X.length + n) / b * b - X.length / b * b = ((tail b X).length + n) / b * b := by
  have h := tail_len (b := b) X
  have e : X.length + n = ((tail b X).length + n) + X.length / b * b := by omega
  rw [e, Nat.add_mul_div_right _ _ hb, Nat.add_mul]
  omega

/-- One `update` of an object inside a message. -/
theorem update_step {C : BCipher} (hC : CipherOk C) {n : Name} {iv : List Byte} (P : Pack C n iv) {X : List Byte}
    {h : ModeObj (List Byte)} (hh : Holds P X h) (m : Mem) (o i l : Nat) (hp : Placed (inplaceOk C n) C.BS (tail C.BS X).length m o i l) :
    ∃ s', modeUpdate C.BS (modeImpl C n) h m o i l 0 = .ok (⟨tail C.BS (X ++ rdm m i l), s'⟩,
        wrm m o ((out C.E C.D C.BS iv n (blocks C.BS (whole C.BS (X ++ rdm m i l)))).flatten.drop (X.length / C.BS * C.BS)),
        (X ++ rdm m i l).length / C.BS * C.BS - X.length / C.BS * C.BS) ∧
      Holds P (X ++ rdm m i l) ⟨tail C.BS (X ++ rdm m i l), s'⟩ ∧ P.Inv s' ∧
      (wholeBlocks n = true ∧ tail C.BS (X ++ rdm m i l) ≠ [] → P.fstep s' (tail C.BS (X ++ rdm m i l)) = .throw) ∧
      (¬ (wholeBlocks n = true ∧ tail C.BS (X ++ rdm m i l) ≠ []) →
        ∃ s'' w, P.fstep s' (tail C.BS (X ++ rdm m i l)) = .ok (s'', w) ∧
        (out C.E C.D C.BS iv n (blocks C.BS (X ++ rdm m i l))).flatten =
          (out C.E C.D C.BS iv n (blocks C.BS (whole C.BS (X ++ rdm m i l)))).flatten ++ w) ∧
      ((out C.E C.D C.BS iv n (blocks C.BS (whole C.BS (X ++ rdm m i l)))).flatten.drop (X.length / C.BS * C.BS)).length =
        (X ++ rdm m i l).length / C.BS * C.BS - X.length / C.BS * C.BS := by
  obtain ⟨hb, hi, s', hf, hh', hi', hl, t1, t2⟩ := holds_feed hC.bs P hh (rdm m i l)
  refine ⟨s', ?_, hh', hi', t1, t2, by rw [List.length_drop, hl]⟩
  have hlt : h.buf.length < C.BS := by rw [hb]; exact tail_lt hC.bs X
  rw [modeUpdate_eq (ip := inplaceOk C n) hC.bs P.hs P.hu h hi hlt m o i l 0 (by rw [hb]; exact hp), hf, Outcome.ok_bind]
  simp only [Outcome.ok.injEq, Prod.mk.injEq, true_and]
  have hg := grow hC.bs X l
  rw [List.length_drop, hl]
  split_ifs with hc
  · rw [List.length_append, rdm_len hp.1, hg, ← hb, Nat.div_eq_of_lt hc.2.2, Nat.zero_mul]
  · rfl

/-- One `do_final` of an object inside a message. -/
theorem final_step {C : BCipher} (hC : CipherOk C) {n : Name} {iv : List Byte} (P : Pack C n iv) {X : List Byte}
    {h : ModeObj (List Byte)} (hh : Holds P X h) (m : Mem) (o i l : Nat) (hp : Placed (inplaceOk C n) C.BS (tail C.BS X).length m o i l)
    (ho : o + ((tail C.BS X).length + l) ≤ m.length) :
    ∃ s', modeFinalExc C.BS (modeImpl C n) h m o i l 0 =
      .ok (⟨tail C.BS (X ++ rdm m i l), s'⟩,
        if wholeBlocks n = true ∧ tail C.BS (X ++ rdm m i l) ≠ [] then
          (wrm m o ((out C.E C.D C.BS iv n (blocks C.BS (whole C.BS (X ++ rdm m i l)))).flatten.drop (X.length / C.BS * C.BS)),
            (X ++ rdm m i l).length / C.BS * C.BS - X.length / C.BS * C.BS, true)
        else
          (wrm m o ((out C.E C.D C.BS iv n (blocks C.BS (X ++ rdm m i l))).flatten.drop (X.length / C.BS * C.BS)),
            (X ++ rdm m i l).length - X.length / C.BS * C.BS, false)) := by
  obtain ⟨s', hu, -, hi', t1, t2, hl⟩ := update_step hC P hh m o i l hp
  have hlt := tail_lt hC.bs (X ++ rdm m i l)
  have hk := tail_len (b := C.BS) (X ++ rdm m i l)
  have hk0 := tail_len (b := C.BS) X
  have hYl : (X ++ rdm m i l).length = X.length + l := by rw [List.length_append, rdm_len hp.1]
  have hmono : X.length / C.BS * C.BS ≤ (X ++ rdm m i l).length / C.BS * C.BS :=
    Nat.mul_le_mul_right _ (Nat.div_le_div_right (by omega))
  unfold modeFinalExc
  rw [hu]
  simp only [Outcome.ok_bind]
  generalize hY : X ++ rdm m i l = Y at *
  generalize hW : (out C.E C.D C.BS iv n (blocks C.BS (whole C.BS Y))).flatten = W at *
  rw [P.hfin s' _ (tail C.BS Y) _ hi' hlt (by rw [wrm_len (by omega)]; omega)]
  by_cases hc : wholeBlocks n = true ∧ tail C.BS Y ≠ []
  · rw [t1 hc, if_pos hc]
    exact ⟨s', rfl⟩
  · obtain ⟨s'', w, e, e2⟩ := t2 hc
    have hw := P.hfs _ _ _ _ hi' hlt e
    rw [e, if_neg hc, e2]
    simp only [Outcome.ok_bind, Outcome.ok.injEq, Prod.mk.injEq, and_true]
    refine ⟨s'', by rfl, ?_, by omega⟩
    have hWl : X.length / C.BS * C.BS ≤ W.length ∨ W.drop (X.length / C.BS * C.BS) = [] := by
      by_cases hle : X.length / C.BS * C.BS ≤ W.length
      · exact .inl hle
      · exact .inr (List.drop_eq_nil_of_le (by omega))
    have hlW : W.length = Y.length / C.BS * C.BS := by
      have := (holds_feed hC.bs P hh (rdm m i l)).2.2
      obtain ⟨_, _, _, _, q, _⟩ := this
      rw [hY, hW] at q
      exact q
    rw [List.drop_append_of_le_length (by omega), ← hl, wrm_wrm (by omega)]

end Verif.ModeMem

namespace Verif.ModeMem
open Verif Verif.HashMem Spec Spec.Modes

/-- What a class must be: blocks and batches are not empty, and a key of the right length preserves the block length. -/
structure ClsOk (c : Cls) : Prop where
  bs : 0 < c.BS
  par : 0 < c.PAR
  lenE : ∀ key, key.length = c.keyLen → ∀ x, x.length = c.BS → ((c.sched key).1 x).length = c.BS
  lenD : ∀ key, key.length = c.keyLen → ∀ x, x.length = c.BS → ((c.sched key).2 x).length = c.BS

/-- An object as the specification sees it. -/
def ObjInv (c : Cls) (a : KeyedMode) (key : Option ((List Byte → List Byte) × (List Byte → List Byte))) (ph : Phase) : Prop :=
  (∀ f, key = some f → a.E = f.1 ∧ a.D = f.2 ∧ CipherOk ⟨c.BS, c.PAR, f.1, f.2⟩) ∧
  match ph with
  | .clean => a.obj.buf = []
  | .ragged => True
  | .within iv X => a.obj.buf = tail c.BS X ∧
    ∀ f, key = some f → ∃ P : Pack ⟨c.BS, c.PAR, f.1, f.2⟩ c.name iv, Holds P X a.obj

structure WInv (c : Nat → Cls) (w : World) (s : MSpec) : Prop where
  mem : w.mem = s.mem
  log : w.log = s.log
  obj : ∀ k, ObjInv (c k) (w.obj k) (s.key k) (s.ph k)

theorem put_inv {c : Nat → Cls} {ob : Nat → KeyedMode} {key : Nat → Option ((List Byte → List Byte) × (List Byte → List Byte))}
    {ph : Nat → Phase} (h : ∀ k, ObjInv (c k) (ob k) (key k) (ph k)) (k : Nat) {a : KeyedMode} {f} {p : Phase}
    (hk : ObjInv (c k) a f p) :
    ∀ j, ObjInv (c j) (put ob k a j) (Function.update key k f j) (Function.update ph k p j) := by
  intro j
  unfold put
  split_ifs with e
  · subst e; rw [Function.update_self, Function.update_self]; exact hk
  · rw [Function.update_of_ne e, Function.update_of_ne e]; exact h j

theorem ivLen_eq (c : Cls) : ivLen c = ivOctets c := by
  unfold ivLen ivOctets
  cases c.name <;> simp [wholeBlocks]

theorem iv_ok {c : Cls} {m : Mem} {p : Nat} (h : p + ivOctets c ≤ m.length) :
    c.name = .ecbEnc ∨ c.name = .ecbDec ∨ (rdm m p (ivOctets c)).length = c.BS := by
  rw [rdm_len h]
  unfold ivOctets
  cases c.name <;> simp [wholeBlocks]

theorem call_ok {c : Nat → Cls} (hc : ∀ k, ClsOk (c k)) {w : World} {s s' : MSpec} (hi : WInv c w s) {x : Call}
    (h : s.call c x = some s') : ∃ w', call c w x = .ok w' ∧ WInv c w' s' := by
  obtain ⟨hm, hlg, ho⟩ := hi
  obtain ⟨wm, wo, wl⟩ := w
  simp only at hm hlg ho
  subst hm hlg
  cases x with
  | store p bs =>
    simp only [MSpec.call] at h
    split_ifs at h with hb
    simp only [Option.some.injEq] at h
    subst h
    exact ⟨_, by simp only [call]; rw [if_pos hb], rfl, rfl, ho⟩
  | init k q p =>
    simp only [MSpec.call] at h
    split_ifs at h with hb
    obtain ⟨h1, h2, h3⟩ := hb
    simp only [Option.some.injEq] at h
    subst h
    refine ⟨_, by simp only [call, HashMem.get, ivLen_eq]; rw [if_pos h1, Outcome.ok_bind, if_pos h2, Outcome.ok_bind], rfl, rfl, ?_⟩
    refine put_inv ho k ?_
    have hbuf : (wo k).obj.buf = [] := by
      have := (ho k).2
      cases hp : s.ph k with
      | clean => rw [hp] at this; exact this
      | ragged => rw [hp] at h3; exact absurd trivial h3
      | within iv X =>
        rw [hp] at this h3
        rw [this.1]
        by_contra hc
        exact h3 hc
    have hC : CipherOk ⟨(c k).BS, (c k).PAR, ((c k).sched (rdm s.mem q (c k).keyLen)).1,
        ((c k).sched (rdm s.mem q (c k).keyLen)).2⟩ :=
      ⟨(hc k).bs, (hc k).par, (hc k).lenE _ (rdm_len h1), (hc k).lenD _ (rdm_len h1)⟩
    refine ⟨fun f hf => ?_, ?_, fun f hf => ?_⟩
    · cases hf
      exact ⟨rfl, rfl, hC⟩
    · simp [KeyedMode.begin, modeInit, hbuf, tail]
    · cases hf
      refine ⟨pack hC _ _ (iv_ok h2), ?_⟩
      simp only [KeyedMode.begin, modeInit, hbuf]
      exact holds_nil _
  | reset k p =>
    simp only [MSpec.call] at h
    split_ifs at h with h2
    simp only [Option.some.injEq] at h
    subst h
    refine ⟨_, by simp only [call, HashMem.get, ivLen_eq]; rw [if_pos h2, Outcome.ok_bind], rfl, rfl, ?_⟩
    have := put_inv ho k (a := (wo k).begin (.reset (rdm s.mem p (ivOctets (c k))))) (f := s.key k)
      (p := .within (rdm s.mem p (ivOctets (c k))) []) ?_
    · rw [Function.update_eq_self] at this; exact this
    refine ⟨(ho k).1, by simp [KeyedMode.begin, modeReset, tail], fun f hf => ?_⟩
    exact ⟨pack ((ho k).1 f hf).2.2 _ _ (iv_ok h2), holds_nil _⟩
  | update k o i n =>
    simp only [MSpec.call] at h
    cases hk : s.key k with
    | none => simp [hk] at h
    | some f =>
      cases hp : s.ph k with
      | clean => simp [hk, hp] at h
      | ragged => simp [hk, hp] at h
      | within iv X =>
        simp only [hk, hp] at h
        split_ifs at h with hf
        simp only [Option.some.injEq] at h
        subst h
        obtain ⟨o1, o2⟩ := ho k
        rw [hp] at o2
        obtain ⟨-, o3⟩ := o2
        obtain ⟨P, hP⟩ := o3 f hk
        obtain ⟨eE, eD, hC⟩ := o1 f hk
        have hg := grow (hc k).bs X n
        obtain ⟨f1, f2, f3⟩ := hf
        rw [List.length_append, rdm_len f1, hg] at f2 f3
        have hpl : Placed (inplaceOk ⟨(c k).BS, (c k).PAR, f.1, f.2⟩ (c k).name) (c k).BS (tail (c k).BS X).length s.mem o i n :=
          ⟨f1, f2, f3.imp_right (Or.imp_right fun ⟨a, b⟩ => ⟨decide_eq_true a, b⟩)⟩
        obtain ⟨s1, e, hh, -⟩ := update_step hC P hP s.mem o i n hpl
        refine ⟨_, by simp only [call]; rw [eE, eD, e, Outcome.ok_bind], rfl, rfl, ?_⟩
        have := put_inv ho k (a := ⟨f.1, f.2, ⟨tail (c k).BS (X ++ rdm s.mem i n), s1⟩⟩) (f := s.key k)
          (p := .within iv (X ++ rdm s.mem i n)) ?_
        · rw [Function.update_eq_self] at this; exact this
        refine ⟨fun f' hf' => ?_, rfl, fun f' hf' => ?_⟩
        · rw [hk] at hf'; cases hf'; exact ⟨rfl, rfl, hC⟩
        · rw [hk] at hf'; cases hf'; exact ⟨P, hh⟩
  | final k o i n =>
    simp only [MSpec.call] at h
    cases hk : s.key k with
    | none => simp [hk] at h
    | some f =>
      cases hp : s.ph k with
      | clean => simp [hk, hp] at h
      | ragged => simp [hk, hp] at h
      | within iv X =>
        simp only [hk, hp] at h
        obtain ⟨o1, o2⟩ := ho k
        rw [hp] at o2
        obtain ⟨-, o3⟩ := o2
        obtain ⟨P, hP⟩ := o3 f hk
        obtain ⟨eE, eD, hC⟩ := o1 f hk
        by_cases hf : Fits (c k) s.mem o i n (tail (c k).BS X).length ((X ++ rdm s.mem i n).length - X.length / (c k).BS * (c k).BS)
        swap
        · rw [if_neg hf] at h; cases h
        rw [if_pos hf] at h
        obtain ⟨f1, f2, f3⟩ := hf
        have hk0 := tail_len (b := (c k).BS) X
        have hle := Nat.div_mul_le_self ((tail (c k).BS X).length + n) (c k).BS
        rw [List.length_append, rdm_len f1] at f2 f3
        have hpl : Placed (inplaceOk ⟨(c k).BS, (c k).PAR, f.1, f.2⟩ (c k).name) (c k).BS (tail (c k).BS X).length s.mem o i n := by
          refine ⟨f1, by omega, ?_⟩
          rcases f3 with f3 | f3 | f3
          · exact .inl f3
          · exact .inr (.inl (by omega))
          · exact .inr (.inr ⟨decide_eq_true f3.1, f3.2⟩)
        obtain ⟨s1, e⟩ := final_step hC P hP s.mem o i n hpl (by dsimp only; omega)
        have hput : ∀ p : Phase, (p = .clean → tail (c k).BS (X ++ rdm s.mem i n) = []) → (∀ iv X, p ≠ .within iv X) →
            ∀ j, ObjInv (c j) (put wo k ⟨f.1, f.2, ⟨tail (c k).BS (X ++ rdm s.mem i n), s1⟩⟩ j) (s.key j) (Function.update s.ph k p j) := by
          intro p hp1 hp2
          have := put_inv ho k (a := ⟨f.1, f.2, ⟨tail (c k).BS (X ++ rdm s.mem i n), s1⟩⟩) (f := s.key k) (p := p) ?_
          · rw [Function.update_eq_self] at this; exact this
          refine ⟨fun f' hf' => ?_, ?_⟩
          · rw [hk] at hf'; cases hf'; exact ⟨rfl, rfl, hC⟩
          · cases p with
            | clean => exact hp1 rfl
            | ragged => trivial
            | within a b => exact absurd rfl (hp2 a b)
        by_cases hr : wholeBlocks (c k).name = true ∧ tail (c k).BS (X ++ rdm s.mem i n) ≠ []
        · rw [if_pos hr] at h e
          simp only [Option.some.injEq] at h
          subst h
          exact ⟨_, by simp only [call]; rw [eE, eD, e, Outcome.ok_bind], rfl, rfl,
            hput _ (fun h => Phase.noConfusion h) (fun _ _ h => Phase.noConfusion h)⟩
        · rw [if_neg hr] at h e
          simp only [Option.some.injEq] at h
          subst h
          refine ⟨_, by simp only [call]; rw [eE, eD, e, Outcome.ok_bind], rfl, rfl, hput _ ?_ ?_⟩
          · split_ifs with hz
            · exact fun _ => hz
            · intro h; cases h
          · intro _ _; split_ifs <;> (intro h; cases h)

theorem run_ok {c : Nat → Cls} (hc : ∀ k, ClsOk (c k)) (xs : List Call) : ∀ {w : World} {s s' : MSpec}, WInv c w s →
    MSpec.run c xs s = some s' → ∃ w', run c xs w = .ok w' ∧ WInv c w' s' := by
  induction xs with
  | nil =>
    intro w s s' hi h
    simp only [MSpec.run, Option.some.injEq] at h
    subst h
    exact ⟨w, rfl, hi⟩
  | cons x xs ih =>
    intro w s s' hi h
    simp only [MSpec.run, Option.bind_eq_some_iff] at h
    obtain ⟨s1, h1, h2⟩ := h
    obtain ⟨w1, e1, i1⟩ := call_ok hc hi h1
    obtain ⟨w', e, i'⟩ := ih i1 h2
    exact ⟨w', by simp only [run]; rw [e1, Outcome.ok_bind, e], i'⟩

end Verif.ModeMem
