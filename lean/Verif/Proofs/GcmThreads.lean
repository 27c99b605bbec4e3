import Verif.Proofs.Gcm
import Verif.Proofs.Modes3
import Verif.Model.GcmThreads
/-! # Interleaved calls of `GcmDecryptor::final_block` -/
namespace Verif.GcmThr
open Verif Verif.Gcm Verif.Spec Verif.Spec.Modes Verif.Spec.Gcm Verif.Ghash

/-- A call in progress that no schedule can derail. -/
structure Inv (j : Job) : Prop where
  bs : j.C.BS = 16
  e : LenOk 16 j.C.E
  c0 : j.s.counter0.length = 16
  c : j.s.counter.length = 16
  inp : j.inp.length < 16
  room : j.o + j.inp.length ≤ j.m.length
  len : j.pc = .len → j.s.ctLen + j.inp.length < 2 ^ 64
  ne : j.pc = .pad ∨ j.pc = .gctr → j.inp.length ≠ 0
  hash : if j.pc = .pad then ∃ c, hashUpdate 16 Ghash.impl ⟨[], c⟩ j.inp = .ok j.s.hash else j.s.hash.buf = []
  fine : j.pc ≠ .threw ∧ j.pc ≠ .undef

/-- The caller's memory when the call is over. -/
def outMem (j : Job) : Mem :=
  if j.pc = .len ∨ j.pc = .pad ∨ j.pc = .gctr then wrm j.m j.o (xorB j.inp (j.C.E j.s.counter)) else j.m

theorem hash_eta {h : HashObj Ctx} (hb : h.buf = []) : h = ⟨[], h.st⟩ := by rw [← hb]

attribute [local irreducible] absorbB digest in
/-- Every step keeps the invariant, the future output, the length of `t`, the expected tag. -/
theorem step_inv {sh : Shared} {j : Job} (hs : sh.t.length = 16) (h : Inv j) :
    Inv (step sh j).2 ∧ outMem (step sh j).2 = outMem j ∧ (step sh j).1.t.length = 16 ∧ (step sh j).2.s.tag = j.s.tag := by
  obtain ⟨C, s, m, inp, o, pc⟩ := j
  obtain ⟨bs, e, c0, c, hi, room, hl, ne, hh, fine⟩ := h
  dsimp only at *
  cases pc with
  | len =>
    have hb := hash_eta (show s.hash.buf = [] by simpa using hh)
    by_cases h0 : inp.length = 0
    · have : inp = [] := List.length_eq_zero_iff.mp h0
      subst this
      unfold step
      simp only [if_pos h0]
      refine ⟨⟨bs, e, c0, c, hi, room, by simp, by simp, ?_, by simp⟩, ?_, hs, trivial⟩
      · simpa using hh
      · unfold outMem; simp [xorB, wrm_nil]
    · unfold step
      simp only [if_neg h0]
      rw [if_neg (by have := hl rfl; omega)]
      obtain ⟨x, hx⟩ : ∃ x, hashUpdate 16 Ghash.impl s.hash inp = .ok x := by
        rw [hb]
        have := hash_pad inp (List.replicate ((16 - inp.length % 16) % 16) 0) (List.length_replicate ..) s.hash.st
        cases hu : hashUpdate 16 Ghash.impl ⟨[], s.hash.st⟩ inp with
        | ok x => exact ⟨x, rfl⟩
        | throw => rw [hu] at this; cases this
        | ub => rw [hu] at this; cases this
      rw [hx]
      refine ⟨⟨bs, e, c0, c, hi, room, fun h => (by cases h), fun _ => h0, ?_, by simp [cont]⟩, ?_, hs, rfl⟩
      · simp only [cont, if_true]
        exact ⟨s.hash.st, by rw [← hb]; exact hx⟩
      · unfold outMem; simp [cont]
  | pad =>
    simp only [if_true] at hh
    obtain ⟨d, hd⟩ := hh
    have hp := hash_pad inp (sh.t.take ((16 - inp.length % 16) % 16)) (by rw [List.length_take, hs]; omega) d
    rw [hd, Outcome.ok_bind] at hp
    unfold step
    simp only
    rw [hp]
    refine ⟨⟨bs, e, c0, c, hi, room, fun h => (by cases h), fun _ => ne (Or.inl rfl), ?_, by simp [cont]⟩, ?_, hs, rfl⟩
    · simp [cont]
    · unfold outMem; simp [cont]
  | gctr =>
    have h0 := ne (Or.inr rfl)
    unfold step
    simp only
    rw [gctr_fin bs _ c m inp o hi room h0]
    have hw : (xorB inp (C.E s.counter)).length = inp.length := by
      have := e _ c
      rw [xorB_len (by omega)]
    refine ⟨⟨bs, e, c0, inc32_len _ c, hi, ?_, fun h => (by cases h), fun h => (by rcases h with h | h <;> cases h), ?_, by simp [cont]⟩, ?_, hs, rfl⟩
    · simp only [cont]
      rw [wrm_len (by rw [hw]; exact room)]
      exact room
    · simpa [cont] using hh
    · unfold outMem; simp [cont]
  | storeLo =>
    refine ⟨⟨bs, e, c0, c, hi, room, by simp [step], by simp [step], by simpa [step] using hh, by simp [step]⟩, ?_, ?_, rfl⟩
    · unfold outMem; simp [step]
    · simp only [step, List.length_append, List.length_drop, hs]; rfl
  | storeHi =>
    refine ⟨⟨bs, e, c0, c, hi, room, by simp [step], by simp [step], by simpa [step] using hh, by simp [step]⟩, ?_, ?_, rfl⟩
    · unfold outMem; simp [step]
    · simp only [step, List.length_append, List.length_take, hs]; rfl
  | hashT =>
    have hb := hash_eta (show s.hash.buf = [] by simpa using hh)
    unfold step
    simp only
    rw [hb, hash_whole _ (by rw [hs])]
    refine ⟨⟨bs, e, c0, c, hi, room, by simp [cont], by simp [cont], by simp [cont], by simp [cont]⟩, ?_, hs, rfl⟩
    unfold outMem; simp [cont]
  | digest =>
    have hb := hash_eta (show s.hash.buf = [] by simpa using hh)
    unfold step
    simp only
    rw [hb, hash_final]
    refine ⟨⟨bs, e, c0, c, hi, room, by simp [cont], by simp [cont], by simp [cont], by simp [cont]⟩, ?_, hs, rfl⟩
    unfold outMem; simp [cont]
  | encT =>
    refine ⟨⟨bs, e, c0, c, hi, room, by simp [step], by simp [step], by simpa [step] using hh, by simp [step]⟩, ?_, ?_, rfl⟩
    · unfold outMem; simp [step]
    · exact e _ c0
  | xorTag =>
    refine ⟨⟨bs, e, c0, c, hi, room, by simp [step], by simp [step], by simpa [step] using hh, by simp [step]⟩, ?_, hs, rfl⟩
    unfold outMem; simp [step]
  | cmp =>
    have hpc : ∀ p : Pc, (step sh ⟨C, s, m, inp, o, .cmp⟩).2.pc = p → p = .accepted ∨ p = .rejected := by
      intro p hp
      rw [← hp]
      unfold step
      simp only
      split
      · exact Or.inl rfl
      · exact Or.inr rfl
    have hh' : s.hash.buf = [] := by simpa using hh
    refine ⟨⟨bs, e, c0, c, hi, room, ?_, ?_, ?_, ?_, ?_⟩, ?_, hs, rfl⟩
    · intro h; have := hpc _ h; simp at this
    · rintro (h | h) <;> (have := hpc _ h; simp at this)
    · rw [if_neg (fun h => by have := hpc _ h; simp at this)]
      exact hh'
    · intro h; have := hpc _ h; simp at this
    · intro h; have := hpc _ h; simp at this
    · unfold outMem
      rw [if_neg (by rintro (h | h | h) <;> (have := hpc _ h; simp at this)), if_neg (by simp)]
      rfl
  | accepted => exact ⟨⟨bs, e, c0, c, hi, room, hl, ne, hh, fine⟩, rfl, hs, rfl⟩
  | rejected => exact ⟨⟨bs, e, c0, c, hi, room, hl, ne, hh, fine⟩, rfl, hs, rfl⟩
  | threw => exact absurd rfl fine.1
  | undef => exact absurd rfl fine.2

/-- The statements still to be executed. -/
def left : Pc → Nat
  | .len => 10 | .pad => 9 | .gctr => 8 | .storeLo => 7 | .storeHi => 6 | .hashT => 5 | .digest => 4 | .encT => 3
  | .xorTag => 2 | .cmp => 1 | _ => 0

theorem step_left (sh : Shared) (j : Job) : left (step sh j).2.pc ≤ left j.pc - 1 := by
  obtain ⟨C, s, m, inp, o, pc⟩ := j
  have hc : ∀ {α : Type} (r : Outcome α) (sh : Shared) (j : Job) (k : α → Shared × Job) (n : Nat),
      (∀ a, left (k a).2.pc ≤ n) → left (cont r sh j k).2.pc ≤ n := by
    intro α r sh j k n h
    cases r with
    | ok a => exact h a
    | throw => exact Nat.zero_le _
    | ub => exact Nat.zero_le _
  cases pc <;> unfold step <;> dsimp only
  · split
    · exact Nat.le_of_ble_eq_true rfl
    · split
      · exact Nat.zero_le _
      · exact hc _ _ _ _ _ fun _ => Nat.le_refl _
  · exact hc _ _ _ _ _ fun _ => Nat.le_refl _
  · exact hc _ _ _ _ _ fun _ => Nat.le_refl _
  · exact Nat.le_refl _
  · exact Nat.le_refl _
  · exact hc _ _ _ _ _ fun _ => Nat.le_refl _
  · exact hc _ _ _ _ _ fun _ => Nat.le_refl _
  · exact Nat.le_refl _
  · exact Nat.le_refl _
  · split <;> exact Nat.le_refl _
  all_goals exact Nat.le_refl _

theorem left_zero {pc : Pc} (h : left pc = 0) (f : pc ≠ .threw ∧ pc ≠ .undef) : pc = .accepted ∨ pc = .rejected := by
  cases pc <;> simp [left] at * 

/-! ## The process -/

theorem run_append (p : Proc) (a b : List Nat) : p.run (a ++ b) = (p.run a).run b := by
  unfold Proc.run
  rw [List.foldl_append]

theorem run_cons (p : Proc) (k : Nat) (b : List Nat) : p.run (k :: b) = (p.step k).run b := rfl

/-- All calls are well-formed. -/
def PInv (p : Proc) : Prop := p.sh.t.length = 16 ∧ ∀ k, Inv (p.jobs k)

theorem pstep_inv {p : Proc} (h : PInv p) (k : Nat) : PInv (p.step k) ∧ ∀ i, outMem ((p.step k).jobs i) = outMem (p.jobs i) ∧
    ((p.step k).jobs i).s.tag = (p.jobs i).s.tag := by
  obtain ⟨a, b, c, d⟩ := step_inv h.1 (h.2 k)
  have hj : ∀ i, (p.step k).jobs i = if i = k then (step p.sh (p.jobs k)).2 else p.jobs i := fun i => rfl
  refine ⟨⟨c, fun i => ?_⟩, fun i => ?_⟩
  · rw [hj]
    split
    · exact a
    · exact h.2 i
  · rw [hj]
    split
    · rename_i e
      subst e
      exact ⟨b, d⟩
    · exact ⟨rfl, rfl⟩

theorem run_inv (sched : List Nat) : ∀ {p : Proc}, PInv p → PInv (p.run sched) ∧
    ∀ i, outMem ((p.run sched).jobs i) = outMem (p.jobs i) ∧ ((p.run sched).jobs i).s.tag = (p.jobs i).s.tag := by
  induction sched with
  | nil => intro p h; exact ⟨h, fun i => ⟨rfl, rfl⟩⟩
  | cons k ks ih =>
    intro p h
    obtain ⟨a, b⟩ := pstep_inv h k
    obtain ⟨c, d⟩ := ih a
    rw [run_cons]
    exact ⟨c, fun i => ⟨(d i).1.trans (b i).1, (d i).2.trans (b i).2⟩⟩

theorem run_left (sched : List Nat) : ∀ (p : Proc) (k : Nat),
    left ((p.run sched).jobs k).pc ≤ left (p.jobs k).pc - sched.count k := by
  induction sched with
  | nil => intro p k; exact Nat.le_refl _
  | cons i is ih =>
    intro p k
    rw [run_cons]
    refine (ih _ _).trans ?_
    have hj : (p.step i).jobs k = if k = i then (step p.sh (p.jobs i)).2 else p.jobs k := rfl
    rw [hj, List.count_cons]
    by_cases h : k = i
    · subst h
      have := step_left p.sh (p.jobs k)
      simp only [if_true, beq_self_eq_true]
      omega
    · rw [if_neg h, if_neg (by simpa using fun e => h e.symm)]
      omega

theorem run_other (sched : List Nat) : ∀ (p : Proc) (k : Nat), k ∉ sched → (p.run sched).jobs k = p.jobs k := by
  induction sched with
  | nil => intro p k _; rfl
  | cons i is ih =>
    intro p k h
    rw [run_cons, ih _ _ (fun h' => h (List.mem_cons_of_mem _ h'))]
    show (if k = i then _ else p.jobs k) = _
    rw [if_neg (fun e => h (by rw [e]; exact List.mem_cons_self))]

/-- Finished calls stay as they are. -/
theorem run_done (sched : List Nat) : ∀ (p : Proc) (k : Nat), left (p.jobs k).pc = 0 → (p.run sched).jobs k = p.jobs k := by
  have hd : ∀ (sh : Shared) (j : Job), left j.pc = 0 → step sh j = (sh, j) := by
    intro sh ⟨C, s, m, inp, o, pc⟩ h
    cases pc <;> first | rfl | (simp [left] at h)
  induction sched with
  | nil => intro p k _; rfl
  | cons i is ih =>
    intro p k h
    have hj : (p.step i).jobs k = p.jobs k := by
      show (if k = i then (step p.sh (p.jobs i)).2 else p.jobs k) = _
      split
      · rename_i e
        subst e
        rw [hd _ _ h]
      · rfl
    rw [run_cons, ih _ _ (by rw [hj]; exact h), hj]

/-- One call on its own. -/
def stepN : Nat → Shared × Job → Shared × Job
  | 0, x => x
  | n + 1, x => stepN n (step x.1 x.2)

theorem run_replicate (n : Nat) : ∀ (p : Proc) (k : Nat),
    (p.run (List.replicate n k)).sh = (stepN n (p.sh, p.jobs k)).1 ∧
    (p.run (List.replicate n k)).jobs k = (stepN n (p.sh, p.jobs k)).2 := by
  induction n with
  | zero => intro p k; exact ⟨rfl, rfl⟩
  | succ n ih =>
    intro p k
    rw [List.replicate_succ, run_cons]
    obtain ⟨a, b⟩ := ih (p.step k) k
    have hj : (p.step k).jobs k = (step p.sh (p.jobs k)).2 := by
      show (if k = k then _ else _) = _
      rw [if_pos rfl]
    rw [a, b, hj]
    exact ⟨rfl, rfl⟩

/-- The tag a call computes when `t` holds `pad` at line 328. -/
def tagOf (j : Job) (pad : List Byte) : List Byte :=
  xorB (Ghash.digest (absorbB ((blocks 16 (j.inp ++ pad.take ((16 - j.inp.length % 16) % 16))).foldl absorbB j.s.hash.st)
    (lenBlock (j.s.aadLen * 8) ((j.s.ctLen + j.inp.length) * 8)))) (j.C.E j.s.counter0)

/-- The statements of a call before the comparison. -/
def body (j : Job) : Nat := if j.inp.length = 0 then 7 else 9

theorem store_t (t : List Byte) (a b : Nat) :
    (Sm3.memStore64BE (BitVec.ofNat 64 a) ++ t.drop 8).take 8 ++ Sm3.memStore64BE (BitVec.ofNat 64 b) = lenBlock a b := by
  rw [List.take_left' (show (Sm3.memStore64BE (BitVec.ofNat 64 a)).length = 8 from rfl)]
  rfl

attribute [local irreducible] absorbB Ghash.digest lenBlock Sm3.memStore64BE in
theorem tail_run {sh : Shared} {C : BCipher} {s : St} {m : Mem} {inp : List Byte} {o : Nat} (c : Ctx)
    (hb : s.hash = ⟨[], c⟩) :
    ∃ s', stepN 6 (sh, ⟨C, s, m, inp, o, .storeLo⟩) =
      (⟨C.E s.counter0, xorB (Ghash.digest (absorbB c (lenBlock (s.aadLen * 8) (s.ctLen * 8)))) (C.E s.counter0)⟩,
        ⟨C, s', m, inp, o, .cmp⟩) ∧ s'.tag = s.tag := by
  have e1 : stepN 6 (sh, ⟨C, s, m, inp, o, .storeLo⟩) =
      stepN 4 (⟨lenBlock (s.aadLen * 8) (s.ctLen * 8), sh.tag⟩, ⟨C, s, m, inp, o, .hashT⟩) := by
    rw [← store_t sh.t]
    rfl
  have e2 : stepN 4 (⟨lenBlock (s.aadLen * 8) (s.ctLen * 8), sh.tag⟩, (⟨C, s, m, inp, o, .hashT⟩ : Job)) =
      stepN 3 (⟨lenBlock (s.aadLen * 8) (s.ctLen * 8), sh.tag⟩,
        ⟨C, { s with hash := ⟨[], absorbB c (lenBlock (s.aadLen * 8) (s.ctLen * 8))⟩ }, m, inp, o, .digest⟩) := by
    have h : hashUpdate 16 Ghash.impl s.hash (lenBlock (s.aadLen * 8) (s.ctLen * 8)) =
        .ok ⟨[], absorbB c (lenBlock (s.aadLen * 8) (s.ctLen * 8))⟩ := by
      rw [hb, hash_whole _ (by rw [lenBlock_len]), blocks_len16 _ (lenBlock_len _ _)]
      rfl
    show stepN 3 (step _ _) = _
    unfold step
    dsimp only
    rw [h]
    rfl
  rw [e1, e2]
  refine ⟨{ s with hash := (⟨[], absorbB c (lenBlock (s.aadLen * 8) (s.ctLen * 8))⟩ : HashObj Ctx) }, ?_, rfl⟩
  have e3 : stepN 3 (⟨lenBlock (s.aadLen * 8) (s.ctLen * 8), sh.tag⟩,
      (⟨C, { s with hash := ⟨[], absorbB c (lenBlock (s.aadLen * 8) (s.ctLen * 8))⟩ }, m, inp, o, .digest⟩ : Job)) =
      stepN 2 (⟨lenBlock (s.aadLen * 8) (s.ctLen * 8), Ghash.digest (absorbB c (lenBlock (s.aadLen * 8) (s.ctLen * 8)))⟩,
        ⟨C, { s with hash := ⟨[], absorbB c (lenBlock (s.aadLen * 8) (s.ctLen * 8))⟩ }, m, inp, o, .encT⟩) := by
    show stepN 2 (step _ _) = _
    unfold step
    dsimp only
    rw [hash_final]
    rfl
  rw [e3]
  rfl

attribute [local irreducible] absorbB Ghash.digest lenBlock Sm3.memStore64BE in
/-- A call that is not interrupted, up to the comparison. -/
theorem body_run {sh : Shared} {j : Job} (hs : sh.t.length = 16) (h : Inv j) (hp : j.pc = .len) :
    ∃ j', stepN (body j) (sh, j) = (⟨j.C.E j.s.counter0, tagOf j sh.t⟩, j') ∧ j'.pc = .cmp ∧ j'.s.tag = j.s.tag := by
  obtain ⟨C, s, m, inp, o, pc⟩ := j
  dsimp only at hp
  subst hp
  obtain ⟨bs, e, c0, c, hi, room, hl, ne, hh, fine⟩ := h
  dsimp only at *
  have hb := hash_eta (show s.hash.buf = [] by simpa using hh)
  unfold body tagOf
  dsimp only
  by_cases h0 : inp.length = 0
  · have : inp = [] := List.length_eq_zero_iff.mp h0
    subst this
    rw [if_pos h0]
    have e1 : stepN 7 (sh, (⟨C, s, m, [], o, .len⟩ : Job)) = stepN 6 (sh, ⟨C, s, m, [], o, .storeLo⟩) := rfl
    obtain ⟨s', t1, t2⟩ := tail_run (sh := sh) (C := C) (m := m) (inp := []) (o := o) s.hash.st hb
    rw [e1, t1]
    have e2 : blocks 16 (([] : List Byte) ++ sh.t.take ((16 - ([] : List Byte).length % 16) % 16)) = [] := by
      simp only [List.length_nil]
      rw [show (16 - 0 % 16) % 16 = 0 from rfl, List.take_zero]
      unfold blocks; simp
    rw [e2]
    exact ⟨_, rfl, rfl, t2⟩
  · rw [if_neg h0]
    have hpad := hash_pad inp (sh.t.take ((16 - inp.length % 16) % 16)) (by rw [List.length_take, hs]; omega) s.hash.st
    rw [← hb] at hpad
    have e3 : stepN 9 (sh, (⟨C, s, m, inp, o, .len⟩ : Job)) = stepN 6 (sh, ⟨C, { s with
        ctLen := s.ctLen + inp.length, counter := inc32 s.counter,
        hash := ⟨[], (blocks 16 (inp ++ sh.t.take ((16 - inp.length % 16) % 16))).foldl absorbB s.hash.st⟩ },
        wrm m o (xorB inp (C.E s.counter)), inp, o, .storeLo⟩) := by
      cases hu : hashUpdate 16 Ghash.impl s.hash inp with
      | throw => rw [hu] at hpad; cases hpad
      | ub => rw [hu] at hpad; cases hpad
      | ok x =>
        rw [hu, Outcome.ok_bind] at hpad
        have s1 : step sh (⟨C, s, m, inp, o, .len⟩ : Job) =
            (sh, ⟨C, { s with ctLen := s.ctLen + inp.length, hash := x }, m, inp, o, .pad⟩) := by
          unfold step
          dsimp only
          rw [if_neg h0, if_neg (by have := hl rfl; omega), hu]
          rfl
        have s2 : step sh (⟨C, { s with ctLen := s.ctLen + inp.length, hash := x }, m, inp, o, .pad⟩ : Job) =
            (sh, ⟨C, { s with ctLen := s.ctLen + inp.length, hash := ⟨[], (blocks 16 (inp ++ sh.t.take ((16 - inp.length % 16) % 16))).foldl absorbB s.hash.st⟩ },
              m, inp, o, .gctr⟩) := by
          unfold step
          dsimp only
          rw [hpad]
          rfl
        have s3 : ∀ h' : HashObj Ctx, step sh (⟨C, { s with ctLen := s.ctLen + inp.length, hash := h' }, m, inp, o, .gctr⟩ : Job) =
            (sh, ⟨C, { s with ctLen := s.ctLen + inp.length, counter := inc32 s.counter, hash := h' },
              wrm m o (xorB inp (C.E s.counter)), inp, o, .storeLo⟩) := by
          intro h'
          unfold step
          dsimp only
          rw [gctr_fin bs _ c m inp o hi room h0]
          rfl
        show stepN 8 (step sh _) = _
        rw [s1]
        show stepN 7 (step sh _) = _
        rw [s2]
        show stepN 6 (step sh _) = _
        rw [s3]
    obtain ⟨s', t1, t2⟩ := tail_run (sh := sh) (C := C) (m := wrm m o (xorB inp (C.E s.counter))) (inp := inp) (o := o)
      (s := { s with
        ctLen := s.ctLen + inp.length
        counter := inc32 s.counter
        hash := ⟨[], (blocks 16 (inp ++ sh.t.take ((16 - inp.length % 16) % 16))).foldl absorbB s.hash.st⟩ }) _ rfl
    rw [e3, t1]
    exact ⟨_, rfl, rfl, t2⟩

theorem stepN_add (a : Nat) : ∀ (b : Nat) (x : Shared × Job), stepN (a + b) x = stepN b (stepN a x) := by
  induction a with
  | zero => intro b x; rw [Nat.zero_add]; rfl
  | succ a ih => intro b x; rw [Nat.succ_add]; exact ih b _

/-- A call that is not interrupted. -/
theorem alone_run {sh : Shared} {j : Job} (hs : sh.t.length = 16) (h : Inv j) (hp : j.pc = .len) (n : Nat) :
    (stepN (body j + 1 + n) (sh, j)).1 = ⟨j.C.E j.s.counter0, tagOf j sh.t⟩ ∧
    (stepN (body j + 1 + n) (sh, j)).2.pc = if tagOf j sh.t = j.s.tag then .accepted else .rejected := by
  obtain ⟨j', b1, b2, b3⟩ := body_run hs h hp
  rw [stepN_add, stepN_add, b1]
  obtain ⟨C, s, m, inp, o, pc⟩ := j'
  dsimp only at b2 b3
  subst b2
  have e1 : stepN 1 (⟨j.C.E j.s.counter0, tagOf j sh.t⟩, (⟨C, s, m, inp, o, .cmp⟩ : Job)) =
      (⟨j.C.E j.s.counter0, tagOf j sh.t⟩, ⟨C, s, m, inp, o, if tagOf j sh.t = s.tag then .accepted else .rejected⟩) := rfl
  rw [e1, b3]
  have fin : ∀ (n : Nat) (sh : Shared) (j : Job), j.pc = .accepted ∨ j.pc = .rejected → stepN n (sh, j) = (sh, j) := by
    intro n
    induction n with
    | zero => intros; rfl
    | succ n ih =>
      intro sh ⟨C, s, m, inp, o, pc⟩ h
      have : step sh ⟨C, s, m, inp, o, pc⟩ = (sh, ⟨C, s, m, inp, o, pc⟩) := by
        rcases h with h | h <;> (dsimp only at h; subst h; rfl)
      show stepN n (step _ _) = _
      rw [this]
      exact ih _ _ h
  rw [fin n _ _ (by dsimp only; split; exacts [Or.inl rfl, Or.inr rfl])]
  exact ⟨rfl, rfl⟩

/-! ## From `init` to `final_block` -/

theorem updates_eq {ip : Bool} (hip : true = ip) {C : BCipher} (hBS : C.BS = 16) (hP : 0 < C.PAR) (hE : LenOk 16 C.E) :
    ∀ (ns : List Nat) (h : ModeObj St) (m : Mem) (o i : Nat), DecInv h.st → h.buf.length < 16 →
      StreamPlaced ip h.buf.length m o i ns 0 →
      updates C h m o i ns = (feed 16 (decStep C.E) h (rdm m i ns.sum) >>= fun r =>
        .ok ⟨C, r.1.st, wrm m o r.2, r.1.buf, o + r.2.length, .len⟩) := by
  intro ns
  induction ns with
  | nil =>
    intro h m o i hi hb hp
    have : rdm m i ([] : List Nat).sum = [] := by unfold rdm; simp
    rw [this]
    unfold feed updates
    simp only [List.append_nil, Nat.div_eq_of_lt hb, chop, runBlocks, Outcome.ok_bind, wrm_nil, Nat.zero_mul, List.drop_zero,
      List.length_nil, Nat.add_zero]
  | cons n ns ih =>
    intro h m o i hi hb ⟨p1, p2, p3⟩
    simp only [List.sum_cons, Nat.add_zero] at p1 p2 p3 ⊢
    have hle : (h.buf.length + n) / 16 * 16 ≤ h.buf.length + n := Nat.div_mul_le_self _ _
    have hX : rdm m i (n + ns.sum) = rdm m i n ++ rdm m (i + n) ns.sum := rdm_append ..
    rw [hX, feed_append (by decide)]
    show (modeUpdate 16 (decImpl C) h m o i n 0 >>= _) = _
    rw [modeUpdate_eq (ip := ip) (by decide) (decStep_ok hE) (hip ▸ decUpd_ok hBS hP hE) h hi hb m o i n 0 ⟨by omega, by omega, by
      rcases p3 with p | p | p
      · left; omega
      · right; left; omega
      · right; right; exact p⟩]
    simp only [bind_assoc, Outcome.ok_bind]
    cases h1 : feed 16 (decStep C.E) h (rdm m i n) with
    | throw => rfl
    | ub => rfl
    | ok r =>
      obtain ⟨h', w⟩ := r
      obtain ⟨hi', hb', hw, hbl⟩ := feed_ok (by decide) (decStep_ok hE) hi h1
      rw [rdm_len (by omega)] at hw hbl
      have hdm := Nat.div_add_mod (h.buf.length + n) 16
      rw [Nat.mul_comm] at hdm
      simp only [Outcome.ok_bind]
      have houtl : (if n ≠ 0 ∧ h.buf ≠ [] ∧ h.buf.length + n < 16 then 0 else w.length) = w.length := by
        split_ifs with hc
        · rw [hw, Nat.div_eq_of_lt hc.2.2, Nat.zero_mul]
        · rfl
      rw [houtl]
      have hwl : (wrm m o w).length = m.length := wrm_len (by omega)
      rw [ih h' (wrm m o w) (o + w.length) (i + n) hi' hb' (by
        refine ⟨by rw [hwl]; omega, by rw [hwl]; omega, ?_⟩
        rcases p3 with p | p | p
        · left; omega
        · right; left; omega
        · right; right; exact ⟨p.1, by omega⟩)]
      have hrd : rdm (wrm m o w) (i + n) ns.sum = rdm m (i + n) ns.sum := by
        apply rdm_wrm_disj (by omega)
        rcases p3 with p | p | p
        · omega
        · omega
        · omega
      rw [hrd]
      cases h2 : feed 16 (decStep C.E) h' (rdm m (i + n) ns.sum) with
      | throw => rfl
      | ub => rfl
      | ok r =>
        obtain ⟨h'', w'⟩ := r
        obtain ⟨-, -, hw2, -⟩ := feed_ok (by decide) (decStep_ok hE) hi' h2
        rw [rdm_len (by omega)] at hw2
        have := Nat.div_mul_le_self (h'.buf.length + ns.sum) 16
        simp only [Outcome.ok_bind, List.length_append]
        rw [wrm_wrm (by omega), Nat.add_assoc]

/-- The tag computed over a ciphertext whose last block is padded with `pad`. -/
def tagPad (E : List Byte → List Byte) (iv aad ct pad : List Byte) : List Byte :=
  xorB (ghash (hashKey E) (pad16 aad ++ (ct ++ pad.take ((16 - ct.length % 16) % 16)) ++ len64 (8 * aad.length) ++
    len64 (8 * ct.length))) (E (J0 E iv))

theorem tagPad_whole {E : List Byte → List Byte} {iv aad ct pad : List Byte} (h : ct.length % 16 = 0) :
    tagPad E iv aad ct pad = Spec.Gcm.tag E iv aad ct := by
  unfold tagPad Spec.Gcm.tag pad16
  rw [h]
  simp

theorem tagPad_zero {E : List Byte → List Byte} {iv aad ct : List Byte} :
    tagPad E iv aad ct (zeros 16) = Spec.Gcm.tag E iv aad ct := by
  unfold tagPad Spec.Gcm.tag pad16 zeros
  rw [List.take_replicate, Nat.min_eq_left (by omega)]

/-- What stands before `final_block`. -/
theorem upTo_eq {C : BCipher} (hBS : C.BS = 16) (hP : 0 < C.PAR) (hE : LenOk 16 C.E) (junk : St) (iv aad tag : List Byte)
    (m : Mem) (o i : Nat) (ns : List Nat) (hp : StreamPlaced true 0 m o i ns 0) (ha : aad.length ≤ maxLen)
    (hlen : ns.sum < 2 ^ 64) : ∃ j, upTo C junk iv aad tag m o i ns = .ok j ∧ Inv j ∧ j.pc = .len ∧ j.C = C ∧
      j.s.counter0 = J0 C.E iv ∧ j.s.tag = tag ∧ (j.inp.length = 0 ↔ ns.sum % 16 = 0) ∧
      outMem j = wrm m o (ciphertext C.E iv (rdm m i ns.sum)) ∧
      ∀ pad, pad.length = 16 → tagOf j pad = tagPad C.E iv aad (rdm m i ns.sum) pad := by
  unfold upTo
  rw [decInit_spec hE _ rfl iv aad ha, Outcome.ok_bind]
  have hi : DecInv (initSt C.E (fresh junk (zeros 16)).st iv aad tag) :=
    ⟨inc32_len _ (J0_len iv), rfl, Nat.two_pow_pos _, List.length_replicate ..⟩
  show ∃ j, updates C ⟨[], initSt C.E (fresh junk (zeros 16)).st iv aad tag⟩ m o i ns = .ok j ∧ _
  rw [updates_eq (ip := true) rfl hBS hP hE ns ⟨[], initSt C.E (fresh junk (zeros 16)).st iv aad tag⟩ m o i hi (by simp) hp]
  obtain ⟨p1, p2, p3⟩ := hp
  simp only [Nat.add_zero, Nat.zero_add] at p1 p2
  have hcl : (rdm m i ns.sum).length = ns.sum := rdm_len p1
  generalize hct : rdm m i ns.sum = ct at *
  rw [← hcl] at hlen p2 ⊢
  obtain ⟨bl, r, hl, hr, hX, hbl, hrr⟩ := split16 ct
  have hplen : ct.length = bl.length * 16 + r.length := by rw [hX, List.length_append, flat_len hl]
  unfold feed
  simp only [List.nil_append, bind_assoc, Outcome.ok_bind]
  rw [← hbl, ← hrr, dec_run bl _ hi]
  have hct0 : (initSt C.E (fresh junk (zeros 16)).st iv aad tag).ctLen = 0 := rfl
  rw [hct0, Nat.zero_add, if_neg (show ¬ bl.length * 16 ≥ 2 ^ 64 by omega), Outcome.ok_bind]
  have hj : (inc32 (J0 C.E iv)).length = 16 := inc32_len _ (J0_len iv)
  have hgl : (gctrBlocks C.E (inc32 (J0 C.E iv)) bl).flatten.length = bl.length * 16 := by
    rw [flat_len (gctrBlocks_len hE _ hj bl hl), gctrBlocks_count]
  refine ⟨_, rfl, ⟨hBS, hE, J0_len iv, incN_len _ _ hj, hr, ?_, fun _ => ?_, by simp, by simp, by simp⟩, rfl, rfl, rfl, rfl,
    ?_, ?_, ?_⟩
  · dsimp only
    show o + (gctrBlocks C.E (inc32 (J0 C.E iv)) bl).flatten.length + r.length ≤ (wrm m o (gctrBlocks C.E (inc32 (J0 C.E iv)) bl).flatten).length
    rw [wrm_len (by rw [hgl]; omega), hgl]
    omega
  · dsimp only
    omega
  · dsimp only
    omega
  · unfold outMem
    dsimp only
    rw [if_pos (Or.inl rfl)]
    show wrm (wrm m o (gctrBlocks C.E (inc32 (J0 C.E iv)) bl).flatten) (o + (gctrBlocks C.E (inc32 (J0 C.E iv)) bl).flatten.length)
      (xorB r (C.E (inc32^[bl.length] (inc32 (J0 C.E iv))))) = _
    have hk := hE _ (incN_len bl.length _ hj)
    rw [wrm_wrm (by rw [hgl, xorB_len (by omega)]; omega)]
    unfold ciphertext
    conv_rhs => rw [hX]
    rw [gctr_split C.E _ bl r hl hr]
  · intro pad hpad
    unfold tagOf tagPad
    dsimp only
    have hm : ct.length % 16 = r.length % 16 := by rw [hplen]; omega
    have hrp : (r ++ pad.take ((16 - r.length % 16) % 16)).length % 16 = 0 := by
      rw [List.length_append, List.length_take, hpad]; omega
    have hpm : (bl.flatten ++ (r ++ pad.take ((16 - r.length % 16) % 16))).length % 16 = 0 := by
      rw [List.length_append, flat_len hl]; omega
    have tp := tag_parts hE aad _ hpm (aad.length * 8) (ct.length * 8)
    rw [pad_blocks _ hl _ hrp, List.foldl_append] at tp
    have e : ct ++ pad.take ((16 - ct.length % 16) % 16) = bl.flatten ++ (r ++ pad.take ((16 - r.length % 16) % 16)) := by
      rw [hm, ← List.append_assoc, ← hX]
    rw [e, Nat.mul_comm 8, Nat.mul_comm 8, ← tp]
    rw [hplen]
    rfl

end Verif.GcmThr
