import Verif.Proofs.GcmThreads
import Verif.Props.Gcm
/-!
# C86: GCM decryptions on separate objects in several threads

Every thread has its own `GcmDecryptor`, its own key, buffers and message; the caller shares nothing.  A schedule is any
list of thread numbers, each entry one statement of that thread's `final_block`.
-/
namespace Verif.Props
open Verif Verif.Gcm Verif.GcmThr Verif.Spec Verif.Spec.Modes Verif.Spec.Gcm

/-- What one thread asks for: the cipher under its key, the contents of uninitialised members, IV, AAD, expected tag, its
memory, the offsets of output and input, and the lengths of the `update` pieces the ciphertext arrives in. -/
structure DecReq where
  C : BCipher
  junk : St
  iv : List Byte
  aad : List Byte
  tag : List Byte
  m : Mem
  o : Nat
  i : Nat
  ns : List Nat

/-- The ciphertext of a request. -/
def DecReq.ct (r : DecReq) : List Byte := rdm r.m r.i r.ns.sum

/-- A request within the documented limits: 16-octet blocks, buffers in the caller's memory and either disjoint or exactly
in place, AAD and ciphertext of representable length. -/
structure DecReq.Fair (r : DecReq) : Prop where
  bs : r.C.BS = 16
  par : 0 < r.C.PAR
  len : LenOk 16 r.C.E
  placed : StreamPlaced true 0 r.m r.o r.i r.ns 0
  aad : r.aad.length ≤ maxLen
  ct : r.ns.sum < 2 ^ 64

/-- The tag of the request is the one GCM assigns to its IV, AAD and ciphertext. -/
def DecReq.Genuine (r : DecReq) : Prop := r.tag = Spec.Gcm.tag r.C.E r.iv r.aad r.ct

/-- Thread `k` has made all calls of request `R k` up to `final_block`; the static array `t` holds anything. -/
structure Started (p : Proc) (R : Nat → DecReq) : Prop where
  t : p.sh.t.length = 16
  fair : ∀ k, (R k).Fair
  job : ∀ k, upTo (R k).C (R k).junk (R k).iv (R k).aad (R k).tag (R k).m (R k).o (R k).i (R k).ns = .ok (p.jobs k)

/-- How thread `k`'s decryption ends if the process runs by `sched`. -/
def verdict (p : Proc) (sched : List Nat) (k : Nat) : Pc := ((p.run sched).jobs k).pc

namespace GcmThrAux

theorem spec {p : Proc} {R : Nat → DecReq} (h : Started p R) (k : Nat) : Inv (p.jobs k) ∧ (p.jobs k).pc = .len ∧
    (p.jobs k).C = (R k).C ∧ (p.jobs k).s.counter0 = J0 (R k).C.E (R k).iv ∧ (p.jobs k).s.tag = (R k).tag ∧
    ((p.jobs k).inp.length = 0 ↔ (R k).ns.sum % 16 = 0) ∧
    outMem (p.jobs k) = wrm (R k).m (R k).o (ciphertext (R k).C.E (R k).iv (R k).ct) ∧
    ∀ pad, pad.length = 16 → tagOf (p.jobs k) pad = tagPad (R k).C.E (R k).iv (R k).aad (R k).ct pad := by
  obtain ⟨f1, f2, f3, f4, f5, f6⟩ := h.fair k
  obtain ⟨j, e, r⟩ := upTo_eq f1 f2 f3 (R k).junk (R k).iv (R k).aad (R k).tag (R k).m (R k).o (R k).i (R k).ns f4 f5 f6
  have := (h.job k).symm.trans e
  rw [Outcome.ok.inj this]
  exact r

theorem pinv {p : Proc} {R : Nat → DecReq} (h : Started p R) : PInv p := ⟨h.t, fun k => (spec h k).1⟩

theorem ct_len {p : Proc} {R : Nat → DecReq} (h : Started p R) (k : Nat) : (R k).ct.length = (R k).ns.sum :=
  rdm_len (by have := (h.fair k).placed.1; omega)

theorem body_le (j : Job) : body j ≤ 9 := by unfold body; split <;> omega

/-- The call of `k` runs without interruption from a point of the run at which it has not begun. -/
theorem alone {p : Proc} {R : Nat → DecReq} (h : Started p R) (pre : List Nat) (k n : Nat) (hk : k ∉ pre) (hn : 10 ≤ n) :
    (p.run (pre ++ List.replicate n k)).sh = ⟨(R k).C.E (J0 (R k).C.E (R k).iv),
      tagPad (R k).C.E (R k).iv (R k).aad (R k).ct (p.run pre).sh.t⟩ ∧
    ((p.run (pre ++ List.replicate n k)).jobs k).pc =
      if tagPad (R k).C.E (R k).iv (R k).aad (R k).ct (p.run pre).sh.t = (R k).tag then .accepted else .rejected := by
  obtain ⟨i, -⟩ := run_inv pre (pinv h)
  have o := run_other pre p k hk
  obtain ⟨s1, s2, s3, s4, s5, s6, s7, s8⟩ := spec h k
  rw [run_append]
  obtain ⟨a, b⟩ := run_replicate n (p.run pre) k
  rw [a, b, o]
  have hb := body_le (p.jobs k)
  obtain ⟨c, d⟩ := alone_run i.1 s1 s2 (n - (body (p.jobs k) + 1))
  rw [show body (p.jobs k) + 1 + (n - (body (p.jobs k) + 1)) = n by omega] at c d
  rw [c, d, s8 _ i.1, s3, s4, s5]
  exact ⟨rfl, rfl⟩

theorem step_cmp (sh : Shared) (j : Job) (h : j.pc = .cmp) :
    (GcmThr.step sh j).2.pc = if sh.tag = j.s.tag then .accepted else .rejected := by
  unfold GcmThr.step
  rw [h]

/-- `a` is stopped before its comparison, `b` runs, `a` goes on. -/
theorem race {p : Proc} {R : Nat → DecReq} (h : Started p R) (a b : Nat) (hab : a ≠ b) : ∃ pre,
    verdict p (pre ++ List.replicate 10 b ++ [a]) a =
      (if tagPad (R b).C.E (R b).iv (R b).aad (R b).ct (p.run pre).sh.t = (R a).tag then .accepted else .rejected) ∧
    verdict p (pre ++ List.replicate 10 b ++ [a]) b =
      (if tagPad (R b).C.E (R b).iv (R b).aad (R b).ct (p.run pre).sh.t = (R b).tag then .accepted else .rejected) := by
  refine ⟨List.replicate (body (p.jobs a)) a, ?_, ?_⟩
  · unfold verdict
    rw [run_append]
    obtain ⟨s1, s2, s3, s4, s5, s6, s7, s8⟩ := spec h a
    obtain ⟨j', j1, j2, j3⟩ := body_run h.t s1 s2
    have hj : (p.run (List.replicate (body (p.jobs a)) a)).jobs a = j' := by
      rw [(run_replicate _ p a).2, j1]
    have hj' : (p.run (List.replicate (body (p.jobs a)) a ++ List.replicate 10 b)).jobs a = j' := by
      rw [run_append, run_other _ _ _ (fun hm => hab (List.eq_of_mem_replicate hm)), hj]
    obtain ⟨c, -⟩ := alone h (List.replicate (body (p.jobs a)) a) b 10 (fun hm => hab (List.eq_of_mem_replicate hm).symm)
      (Nat.le_refl _)
    generalize p.run (List.replicate (body (p.jobs a)) a ++ List.replicate 10 b) = q at *
    show ((q.step a).jobs a).pc = _
    have e : (q.step a).jobs a = (GcmThr.step q.sh (q.jobs a)).2 := by
      show (if a = a then _ else _) = _
      rw [if_pos rfl]
    rw [e, hj', step_cmp _ _ j2, c, j3, s5]
  · unfold verdict
    obtain ⟨-, d⟩ := alone h (List.replicate (body (p.jobs a)) a) b 10 (fun hm => hab (List.eq_of_mem_replicate hm).symm)
      (Nat.le_refl _)
    rw [run_append, run_other _ _ b (by simpa using fun e => hab e.symm), d]

end GcmThrAux
open GcmThrAux

/-- C86, safety under every schedule: whatever the other threads do, a decryption that has been given its ten statements
has returned or thrown the tag exception — no other exception, nothing out of bounds — and its memory holds the GCM
plaintext at the output offset and is otherwise unchanged.  In particular the plaintext is there after a rejection too. -/
theorem C86_any_schedule {p : Proc} {R : Nat → DecReq} (h : Started p R) (sched : List Nat) (k : Nat)
    (hk : 10 ≤ sched.count k) :
    (verdict p sched k = .accepted ∨ verdict p sched k = .rejected) ∧
    ((p.run sched).jobs k).m = wrm (R k).m (R k).o (ciphertext (R k).C.E (R k).iv (R k).ct) := by
  obtain ⟨i, f⟩ := run_inv sched (pinv h)
  obtain ⟨s1, s2, s3, s4, s5, s6, s7, s8⟩ := spec h k
  have l := run_left sched p k
  rw [s2] at l
  have hv := left_zero (pc := ((p.run sched).jobs k).pc) (by
    have : left Pc.len = 10 := rfl
    omega) (i.2 k).fine
  refine ⟨hv, ?_⟩
  have e := (f k).1
  rw [s7] at e
  rw [← e]
  unfold outMem
  rw [if_neg (by rcases hv with hv | hv <;> rw [hv] <;> simp)]

/-- C86, one call at a time: if no other thread is scheduled between the first and the last statement of `k`'s call, its
verdict is that of the tag computed with the last block padded by whatever `t` holds when the call begins; and
the call leaves the key stream block `E(J0)` in `t`, accepted or not. -/
theorem C86_serial_exact {p : Proc} {R : Nat → DecReq} (h : Started p R) (pre post : List Nat) (k n : Nat) (hk : k ∉ pre)
    (hn : 10 ≤ n) :
    verdict p (pre ++ List.replicate n k ++ post) k =
      (if (R k).tag = xorB (ghash (hashKey (R k).C.E) (pad16 (R k).aad ++
          ((R k).ct ++ (p.run pre).sh.t.take ((16 - (R k).ct.length % 16) % 16)) ++
          len64 (8 * (R k).aad.length) ++ len64 (8 * (R k).ct.length))) ((R k).C.E (J0 (R k).C.E (R k).iv))
        then .accepted else .rejected) ∧
    (p.run (pre ++ List.replicate n k)).sh.t = (R k).C.E (J0 (R k).C.E (R k).iv) := by
  obtain ⟨a, b⟩ := alone h pre k n hk hn
  refine ⟨?_, by rw [a]⟩
  unfold verdict
  rw [run_append, run_done _ _ _ (by rw [b]; split <;> rfl), b]
  by_cases e : tagPad (R k).C.E (R k).iv (R k).aad (R k).ct (p.run pre).sh.t = (R k).tag
  · rw [if_pos e, if_pos (by rw [← e]; rfl)]
  · rw [if_neg e, if_neg (fun e' => e (by rw [e']; rfl))]

/-- C86 (partial: only if calls of `final_block` never overlap in time, and only for ciphertexts of whole blocks): a decryption is
accepted exactly when its tag is genuine, whatever was decrypted before in the process, by which thread, with which result. -/
theorem C86_serial_whole_partial {p : Proc} {R : Nat → DecReq} (h : Started p R) (pre post : List Nat) (k n : Nat)
    (hk : k ∉ pre) (hn : 10 ≤ n) (hw : (R k).ct.length % 16 = 0) :
    (verdict p (pre ++ List.replicate n k ++ post) k = .accepted ↔ (R k).Genuine) ∧
    (verdict p (pre ++ List.replicate n k ++ post) k = .rejected ↔ ¬ (R k).Genuine) := by
  obtain ⟨a, -⟩ := C86_serial_exact h pre post k n hk hn
  rw [a]
  have e : (R k).Genuine ↔ (R k).tag = tagPad (R k).C.E (R k).iv (R k).aad (R k).ct (p.run pre).sh.t := by
    rw [tagPad_whole hw]; rfl
  rw [e]
  show ((if (R k).tag = tagPad (R k).C.E (R k).iv (R k).aad (R k).ct (p.run pre).sh.t then Pc.accepted else .rejected) = _ ↔ _) ∧
    ((if (R k).tag = tagPad (R k).C.E (R k).iv (R k).aad (R k).ct (p.run pre).sh.t then Pc.accepted else .rejected) = _ ↔ _)
  split <;> rename_i h1 <;> simp [h1]

/-- C86 (partial): the first call of the process, when it runs undisturbed, is right for every length. -/
theorem C86_serial_first_partial {p : Proc} {R : Nat → DecReq} (h : Started p R) (h0 : p.sh.t = zeros 16) (post : List Nat)
    (k n : Nat) (hn : 10 ≤ n) :
    (verdict p (List.replicate n k ++ post) k = .accepted ↔ (R k).Genuine) ∧
    (verdict p (List.replicate n k ++ post) k = .rejected ↔ ¬ (R k).Genuine) := by
  obtain ⟨a, -⟩ := C86_serial_exact h [] post k n (by simp) hn
  rw [List.nil_append] at a
  rw [a]
  have e : (R k).Genuine ↔ (R k).tag = tagPad (R k).C.E (R k).iv (R k).aad (R k).ct (p.run []).sh.t := by
    show _ ↔ (R k).tag = tagPad (R k).C.E (R k).iv (R k).aad (R k).ct p.sh.t
    rw [h0, tagPad_zero]; rfl
  rw [e]
  show ((if (R k).tag = tagPad (R k).C.E (R k).iv (R k).aad (R k).ct (p.run []).sh.t then Pc.accepted else .rejected) = _ ↔ _) ∧
    ((if (R k).tag = tagPad (R k).C.E (R k).iv (R k).aad (R k).ct (p.run []).sh.t then Pc.accepted else .rejected) = _ ↔ _)
  split <;> rename_i h1 <;> simp [h1]

/-- C86 violated, forgery: let thread `b` decrypt a genuine message of whole blocks.  Any request of another thread `a` — any
key, IV, AAD and ciphertext — that carries the tag of `b`'s message is accepted under some schedule, and so is `b`'s. -/
theorem C86_race_forgery_violated {p : Proc} {R : Nat → DecReq} (h : Started p R) (a b : Nat) (hab : a ≠ b)
    (hw : (R b).ct.length % 16 = 0) (hb : (R b).Genuine) (ht : (R a).tag = (R b).tag) :
    ∃ sched, verdict p sched a = .accepted ∧ verdict p sched b = .accepted := by
  obtain ⟨pre, c, d⟩ := race h a b hab
  rw [tagPad_whole hw, ← show (R b).tag = _ from hb] at c d
  exact ⟨_, by rw [c, if_pos ht.symm], by rw [d, if_pos rfl]⟩

/-- C86 violated, false rejection: two genuine messages with different tags, decrypted by two threads; under some schedule
one of them is rejected. -/
theorem C86_race_reject_violated {p : Proc} {R : Nat → DecReq} (h : Started p R) (a b : Nat) (hab : a ≠ b)
    (hw : (R b).ct.length % 16 = 0) (hb : (R b).Genuine) (ht : (R a).tag ≠ (R b).tag) :
    ∃ sched, verdict p sched a = .rejected ∧ verdict p sched b = .accepted := by
  obtain ⟨pre, c, d⟩ := race h a b hab
  rw [tagPad_whole hw, ← show (R b).tag = _ from hb] at c d
  exact ⟨_, by rw [c, if_neg (fun e => ht e.symm)], by rw [d, if_pos rfl]⟩

/-- C86 violated without any overlap in time: once any thread's call is over — even one that was rejected — a genuine message with a
ragged last block is accepted in another thread only if padding with the first call's `E(J0)` gives the same tag. -/
theorem C86_serial_after_any_violated {p : Proc} {R : Nat → DecReq} (h : Started p R) (a b : Nat) (hab : a ≠ b)
    (hb : (R b).Genuine) :
    verdict p (List.replicate 10 a ++ List.replicate 10 b) b = .accepted ↔
      xorB (ghash (hashKey (R b).C.E) (pad16 (R b).aad ++
          ((R b).ct ++ ((R a).C.E (J0 (R a).C.E (R a).iv)).take ((16 - (R b).ct.length % 16) % 16)) ++
          len64 (8 * (R b).aad.length) ++ len64 (8 * (R b).ct.length))) ((R b).C.E (J0 (R b).C.E (R b).iv)) =
        Spec.Gcm.tag (R b).C.E (R b).iv (R b).aad (R b).ct := by
  obtain ⟨-, t⟩ := C86_serial_exact h [] [] a 10 (by simp) (Nat.le_refl _)
  rw [List.nil_append] at t
  obtain ⟨v, -⟩ := C86_serial_exact h (List.replicate 10 a) [] b 10 (fun hm => hab (List.eq_of_mem_replicate hm).symm) (Nat.le_refl _)
  rw [List.append_nil, t, show (R b).tag = _ from hb] at v
  rw [v]
  constructor
  · intro e
    by_contra hne
    rw [if_neg (fun e' => hne e'.symm)] at e
    cases e
  · intro e
    rw [if_pos e.symm]

/-- C86: the step model and the model of `final_block` used for C14 agree: run without interruption, the call accepts exactly when
the whole decryption of C14, with `t` as it stands, returns, with the same memory; and rejects exactly when that throws. -/
theorem C86_agrees_with_C14 {p : Proc} {R : Nat → DecReq} (h : Started p R) (pre : List Nat) (k n : Nat) (hk : k ∉ pre)
    (hn : 10 ≤ n) :
    let run := gcmDecrypt (R k).C (R k).junk (p.run pre).sh.t (R k).iv (R k).aad (R k).tag (R k).m (R k).o (R k).i (R k).ns 0 0
    let q := p.run (pre ++ List.replicate n k)
    ((q.jobs k).pc = .accepted ↔ ∃ h', run = .ok (h', (q.jobs k).m, (R k).o + (R k).ns.sum) ∧ h'.st.stat = q.sh.t) ∧
    ((q.jobs k).pc = .rejected ↔ run = .throw) := by
  intro run q
  obtain ⟨v, t⟩ := C86_serial_exact h pre [] k n hk hn
  obtain ⟨-, mm⟩ := C86_any_schedule h (pre ++ List.replicate n k) k (by
    rw [List.count_append, List.count_replicate_self]; omega)
  obtain ⟨f1, f2, f3, f4, f5, f6⟩ := h.fair k
  obtain ⟨i, -⟩ := run_inv pre (pinv h)
  have ex := C14_gcm_decrypt_exact f1 f2 f3 (R k).junk (p.run pre).sh.t (R k).iv (R k).aad (R k).tag (R k).m (R k).o (R k).i
    (R k).ns 0 0 f4 i.1 f5 f6
  dsimp only [Nat.add_zero] at ex
  rw [List.append_nil] at v
  have hc : rdm (R k).m (R k).i (R k).ns.sum = (R k).ct := rfl
  rw [hc] at ex
  have v' : (q.jobs k).pc = _ := v
  have mm' : (q.jobs k).m = _ := mm
  have t' : q.sh.t = _ := t
  have hr : run = gcmDecrypt (R k).C (R k).junk (p.run pre).sh.t (R k).iv (R k).aad (R k).tag (R k).m (R k).o (R k).i (R k).ns 0 0 := rfl
  rw [← hr] at ex
  clear_value run q
  rw [v', mm', t']
  generalize xorB (ghash (hashKey (R k).C.E) (pad16 (R k).aad ++
          ((R k).ct ++ (p.run pre).sh.t.take ((16 - (R k).ct.length % 16) % 16)) ++
          len64 (8 * (R k).aad.length) ++ len64 (8 * (R k).ct.length))) ((R k).C.E (J0 (R k).C.E (R k).iv)) = x at ex ⊢
  by_cases e : x = (R k).tag
  · rw [if_pos e] at ex
    obtain ⟨h', e1, e2⟩ := ex
    rw [if_pos e.symm]
    refine ⟨⟨fun _ => ⟨h', e1, e2⟩, fun _ => rfl⟩, ⟨fun e' => (by cases e'), fun e' => ?_⟩⟩
    rw [e1] at e'
    cases e'
  · rw [if_neg e] at ex
    rw [if_neg (fun e' => e e'.symm)]
    refine ⟨⟨fun e' => (by cases e'), fun ⟨h', e1, _⟩ => ?_⟩, ⟨fun _ => ex, fun _ => rfl⟩⟩
    rw [ex] at e1
    cases e1

/-! ## Non-vacuity -/

/-- Any family of fair requests can be started, with any contents of `t`. -/
theorem C86_can_start (R : Nat → DecReq) (hf : ∀ k, (R k).Fair) (t : List Byte) (ht : t.length = 16) :
    ∃ p, Started p R ∧ p.sh.t = t := by
  have hj : ∀ k, ∃ j, upTo (R k).C (R k).junk (R k).iv (R k).aad (R k).tag (R k).m (R k).o (R k).i (R k).ns = .ok j := by
    intro k
    obtain ⟨f1, f2, f3, f4, f5, f6⟩ := hf k
    obtain ⟨j, e, -⟩ := upTo_eq f1 f2 f3 (R k).junk (R k).iv (R k).aad (R k).tag (R k).m (R k).o (R k).i (R k).ns f4 f5 f6
    exact ⟨j, e⟩
  choose j hj using hj
  exact ⟨⟨⟨t, t⟩, j⟩, ⟨ht, hf, hj⟩, rfl⟩

/-- A genuine 16-octet message, decrypted in place in two pieces. -/
def genuine16 : DecReq := ⟨toy16, junk0, zeros 12, [9], Spec.Gcm.tag toy16.E (zeros 12) [9] (List.replicate 16 5),
  List.replicate 16 5, 0, 0, [7, 9]⟩

/-- A forged 18-octet message under the tag of the other one. -/
def forged18 : DecReq := { genuine16 with iv := List.replicate 12 1, aad := [], m := List.replicate 18 66, ns := [18] }

theorem genuine16_fair : genuine16.Fair := ⟨rfl, by decide, toy16_len, by
  refine ⟨?_, ?_, Or.inr (Or.inr ⟨rfl, rfl⟩)⟩ <;> decide, by decide, by decide⟩

theorem forged18_fair : forged18.Fair := ⟨rfl, by decide, toy16_len, by
  refine ⟨?_, ?_, Or.inr (Or.inr ⟨rfl, rfl⟩)⟩ <;> decide, by decide, by decide⟩

/-- The forged message is not genuine, it is rejected as the first call of a process, and accepted in a race. -/
example : ¬ forged18.Genuine ∧ genuine16.Genuine ∧
    ∃ p, Started p (fun k => if k = 0 then forged18 else genuine16) ∧
      verdict p (List.replicate 10 0) 0 = .rejected ∧
      ∃ sched, verdict p sched 0 = .accepted ∧ verdict p sched 1 = .accepted := by
  have hn : ¬ forged18.Genuine := by
    unfold DecReq.Genuine DecReq.ct
    decide +kernel
  have hg : genuine16.Genuine := by
    unfold DecReq.Genuine DecReq.ct
    decide +kernel
  refine ⟨hn, hg, ?_⟩
  obtain ⟨p, hp, ht⟩ := C86_can_start (fun k => if k = 0 then forged18 else genuine16) (by
    intro k
    split
    · exact forged18_fair
    · exact genuine16_fair) (zeros 16) rfl
  refine ⟨p, hp, ?_, ?_⟩
  · have := (C86_serial_first_partial hp ht [] 0 10 (Nat.le_refl _)).2
    rw [List.append_nil] at this
    exact this.mpr hn
  · exact C86_race_forgery_violated hp 0 1 (by decide) (by decide +kernel) hg rfl

/-- Without any overlap: after a rejected call, a genuine message of 18 octets is rejected. -/
def genuine18 : DecReq := { forged18 with tag := Spec.Gcm.tag toy16.E (List.replicate 12 1) [] (List.replicate 18 66) }

example : genuine18.Genuine ∧ ∃ p, Started p (fun k => if k = 0 then forged18 else genuine18) ∧
    verdict p (List.replicate 10 1) 1 = .accepted ∧
    verdict p (List.replicate 10 0 ++ List.replicate 10 1) 0 = .rejected ∧
    verdict p (List.replicate 10 0 ++ List.replicate 10 1) 1 = .rejected := by
  have hn : ¬ forged18.Genuine := by
    unfold DecReq.Genuine DecReq.ct
    decide +kernel
  have hg : genuine18.Genuine := by
    unfold DecReq.Genuine DecReq.ct
    decide +kernel
  have hf : genuine18.Fair := ⟨rfl, by decide, toy16_len, by
    refine ⟨?_, ?_, Or.inr (Or.inr ⟨rfl, rfl⟩)⟩ <;> decide, by decide, by decide⟩
  refine ⟨hg, ?_⟩
  obtain ⟨p, hp, ht⟩ := C86_can_start (fun k => if k = 0 then forged18 else genuine18) (by
    intro k
    split
    · exact forged18_fair
    · exact hf) (zeros 16) rfl
  refine ⟨p, hp, ?_, ?_, ?_⟩
  · have := (C86_serial_first_partial hp ht [] 1 10 (Nat.le_refl _)).1
    rw [List.append_nil] at this
    exact this.mpr hg
  · exact (C86_serial_first_partial hp ht (List.replicate 10 1) 0 10 (Nat.le_refl _)).2.mpr hn
  · have v := (C86_any_schedule hp (List.replicate 10 0 ++ List.replicate 10 1) 1 (by decide)).1
    rcases v with v | v
    · exfalso
      have := (C86_serial_after_any_violated hp 0 1 (by decide) hg).mp v
      revert this
      simp only [if_true, if_neg (show ¬ (1 : Nat) = 0 by decide)]
      unfold DecReq.ct
      decide +kernel
    · exact v

end Verif.Props
