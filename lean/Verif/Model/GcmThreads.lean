import Verif.Model.Gcm
/-!
# `GcmDecryptor::final_block` statement by statement (include/gmlib/block_cipher_mode/gcm_mode.h 313-343)

Line 317 declares `static std::uint8_t t[16] = {0}, tag[16];`: one pair of arrays per cipher class for the whole process,
written by every call on every object.  It is the only mutable state the library shares between objects.  Here a call
is a sequence of steps, one per statement, on its own members and on these two arrays, and a schedule says which call
makes the next step.  Everything before `final_block` (`init`, `set_tag`, `update`) touches only the object itself and the
caller's buffers.

Simplification: a statement is one atomic step and the steps of all threads form one sequence.  In C++ unsynchronised
access to `t` and `tag` is a data race, that is undefined behaviour; what is shown to go wrong here goes wrong already
for the mildest reading of it.
-/
namespace Verif.GcmThr
open Verif.Gcm

/-- The function-local statics `t` and `tag` (gcm_mode.h 317). -/
structure Shared where
  t : List Byte
  tag : List Byte
deriving DecidableEq

/-- The statement a call of `final_block` is about to execute, or how it ended. -/
inductive Pc where
  /-- lines 318-327: length check, `ct_len_`, `hash_.update(in, inl)` -/
  | len
  /-- line 328: `hash_.update(t, (16 - inl % 16) % 16)` -/
  | pad
  /-- line 330: `GctrCryptor::final_block` -/
  | gctr
  /-- line 332: `store64_be(t + 0, aad_len_ * 8)` -/
  | storeLo
  /-- line 333: `store64_be(t + 8, ct_len_ * 8)` -/
  | storeHi
  /-- line 334: `hash_.update(t, 16)` -/
  | hashT
  /-- line 335: `hash_.do_final(tag)` -/
  | digest
  /-- line 336: `encrypt_block(t, counter0_)` -/
  | encT
  /-- line 338: `memxor<16>(tag, tag, t)` -/
  | xorTag
  /-- line 339: `memcmp(tag, tag_, 16)` -/
  | cmp
  /-- returned -/
  | accepted
  /-- threw "invalid gcm ciphertext" -/
  | rejected
  /-- threw something else -/
  | threw
  /-- undefined behaviour -/
  | undef
deriving DecidableEq

/-- A call of `final_block(out, in, inl)` in progress: the cipher, the members of the object, the caller's memory, the
octets in `buf_`, the `out` pointer.  (`s.stat` of `Gcm.St` plays no role here.) -/
structure Job where
  C : BCipher
  s : St
  m : Mem
  inp : List Byte
  o : Nat
  pc : Pc

/-- Continue with the result of a call, or end the job. -/
def cont {α : Type} (r : Outcome α) (sh : Shared) (j : Job) (k : α → Shared × Job) : Shared × Job :=
  match r with
  | .ok a => k a
  | .throw => (sh, { j with pc := .threw })
  | .ub => (sh, { j with pc := .undef })

/-- One statement of `GcmDecryptor::final_block` (gcm_mode.h 313-343). -/
def step (sh : Shared) (j : Job) : Shared × Job :=
  match j.pc with
  | .len =>
    if j.inp.length = 0 then (sh, { j with pc := .storeLo })
    else
      let nxt := j.s.ctLen + j.inp.length
      if nxt ≥ 2 ^ 64 then (sh, { j with pc := .threw })
      else cont (hashUpdate 16 Ghash.impl j.s.hash j.inp) sh j fun h =>
        (sh, { j with s := { j.s with ctLen := nxt, hash := h }, pc := .pad })
  | .pad => cont (hashUpdate 16 Ghash.impl j.s.hash (sh.t.take ((16 - j.inp.length % 16) % 16))) sh j fun h =>
      (sh, { j with s := { j.s with hash := h }, pc := .gctr })
  | .gctr => cont ((gctrImpl j.C).fin j.s.counter j.m j.inp j.o) sh j fun r =>
      (sh, { j with s := { j.s with counter := r.1 }, m := r.2, pc := .storeLo })
  | .storeLo => ({ sh with t := Sm3.memStore64BE (BitVec.ofNat 64 (j.s.aadLen * 8)) ++ sh.t.drop 8 }, { j with pc := .storeHi })
  | .storeHi => ({ sh with t := sh.t.take 8 ++ Sm3.memStore64BE (BitVec.ofNat 64 (j.s.ctLen * 8)) }, { j with pc := .hashT })
  | .hashT => cont (hashUpdate 16 Ghash.impl j.s.hash sh.t) sh j fun h =>
      (sh, { j with s := { j.s with hash := h }, pc := .digest })
  | .digest => cont (hashFinal 16 Ghash.impl j.s.hash []) sh j fun r =>
      ({ sh with tag := r.2 }, { j with s := { j.s with hash := r.1 }, pc := .encT })
  | .encT => ({ sh with t := j.C.E j.s.counter0 }, { j with pc := .xorTag })
  | .xorTag => ({ sh with tag := xorBytes sh.tag sh.t }, { j with pc := .cmp })
  | .cmp => (sh, { j with pc := if sh.tag = j.s.tag then .accepted else .rejected })
  | .accepted => (sh, j)
  | .rejected => (sh, j)
  | .threw => (sh, j)
  | .undef => (sh, j)

/-- The process: the shared arrays and the calls in progress, by thread number. -/
structure Proc where
  sh : Shared
  jobs : Nat → Job

/-- Thread `k` executes its next statement. -/
def Proc.step (p : Proc) (k : Nat) : Proc :=
  let r := GcmThr.step p.sh (p.jobs k)
  ⟨r.1, fun i => if i = k then r.2 else p.jobs i⟩

/-- A schedule: the threads in the order in which they execute statements. -/
def Proc.run (p : Proc) (sched : List Nat) : Proc := sched.foldl Proc.step p

/-- Everything a decryption does before `final_block`: `init` on a new object, `set_tag`, the updates (pieces of lengths
`ns`, one after another from `i`, written from `o` on) and then `do_final` without data (block_cipher_mode.h 81-90), up to
the call of `final_block`. -/
def updates (C : BCipher) : ModeObj St → Mem → Nat → Nat → List Nat → Outcome Job
  | h, m, o, _, [] => .ok ⟨C, h.st, m, h.buf, o, .len⟩
  | h, m, o, i, n :: ns => do
    let r ← modeUpdate 16 (decImpl C) h m o i n 0
    updates C r.1 r.2.1 (o + r.2.2) (i + n) ns

/-- `GcmDecryptor d; d.init(key, iv, aad); d.set_tag(tag); d.update(…)…; d.do_final(…)` up to `final_block`. -/
def upTo (C : BCipher) (junk : St) (iv aad tag : List Byte) (m : Mem) (o i : Nat) (ns : List Nat) : Outcome Job := do
  let h ← decInit C.E (fresh junk (zeros 16)) iv aad
  updates C (setTag h tag) m o i ns

end Verif.GcmThr
