import Verif.Model.Sm3
import Verif.Model.Modes
/-!
# Several hash and MAC objects working on the caller's memory (hash.h, hmac.h, sm3.h)

The caller owns one memory and any number of `SM3` and `HMac<SM3>` objects; the calls of a program are interleaved in any
way.  Data, keys and digests are places in the memory and may overlap.  An access outside the memory is undefined.
-/
namespace Verif.HashMem
open Verif Verif.Sm3

/-- A step of the caller's program: a store of their own, or a call on object number `k`. -/
inductive Call where
  | store (p : Nat) (bs : List Byte)
  | reset (k : Nat)
  | update (k p n : Nat)
  | final (k d p n : Nat)
  | setKey (k p n : Nat)
  | macUpdate (k p n : Nat)
  | macFinal (k d p n : Nat)

/-- The memory and the objects. -/
structure World where
  mem : Mem
  md : Nat → HashObj Ctx
  mac : Nat → HMac Ctx

/-- Assigning to object `k`. -/
def put {α} (f : Nat → α) (k : Nat) (a : α) : Nat → α := fun j => if j = k then a else f j

/-- `in[0 .. inl)`. -/
def get (m : Mem) (p n : Nat) : Outcome (List Byte) := if p + n ≤ m.length then .ok (rdm m p n) else .ub

/-- `for (i = 0; i < 8; i++) MEM_STORE32BE(digest + 4 * i, ctx->state[i])` (sm3_common.cpp 189-192, sm3_yang15.cpp
202-205), the words as octets. -/
def storeWords : Nat → Mem → Nat → List Byte → Outcome Mem
  | 0, m, _, _ => .ok m
  | i + 1, m, d, bs => if d + 4 ≤ m.length then storeWords i (wrm m d (bs.take 4)) (d + 4) (bs.drop 4) else .ub

/-- One step. -/
def call (w : World) : Call → Outcome World
  | .store p bs => if p + bs.length ≤ w.mem.length then .ok { w with mem := wrm w.mem p bs } else .ub
  -- sm3.h 52-56
  | .reset k => .ok { w with md := put w.md k (cls.reset (w.md k)) }
  -- hash.h 31-78: the data is copied to `buf_` or compressed, no pointer is kept
  | .update k p n => do
    let d ← get w.mem p n
    let h ← hashUpdate cls.BS cls.impl (w.md k) d
    .ok { w with md := put w.md k h }
  -- hash.h 80-86: `update`, then `final_block`, which stores the digest after the last compression
  | .final k d p n => do
    let x ← get w.mem p n
    let h ← hashUpdate cls.BS cls.impl (w.md k) x
    let r ← cls.impl.finalBlock h.st h.buf
    let m ← storeWords 8 w.mem d r.2
    .ok { w with mem := m, md := put w.md k ⟨h.buf, r.1⟩ }
  -- hmac.h 29-54: the digest of a long key goes to a local array
  | .setKey k p n => do
    let x ← get w.mem p n
    let h ← (w.mac k).setKey cls x
    .ok { w with mac := put w.mac k h }
  -- hmac.h 56-59
  | .macUpdate k p n => do
    let x ← get w.mem p n
    let h ← (w.mac k).update cls x
    .ok { w with mac := put w.mac k h }
  -- hmac.h 61-79: `i_digest` and `o_pad` are local, only the last `do_final` stores to `digest`
  | .macFinal k d p n => do
    let x ← get w.mem p n
    let o ← (w.mac k).update cls x
    let i ← hashFinal cls.BS cls.impl o.h []
    let h := cls.reset i.1
    let h ← hashUpdate cls.BS cls.impl h (o.K.map (· ^^^ 0x5c))
    let h ← hashUpdate cls.BS cls.impl h i.2
    let h ← hashUpdate cls.BS cls.impl h []
    let r ← cls.impl.finalBlock h.st h.buf
    let m ← storeWords 8 w.mem d r.2
    .ok { w with mem := m, mac := put w.mac k ⟨o.K, ⟨h.buf, r.1⟩⟩ }

/-- A program. -/
def run : List Call → World → Outcome World
  | [], w => .ok w
  | c :: cs, w => do
    let w ← call w c
    run cs w

end Verif.HashMem
