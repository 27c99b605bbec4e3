import Verif.Model.ModeHist
import Verif.Model.HashMem
import Verif.Proofs.Modes3
/-!
# Several mode objects working on the caller's memory (include/gmlib/block_cipher_mode/*.h)

The caller owns one memory and any number of mode objects, each of its own class; the calls of a program are interleaved in
any way.  Keys, IVs, inputs and outputs are places in the memory.  The length variable is 0 before every call.
-/
namespace Verif.ModeMem
open Verif Verif.HashMem Spec.Modes

/-- A mode class: which mode, block size, `PARALLEL_NUM`, `USER_KEY_LEN`, and the block functions a key selects
(`cipher_.set_key`, cbc_mode.h 33, 101 and the other modes). -/
structure Cls where
  name : Name
  BS : Nat
  PAR : Nat
  keyLen : Nat
  sched : List Byte → (List Byte → List Byte) × (List Byte → List Byte)

/-- How many octets of IV `init` and `reset` read: none in ECB (ecb_mode.h 29-37, 84-92), one block in the others
(cbc_mode.h 31-41, 99-109, cfb_mode.h, ofb_mode.h, ctr_mode.h). -/
def ivLen (c : Cls) : Nat := match c.name with
  | .ecbEnc | .ecbDec => 0
  | _ => c.BS

/-- A step of the caller's program: a store of their own, or a call on object number `k`. -/
inductive Call where
  | store (p : Nat) (bs : List Byte)
  | init (k q p : Nat)
  | reset (k p : Nat)
  | update (k o i n : Nat)
  | final (k o i n : Nat)

/-- The memory, the objects, and what `*outl` was after each `update` and `do_final`, with whether the call threw. -/
structure World where
  mem : Mem
  obj : Nat → KeyedMode
  log : List (Nat × Bool)

/-- One step. -/
def call (c : Nat → Cls) (w : World) : Call → Outcome World
  | .store p bs => if p + bs.length ≤ w.mem.length then .ok { w with mem := wrm w.mem p bs } else .ub
  -- cbc_mode.h 31-35: the key is scheduled and the IV copied, no pointer is kept
  | .init k q p => do
    let key ← get w.mem q (c k).keyLen
    let iv ← get w.mem p (ivLen (c k))
    let s := (c k).sched key
    .ok { w with obj := put w.obj k ((w.obj k).begin (.init s.1 s.2 iv)) }
  -- cbc_mode.h 37-41
  | .reset k p => do
    let iv ← get w.mem p (ivLen (c k))
    .ok { w with obj := put w.obj k ((w.obj k).begin (.reset iv)) }
  -- block_cipher_mode.h 31-79
  | .update k o i n => do
    let a := w.obj k
    let r ← modeUpdate (c k).BS (modeImpl ⟨(c k).BS, (c k).PAR, a.E, a.D⟩ (c k).name) a.obj w.mem o i n 0
    .ok ⟨r.2.1, put w.obj k ⟨a.E, a.D, r.1⟩, w.log ++ [(r.2.2, false)]⟩
  -- block_cipher_mode.h 81-90
  | .final k o i n => do
    let a := w.obj k
    let r ← modeFinalExc (c k).BS (modeImpl ⟨(c k).BS, (c k).PAR, a.E, a.D⟩ (c k).name) a.obj w.mem o i n 0
    .ok ⟨r.2.1, put w.obj k ⟨a.E, a.D, r.1⟩, w.log ++ [r.2.2]⟩

/-- A program. -/
def run (c : Nat → Cls) : List Call → World → Outcome World
  | [], w => .ok w
  | x :: xs, w => do
    let w ← call c w x
    run c xs w

end Verif.ModeMem
