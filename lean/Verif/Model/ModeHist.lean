import Verif.Model.Modes
/-!
# A mode object over its life (include/gmlib/block_cipher_mode/*.h)

The object keeps its key schedule, chaining value and buffered bytes from call to call, also when `do_final` throws.
-/
namespace Verif

/-- `BlockCipherMode::do_final` (block_cipher_mode.h 81-90) with the object and memory it leaves when `final_block` throws:
the `update` on line 86 has been done, line 89 has not.  The `final_block` functions that throw (ecb_mode.h 51-62, 106-117,
cbc_mode.h 61-76, 149-164) do so before they write anything.  The last component tells whether it threw. -/
def modeFinalExc {S} (BS : Nat) (I : ModeImpl S) (h : ModeObj S) (m : Mem) (o i inl : Nat) (outl : Nat) :
    Outcome (ModeObj S × Mem × Nat × Bool) := do
  let (h, m, outl) ← modeUpdate BS I h m o i inl outl
  match I.fin h.st m h.buf (o + outl) with
  | .ok (st, m) => .ok (⟨h.buf, st⟩, m, outl + h.buf.length, false)
  | .throw => .ok (h, m, outl, true)
  | .ub => .ub

/-- `update` calls with the chunks `ns`, the length variable cleared before each, cursors moved as `streamRun` does; then
`do_final` with `last` bytes, or nothing (`none`: the message is abandoned).  Result: object, memory, `out` cursor, whether
`do_final` threw. -/
def msgRun {S} (BS : Nat) (I : ModeImpl S) (last : Option Nat) :
    ModeObj S → Mem → Nat → Nat → List Nat → Outcome (ModeObj S × Mem × Nat × Bool)
  | h, m, o, i, [] =>
    match last with
    | none => .ok (h, m, o, false)
    | some n => modeFinalExc BS I h m o i n 0 >>= fun r => .ok (r.1, r.2.1, o + r.2.2.1, r.2.2.2)
  | h, m, o, i, n :: ns =>
    modeUpdate BS I h m o i n 0 >>= fun r => msgRun BS I last r.1 r.2.1 (o + r.2.2) (i + n) ns

/-- How a message is begun: `init(user_key, iv)` (cbc_mode.h 31-35, 99-103 and the other modes) sets key and chaining value,
`reset(iv)` (cbc_mode.h 37-41, 105-109 and the other modes) keeps the key and empties the buffer.  A key is given by the two
block functions it selects. -/
inductive Begin where
  | init (E D : List Byte → List Byte) (iv : List Byte)
  | reset (iv : List Byte)

/-- One message: how it is begun, the caller's memory at that time, where output and input are, and the chunks. -/
structure ModeMsg where
  begin : Begin
  m : Mem
  o : Nat
  i : Nat
  ns : List Nat
  last : Option Nat

/-- A mode object of the cipher with block size `BS` and batch size `PAR`: key and `ModeObj`. -/
structure KeyedMode where
  E : List Byte → List Byte
  D : List Byte → List Byte
  obj : ModeObj (List Byte)

def KeyedMode.begin (k : KeyedMode) : Begin → KeyedMode
  | .init E D iv => ⟨E, D, modeInit k.obj iv⟩
  | .reset iv => ⟨k.E, k.D, modeReset k.obj iv⟩

/-- What the caller sees of each message of a history: memory, `out` cursor, whether `do_final` threw. -/
def modeHist (impl : BCipher → ModeImpl (List Byte)) (BS PAR : Nat) : KeyedMode → List ModeMsg → Outcome (List (Mem × Nat × Bool))
  | _, [] => .ok []
  | k, a :: as =>
    let k := k.begin a.begin
    msgRun BS (impl ⟨BS, PAR, k.E, k.D⟩) a.last k.obj a.m a.o a.i a.ns >>= fun r =>
      modeHist impl BS PAR ⟨k.E, k.D, r.1⟩ as >>= fun l => .ok (r.2 :: l)

end Verif
