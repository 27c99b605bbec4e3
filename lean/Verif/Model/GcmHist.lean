import Verif.Model.Gcm
/-!
# GCM objects over their life (include/gmlib/block_cipher_mode/gcm_mode.h)

One `GcmEncryptor` or `GcmDecryptor` used for message after message.  The classes have no `reset`: every message is begun
with `init`, which does not touch the buffer of the streaming base class.
-/
namespace Verif.Gcm
open Verif.Ghash (Ctx)

/-- `GcmDecryptor::final_block` (gcm_mode.h 313-343) with the object, the `static t` and the memory it leaves when the tag is
wrong: the comparison on line 338 is the last thing it does.  The last component tells whether it threw there. -/
def decFinX (C : BCipher) (s : St) (m : Mem) (inp : List Byte) (o : Nat) : Outcome (St × Mem × Bool) := do
  let (s, m) ← (if inp.length ≠ 0 then
      let nxt := s.ctLen + inp.length
      if nxt ≥ 2 ^ 64 then .throw
      else do
        let hash ← hashUpdate 16 Ghash.impl s.hash inp
        let hash ← hashUpdate 16 Ghash.impl hash (s.stat.take ((16 - inp.length % 16) % 16))
        let r ← (gctrImpl C).fin s.counter m inp o
        .ok ({ s with counter := r.1, hash := hash, ctLen := nxt }, r.2)
    else .ok (s, m) : Outcome (St × Mem))
  let t := lenBlock (s.aadLen * 8) (s.ctLen * 8)
  let hash ← hashUpdate 16 Ghash.impl s.hash t
  let r ← hashFinal 16 Ghash.impl hash []
  let t := C.E s.counter0
  let tag := xorBytes r.2 t
  .ok ({ s with hash := r.1, stat := t }, m, decide (tag ≠ s.tag))

/-- `GcmEncryptor::final_block`: it throws only when the message is too long. -/
def encFinX (C : BCipher) (s : St) (m : Mem) (inp : List Byte) (o : Nat) : Outcome (St × Mem × Bool) :=
  encFin C s m inp o >>= fun r => .ok (r.1, r.2, false)

/-- `BlockCipherMode::do_final` (block_cipher_mode.h 81-90): if `final_block` throws, line 89 (`*outl += buf_size_`) is not
executed. -/
def finalX (upd : BlockFn St) (fin : St → Mem → List Byte → Nat → Outcome (St × Mem × Bool)) (h : ModeObj St) (m : Mem)
    (o i inl outl : Nat) : Outcome (ModeObj St × Mem × Nat × Bool) := do
  let (h, m, outl) ← modeUpdate 16 ⟨upd, fun _ _ _ _ => .ub⟩ h m o i inl outl
  let (st, m, rej) ← fin h.st m h.buf (o + outl)
  .ok (⟨h.buf, st⟩, m, if rej then outl else outl + h.buf.length, rej)

/-- `update` calls with the chunks `ns`, then `do_final` with `last` bytes, or nothing (`none`: abandoned).  Cursors as in
`streamRun`.  Result: object, memory, `out` cursor, whether `do_final` threw. -/
def msgRunX (upd : BlockFn St) (fin : St → Mem → List Byte → Nat → Outcome (St × Mem × Bool)) (last : Option Nat) :
    ModeObj St → Mem → Nat → Nat → List Nat → Outcome (ModeObj St × Mem × Nat × Bool)
  | h, m, o, i, [] =>
    match last with
    | none => .ok (h, m, o, false)
    | some n => finalX upd fin h m o i n 0 >>= fun r => .ok (r.1, r.2.1, o + r.2.2.1, r.2.2.2)
  | h, m, o, i, n :: ns =>
    modeUpdate 16 ⟨upd, fun _ _ _ _ => .ub⟩ h m o i n 0 >>= fun r => msgRunX upd fin last r.1 r.2.1 (o + r.2.2) (i + n) ns

/-- One message: key, IV, AAD, the expected tag (decryption only), the caller's memory, where output and input are, the
chunks. -/
structure GMsg where
  E : List Byte → List Byte
  iv : List Byte
  aad : List Byte
  tag : List Byte
  m : Mem
  o : Nat
  i : Nat
  ns : List Nat
  last : Option Nat

/-- A history on a `GcmEncryptor`.  For each message: memory, `out` cursor, what `get_tag` (gcm_mode.h 189-192) then returns. -/
def encHist (PAR : Nat) : ModeObj St → List GMsg → Outcome (List (Mem × Nat × List Byte))
  | _, [] => .ok []
  | h, a :: as =>
    let C : BCipher := ⟨16, PAR, a.E, a.E⟩
    encInit a.E h a.iv a.aad >>= fun h => msgRunX (encUpd C) (encFinX C) a.last h a.m a.o a.i a.ns >>= fun r =>
      encHist PAR r.1 as >>= fun l => .ok ((r.2.1, r.2.2.1, r.1.st.tag) :: l)

/-- A history on a `GcmDecryptor`: `init`, `set_tag`, the data.  For each message: memory, `out` cursor, whether `do_final`
threw. -/
def decHist (PAR : Nat) : ModeObj St → List GMsg → Outcome (List (Mem × Nat × Bool))
  | _, [] => .ok []
  | h, a :: as =>
    let C : BCipher := ⟨16, PAR, a.E, a.E⟩
    decInit a.E h a.iv a.aad >>= fun h => msgRunX (decUpd C) (decFinX C) a.last (setTag h a.tag) a.m a.o a.i a.ns >>= fun r =>
      decHist PAR r.1 as >>= fun l => .ok (r.2 :: l)

end Verif.Gcm
