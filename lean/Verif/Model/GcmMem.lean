import Verif.Model.GcmHist
import Verif.Model.HashMem
/-!
# Several GCM objects working on the caller's memory (include/gmlib/block_cipher_mode/gcm_mode.h)

The caller owns one memory, any number of `GcmEncryptor`s and any number of `GcmDecryptor`s of one cipher class; their calls
are interleaved in any way.  Keys, IVs, associated data, tags, inputs and outputs are places in the memory.  The array
`static t` of gcm_mode.h 317 belongs to the template instance: there is one for all the decryptors.  The length variable is 0
before every call.
-/
namespace Verif.GcmMem
open Verif Verif.HashMem Verif.Gcm

/-- A cipher class: `PARALLEL_NUM`, `USER_KEY_LEN`, and the encryption a key selects (`cipher_.set_key`, gcm_mode.h 52). -/
structure Cls where
  PAR : Nat
  keyLen : Nat
  sched : List Byte → (List Byte → List Byte)

/-- An object with the encryption its last `init` selected. -/
structure Obj where
  E : List Byte → List Byte
  obj : ModeObj St

/-- A step of the caller's program: a store of their own, or a call on encryptor or decryptor number `k`.  `init` has the key
at `q`, `l` octets of IV at `p` and `n` octets of associated data at `a`. -/
inductive Call where
  | store (p : Nat) (bs : List Byte)
  | encInit (k q p l a n : Nat)
  | encUpdate (k o i n : Nat)
  | encFinal (k o i n : Nat)
  | getTag (k p : Nat)
  | decInit (k q p l a n : Nat)
  | setTag (k p : Nat)
  | decUpdate (k o i n : Nat)
  | decFinal (k o i n : Nat)

/-- The memory, the objects, `static t`, and what `*outl` was after each `update` and `do_final`, with whether the call threw. -/
structure World where
  mem : Mem
  enc : Nat → Obj
  dec : Nat → Obj
  stat : List Byte
  log : List (Nat × Bool)

/-- A decryptor together with the array it shares with the others (gcm_mode.h 317). -/
def view (stat : List Byte) (h : ModeObj St) : ModeObj St := ⟨h.buf, { h.st with stat := stat }⟩

/-- One step. -/
def call (c : Cls) (w : World) : Call → Outcome World
  | .store p bs => if p + bs.length ≤ w.mem.length then .ok { w with mem := wrm w.mem p bs } else .ub
  -- gcm_mode.h 168-187 (and 44-74): everything is copied or hashed, no pointer is kept
  | .encInit k q p l a n => do
    let key ← get w.mem q c.keyLen
    let iv ← get w.mem p l
    let aad ← get w.mem a n
    let h ← Gcm.encInit (c.sched key) (w.enc k).obj iv aad
    .ok { w with enc := put w.enc k ⟨c.sched key, h⟩ }
  -- block_cipher_mode.h 31-79, gcm_mode.h 195-209
  | .encUpdate k o i n => do
    let b := w.enc k
    let r ← modeUpdate 16 ⟨encUpd ⟨16, c.PAR, b.E, b.E⟩, fun _ _ _ _ => .ub⟩ b.obj w.mem o i n 0
    .ok { w with mem := r.2.1, enc := put w.enc k ⟨b.E, r.1⟩, log := w.log ++ [(r.2.2, false)] }
  -- block_cipher_mode.h 81-90, gcm_mode.h 211-237
  | .encFinal k o i n => do
    let b := w.enc k
    let C : BCipher := ⟨16, c.PAR, b.E, b.E⟩
    let r ← finalX (encUpd C) (encFinX C) b.obj w.mem o i n 0
    .ok { w with mem := r.2.1, enc := put w.enc k ⟨b.E, r.1⟩, log := w.log ++ [r.2.2] }
  -- gcm_mode.h 189-192
  | .getTag k p =>
    if p + 16 ≤ w.mem.length then .ok { w with mem := wrm w.mem p (w.enc k).obj.st.tag } else .ub
  -- gcm_mode.h 267-285
  | .decInit k q p l a n => do
    let key ← get w.mem q c.keyLen
    let iv ← get w.mem p l
    let aad ← get w.mem a n
    let h ← Gcm.decInit (c.sched key) (w.dec k).obj iv aad
    .ok { w with dec := put w.dec k ⟨c.sched key, h⟩ }
  -- gcm_mode.h 287-290
  | .setTag k p => do
    let t ← get w.mem p 16
    .ok { w with dec := put w.dec k ⟨(w.dec k).E, Gcm.setTag (w.dec k).obj t⟩ }
  -- block_cipher_mode.h 31-79, gcm_mode.h 293-311
  | .decUpdate k o i n => do
    let b := w.dec k
    let r ← modeUpdate 16 ⟨decUpd ⟨16, c.PAR, b.E, b.E⟩, fun _ _ _ _ => .ub⟩ (view w.stat b.obj) w.mem o i n 0
    .ok { w with mem := r.2.1, dec := put w.dec k ⟨b.E, r.1⟩, log := w.log ++ [(r.2.2, false)] }
  -- block_cipher_mode.h 81-90, gcm_mode.h 313-343
  | .decFinal k o i n => do
    let b := w.dec k
    let C : BCipher := ⟨16, c.PAR, b.E, b.E⟩
    let r ← finalX (decUpd C) (decFinX C) (view w.stat b.obj) w.mem o i n 0
    .ok { w with mem := r.2.1, dec := put w.dec k ⟨b.E, r.1⟩, stat := r.1.st.stat, log := w.log ++ [r.2.2] }

/-- A program. -/
def run (c : Cls) : List Call → World → Outcome World
  | [], w => .ok w
  | x :: xs, w => do
    let w ← call c w x
    run c xs w

end Verif.GcmMem
