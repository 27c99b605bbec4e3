import Verif.Model.Modes
import Verif.Model.Ghash
/-!
# GCM (include/gmlib/block_cipher_mode/gcm_mode.h, internal/gctr_inc.h)

Lengths are natural numbers standing for values of `size_t`/`uint64_t`; the wrap-around tests
`nxt_ct_len < ct_len_` of the code are, for 64-bit operands, the tests `ct_len_ + inl ≥ 2^64` below.
An exception discards the resulting memory in the model.
-/
namespace Verif.Gcm
open Verif.Ghash (Ctx)

/-- `gctr_inc` (internal/gctr_inc.h 8-16); the three type-punned 32-bit copies copy 12 bytes. -/
def gctrInc (inp : List Byte) : List Byte :=
  match inp.drop 12 with
  | [b0, b1, b2, b3] => inp.take 12 ++ memStore32BE (memLoad32BE b0 b1 b2 b3 + 1)
  | _ => []

/-- `GctrCryptor::gen_block_key_stream`, `update_blocks`, `final_block` (gcm_mode.h 77-138): the same text as in
ctr_mode.h with another increment. -/
def gctrImpl (C : BCipher) : ModeImpl (List Byte) := ctrImpl C gctrInc

/-- The members of `GcmEncryptor`/`GcmDecryptor` (gcm_mode.h 22-24, 151-153, 250-252).  `tag` is the tag produced
(encryption) or expected (decryption).  `stat` is the function-local `static t[16]` of `GcmDecryptor::final_block`
(line 317): it belongs to the process, not to the object. -/
structure St where
  counter : List Byte
  counter0 : List Byte
  hash : HashObj Ctx
  ctLen : Nat
  aadLen : Nat
  tag : List Byte
  stat : List Byte

def zeros (n : Nat) : List Byte := List.replicate n 0

/-- `store64_be(t, a); store64_be(t + 8, b)`. -/
def lenBlock (a b : Nat) : List Byte :=
  Sm3.memStore64BE (BitVec.ofNat 64 a) ++ Sm3.memStore64BE (BitVec.ofNat 64 b)

/-- `GctrCryptor::init` (gcm_mode.h 44-74): returns `counter0_` and the hash object. -/
def gctrInit (E : List Byte → List Byte) (hash : HashObj Ctx) (iv : List Byte) :
    Outcome (List Byte × HashObj Ctx) :=
  let hash := Ghash.setKey hash (E (zeros 16))
  if iv.length = 12 then .ok (iv ++ [0, 0, 0, 1], hash)
  else do
    let hash ← hashUpdate 16 Ghash.impl hash iv
    let hash ← hashUpdate 16 Ghash.impl hash (zeros ((16 - iv.length % 16) % 16))
    let hash ← hashUpdate 16 Ghash.impl hash (lenBlock 0 (iv.length * 8))
    let r ← hashFinal 16 Ghash.impl hash []
    .ok (r.2, Ghash.reset r.1)

/-- `UINT64_MAX / 8`. -/
def maxLen : Nat := (2 ^ 64 - 1) / 8

/-- `GcmEncryptor::init` (gcm_mode.h 168-187).  The buffer of the streaming base class is not touched. -/
def encInit (E : List Byte → List Byte) (o : ModeObj St) (iv aad : List Byte) : Outcome (ModeObj St) :=
  if aad.length > maxLen then .throw
  else do
    let r ← gctrInit E o.st.hash iv
    let hash ← hashUpdate 16 Ghash.impl r.2 aad
    let hash ← hashUpdate 16 Ghash.impl hash (zeros ((16 - aad.length % 16) % 16))
    .ok ⟨o.buf, { o.st with counter0 := r.1, counter := gctrInc r.1, hash := hash, aadLen := aad.length,
                            ctLen := 0, tag := zeros 16 }⟩

/-- `GcmEncryptor::update_blocks` (gcm_mode.h 195-209). -/
def encUpd (C : BCipher) : BlockFn St := fun s m src o n => do
  let r ← (gctrImpl C).upd s.counter m src o n
  let outl := n * 16
  let nxt := s.ctLen + outl
  if nxt ≥ 2 ^ 64 ∨ nxt > maxLen then .throw
  else do
    let hash ← hashUpdate 16 Ghash.impl s.hash (rdm r.2 o outl)
    .ok ({ s with counter := r.1, ctLen := nxt, hash := hash }, r.2)

/-- `GcmEncryptor::final_block` (gcm_mode.h 211-237). -/
def encFin (C : BCipher) (s : St) (m : Mem) (inp : List Byte) (o : Nat) : Outcome (St × Mem) := do
  let (s, m) ← (if inp.length ≠ 0 then do
      let r ← (gctrImpl C).fin s.counter m inp o
      let hash ← hashUpdate 16 Ghash.impl s.hash (rdm r.2 o inp.length)
      let hash ← hashUpdate 16 Ghash.impl hash (zeros ((16 - inp.length % 16) % 16))
      let nxt := s.ctLen + inp.length
      if nxt ≥ 2 ^ 64 ∨ nxt > maxLen then .throw
      else .ok ({ s with counter := r.1, hash := hash, ctLen := nxt }, r.2)
    else .ok (s, m) : Outcome (St × Mem))
  let hash ← hashUpdate 16 Ghash.impl s.hash (lenBlock (s.aadLen * 8) (s.ctLen * 8))
  let r ← hashFinal 16 Ghash.impl hash []
  .ok ({ s with hash := r.1, tag := xorBytes r.2 (C.E s.counter0) }, m)

def encImpl (C : BCipher) : ModeImpl St := ⟨encUpd C, encFin C⟩

/-- `GcmDecryptor::init` (gcm_mode.h 267-285). -/
def decInit (E : List Byte → List Byte) (o : ModeObj St) (iv aad : List Byte) : Outcome (ModeObj St) :=
  if aad.length > maxLen then .throw
  else do
    let r ← gctrInit E o.st.hash iv
    let hash ← hashUpdate 16 Ghash.impl r.2 aad
    let hash ← hashUpdate 16 Ghash.impl hash (zeros ((16 - aad.length % 16) % 16))
    .ok ⟨o.buf, { o.st with counter0 := r.1, counter := gctrInc r.1, hash := hash, aadLen := aad.length,
                            ctLen := 0 }⟩

/-- `GcmDecryptor::set_tag` (gcm_mode.h 287-290). -/
def setTag (o : ModeObj St) (tag : List Byte) : ModeObj St := ⟨o.buf, { o.st with tag := tag }⟩

/-- `GcmDecryptor::update_blocks` (gcm_mode.h 293-311). -/
def decUpd (C : BCipher) : BlockFn St := fun s m src o n =>
  if n = 0 then .ok (s, m)
  else do
    let nxt := s.ctLen + n * 16
    if nxt ≥ 2 ^ 64 then .throw
    else do
      let hash ← hashUpdate 16 Ghash.impl s.hash (src.read m (n * 16))
      let r ← (gctrImpl C).upd s.counter m src o n
      .ok ({ s with counter := r.1, ctLen := nxt, hash := hash }, r.2)

/-- `GcmDecryptor::final_block` (gcm_mode.h 313-343): the second `update` pads with `static t`, which holds
zeros only until the first call in the process has overwritten it. -/
def decFin (C : BCipher) (s : St) (m : Mem) (inp : List Byte) (o : Nat) : Outcome (St × Mem) := do
  let (s, m) ← (if inp.length ≠ 0 then
      let nxt := s.ctLen + inp.length
      if nxt ≥ 2 ^ 64 then .throw
      else do
        let hash ← hashUpdate 16 Ghash.impl s.hash inp
        let hash ← hashUpdate 16 Ghash.impl hash (s.stat.take ((16 - inp.length % 16) % 16))
        let r ← (gctrImpl C).fin s.counter m inp o
        .ok ({ s with counter := r.1, hash := hash, ctLen := nxt }, r.2)
    else .ok (s, m) : Outcome (St × Mem))
  let t := lenBlock (s.aadLen * 8) (s.ctLen * 8)
  let hash ← hashUpdate 16 Ghash.impl s.hash t
  let r ← hashFinal 16 Ghash.impl hash []
  let t := C.E s.counter0
  let tag := xorBytes r.2 t
  if tag ≠ s.tag then .throw
  else .ok ({ s with hash := r.1, stat := t }, m)

def decImpl (C : BCipher) : ModeImpl St := ⟨decUpd C, decFin C⟩

/-- A newly constructed object (gcm_mode.h 156, 255: `= default`) in a process whose `static t` holds `stat`.
The members other than the empty buffers are indeterminate; `junk` stands for them. -/
def fresh (junk : St) (stat : List Byte) : ModeObj St :=
  ⟨[], { junk with hash := ⟨[], junk.hash.st⟩, stat := stat }⟩

end Verif.Gcm
