import Verif.Model.Gcm
import Verif.Model.GhashPclmul
/-!
# GCM over the carry-less-multiplication build of `GHash` (include/gmlib/block_cipher_mode/gcm_mode.h)

The same text as `Model/Gcm.lean` with the class `GHash` of ghash_pclmul.cpp, which `CPU_FLAG_PCLMUL` selects (CMakeLists.txt
29), in place of the one of ghash_lut256.cpp.
-/
namespace Verif.GcmPclmul
open Verif.GhashPclmul (Ctx)
open Verif.Gcm (gctrInc gctrImpl zeros lenBlock maxLen)

/-- The members of `GcmEncryptor`/`GcmDecryptor` (gcm_mode.h 22-24, 151-153, 250-252).  `tag` is the tag produced
(encryption) or expected (decryption).  `stat` is the function-local `static t[16]` of `GcmDecryptor::final_block`
(line 317): it belongs to the process, not to the object. -/
structure St where
  counter : List Byte
  counter0 : List Byte
  hash : HashObj Ctx
  ctLen : Nat
  aadLen : Nat
  tag : List Byte
  stat : List Byte

/-- `GctrCryptor::init` (gcm_mode.h 44-74): returns `counter0_` and the hash object. -/
def gctrInit (E : List Byte → List Byte) (hash : HashObj Ctx) (iv : List Byte) :
    Outcome (List Byte × HashObj Ctx) :=
  let hash := GhashPclmul.setKey hash (E (zeros 16))
  if iv.length = 12 then .ok (iv ++ [0, 0, 0, 1], hash)
  else do
    let hash ← hashUpdate 16 GhashPclmul.impl hash iv
    let hash ← hashUpdate 16 GhashPclmul.impl hash (zeros ((16 - iv.length % 16) % 16))
    let hash ← hashUpdate 16 GhashPclmul.impl hash (lenBlock 0 (iv.length * 8))
    let r ← hashFinal 16 GhashPclmul.impl hash []
    .ok (r.2, GhashPclmul.reset r.1)

/-- `GcmEncryptor::init` (gcm_mode.h 168-187).  The buffer of the streaming base class is not touched. -/
def encInit (E : List Byte → List Byte) (o : ModeObj St) (iv aad : List Byte) : Outcome (ModeObj St) :=
  if aad.length > maxLen then .throw
  else do
    let r ← gctrInit E o.st.hash iv
    let hash ← hashUpdate 16 GhashPclmul.impl r.2 aad
    let hash ← hashUpdate 16 GhashPclmul.impl hash (zeros ((16 - aad.length % 16) % 16))
    .ok ⟨o.buf, { o.st with counter0 := r.1, counter := gctrInc r.1, hash := hash, aadLen := aad.length,
                            ctLen := 0, tag := zeros 16 }⟩

/-- `GcmEncryptor::update_blocks` (gcm_mode.h 195-209). -/
def encUpd (C : BCipher) : BlockFn St := fun s m src o n => do
  let r ← (gctrImpl C).upd s.counter m src o n
  let outl := n * 16
  let nxt := s.ctLen + outl
  if nxt ≥ 2 ^ 64 ∨ nxt > maxLen then .throw
  else do
    let hash ← hashUpdate 16 GhashPclmul.impl s.hash (rdm r.2 o outl)
    .ok ({ s with counter := r.1, ctLen := nxt, hash := hash }, r.2)

/-- `GcmEncryptor::final_block` (gcm_mode.h 211-237). -/
def encFin (C : BCipher) (s : St) (m : Mem) (inp : List Byte) (o : Nat) : Outcome (St × Mem) := do
  let (s, m) ← (if inp.length ≠ 0 then do
      let r ← (gctrImpl C).fin s.counter m inp o
      let hash ← hashUpdate 16 GhashPclmul.impl s.hash (rdm r.2 o inp.length)
      let hash ← hashUpdate 16 GhashPclmul.impl hash (zeros ((16 - inp.length % 16) % 16))
      let nxt := s.ctLen + inp.length
      if nxt ≥ 2 ^ 64 ∨ nxt > maxLen then .throw
      else .ok ({ s with counter := r.1, hash := hash, ctLen := nxt }, r.2)
    else .ok (s, m) : Outcome (St × Mem))
  let hash ← hashUpdate 16 GhashPclmul.impl s.hash (lenBlock (s.aadLen * 8) (s.ctLen * 8))
  let r ← hashFinal 16 GhashPclmul.impl hash []
  .ok ({ s with hash := r.1, tag := xorBytes r.2 (C.E s.counter0) }, m)

def encImpl (C : BCipher) : ModeImpl St := ⟨encUpd C, encFin C⟩

/-- `GcmDecryptor::init` (gcm_mode.h 267-285). -/
def decInit (E : List Byte → List Byte) (o : ModeObj St) (iv aad : List Byte) : Outcome (ModeObj St) :=
  if aad.length > maxLen then .throw
  else do
    let r ← gctrInit E o.st.hash iv
    let hash ← hashUpdate 16 GhashPclmul.impl r.2 aad
    let hash ← hashUpdate 16 GhashPclmul.impl hash (zeros ((16 - aad.length % 16) % 16))
    .ok ⟨o.buf, { o.st with counter0 := r.1, counter := gctrInc r.1, hash := hash, aadLen := aad.length,
                            ctLen := 0 }⟩

/-- `GcmDecryptor::set_tag` (gcm_mode.h 287-290). -/
def setTag (o : ModeObj St) (tag : List Byte) : ModeObj St := ⟨o.buf, { o.st with tag := tag }⟩

/-- `GcmDecryptor::update_blocks` (gcm_mode.h 293-311). -/
def decUpd (C : BCipher) : BlockFn St := fun s m src o n =>
  if n = 0 then .ok (s, m)
  else do
    let nxt := s.ctLen + n * 16
    if nxt ≥ 2 ^ 64 then .throw
    else do
      let hash ← hashUpdate 16 GhashPclmul.impl s.hash (src.read m (n * 16))
      let r ← (gctrImpl C).upd s.counter m src o n
      .ok ({ s with counter := r.1, ctLen := nxt, hash := hash }, r.2)

/-- `GcmDecryptor::final_block` (gcm_mode.h 313-343): the second `update` pads with `static t`, which holds
zeros only until the first call in the process has overwritten it. -/
def decFin (C : BCipher) (s : St) (m : Mem) (inp : List Byte) (o : Nat) : Outcome (St × Mem) := do
  let (s, m) ← (if inp.length ≠ 0 then
      let nxt := s.ctLen + inp.length
      if nxt ≥ 2 ^ 64 then .throw
      else do
        let hash ← hashUpdate 16 GhashPclmul.impl s.hash inp
        let hash ← hashUpdate 16 GhashPclmul.impl hash (s.stat.take ((16 - inp.length % 16) % 16))
        let r ← (gctrImpl C).fin s.counter m inp o
        .ok ({ s with counter := r.1, hash := hash, ctLen := nxt }, r.2)
    else .ok (s, m) : Outcome (St × Mem))
  let t := lenBlock (s.aadLen * 8) (s.ctLen * 8)
  let hash ← hashUpdate 16 GhashPclmul.impl s.hash t
  let r ← hashFinal 16 GhashPclmul.impl hash []
  let t := C.E s.counter0
  let tag := xorBytes r.2 t
  if tag ≠ s.tag then .throw
  else .ok ({ s with hash := r.1, stat := t }, m)

def decImpl (C : BCipher) : ModeImpl St := ⟨decUpd C, decFin C⟩

/-- A newly constructed object (gcm_mode.h 156, 255: `= default`) in a process whose `static t` holds `stat`.
The members other than the empty buffers are indeterminate; `junk` stands for them. -/
def fresh (junk : St) (stat : List Byte) : ModeObj St :=
  ⟨[], { junk with hash := ⟨[], junk.hash.st⟩, stat := stat }⟩

end Verif.GcmPclmul
