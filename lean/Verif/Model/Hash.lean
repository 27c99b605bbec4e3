import Verif.Model.Word
import Verif.Model.Outcome
/-!
# `hash_lib::Hash<BLOCK_SIZE>` and `hash_lib::HMac<Hash>`

include/gmlib/hash_lib/hash.h, include/gmlib/hash_lib/hmac.h.
-/
namespace Verif

/-- The two virtual functions a concrete hash supplies (hash.h 95-100).  `updateBlocks s data n` reads
`n` blocks starting at the pointer `data`; `finalBlock s data` returns the new context and the digest. -/
structure HashImpl (S : Type) where
  updateBlocks : S → List Byte → Nat → Outcome S
  finalBlock : S → List Byte → Outcome (S × List Byte)

/-- Object state (hash.h 14-15 and the derived class's context).  `buf` is `buf_[0 .. buf_size_)`; the
bytes of `buf_` beyond `buf_size_` are never read. -/
structure HashObj (S : Type) where
  buf : List Byte
  st : S
deriving DecidableEq

/-- `memcpy(buf_ + buf_size_, src, |src|)` into the `BS`-byte member array: writing past the end of the
array is undefined behaviour. -/
def memcpyBuf (BS : Nat) (pre src : List Byte) : Outcome (List Byte) :=
  if pre.length + src.length ≤ BS then .ok (pre ++ src) else .ub

/-- `update_blocks(in, n); in += n*BLOCK_SIZE, inl -= n*BLOCK_SIZE; if (inl) { memcpy(buf_, in, inl);
buf_size_ = inl; }` with an empty buffer (hash.h 40-47 and 68-75).  Reading more than the `inl` bytes
supplied is undefined. -/
def hashAbsorb {S} (BS : Nat) (I : HashImpl S) (st : S) (inp : List Byte) (n : Nat) :
    Outcome (HashObj S) :=
  if inp.length < n * BS then .ub
  else do
    let st ← I.updateBlocks st inp n
    let rest := inp.drop (n * BS)
    if rest.length = 0 then .ok ⟨[], st⟩
    else do
      let b ← memcpyBuf BS [] rest
      .ok ⟨b, st⟩

/-- `Hash::update` (hash.h 31-78), including the literal `64` on line 67.  `inl` is the length of `inp`. -/
def hashUpdate {S} (BS : Nat) (I : HashImpl S) (h : HashObj S) (inp : List Byte) : Outcome (HashObj S) :=
  if inp.length = 0 then .ok h
  else if h.buf.length = 0 then
    hashAbsorb BS I h.st inp (inp.length / BS)
  else do
    let size := if BS - h.buf.length > inp.length then inp.length else BS - h.buf.length
    let buf ← memcpyBuf BS h.buf (inp.take size)
    let inp := inp.drop size
    if buf.length = BS then do
      let st ← I.updateBlocks h.st buf 1
      if inp.length = 0 then .ok ⟨[], st⟩
      else hashAbsorb BS I st inp (inp.length / 64)
    else .ok ⟨buf, h.st⟩

/-- `Hash::do_final` (hash.h 80-86). -/
def hashFinal {S} (BS : Nat) (I : HashImpl S) (h : HashObj S) (inp : List Byte) :
    Outcome (HashObj S × List Byte) := do
  let h ← hashUpdate BS I h inp
  let r ← I.finalBlock h.st h.buf
  .ok (⟨h.buf, r.1⟩, r.2)

/-- A concrete hash class: block size, digest size, virtual functions and the initial context that its
constructor and `reset()` install. -/
structure HashClass (S : Type) where
  BS : Nat
  DS : Nat
  impl : HashImpl S
  init : S

/-- Freshly constructed object. -/
def HashClass.fresh {S} (C : HashClass S) : HashObj S := ⟨[], C.init⟩

/-- `reset()` of the concrete class: empties the buffer and re-initialises the context, whatever the
object went through before (hash.h 25-28, sm3.h 52-56). -/
def HashClass.reset {S} (C : HashClass S) (_ : HashObj S) : HashObj S := ⟨[], C.init⟩

/-- `HMac<Hash>` object state (hmac.h 17-18). -/
structure HMac (S : Type) where
  K : List Byte
  h : HashObj S

/-- `HMac::set_key` (hmac.h 29-54) on an object in any earlier state. -/
def HMac.setKey {S} (m : HMac S) (C : HashClass S) (key : List Byte) : Outcome (HMac S) := do
  let h := C.reset m.h
  let (K, h) ← (if key.length > C.BS then do
      let r ← hashFinal C.BS C.impl h key
      let h := C.reset r.1
      let cpy := if C.BS < C.DS then C.BS else C.DS
      .ok (r.2.take cpy ++ List.replicate (C.BS - cpy) 0, h)
    else .ok (key ++ List.replicate (C.BS - key.length) 0, h) : Outcome (List Byte × HashObj S))
  let h ← hashUpdate C.BS C.impl h (K.map (· ^^^ 0x36))
  .ok ⟨K, h⟩

/-- `HMac::update` (hmac.h 56-59). -/
def HMac.update {S} (m : HMac S) (C : HashClass S) (msg : List Byte) : Outcome (HMac S) := do
  let h ← hashUpdate C.BS C.impl m.h msg
  .ok ⟨m.K, h⟩

/-- `HMac::do_final` (hmac.h 61-79). -/
def HMac.final {S} (m : HMac S) (C : HashClass S) (msg : List Byte) : Outcome (HMac S × List Byte) := do
  let m ← m.update C msg
  let i ← hashFinal C.BS C.impl m.h []
  let h := C.reset i.1
  let h ← hashUpdate C.BS C.impl h (m.K.map (· ^^^ 0x5c))
  let h ← hashUpdate C.BS C.impl h i.2
  let r ← hashFinal C.BS C.impl h []
  .ok (⟨m.K, r.1⟩, r.2)

end Verif
