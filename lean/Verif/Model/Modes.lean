import Verif.Model.Word
import Verif.Model.Outcome
import Verif.Model.Limbs
/-!
# `block_cipher_mode::*` (include/gmlib/block_cipher_mode/*.h)

The caller's memory is one flat byte array `Mem`; `in` and `out` are positions in it, so overlapping and
in-place calls are expressible.  The mode object's members (`buf_`, `iv_`, key schedule) are separate.
A `memxor`/`memcpy`/cipher call reads its operands completely before it writes (that is how these behave
for disjoint or identical ranges; memxor itself is modelled chunk by chunk in Model/MemUtil.lean).
-/
namespace Verif

abbrev Mem := List Byte

/-- `n` bytes of memory at `p`. -/
def rdm (m : Mem) (p n : Nat) : List Byte := (m.drop p).take n
/-- Store `bs` at `p`. -/
def wrm (m : Mem) (p : Nat) (bs : List Byte) : Mem := m.take p ++ bs ++ m.drop (p + bs.length)

def xorBytes (a b : List Byte) : List Byte := List.zipWith (· ^^^ ·) a b

/-- The `in` pointer of `update_blocks`: into the caller's memory, or the member array `buf_`
(block_cipher_mode.h 65, 88). -/
inductive Src where
  | ptr (p : Nat)
  | buf (b : List Byte)

def Src.read (m : Mem) : Src → Nat → List Byte
  | .ptr p, n => rdm m p n
  | .buf b, n => b.take n

/-- `in += k`. -/
def Src.adv : Src → Nat → Src
  | .ptr p, k => .ptr (p + k)
  | .buf b, k => .buf (b.drop k)

/-- A keyed block cipher as used by the modes: block size, `PARALLEL_NUM`, forward and inverse function
(block_cipher.h 9-39). -/
structure BCipher where
  BS : Nat
  PAR : Nat
  E : List Byte → List Byte
  D : List Byte → List Byte

/-- Apply a block function to each of the `n` blocks of `data`. -/
def mapBlocks (f : List Byte → List Byte) (BS : Nat) : Nat → List Byte → List Byte
  | 0, _ => []
  | n + 1, data => f (data.take BS) ++ mapBlocks f BS n (data.drop BS)

/-- A block routine: state, memory, `in`, `out`, `block_num`. -/
abbrev BlockFn (S : Type) := S → Mem → Src → Nat → Nat → Outcome (S × Mem)

/-- `while (block_num >= PAR) { f(PAR) } if (block_num) { f(block_num) }`: the driver of
CBC decryption (cbc_mode.h 122-146), CFB decryption (cfb_mode.h 117-136), CTR (ctr_mode.h 75-87) and
GCTR (gcm_mode.h 113-125).  `PARALLEL_NUM = 0` never occurs (it would loop forever). -/
def batches {S} (f : BlockFn S) (BS PAR : Nat) (s : S) (m : Mem) (src : Src) (o n : Nat) : Outcome (S × Mem) :=
  if _h : 0 < PAR ∧ PAR ≤ n then do
    let (s, m) ← f s m src o PAR
    batches f BS PAR s m (src.adv (PAR * BS)) (o + PAR * BS) (n - PAR)
  else if n ≠ 0 then f s m src o n
  else .ok (s, m)
termination_by n

/-- `while (block_num) { f(1); in += BS, out += BS, block_num--; }`: the driver of CBC encryption
(cbc_mode.h 51-57), CFB encryption (cfb_mode.h 51-57), OFB (ofb_mode.h 66-71) and the remainder loops of the
ciphers' multi-block functions (src/sm4/sm4_lang18.cpp 739-745, src/aes/aes_lut.cpp block loops). -/
def singles {S} (f : BlockFn S) (BS : Nat) : S → Mem → Src → Nat → Nat → Outcome (S × Mem)
  | s, m, _, _, 0 => .ok (s, m)
  | s, m, src, o, n + 1 => do
    let (s, m) ← f s m src o 1
    singles f BS s m (src.adv BS) (o + BS) n

/-- A call `encrypt_blocks(out, in, k)` on `k` blocks that are all loaded before anything is stored. -/
def cipherBatch {S} (f : List Byte → List Byte) (BS : Nat) : BlockFn S := fun s m src o k =>
  .ok (s, wrm m o (mapBlocks f BS k (src.read m (k * BS))))

/-- `Cipher::encrypt_blocks` / `decrypt_blocks` on caller memory: `PAR` blocks at a time, then one by one
(sm4_lang18.cpp 719-746; aes_lut.cpp, where `PAR = 1`). -/
def cipherBlocks {S} (f : List Byte → List Byte) (BS PAR : Nat) (s : S) (m : Mem) (src : Src) (o n : Nat) :
    Outcome (S × Mem) :=
  if _h : 0 < PAR ∧ PAR ≤ n then do
    let (s, m) ← cipherBatch f BS s m src o PAR
    cipherBlocks f BS PAR s m (src.adv (PAR * BS)) (o + PAR * BS) (n - PAR)
  else singles (cipherBatch f BS) BS s m src o n
termination_by n

/-- What a concrete mode class supplies: `update_blocks` and `final_block` (block_cipher_mode.h 93-99). -/
structure ModeImpl (S : Type) where
  upd : BlockFn S
  fin : S → Mem → List Byte → Nat → Outcome (S × Mem)

/-! ## ECB (ecb_mode.h) -/

/-- ecb_mode.h 40-62 (encryptor, `f = E`) and 95-117 (decryptor, `f = D`). The state is not used. -/
def ecbImpl (f : List Byte → List Byte) (BS PAR : Nat) : ModeImpl (List Byte) where
  upd := cipherBlocks f BS PAR
  fin s m inp o :=
    if inp.length = 0 then .ok (s, m)
    else if inp.length ≠ BS then .throw
    else .ok (s, wrm m o (f inp))

/-! ## CBC (cbc_mode.h).  The state is `iv_`. -/

/-- One round of `CbcEncryptor::update_blocks` (cbc_mode.h 53-56).  `cur_iv` points at the block just
written (or at `iv_` before the first round); nothing writes there before it is read, so the value is
carried instead of the pointer; after the loop line 58 stores the same value in `iv_`. -/
def cbcEncStep (E : List Byte → List Byte) (BS : Nat) : BlockFn (List Byte) := fun iv m src o _ =>
  let c := E (xorBytes (src.read m BS) iv)
  .ok (c, wrm m o c)

/-- One batch of `k` blocks of `CbcDecryptor::update_blocks` (cbc_mode.h 124-133 and 137-145).  The second
`memxor` reads `in` again *after* the first one has written `out`. -/
def cbcDecBatch (D : List Byte → List Byte) (BS : Nat) : BlockFn (List Byte) := fun iv m src o k =>
  let next := (src.adv ((k - 1) * BS)).read m BS
  let buffer := mapBlocks D BS k (src.read m (k * BS))
  let m := wrm m o (xorBytes (buffer.take BS) iv)
  let m := wrm m (o + BS) (xorBytes (buffer.drop BS) (src.read m ((k - 1) * BS)))
  .ok (next, m)

/-- `final_block` of both CBC classes (cbc_mode.h 61-76, 149-164). -/
def cbcFin (upd : BlockFn (List Byte)) (BS : Nat) (iv : List Byte) (m : Mem) (inp : List Byte) (o : Nat) :
    Outcome (List Byte × Mem) :=
  if inp.length = 0 then .ok (iv, m)
  else if inp.length ≠ BS then .throw
  else upd iv m (.buf inp) o 1

def cbcEncImpl (C : BCipher) : ModeImpl (List Byte) where
  upd := singles (cbcEncStep C.E C.BS) C.BS
  fin := cbcFin (singles (cbcEncStep C.E C.BS) C.BS) C.BS

def cbcDecImpl (C : BCipher) : ModeImpl (List Byte) where
  upd := batches (cbcDecBatch C.D C.BS) C.BS C.PAR
  fin := cbcFin (batches (cbcDecBatch C.D C.BS) C.BS C.PAR) C.BS

/-! ## CFB (cfb_mode.h) -/

/-- One round of `CfbEncryptor::update_blocks` (cfb_mode.h 53-56); `pre_ct` carried as a value. -/
def cfbEncStep (E : List Byte → List Byte) (BS : Nat) : BlockFn (List Byte) := fun iv m src o _ =>
  let c := xorBytes (src.read m BS) (E iv)
  .ok (c, wrm m o c)

/-- One batch of `CfbDecryptor::update_blocks` (cfb_mode.h 119-125, 129-135). -/
def cfbDecBatch (E : List Byte → List Byte) (BS : Nat) : BlockFn (List Byte) := fun iv m src o k =>
  let buffer := iv ++ src.read m ((k - 1) * BS)
  let iv' := (src.adv (k * BS - BS)).read m BS
  let ks := mapBlocks E BS k buffer
  .ok (iv', wrm m o (xorBytes (src.read m (k * BS)) ks))

/-- `final_block` of the CFB classes (cfb_mode.h 61-71, 139-149); the operand order of the xor is immaterial. -/
def cfbFin (E : List Byte → List Byte) (iv : List Byte) (m : Mem) (inp : List Byte) (o : Nat) :
    Outcome (List Byte × Mem) :=
  if inp.length = 0 then .ok (iv, m)
  else .ok (E iv, wrm m o (xorBytes inp (E iv)))

def cfbEncImpl (C : BCipher) : ModeImpl (List Byte) where
  upd := singles (cfbEncStep C.E C.BS) C.BS
  fin := cfbFin C.E

def cfbDecImpl (C : BCipher) : ModeImpl (List Byte) where
  upd := batches (cfbDecBatch C.E C.BS) C.BS C.PAR
  fin := cfbFin C.E

/-! ## OFB (ofb_mode.h) -/

/-- `gen_key_stream(key_stream, 1)` and the xor (ofb_mode.h 44-56, 68-70). -/
def ofbStep (E : List Byte → List Byte) (BS : Nat) : BlockFn (List Byte) := fun iv m src o _ =>
  .ok (E iv, wrm m o (xorBytes (src.read m BS) (E iv)))

/-- ofb_mode.h 59-87. -/
def ofbImpl (C : BCipher) : ModeImpl (List Byte) where
  upd := singles (ofbStep C.E C.BS) C.BS
  fin iv m inp o :=
    if inp.length = 0 then .ok (iv, m) else .ok (C.E iv, wrm m o (xorBytes inp (C.E iv)))

/-! ## CTR (ctr_mode.h, internal/ctr_inc.h) -/

/-- One word of the 32-bit increments (ctr_inc.h 14-17, 23-30): load, add the carry, store; returns the
stored bytes and the 64-bit `tmp` whose high half is the next carry. -/
def incWord (carry : W64) (w : List Byte) : List Byte × W64 :=
  match w with
  | [b0, b1, b2, b3] =>
    let tmp : W64 := (memLoad32BE b0 b1 b2 b3).setWidth 64 + carry
    (memStore32BE ((tmp &&& 0xFFFFFFFF#64).setWidth 32), tmp)
  | _ => ([], 0)

/-- `ctr_inc8` (ctr_inc.h 11-18). -/
def ctrInc8 (inp : List Byte) : List Byte :=
  let (w1, t) := incWord 1 ((inp.drop 4).take 4)
  let (w0, _) := incWord (t >>> 32) (inp.take 4)
  w0 ++ w1

/-- `ctr_inc16` (ctr_inc.h 20-31). -/
def ctrInc16 (inp : List Byte) : List Byte :=
  let (w3, t) := incWord 1 ((inp.drop 12).take 4)
  let (w2, t) := incWord (t >>> 32) ((inp.drop 8).take 4)
  let (w1, t) := incWord (t >>> 32) ((inp.drop 4).take 4)
  let (w0, _) := incWord (t >>> 32) (inp.take 4)
  w0 ++ w1 ++ w2 ++ w3

/-- Loop of `ctr_inc_n` (ctr_inc.h 37-44) over the bytes from the last to the first, in a 16-bit `t`. -/
def ctrIncLoop : List Byte → BitVec 16 → List Byte
  | [], _ => []
  | b :: bs, t =>
    let t := t + b.setWidth 16
    (t &&& 0xFF#16).setWidth 8 :: ctrIncLoop bs (t >>> 8)

/-- `ctr_inc_n` (ctr_inc.h 33-45). -/
def ctrIncN (inp : List Byte) : List Byte := (ctrIncLoop inp.reverse 1).reverse

/-- `ctr_inc<BLOCK_SIZE>` (ctr_inc.h 47-61). -/
def ctrInc (BS : Nat) (inp : List Byte) : List Byte :=
  if BS = 16 then ctrInc16 inp else if BS = 8 then ctrInc8 inp else ctrIncN inp

/-- The `k` counter blocks written by `gen_block_key_stream` (ctr_mode.h 52-60, gcm_mode.h 84-92) and the
next value of `counter_`. -/
def ctrBlocks (inc : List Byte → List Byte) : Nat → List Byte → List Byte × List Byte
  | 0, c => ([], c)
  | n + 1, c =>
    let (rest, c') := ctrBlocks inc n (inc c)
    (c ++ rest, c')

/-- One batch of CTR (`gen_block_key_stream` ctr_mode.h 44-63 and the xor on lines 78, 86). -/
def ctrBatch (E inc : List Byte → List Byte) (BS : Nat) : BlockFn (List Byte) := fun c m src o k =>
  let (cs, c') := ctrBlocks inc k c
  .ok (c', wrm m o (xorBytes (src.read m (k * BS)) (mapBlocks E BS k cs)))

/-- ctr_mode.h 66-103. -/
def ctrImpl (C : BCipher) (inc : List Byte → List Byte) : ModeImpl (List Byte) where
  upd := batches (ctrBatch C.E inc C.BS) C.BS C.PAR
  fin c m inp o :=
    if inp.length = 0 then .ok (c, m)
    else
      let (cs, c') := ctrBlocks inc 1 c
      .ok (c', wrm m o (xorBytes inp (mapBlocks C.E C.BS 1 cs)))

/-! ## The streaming base class `BlockCipherMode<BLOCK_SIZE>` (block_cipher_mode.h) -/

/-- Object state: `buf_[0..buf_size_)` and the derived class's chaining state. -/
structure ModeObj (S : Type) where
  buf : List Byte
  st : S
deriving DecidableEq

/-- Lines 44-50 and 71-77: whole blocks straight from the caller's memory, then the tail into `buf_`.
Returns the object, the memory and the final value of the `out` pointer. -/
def modeBulk {S} (BS : Nat) (I : ModeImpl S) (st : S) (m : Mem) (o i inl : Nat) :
    Outcome (ModeObj S × Mem × Nat) := do
  let n := inl / BS
  let size := n * BS
  let (st, m) ← I.upd st m (.ptr i) o n
  .ok (⟨rdm m (i + size) (inl - size), st⟩, m, o + size)

/-- `BlockCipherMode::update` (block_cipher_mode.h 31-79).  `outl` is the value of `*outl` before the call;
the result contains its value after the call. -/
def modeUpdate {S} (BS : Nat) (I : ModeImpl S) (h : ModeObj S) (m : Mem) (o i inl : Nat) (outl : Nat) :
    Outcome (ModeObj S × Mem × Nat) :=
  if inl = 0 then .ok (h, m, 0)
  else if h.buf.length = 0 then do
    let (h, m, o') ← modeBulk BS I h.st m o i inl
    .ok (h, m, o' - o)
  else do
    let size := if BS - h.buf.length > inl then inl else BS - h.buf.length
    let buf := h.buf ++ rdm m i size
    if buf.length = BS then do
      let (st, m) ← I.upd h.st m (.buf buf) o 1
      let (h, m, o') ← modeBulk BS I st m (o + BS) (i + size) (inl - size)
      .ok (h, m, o' - o)
    else .ok (⟨buf, h.st⟩, m, outl)

/-- `BlockCipherMode::do_final` (block_cipher_mode.h 81-90). -/
def modeFinal {S} (BS : Nat) (I : ModeImpl S) (h : ModeObj S) (m : Mem) (o i inl : Nat) (outl : Nat) :
    Outcome (ModeObj S × Mem × Nat) := do
  let (h, m, outl) ← modeUpdate BS I h m o i inl outl
  let (st, m) ← I.fin h.st m h.buf (o + outl)
  .ok (⟨h.buf, st⟩, m, outl + h.buf.length)

/-- `init(user_key, iv)` (cbc_mode.h 31-35 and the other modes): sets the key (here: selects the
implementation) and the chaining value; it does not touch `buf_size_`. -/
def modeInit {S} (h : ModeObj S) (iv : S) : ModeObj S := ⟨h.buf, iv⟩

/-- `reset(iv)` (cbc_mode.h 37-41 and the other modes). -/
def modeReset {S} (_ : ModeObj S) (iv : S) : ModeObj S := ⟨[], iv⟩

end Verif
