import Verif.Model.Sm2
/-!
# SM2 encryption and decryption on the caller's buffers (include/gmlib/sm2/sm2.h, sm2_alg.h)

`Model/Sm2.lean` gives the octets that are computed.  Here the plaintext and the ciphertext are places in one memory
(`Mem`, `rdm`, `wrm` of Model/Modes.lean), which may overlap, and every store happens where the code has it.  A call
returns the memory it leaves together with how it ended, so that what is in the buffers after an exception is part of
the result.  Local arrays (`x2y2`, `dk`, `buf`) lie apart from the caller's buffers.  `memxor` reads its operands before
it writes (see Model/Modes.lean).
-/
namespace Verif.Sm2
section
variable {S : Type} (C : HashClass S)

/-- The two loops of `sm2_kdf_xor` (sm2_alg.h 57-76) with `out` and `in` in the caller's memory: the memory, and
`all_zero`. -/
def kdfLoopM (Z : List Byte) : Nat → W32 → Bool → Mem → Nat → Nat → Nat → Mem × Outcome Bool
  | 0, _, _, m, _, _, _ => (m, .ub)
  | fuel + 1, ct, allZero, m, out, inp, inl =>
    if inl ≥ C.DS then
      match C.stream [Z] (MemUtil.store32be ct) with
      | .throw => (m, .throw)
      | .ub => (m, .ub)
      | .ok dk =>
        let allZero := allZero && (List.replicate C.DS 0 == dk.take C.DS)
        let m := wrm m out (xorBytes (rdm m inp C.DS) dk)
        kdfLoopM Z fuel (ct + 1) allZero m (out + C.DS) (inp + C.DS) (inl - C.DS)
    else if inl ≠ 0 then
      match C.stream [Z] (MemUtil.store32be ct) with
      | .throw => (m, .throw)
      | .ub => (m, .ub)
      | .ok dk =>
        let allZero := allZero && (List.replicate inl 0 == dk.take inl)
        (wrm m out (xorBytes (dk.take inl) (rdm m inp inl)), .ok allZero)
    else (m, .ok allZero)

/-- `sm2_kdf_xor` (sm2_alg.h 40-85); `true` is the return value -1. -/
def kdfXorM (m : Mem) (out inp inl : Nat) (Z : List Byte) : Mem × Outcome Bool :=
  if inl ≥ (C.DS * (2 ^ 32 - 1)) % 2 ^ 64 then (m, .throw)
  else if inl = 0 then (m, .ok false)
  else kdfLoopM C Z (inl + 1) 1 true m out inp inl

/-- The octet length of `C1` (sm2.h 408-409). -/
def c1Len (pc : PC) : Nat := if pc = .compressed then 33 else 65

/-- The points of one pass of `encrypt_` (sm2.h 496-508): `[k]G` and the octets of `[k]P`. -/
def encPts (pub : Pub) (rnd : List Byte) : Outcome (A × List Byte) := do
  let kb := nonce rnd
  let kG ← Outcome.ofOption (jMulG kb)
  let kGa ← Outcome.ofOption (jToA kG)
  let kP ← Outcome.ofOption (jMulA kb pub.P)
  let kPa ← Outcome.ofOption (jToA kP)
  .ok (kGa, toBytes04 kPa)

/-- `C3`, then `C1` (sm2.h 516-538), after `sm2_kdf_xor` has returned with this memory and verdict: the memory and the
value stored in `*c_len`; `none` = `goto retry`. -/
def encTail (pc : PC) (ct pt pLen : Nat) (kGa : A) (x2y2 : List Byte) : Mem × Outcome Bool → Mem × Outcome (Option Nat)
  | (m, .throw) => (m, .throw)
  | (m, .ub) => (m, .ub)
  | (m, .ok true) => (m, .ok none)
  | (m, .ok false) =>
    match C.stream [x2y2.take 32, rdm m pt pLen, (x2y2.drop 32).take 32] [] with
    | .throw => (m, .throw)
    | .ub => (m, .ub)
    | .ok d => (wrm (wrm m (ct + c1Len pc) (d.take C.DS)) ct (encPoint pc kGa), .ok (some (c1Len pc + C.DS + pLen)))

/-- The rest of the pass (sm2.h 509-538) with `C1` at `ct` and the plaintext at `pt`. -/
def encStore (pc : PC) (ct pt pLen : Nat) (m : Mem) (kGa : A) (x2y2 : List Byte) : Mem × Outcome (Option Nat) :=
  encTail C pc ct pt pLen kGa x2y2 (kdfXorM C m (ct + c1Len pc + C.DS) pt pLen x2y2)

/-- One pass. -/
def encryptStepM (pub : Pub) (pc : PC) (ct pt pLen : Nat) (m : Mem) (rnd : List Byte) : Mem × Outcome (Option Nat) :=
  match encPts pub rnd with
  | .throw => (m, .throw)
  | .ub => (m, .ub)
  | .ok (kGa, x2y2) => encStore C pc ct pt pLen m kGa x2y2

/-- `SM2PublicKey::encrypt` and `encrypt_` (sm2.h 402-417, 478-538) with `ciphertext` at `ct` and `plaintext` at `pt`:
the memory and the value stored in `*c_len`; `none` when the generator is asked for more than `rnds` holds, and the
memory is then also the one left by a generator that throws at this point. -/
def encryptM (pub : Pub) (pc : PC) (ct pt pLen : Nat) : Mem → List (List Byte) → Mem × Outcome (Option Nat)
  | m, [] => (m, .ok none)
  | m, rnd :: rest =>
    match encryptStepM C pub pc ct pt pLen m rnd with
    | (m, .ok none) => encryptM pub pc ct pt pLen m rest
    | (m, .ok (some n)) => (m, .ok (some n))
    | (m, .throw) => (m, .throw)
    | (m, .ub) => (m, .ub)

/-- What `decrypt` leaves: the memory, the value stored in `*p_len` if it was stored, and how the call ended. -/
structure DecRes where
  mem : Mem
  pLen : Option Nat
  out : Outcome Unit

/-- The point computation of `decrypt_` (sm2.h 766-780): the octets of `[d]C1`. -/
def decPt (key : Priv) (C1 : List Byte) : Outcome (List Byte) :=
  match ecAFromBytes C1 C1.length with
  | .ub => .ub
  | .fail => .throw
  | .ok (a, outl) =>
    if outl ≠ C1.length then .throw
    else do
      let j ← Outcome.ofOption (jMulA key.priv a)
      let a ← Outcome.ofOption (jToA j)
      .ok (toBytes04 a)

/-- The comparison with `C3` (sm2.h 785-796), after `sm2_kdf_xor` has returned with this memory and verdict. -/
def decTail (pt C3 n : Nat) (x2y2 : List Byte) : Mem × Outcome Bool → DecRes
  | (m, .throw) => ⟨m, none, .throw⟩
  | (m, .ub) => ⟨m, none, .ub⟩
  | (m, .ok true) => ⟨m, none, .throw⟩
  | (m, .ok false) =>
    match C.stream [x2y2.take 32, rdm m pt n, (x2y2.drop 32).take 32] [] with
    | .throw => ⟨m, some n, .throw⟩
    | .ub => ⟨m, some n, .ub⟩
    | .ok buf => if buf.take C.DS ≠ rdm m C3 C.DS then ⟨m, some n, .throw⟩ else ⟨m, some n, .ok ()⟩

/-- The rest of `decrypt_` (sm2.h 781-796) with `C3` and `C2` in memory. -/
def decStore (m : Mem) (pt C3 C2 n : Nat) (x2y2 : List Byte) : DecRes :=
  decTail C pt C3 n x2y2 (kdfXorM C m pt C2 n x2y2)

/-- `SM2PrivateKey::decrypt` and `decrypt_` (sm2.h 677-690, 753-796) with `plaintext` at `pt` and `ciphertext` at `ct`. -/
def decryptM (key : Priv) (m : Mem) (pt ct cLen : Nat) : DecRes :=
  match plaintextLen C (rdm m ct cLen) with
  | .throw => ⟨m, none, .throw⟩
  | .ub => ⟨m, none, .ub⟩
  | .ok n =>
    let c1 := cLen - n - C.DS
    let C3 := ct + c1
    let C2 := C3 + C.DS
    match decPt key (rdm m ct c1) with
    | .throw => ⟨m, none, .throw⟩
    | .ub => ⟨m, none, .ub⟩
    | .ok x2y2 => decStore C m pt C3 C2 n x2y2

end
end Verif.Sm2
