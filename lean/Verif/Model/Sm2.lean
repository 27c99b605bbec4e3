import Verif.Model.Sm2Ec
import Verif.Model.Hash
import Verif.Model.Modes
import Verif.Model.MemUtil
/-!
# SM2 keys, signatures and encryption (include/gmlib/sm2/sm2.h, include/gmlib/sm2/internal/sm2_alg.h)

The class templates are modelled over an arbitrary hash class `C : HashClass S` (block-buffer machinery of
Model/Hash.lean included).  `Outcome.throw` is a C++ exception leaving the function, `Outcome.ub` an undefined or
unending run of a called function.  A random number generator is modelled by the list of the successive answers it
gives to `rng.gen(_k, 32)`; a `retry` loop consumes them, and `none` means that the answers are used up while the
function is still retrying.

Simplifications: output buffers are returned as values, so partial writes before an exception are not recorded;
inputs and outputs do not overlap.
-/
namespace Verif

/-- An undefined run of a number function. -/
def Outcome.ofOption {α : Type} : Option α → Outcome α
  | some a => .ok a
  | none => .ub

/-- `Hash hash; hash.update(c₁); ...; hash.do_final(out, last)` on a fresh object. -/
def HashClass.stream {S} (C : HashClass S) (chunks : List (List Byte)) (last : List Byte) : Outcome (List Byte) := do
  let h ← chunks.foldlM (fun h c => hashUpdate C.BS C.impl h c) C.fresh
  let r ← hashFinal C.BS C.impl h last
  .ok r.2

/-- Result of a `noexcept` function: an exception inside it calls `std::terminate`. -/
inductive Noexcept (α : Type) where
  | returns (a : α)
  | terminates
  | ub
deriving DecidableEq, Repr

/-- `noexcept` around a body. -/
def Noexcept.of {α : Type} : Outcome α → Noexcept α
  | .ok a => .returns a
  | .throw => .terminates
  | .ub => .ub

namespace Sm2

/-- `N_SUB1` (sm2p256v1.cpp 66-72). -/
def nSub1 : List W32 := setEpi8 nSub1Data

/-- `sm2_bn_mod_n_sub1` (sm2p256v1.cpp 127-133). -/
def bnModNSub1 (a : List W32) : List W32 := if u256Cmp a nSub1 ≥ 0 then (u256SubBorrow a nSub1).1 else a

/-- `sm2_fn_from_fp` (sm2p256v1.cpp 355-360). -/
def fnFromFp (a : List W32) : List W32 := mont256FromBytes fnCtx (fpToBytes a)

section
variable {S : Type} (C : HashClass S)

/-- `sm2_compute_z` (sm2_alg.h 13-38). -/
def computeZ (id x y : List Byte) : Outcome (List Byte) :=
  if (id.length * 8) % 2 ^ 64 > 65535 then .throw
  else
    let entl := BitVec.ofNat 16 (id.length * 8)
    let ENTL : List Byte := [(entl >>> 8).setWidth 8, (entl &&& 0xFF#16).setWidth 8]
    C.stream [ENTL, id, sm2CurveA, sm2CurveB, sm2CurveGx, sm2CurveGy, x, y] []

/-- The two loops of `sm2_kdf_xor` (sm2_alg.h 57-76): `fuel` bounds the iterations (out of fuel is `ub`); returns
the output and `all_zero`. -/
def kdfLoop (Z : List Byte) : Nat → W32 → Bool → List Byte → List Byte → Outcome (List Byte × Bool)
  | 0, _, _, _, _ => .ub
  | fuel + 1, ct, allZero, inp, out =>
    if inp.length ≥ C.DS then do
      let dk ← C.stream [Z] (MemUtil.store32be ct)
      let allZero := allZero && (List.replicate C.DS 0 == dk.take C.DS)
      kdfLoop Z fuel (ct + 1) allZero (inp.drop C.DS) (out ++ xorBytes (inp.take C.DS) dk)
    else if inp.length ≠ 0 then do
      let dk ← C.stream [Z] (MemUtil.store32be ct)
      let allZero := allZero && (List.replicate inp.length 0 == dk.take inp.length)
      .ok (out ++ xorBytes (dk.take inp.length) inp, allZero)
    else .ok (out, allZero)

/-- `sm2_kdf_xor` (sm2_alg.h 40-85); `none` is the return value -1. -/
def kdfXor (inp Z : List Byte) : Outcome (Option (List Byte)) :=
  if inp.length ≥ (C.DS * (2 ^ 32 - 1)) % 2 ^ 64 then .throw
  else if inp.length = 0 then .ok (some [])
  else do
    let r ← kdfLoop C Z (inp.length + 1) 1 true inp []
    if r.2 then .ok none else .ok (some r.1)

/-- `SM2PublicKey` (sm2.h 33-39). -/
structure Pub where
  P : A
  x : List Byte
  y : List Byte
deriving DecidableEq, Repr

/-- `SM2PrivateKey` (sm2.h 170-174). -/
structure Priv where
  priv : List Byte
  pub : Pub
deriving DecidableEq, Repr

/-- `SM2PublicKey::set_pub` (sm2.h 352-366). -/
def setPub (x y : List Byte) : Outcome Pub :=
  let T : A := ⟨fpFromBytes x, fpFromBytes y⟩
  if !ecCheck T then .throw else .ok ⟨T, x, y⟩

/-- `SM2PublicKey::get_pub` (sm2.h 368-374). -/
def getPub (p : Pub) : List Byte × List Byte := (p.x, p.y)

/-- The common tail of `gen_priv` and `set_priv` (sm2.h 563-569, 585-590): the public key of the octets `d`. -/
def withPub (d : List Byte) : Outcome Priv := do
  let dG ← Outcome.ofOption (jMulG d)
  let a ← Outcome.ofOption (jToA dG)
  .ok ⟨d, ⟨a, fpToBytes a.x, fpToBytes a.y⟩⟩

/-- `SM2PrivateKey::gen_priv` (sm2.h 552-570) when the generator answers `rnd`. -/
def genPriv (rnd : List Byte) : Outcome Priv :=
  let d := bnModNSub1 (u256FromBytes rnd)
  let d := (u256AddWord d 1).1
  withPub (u256ToBytes d)

/-- `SM2PrivateKey::set_priv` (sm2.h 572-591). -/
def setPriv (key : List Byte) : Outcome Priv :=
  let d := u256FromBytes key
  let t := bnModNSub1 d
  if u256EqualZero d ∨ u256Cmp d t ≠ 0 then .throw else withPub key

/-- `SM2PrivateKey::get_priv` (sm2.h 593-598). -/
def getPriv (k : Priv) : List Byte := k.priv

/-- The body of `SM2PublicKey::verify_` (sm2.h 419-476). -/
def verifyBody (pub : Pub) (sigR sigS msg id : List Byte) : Outcome Bool :=
  let r := u256FromBytes sigR
  let s := u256FromBytes sigS
  let n := u256FromBytes sm2CurveN
  if u256EqualZero r ∨ u256Cmp r n ≥ 0 ∨ u256EqualZero s ∨ u256Cmp s n ≥ 0 then .ok false
  else do
    let Z ← computeZ C id pub.x pub.y
    let Z ← C.stream [Z.take C.DS, msg] []
    let r := mont256FromBytes fnCtx sigR
    let s := mont256FromBytes fnCtx sigS
    let tmp := mont256Add fnCtx r s
    if mont256EqualZero fnCtx tmp then .ok false
    else do
      let t := mont256ToBytes fnCtx tmp
      let tPa : A := ⟨fpFromBytes pub.x, fpFromBytes pub.y⟩
      let sG ← Outcome.ofOption (jMulG sigS)
      let tP ← Outcome.ofOption (jMulA t tPa)
      let tP ← Outcome.ofOption (jAdd sG tP)
      let a ← Outcome.ofOption (jToA tP)
      let tmp := fnFromFp a.x
      let e ← Outcome.ofOption (mont256FromBytesEx fnCtx (Z.take C.DS))
      let tmp := mont256Add fnCtx e tmp
      if mont256Equal fnCtx tmp r then .ok true else .ok false

/-- `SM2PublicKey::verify` (sm2.h 376-384), declared `noexcept`; `sig` has 64 octets. -/
def verify (pub : Pub) (sig msg id : List Byte) : Noexcept Bool :=
  Noexcept.of (verifyBody C pub (sig.take 32) ((sig.drop 32).take 32) msg id)

/-- `k = random[1, n-1]` (sm2.h 497-501, 718-722) from one answer of the generator. -/
def nonce (rnd : List Byte) : List Byte :=
  let k := bnModNSub1 (u256FromBytes rnd)
  let k := (u256AddWord k 1).1
  u256ToBytes k

/-- One pass of the signing loop (sm2.h 716-750) with digest `Z`; `none` = `goto retry`. -/
def signStep (priv Z rnd : List Byte) : Outcome (Option (List Byte)) := do
  let kb := nonce rnd
  let kG ← Outcome.ofOption (jMulG kb)
  let a ← Outcome.ofOption (jToA kG)
  let e ← Outcome.ofOption (mont256FromBytesEx fnCtx Z)
  let r := fnFromFp a.x
  let r := mont256Add fnCtx e r
  let k := mont256FromBytes fnCtx kb
  let tmp := mont256Add fnCtx r k
  if mont256EqualZero fnCtx r || mont256EqualZero fnCtx tmp then .ok none
  else do
    let da := mont256FromBytes fnCtx priv
    let s := mont256SetOne fnCtx
    let s := mont256Add fnCtx s da
    let s ← Outcome.ofOption (mont256Inv fnCtx s)
    let tmp := mont256Mul fnCtx r da
    let k := mont256Sub fnCtx k tmp
    let s := mont256Mul fnCtx s k
    if mont256EqualZero fnCtx s then .ok none
    else .ok (some (mont256ToBytes fnCtx r ++ mont256ToBytes fnCtx s))

/-- `goto retry` (sm2.h 716, 731, 745): passes over the successive answers of the generator. -/
def signLoop (priv Z : List Byte) : List (List Byte) → Outcome (Option (List Byte))
  | [] => .ok none
  | rnd :: rest => do
    let o ← signStep priv Z rnd
    match o with
    | some sig => .ok (some sig)
    | none => signLoop priv Z rest

/-- `SM2PrivateKey::sign` (sm2.h 606-615, 692-751). -/
def sign (key : Priv) (msg : List Byte) (rnds : List (List Byte)) (id : List Byte) :
    Outcome (Option (List Byte)) := do
  let Z ← computeZ C id key.pub.x key.pub.y
  let Z ← C.stream [Z.take C.DS, msg] []
  signLoop key.priv (Z.take C.DS) rnds

/-- `enum class SM2EcPC` (sm2.h 13-18). -/
inductive PC where
  | uncompressed
  | compressed
  | mix
deriving DecidableEq, Repr

/-- The point encoder selected in `encrypt_` (sm2.h 523-538). -/
def encPoint : PC → A → List Byte
  | .uncompressed => toUncompressed
  | .mix => toMix
  | .compressed => toCompressed

/-- One pass of the loop of `SM2PublicKey::encrypt_` (sm2.h 495-538); the ciphertext is `C1 ‖ C3 ‖ C2`
(sm2.h 402-417); `none` = `goto retry`. -/
def encryptStep (pub : Pub) (pt rnd : List Byte) (pc : PC) : Outcome (Option (List Byte)) := do
  let kb := nonce rnd
  let kG ← Outcome.ofOption (jMulG kb)
  let kGa ← Outcome.ofOption (jToA kG)
  let kP ← Outcome.ofOption (jMulA kb pub.P)
  let kPa ← Outcome.ofOption (jToA kP)
  let x2y2 := toBytes04 kPa
  let o ← kdfXor C pt x2y2
  match o with
  | none => .ok none
  | some C2 => do
    let C3 ← C.stream [x2y2.take 32, pt, (x2y2.drop 32).take 32] []
    .ok (some (encPoint pc kGa ++ C3.take C.DS ++ C2))

/-- `SM2PublicKey::encrypt` (sm2.h 402-417, 478-538). -/
def encrypt (pub : Pub) (pt : List Byte) (pc : PC) : List (List Byte) → Outcome (Option (List Byte))
  | [] => .ok none
  | rnd :: rest => do
    let o ← encryptStep C pub pt rnd pc
    match o with
    | some ct => .ok (some ct)
    | none => encrypt pub pt pc rest

/-- `SM2PublicKey::ciphertext_len` (sm2.h 386-400), in `size_t`. -/
def ciphertextLen (pLen : Nat) (pc : PC) : Nat :=
  if pc = .uncompressed ∨ pc = .mix then (65 + C.DS + pLen) % 2 ^ 64 else (33 + C.DS + pLen) % 2 ^ 64

/-- `SM2PrivateKey::plaintext_len` (sm2.h 647-675). -/
def plaintextLen (ct : List Byte) : Outcome Nat :=
  match ct with
  | [] => .throw
  | b :: _ => do
    let c1c3 ← (if b = 0x02 ∨ b = 0x03 then .ok (33 + C.DS)
      else if b = 0x04 ∨ b = 0x06 ∨ b = 0x07 then .ok (65 + C.DS) else .throw : Outcome Nat)
    if ct.length < c1c3 then .throw else .ok (ct.length - c1c3)

/-- `SM2PrivateKey::decrypt_` (sm2.h 753-796). -/
def decryptBody (key : Priv) (C1 C3 C2 : List Byte) : Outcome (List Byte) :=
  match ecAFromBytes C1 C1.length with
  | .ub => .ub
  | .fail => .throw
  | .ok (a, outl) =>
    if outl ≠ C1.length ∨ C3.length ≠ C.DS then .throw
    else do
      let j ← Outcome.ofOption (jMulA key.priv a)
      let a ← Outcome.ofOption (jToA j)
      let x2y2 := toBytes04 a
      let o ← kdfXor C C2 x2y2
      match o with
      | none => .throw
      | some pt => do
        let buf ← C.stream [x2y2.take 32, pt, (x2y2.drop 32).take 32] []
        if buf.take C.DS ≠ C3.take C.DS then .throw else .ok pt

/-- `SM2PrivateKey::decrypt` (sm2.h 677-690). -/
def decrypt (key : Priv) (ct : List Byte) : Outcome (List Byte) := do
  let C2len ← plaintextLen C ct
  let C1len := ct.length - C2len - C.DS
  decryptBody C key (ct.take C1len) ((ct.drop C1len).take C.DS) ((ct.drop (C1len + C.DS)).take C2len)

end
end Sm2
end Verif
