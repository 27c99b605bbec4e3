import Verif.Model.Sm9Pairing
import Verif.Model.Sm2
/-!
# SM9 keys and signatures (include/gmlib/sm9/sm9.h, include/gmlib/sm9/internal/sm9_alg.h)

The class templates are modelled over an arbitrary hash class `C : HashClass S`, as in Model/Sm2.lean: `Outcome.throw`
is a C++ exception leaving the function, `Outcome.ub` an undefined or unending run, a random number generator is the
list of its successive 32-octet answers, and a `goto retry` with no answer left is `none`.

Simplifications: output buffers are returned as values; inputs and outputs do not overlap.  In `sign` and `verify` one
384-octet buffer holds the scalars, the encoded pairing value and the digests in turn; every part is read for the last
time before it is overwritten (`sm9_Hn` writes its result after it has absorbed all its input), so the model gives
each its own name.
-/
namespace Verif.Sm9

/-- `n_sub1` (sm9_field.cpp 154-155, 166-167): `N - 1`. -/
def nSub1 : List W32 := (u256SubWord nLimbs 1).1

/-- `sm9_bn_mod_n_sub1` (sm9_field.cpp 152-160). -/
def bnModNSub1 (a : List W32) : List W32 := if u256Cmp a nSub1 ≥ 0 then (u256SubBorrow a nSub1).1 else a

/-- `r = random[1, N-1]` (sm9.h 300-305, 486-491) from one answer of the generator, as octets. -/
def nonce (rnd : List Byte) : List Byte :=
  let r := u256FromBytes rnd
  let r := bnModNSub1 r
  let r := (u256AddWord r 1).1
  u256ToBytes r

section
variable {S : Type} (C : HashClass S)

/-- The loop of `sm9_Hn` (sm9_alg.h 32-38): every pass finishes a copy of the object that has absorbed the tag, `Z1`
and `Z2`. -/
def haLoop (chunks : List (List Byte)) : Nat → W32 → List Byte → Outcome (List Byte)
  | 0, _, Ha => .ok Ha
  | i + 1, cnt, Ha => do
    let d ← C.stream chunks (MemUtil.store32be cnt)
    haLoop chunks i (cnt + 1) (Ha ++ d)

/-- `sm9_Hn` (sm9_alg.h 9-43), with `sm9_bn_mod_n_sub1_ex` (sm9_field.cpp 162-169). -/
def hn (Z1 Z2 : List Byte) (tag : Byte) : Outcome (List Byte) := do
  let Ha ← haLoop C [[tag], Z1, Z2] ((40 + C.DS - 1) / C.DS) 1 []
  let h1 ← Outcome.ofOption (u256Mod (Ha.take 40) nSub1)
  let h1 := (u256AddWord h1 1).1
  .ok (u256ToBytes h1)

end

/-- `SM9SignMasterPublicKey` (sm9.h 107-122): the point and the precomputed pairing. -/
structure MPub where
  P : A2
  e : F12
deriving DecidableEq, Repr

/-- `SM9SignMasterPrivateKey` (sm9.h 35-47). -/
structure MPriv where
  ks : List Byte
  pub : MPub
deriving DecidableEq, Repr

/-- `SM9SignPrivateKey` (sm9.h 164-181). -/
structure SPriv where
  priv : A
  pub : MPub
deriving DecidableEq, Repr

/-- The common tail of `set_priv` and `gen_priv` (sm9.h 285-288, 308-312): the public key of the octets `ks`. -/
def withPub (ks : List Byte) : Outcome MPriv := do
  let T ← Outcome.ofOption (j2MulG ks)
  let P ← Outcome.ofOption (j2ToA T)
  let e ← Outcome.ofOption (pairingP1 P)
  .ok ⟨ks, ⟨P, e⟩⟩

/-- `SM9SignMasterPrivateKey::set_priv` (sm9.h 270-289). -/
def setPriv (key : List Byte) : Outcome MPriv :=
  let ks := u256FromBytes key
  let N := u256FromBytes sm9CurveN
  if u256EqualZero ks ∨ u256Cmp ks N ≥ 0 then .throw else withPub key

/-- `SM9SignMasterPrivateKey::get_priv` (sm9.h 291-296). -/
def getPriv (k : MPriv) : List Byte := k.ks

/-- `SM9SignMasterPrivateKey::gen_priv` (sm9.h 298-314) when the generator answers `rnd`. -/
def genPriv (rnd : List Byte) : Outcome MPriv := withPub (nonce rnd)

/-- `SM9SignMasterPublicKey::set_pub` (sm9.h 358-371). -/
def setPub (x y : List Byte) : Outcome MPub :=
  let T : A2 := ⟨fp2FromBytes x, fp2FromBytes y⟩
  if !ec2Check T then .throw
  else do
    let e ← Outcome.ofOption (pairingP1 T)
    .ok ⟨T, e⟩

/-- `SM9SignMasterPublicKey::get_pub` (sm9.h 373-380). -/
def getPub (p : MPub) : List Byte × List Byte := (fp2ToBytes p.P.x, fp2ToBytes p.P.y)

/-- `SM9SignPrivateKey::set_priv` (sm9.h 432-448). -/
def setSignPriv (privX privY pubX pubY : List Byte) : Outcome SPriv :=
  let T : A := ⟨fpFromBytes privX, fpFromBytes privY⟩
  if !ecCheck T then .throw
  else do
    let pub ← setPub pubX pubY
    .ok ⟨T, pub⟩

/-- `SM9SignPrivateKey::get_priv` (sm9.h 450-460). -/
def getSignPriv (k : SPriv) : List Byte × List Byte × List Byte × List Byte :=
  (fpToBytes k.priv.x, fpToBytes k.priv.y, (getPub k.pub).1, (getPub k.pub).2)

section
variable {S : Type} (C : HashClass S)

/-- `SM9SignMasterPrivateKey::gen_SignPrivateKey` (sm9.h 316-349); `rng` is not used. -/
def genSignPriv (mk : MPriv) (id : List Byte) (hid : Byte) : Outcome SPriv := do
  let ks := mont256FromBytes fnCtx mk.ks
  let h1 ← hn C id [hid] 1
  let t1 := mont256FromBytes fnCtx h1
  let t1 := mont256Add fnCtx t1 ks
  if mont256EqualZero fnCtx t1 then .throw
  else do
    let t1 ← Outcome.ofOption (mont256Inv fnCtx t1)
    let t1 := mont256Mul fnCtx ks t1
    let t2 := mont256ToBytes fnCtx t1
    let t2P1 ← Outcome.ofOption (jMulG t2)
    let priv ← Outcome.ofOption (jToA t2P1)
    .ok ⟨priv, mk.pub⟩

/-- The part of `verify` after the parsing of the signature (sm9.h 412-429). `sig` is the whole signature: the
exponentiation may read past its first 32 octets. -/
def verifyTail (pub : MPub) (sig : List Byte) (Sp : A) (msg id : List Byte) (hid : Byte) : Outcome Bool := do
  let t ← Outcome.ofOption (fp12Pow fp pub.e sig)
  let h1 ← hn C id [hid] 1
  let T ← Outcome.ofOption (j2MulG h1)
  let T := j2AddA T pub.P
  let P ← Outcome.ofOption (j2ToA T)
  let w ← Outcome.ofOption (pairing Sp P)
  let w := fp12Mul fp w t
  let h2 ← hn C msg (fp12ToBytes w) 2
  .ok (h2 == sig.take 32)

/-- The body of `SM9SignMasterPublicKey::verify` (sm9.h 382-430); `sig` is the whole readable buffer, of `sig_len`
octets. -/
def verifyBody (pub : MPub) (sig msg id : List Byte) (hid : Byte) : Outcome Bool :=
  if sig.length < 32 then .ok false
  else
    match ecAFromBytes (sig.drop 32) (sig.length - 32) with
    | .ub => .ub
    | .fail => .ok false
    | .ok (Sp, size) => if size + 32 ≠ sig.length then .ok false else verifyTail C pub sig Sp msg id hid

/-- `SM9SignMasterPublicKey::verify` (sm9.h 382-430), declared `noexcept`. -/
def verify (pub : MPub) (sig msg id : List Byte) (hid : Byte) : Noexcept Bool :=
  Noexcept.of (verifyBody C pub sig msg id hid)

/-- The encoding of the point in a signature (sm9.h 512-525). -/
def encPoint (pc : Sm2.PC) (P : A) : List Byte :=
  match pc with
  | .uncompressed => toUncompressed P
  | .compressed => toCompressed P
  | .mix => toMix P

/-- One pass of the signing loop (sm9.h 483-525); `none` = `goto retry`. -/
def signStep (key : SPriv) (msg rnd : List Byte) (pc : Sm2.PC) : Outcome (Option (List Byte)) := do
  let rb := nonce rnd
  let w ← Outcome.ofOption (fp12Pow fp key.pub.e rb)
  let h ← hn C msg (fp12ToBytes w) 2
  let r := mont256FromBytes fnCtx rb
  let hf := mont256FromBytes fnCtx h
  let r := mont256Sub fnCtx r hf
  if mont256EqualZero fnCtx r then .ok none
  else do
    let l := mont256ToBytes fnCtx r
    let S ← Outcome.ofOption (jMulA l key.priv)
    let S ← Outcome.ofOption (jToA S)
    .ok (some (h ++ encPoint pc S))

/-- `goto retry` (sm9.h 483, 503): passes over the successive answers of the generator. -/
def signLoop (key : SPriv) (msg : List Byte) (pc : Sm2.PC) : List (List Byte) → Outcome (Option (List Byte))
  | [] => .ok none
  | rnd :: rest => do
    let o ← signStep C key msg rnd pc
    match o with
    | some sig => .ok (some sig)
    | none => signLoop key msg pc rest

/-- `SM9SignPrivateKey::sign` (sm9.h 469-526). -/
def sign (key : SPriv) (msg : List Byte) (rnds : List (List Byte)) (pc : Sm2.PC) : Outcome (Option (List Byte)) :=
  signLoop C key msg pc rnds

end
end Verif.Sm9
