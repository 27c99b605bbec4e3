import Verif.Model.MontX64
import Verif.Model.Sm2
/-!
# SM2 in the configuration with 64-bit limbs

src/sm2/sm2p256v1.cpp, include/gmlib/sm2/sm2.h and include/gmlib/sm2/internal/sm2_alg.h compiled against
src/number/uint256_x64.cpp and src/number/mont256_x64.cpp (include/gmlib/number/uint256.h 4-44, mont256.h 4-16).
The same source text as in Model/Sm2Ec.lean and Model/Sm2.lean: the generic point formulas are shared, everything that
touches limbs is restated over the functions of Model/LimbsX64.lean and Model/MontX64.lean.  The parts that only handle
octets (`sm2_compute_z`, `sm2_kdf_xor`, `plaintext_len`, ...) are shared.
-/
namespace Verif.X64.Sm2

open Verif.Sm2 (lsbOf ParseRes computeZ kdfXor PC plaintextLen sm2CurveA sm2CurveB sm2CurveGx sm2CurveGy sm2CurveN)

section
variable {α : Type} (F : FpOps α)

/-- The body of the loop of `sm2_ec_j_mul_a` (sm2p256v1.cpp 755-767) for bit `i`. -/
def mulAStep (e e3 : List W64) (P Pneg : EcA α) (i : Nat) (T : EcJ α) : Option (EcJ α) :=
  match ecJDbl F T with
  | none => none
  | some T =>
    match u256BitTest e i, u256BitTest e3 i with
    | some ei, some e3i =>
      if e3i = true ∧ ei = false then some (ecJAddA F T P)
      else if e3i = false ∧ ei = true then some (ecJAddA F T Pneg)
      else some T
    | _, _ => none

/-- `for (; i >= 1; i--)` (sm2p256v1.cpp 753-767). -/
def mulALoop (e e3 : List W64) (P Pneg : EcA α) : Nat → EcJ α → Option (EcJ α)
  | 0, T => some T
  | i + 1, T =>
    match mulAStep F e e3 P Pneg (i + 1) T with
    | none => none
    | some T => mulALoop e e3 P Pneg i T

end

/-- `while (!uint256_bittest(e3, i)) i--` (sm2p256v1.cpp 750); `none` = the index runs below 0. -/
def topBit (e3 : List W64) : Nat → Option Nat
  | 0 => match u256BitTest e3 0 with
    | some true => some 0
    | _ => none
  | i + 1 => match u256BitTest e3 (i + 1) with
    | some true => some (i + 1)
    | some false => topBit e3 i
    | none => none

/-- `sm2_ec_j_mul_a` (sm2p256v1.cpp 690-768) with the group order `n` in limbs and the scalar in bytes.
`i--` after the search would be an index of -1 if the top bit were bit 0; the loop would then not run, as for 0. -/
def ecJMulA {α : Type} (F : FpOps α) (n : List W64) (k : List Byte) (P : EcA α) : Option (EcJ α) :=
  let e := u256FromBytes k
  let e := if u256Cmp e n ≥ 0 then (u256SubBorrow e n).1 else e
  if u256EqualZero e then some (ecJInf F)
  else
    let (e3, c) := u256TplCarry e
    let T := ecJFromA F P
    let Pneg := ecANeg F P
    if c = 1 then mulALoop F e e3 P Pneg 255 T
    else if c = 2 then
      match ecJDbl F T with
      | none => none
      | some T => mulALoop F e e3 P Pneg 255 T
    else
      match topBit e3 255 with
      | none => none
      | some i => mulALoop F e e3 P Pneg (i - 1) T

/-- `sm2_fp_*` (sm2p256v1.cpp 153-248): the Montgomery functions with the context `FP_MONT_CTX`. -/
def fp : FpOps (List W64) where
  add := mont256Add sm2FpCtx
  sub := mont256Sub sm2FpCtx
  mul := mont256Mul sm2FpCtx
  sqr := mont256Sqr sm2FpCtx
  dbl := mont256Dbl sm2FpCtx
  tpl := fun a => some (mont256Tpl sm2FpCtx a)
  neg := mont256Neg sm2FpCtx
  inv := mont256Inv sm2FpCtx
  eq := mont256Equal sm2FpCtx
  isZero := mont256EqualZero sm2FpCtx
  one := mont256SetOne sm2FpCtx
  zero := u256Zero

/-- `sm2_ec_a` over limbs. -/
abbrev A := EcA (List W64)
/-- `sm2_ec_j` over limbs. -/
abbrev J := EcJ (List W64)

/-- `sm2_fp_from_bytes` (sm2p256v1.cpp 240-243). -/
def fpFromBytes (bs : List Byte) : List W64 := mont256FromBytes sm2FpCtx bs
/-- `sm2_fp_to_bytes` (sm2p256v1.cpp 245-248). -/
def fpToBytes (a : List W64) : List Byte := mont256ToBytes sm2FpCtx a

/-- `sm2_fp_sqrt` (sm2p256v1.cpp 183-198).  Outer `none`: undefined run; inner `none`: return value -1 (the
result array is not written). -/
def fpSqrt (a : List W64) : Option (Option (List W64)) :=
  match mont256Pow sm2FpCtx a (u256FromBytes Verif.Sm2.pSub3Div4Add1) with
  | none => none
  | some t =>
    let t2 := mont256Sqr sm2FpCtx t
    if !mont256Equal sm2FpCtx a t2 then some none else some (some t)

/-- `sm2_ec_a_check` (sm2p256v1.cpp 375-388). -/
def ecCheck (P : A) : Bool := ecACheck fp (fpFromBytes sm2CurveA) (fpFromBytes sm2CurveB) P

/-- `sm2_ec_a_to_bytes04` (sm2p256v1.cpp 396-400). -/
def toBytes04 (P : A) : List Byte := fpToBytes P.x ++ fpToBytes P.y
/-- `sm2_ec_a_from_bytes04` (sm2p256v1.cpp 402-406) on 64 readable octets. -/
def fromBytes04 (bs : List Byte) : A := ⟨fpFromBytes (bs.take 32), fpFromBytes ((bs.drop 32).take 32)⟩

/-- `sm2_ec_a_to_bytes_uncompressed` (sm2p256v1.cpp 408-413). -/
def toUncompressed (P : A) : List Byte := 0x04 :: toBytes04 P
/-- `sm2_ec_a_to_bytes_compressed` (sm2p256v1.cpp 415-421): `out[32]` is the last octet of `y` when it is
tested. -/
def toCompressed (P : A) : List Byte :=
  (if lsbOf (fpToBytes P.y) = 0 then 0x02 else 0x03) :: fpToBytes P.x
/-- `sm2_ec_a_to_bytes_mix` (sm2p256v1.cpp 423-427). -/
def toMix (P : A) : List Byte :=
  (if lsbOf (toBytes04 P) = 0 then 0x06 else 0x07) :: toBytes04 P

/-- `sm2_ec_recover_y` (sm2p256v1.cpp 429-452); inner `none` = -1. -/
def recoverY (x : List W64) (yHat : Byte) : Option (Option (List W64)) :=
  let y2 := fpFromBytes sm2CurveB
  let t := fpFromBytes sm2CurveA
  let t := fp.mul t x
  let y2 := fp.add y2 t
  let t := fp.sqr x
  let t := fp.mul t x
  let y2 := fp.add y2 t
  match fpSqrt y2 with
  | none => none
  | some none => some none
  | some (some y) =>
    let lsbY := lsbOf (fpToBytes y)
    if lsbY ≠ yHat then some (some (fp.neg y)) else some (some y)

/-- `sm2_ec_a_from_bytes` (sm2p256v1.cpp 454-483): `inp` is the whole readable buffer, `inl` the length argument,
which the function only compares with 0.  A read beyond the buffer is `ub`.  `ok (R, read_n)` is return value 0. -/
def ecAFromBytes (inp : List Byte) (inl : Nat) : ParseRes (A × Nat) :=
  if inl = 0 then .fail
  else
    match inp with
    | [] => .ub
    | b :: rest =>
      if b = 0x04 ∨ b = 0x06 ∨ b = 0x07 then
        if rest.length < 64 then .ub
        else
          let R := fromBytes04 rest
          if ecCheck R then .ok (R, 65) else .fail
      else if b = 0x02 ∨ b = 0x03 then
        if rest.length < 32 then .ub
        else
          let x := fpFromBytes (rest.take 32)
          let yHat := if b = 0x02 then 0 else 1
          match recoverY x yHat with
          | none => .ub
          | some none => .fail
          | some (some y) => if ecCheck ⟨x, y⟩ then .ok (⟨x, y⟩, 33) else .fail
      else .fail

/-- `N` (sm2p256v1.cpp 94), the group order in limbs. -/
def nLimbs : List W64 := u256FromBytes Verif.Sm2.nData

/-- `sm2_ec_j_dbl`. -/
abbrev jDbl (P : J) : Option J := ecJDbl fp P
/-- `sm2_ec_j_add`. -/
abbrev jAdd (P Q : J) : Option J := ecJAdd fp P Q
/-- `sm2_ec_j_add_a`. -/
abbrev jAddA (P : J) (Q : A) : J := ecJAddA fp P Q
/-- `sm2_ec_j_mul_a` (sm2p256v1.cpp 690-768). -/
def jMulA (k : List Byte) (P : A) : Option J := ecJMulA fp nLimbs k P
/-- `sm2_ec_j_mul_g` (sm2p256v1.cpp 770-776). -/
def jMulG (k : List Byte) : Option J := jMulA k ⟨fpFromBytes sm2CurveGx, fpFromBytes sm2CurveGy⟩
/-- `sm2_ec_j_to_a`. -/
abbrev jToA (P : J) : Option A := ecJToA fp P

/-- `N_SUB1` (sm2p256v1.cpp 66-72). -/
def nSub1 : List W64 := u256FromBytes Verif.Sm2.nSub1Data

/-- `sm2_bn_mod_n_sub1` (sm2p256v1.cpp 127-133). -/
def bnModNSub1 (a : List W64) : List W64 := if u256Cmp a nSub1 ≥ 0 then (u256SubBorrow a nSub1).1 else a

/-- `sm2_fn_from_fp` (sm2p256v1.cpp 355-360). -/
def fnFromFp (a : List W64) : List W64 := mont256FromBytes sm2FnCtx (fpToBytes a)

section
variable {S : Type} (C : HashClass S)

/-- `SM2PublicKey` (sm2.h 33-39). -/
structure Pub where
  P : A
  x : List Byte
  y : List Byte
deriving DecidableEq, Repr

/-- `SM2PrivateKey` (sm2.h 170-174). -/
structure Priv where
  priv : List Byte
  pub : Pub
deriving DecidableEq, Repr

/-- `SM2PublicKey::set_pub` (sm2.h 352-366). -/
def setPub (x y : List Byte) : Outcome Pub :=
  let T : A := ⟨fpFromBytes x, fpFromBytes y⟩
  if !ecCheck T then .throw else .ok ⟨T, x, y⟩

/-- `SM2PublicKey::get_pub` (sm2.h 368-374). -/
def getPub (p : Pub) : List Byte × List Byte := (p.x, p.y)

/-- The common tail of `gen_priv` and `set_priv` (sm2.h 563-569, 585-590): the public key of the octets `d`. -/
def withPub (d : List Byte) : Outcome Priv := do
  let dG ← Outcome.ofOption (jMulG d)
  let a ← Outcome.ofOption (jToA dG)
  .ok ⟨d, ⟨a, fpToBytes a.x, fpToBytes a.y⟩⟩

/-- `SM2PrivateKey::gen_priv` (sm2.h 552-570) when the generator answers `rnd`. -/
def genPriv (rnd : List Byte) : Outcome Priv :=
  let d := bnModNSub1 (u256FromBytes rnd)
  let d := (u256AddWord d 1).1
  withPub (u256ToBytes d)

/-- `SM2PrivateKey::set_priv` (sm2.h 572-591). -/
def setPriv (key : List Byte) : Outcome Priv :=
  let d := u256FromBytes key
  let t := bnModNSub1 d
  if u256EqualZero d ∨ u256Cmp d t ≠ 0 then .throw else withPub key

/-- `SM2PrivateKey::get_priv` (sm2.h 593-598). -/
def getPriv (k : Priv) : List Byte := k.priv

/-- The body of `SM2PublicKey::verify_` (sm2.h 419-476). -/
def verifyBody (pub : Pub) (sigR sigS msg id : List Byte) : Outcome Bool :=
  let r := u256FromBytes sigR
  let s := u256FromBytes sigS
  let n := u256FromBytes sm2CurveN
  if u256EqualZero r ∨ u256Cmp r n ≥ 0 ∨ u256EqualZero s ∨ u256Cmp s n ≥ 0 then .ok false
  else do
    let Z ← computeZ C id pub.x pub.y
    let Z ← C.stream [Z.take C.DS, msg] []
    let r := mont256FromBytes sm2FnCtx sigR
    let s := mont256FromBytes sm2FnCtx sigS
    let tmp := mont256Add sm2FnCtx r s
    if mont256EqualZero sm2FnCtx tmp then .ok false
    else do
      let t := mont256ToBytes sm2FnCtx tmp
      let tPa : A := ⟨fpFromBytes pub.x, fpFromBytes pub.y⟩
      let sG ← Outcome.ofOption (jMulG sigS)
      let tP ← Outcome.ofOption (jMulA t tPa)
      let tP ← Outcome.ofOption (jAdd sG tP)
      let a ← Outcome.ofOption (jToA tP)
      let tmp := fnFromFp a.x
      let e ← Outcome.ofOption (mont256FromBytesEx sm2FnCtx (Z.take C.DS))
      let tmp := mont256Add sm2FnCtx e tmp
      if mont256Equal sm2FnCtx tmp r then .ok true else .ok false

/-- `SM2PublicKey::verify` (sm2.h 376-384), declared `noexcept`; `sig` has 64 octets. -/
def verify (pub : Pub) (sig msg id : List Byte) : Noexcept Bool :=
  Noexcept.of (verifyBody C pub (sig.take 32) ((sig.drop 32).take 32) msg id)

/-- `k = random[1, n-1]` (sm2.h 497-501, 718-722) from one answer of the generator. -/
def nonce (rnd : List Byte) : List Byte :=
  let k := bnModNSub1 (u256FromBytes rnd)
  let k := (u256AddWord k 1).1
  u256ToBytes k

/-- One pass of the signing loop (sm2.h 716-750) with digest `Z`; `none` = `goto retry`. -/
def signStep (priv Z rnd : List Byte) : Outcome (Option (List Byte)) := do
  let kb := nonce rnd
  let kG ← Outcome.ofOption (jMulG kb)
  let a ← Outcome.ofOption (jToA kG)
  let e ← Outcome.ofOption (mont256FromBytesEx sm2FnCtx Z)
  let r := fnFromFp a.x
  let r := mont256Add sm2FnCtx e r
  let k := mont256FromBytes sm2FnCtx kb
  let tmp := mont256Add sm2FnCtx r k
  if mont256EqualZero sm2FnCtx r || mont256EqualZero sm2FnCtx tmp then .ok none
  else do
    let da := mont256FromBytes sm2FnCtx priv
    let s := mont256SetOne sm2FnCtx
    let s := mont256Add sm2FnCtx s da
    let s ← Outcome.ofOption (mont256Inv sm2FnCtx s)
    let tmp := mont256Mul sm2FnCtx r da
    let k := mont256Sub sm2FnCtx k tmp
    let s := mont256Mul sm2FnCtx s k
    if mont256EqualZero sm2FnCtx s then .ok none
    else .ok (some (mont256ToBytes sm2FnCtx r ++ mont256ToBytes sm2FnCtx s))

/-- `goto retry` (sm2.h 716, 731, 745): passes over the successive answers of the generator. -/
def signLoop (priv Z : List Byte) : List (List Byte) → Outcome (Option (List Byte))
  | [] => .ok none
  | rnd :: rest => do
    let o ← signStep priv Z rnd
    match o with
    | some sig => .ok (some sig)
    | none => signLoop priv Z rest

/-- `SM2PrivateKey::sign` (sm2.h 606-615, 692-751). -/
def sign (key : Priv) (msg : List Byte) (rnds : List (List Byte)) (id : List Byte) :
    Outcome (Option (List Byte)) := do
  let Z ← computeZ C id key.pub.x key.pub.y
  let Z ← C.stream [Z.take C.DS, msg] []
  signLoop key.priv (Z.take C.DS) rnds

/-- The point encoder selected in `encrypt_` (sm2.h 523-538). -/
def encPoint : PC → A → List Byte
  | .uncompressed => toUncompressed
  | .mix => toMix
  | .compressed => toCompressed

/-- One pass of the loop of `SM2PublicKey::encrypt_` (sm2.h 495-538); the ciphertext is `C1 ‖ C3 ‖ C2`
(sm2.h 402-417); `none` = `goto retry`. -/
def encryptStep (pub : Pub) (pt rnd : List Byte) (pc : PC) : Outcome (Option (List Byte)) := do
  let kb := nonce rnd
  let kG ← Outcome.ofOption (jMulG kb)
  let kGa ← Outcome.ofOption (jToA kG)
  let kP ← Outcome.ofOption (jMulA kb pub.P)
  let kPa ← Outcome.ofOption (jToA kP)
  let x2y2 := toBytes04 kPa
  let o ← kdfXor C pt x2y2
  match o with
  | none => .ok none
  | some C2 => do
    let C3 ← C.stream [x2y2.take 32, pt, (x2y2.drop 32).take 32] []
    .ok (some (encPoint pc kGa ++ C3.take C.DS ++ C2))

/-- `SM2PublicKey::encrypt` (sm2.h 402-417, 478-538). -/
def encrypt (pub : Pub) (pt : List Byte) (pc : PC) : List (List Byte) → Outcome (Option (List Byte))
  | [] => .ok none
  | rnd :: rest => do
    let o ← encryptStep C pub pt rnd pc
    match o with
    | some ct => .ok (some ct)
    | none => encrypt pub pt pc rest

/-- `SM2PrivateKey::decrypt_` (sm2.h 753-796). -/
def decryptBody (key : Priv) (C1 C3 C2 : List Byte) : Outcome (List Byte) :=
  match ecAFromBytes C1 C1.length with
  | .ub => .ub
  | .fail => .throw
  | .ok (a, outl) =>
    if outl ≠ C1.length ∨ C3.length ≠ C.DS then .throw
    else do
      let j ← Outcome.ofOption (jMulA key.priv a)
      let a ← Outcome.ofOption (jToA j)
      let x2y2 := toBytes04 a
      let o ← kdfXor C C2 x2y2
      match o with
      | none => .throw
      | some pt => do
        let buf ← C.stream [x2y2.take 32, pt, (x2y2.drop 32).take 32] []
        if buf.take C.DS ≠ C3.take C.DS then .throw else .ok pt

/-- `SM2PrivateKey::decrypt` (sm2.h 677-690). -/
def decrypt (key : Priv) (ct : List Byte) : Outcome (List Byte) := do
  let C2len ← plaintextLen C ct
  let C1len := ct.length - C2len - C.DS
  decryptBody C key (ct.take C1len) ((ct.drop C1len).take C.DS) ((ct.drop (C1len + C.DS)).take C2len)

end
end Verif.X64.Sm2
