import Verif.Model.SignMem
import Verif.Model.Sm9X64
/-!
# Signing and verifying on the caller's buffers in the build with 64-bit limbs

The same functions of sm2.h and sm9.h as in `Model/SignMem.lean`, over the arithmetic of the 64-bit build; memories and
statements are those of that file.
-/
namespace Verif.X64.SignMem
open Verif.SignMem (SM run rd wr rdw wrw)

section
variable {S : Type} (C : HashClass S)

/-! ## SM2 -/

/-- One pass of the loop of `sign_` (sm2.h 716-751).  `Z` is at 0 of the local arrays, `_k` behind it; `false` =
`goto retry`. -/
def sm2Pass (priv : List Byte) (sigR sigS : Nat) (rnd : List Byte) : SM Bool := do
  wrw C.DS rnd
  let kb ← rdw C.DS 32
  let k := (u256AddWord (Sm2.bnModNSub1 (u256FromBytes kb)) 1).1
  wrw C.DS (u256ToBytes k)
  let kb ← rdw C.DS 32
  let kG ← run (Outcome.ofOption (Sm2.jMulG kb))
  let a ← run (Outcome.ofOption (Sm2.jToA kG))
  let Z ← rdw 0 C.DS
  let e ← run (Outcome.ofOption (mont256FromBytesEx sm2FnCtx Z))
  let r := mont256Add sm2FnCtx e (Sm2.fnFromFp a.x)
  let kb ← rdw C.DS 32
  let k := mont256FromBytes sm2FnCtx kb
  let tmp := mont256Add sm2FnCtx r k
  if mont256EqualZero sm2FnCtx r || mont256EqualZero sm2FnCtx tmp then pure false
  else do
    let da := mont256FromBytes sm2FnCtx priv
    let s := mont256Add sm2FnCtx (mont256SetOne sm2FnCtx) da
    let s ← run (Outcome.ofOption (mont256Inv sm2FnCtx s))
    let tmp := mont256Mul sm2FnCtx r da
    let k := mont256Sub sm2FnCtx k tmp
    let s := mont256Mul sm2FnCtx s k
    if mont256EqualZero sm2FnCtx s then pure false
    else do
      wr sigR (mont256ToBytes sm2FnCtx r)
      wr sigS (mont256ToBytes sm2FnCtx s)
      pure true

/-- `goto retry` (sm2.h 714, 731, 745) over the successive answers of the generator; `false` = the answers ran out. -/
def sm2Loop (priv : List Byte) (sigR sigS : Nat) : List (List Byte) → SM Bool
  | [] => pure false
  | rnd :: rest => do
    let b ← sm2Pass C priv sigR sigS rnd
    if b then pure true else sm2Loop priv sigR sigS rest

/-- `SM2PrivateKey::sign_` (sm2.h 692-751). -/
def sm2SignAt (key : Sm2.Priv) (sigR sigS msg msgLen id idLen : Nat) (rnds : List (List Byte)) : SM Bool := do
  let i ← rd id idLen
  let Z ← run (Sm2.computeZ C i key.pub.x key.pub.y)
  wrw 0 (Z.take C.DS)
  let Z ← rdw 0 C.DS
  let t ← rd msg msgLen
  let e ← run (C.stream [Z, t] [])
  wrw 0 (e.take C.DS)
  sm2Loop C key.priv sigR sigS rnds

/-- `SM2PrivateKey::sign` (sm2.h 606-615). -/
def sm2Sign (key : Sm2.Priv) (sig msg msgLen id idLen : Nat) (rnds : List (List Byte)) : SM Bool :=
  sm2SignAt C key sig (sig + 32) msg msgLen id idLen rnds

/-! ## SM9 -/

/-- `sm9_Hn` (sm9_alg.h 9-43) to the local array at `h`: its arguments have been hashed before the store. -/
def hnTo (h : Nat) (Z1 Z2 : List Byte) (tag : Byte) : SM Unit := do
  let d ← run (Sm9.hn C Z1 Z2 tag)
  wrw h d

/-- One pass of the loop of `sign` (sm9.h 485-525).  `w_buf` and `r_buf` are at 0 of the local array, `h_buf` at 32, `l_buf`
at 64; the exponentiation gets everything that can be read from `r_buf` on.  The value stored in `*outl`; `none` =
`goto retry`. -/
def sm9Pass (key : Sm9.SPriv) (sig msg msgLen : Nat) (pc : Verif.Sm2.PC) (rnd : List Byte) : SM (Option Nat) := do
  wrw 0 rnd
  let rb ← rdw 0 32
  let r := (u256AddWord (Sm9.bnModNSub1 (u256FromBytes rb)) 1).1
  wrw 0 (u256ToBytes r)
  let rb ← rdw 0 384
  let w ← run (Outcome.ofOption (fp12Pow Sm9.fp key.pub.e rb))
  wrw 0 (Sm9.fp12ToBytes w)
  let t ← rd msg msgLen
  let wb ← rdw 0 384
  hnTo C 32 t wb 2
  let rf := u256ToMont sm9FnCtx r
  let hb ← rdw 32 32
  let hf := mont256FromBytes sm9FnCtx hb
  let l := mont256Sub sm9FnCtx rf hf
  if mont256EqualZero sm9FnCtx l then pure none
  else do
    wrw 64 (mont256ToBytes sm9FnCtx l)
    let lb ← rdw 64 32
    let P ← run (Outcome.ofOption (Sm9.jMulA lb key.priv))
    let P ← run (Outcome.ofOption (Sm9.jToA P))
    let hb ← rdw 32 32
    wr sig hb
    match pc with
    | .uncompressed => do
      wr (sig + 32) (Sm9.toUncompressed P)
      pure (some (32 + 65))
    | .compressed => do
      wr (sig + 32) (Sm9.toCompressed P)
      pure (some (32 + 33))
    | .mix => do
      wr (sig + 32) (Sm9.toMix P)
      pure (some (32 + 65))

/-- `SM9SignPrivateKey::sign` (sm9.h 469-526): `goto retry` over the successive answers of the generator. -/
def sm9Sign (key : Sm9.SPriv) (sig msg msgLen : Nat) (pc : Verif.Sm2.PC) : List (List Byte) → SM (Option Nat)
  | [] => pure none
  | rnd :: rest => do
    let o ← sm9Pass C key sig msg msgLen pc rnd
    match o with
    | some n => pure (some n)
    | none => sm9Sign key sig msg msgLen pc rest

/-- The body of `SM9SignMasterPublicKey::verify` (sm9.h 382-430): `w_buf` and `h_` are at 0 of the local array. -/
def sm9Verify (pub : Sm9.MPub) (sig sigLen msg msgLen id idLen : Nat) (hid : Byte) : SM Bool := do
  if sigLen < 32 then pure false
  else do
    let sb ← rd (sig + 32) (sigLen - 32)
    match Sm9.ecAFromBytes sb (sigLen - 32) with
    | .ub => run .ub
    | .fail => pure false
    | .ok (Sp, size) =>
      if size + 32 ≠ sigLen then pure false
      else do
        let hb ← rd sig sigLen
        let t ← run (Outcome.ofOption (fp12Pow Sm9.fp pub.e hb))
        let i ← rd id idLen
        hnTo C 0 i [hid] 1
        let hb ← rdw 0 32
        let T ← run (Outcome.ofOption (Sm9.j2MulG hb))
        let T := Sm9.j2AddA T pub.P
        let P ← run (Outcome.ofOption (Sm9.j2ToA T))
        let w ← run (Outcome.ofOption (Sm9.pairing Sp P))
        let w := fp12Mul Sm9.fp w t
        wrw 0 (Sm9.fp12ToBytes w)
        let x ← rd msg msgLen
        let wb ← rdw 0 384
        hnTo C 0 x wb 2
        let hb ← rdw 0 32
        let h ← rd sig 32
        pure (hb == h)

/-- `SM9SignMasterPrivateKey::gen_SignPrivateKey` (sm9.h 316-349): `t1_buf` and `t2_buf` are one array of 32 octets. -/
def sm9GenSignPriv (mk : Sm9.MPriv) (id idLen : Nat) (hid : Byte) : SM Sm9.SPriv := do
  let ks := mont256FromBytes sm9FnCtx mk.ks
  let i ← rd id idLen
  hnTo C 0 i [hid] 1
  let tb ← rdw 0 32
  let t1 := mont256FromBytes sm9FnCtx tb
  let t1 := mont256Add sm9FnCtx t1 ks
  if mont256EqualZero sm9FnCtx t1 then run .throw
  else do
    let t1 ← run (Outcome.ofOption (mont256Inv sm9FnCtx t1))
    let t1 := mont256Mul sm9FnCtx ks t1
    wrw 0 (mont256ToBytes sm9FnCtx t1)
    let tb ← rdw 0 32
    let t2P1 ← run (Outcome.ofOption (Sm9.jMulG tb))
    let priv ← run (Outcome.ofOption (Sm9.jToA t2P1))
    pure ⟨priv, mk.pub⟩

end
end Verif.X64.SignMem
