import Verif.Model.Sm9
/-!
# Signing and verifying on the caller's buffers (include/gmlib/sm2/sm2.h, include/gmlib/sm9/sm9.h)

`Model/Sm2.lean` and `Model/Sm9.lean` give the octets that are computed.  Here message, identity and signature are places
in one memory `m` of the caller, which may overlap, and every read and store of it happens where the code has it.  The
octet arrays that the functions themselves declare are in a second memory `w`, since a local array does not overlap the
caller's; its octets are arbitrary at the start of a call.  In SM9 one array of 384 octets is used for the exponent, for
the element of the extension field, for the hash and for the scalar: these overlap.  Numbers, field elements and points
are variables of their own in the code and are values here.

A call returns both memories together with how it ended, so that what is in the buffers after an exception is part of the
result.  The value stored in `*outl` is a result here; it is not a place in the memory.
-/
namespace Verif.SignMem

/-- The caller's memory and the local octet arrays. -/
structure St where
  m : Mem
  w : Mem

/-- A part of a function: from the memories to the memories and how it ended. -/
def SM (α : Type) : Type := St → St × Outcome α

/-- One statement after another; an exception ends the function. -/
def SM.bind {α β : Type} (x : SM α) (f : α → SM β) : SM β := fun s =>
  match x s with
  | (s, .ok a) => f a s
  | (s, .throw) => (s, .throw)
  | (s, .ub) => (s, .ub)

instance : Monad SM where
  pure a := fun s => (s, .ok a)
  bind := SM.bind

/-- A computation on values. -/
def run {α : Type} (o : Outcome α) : SM α := fun s => (s, o)
/-- Read `n` octets of the caller's at `p`. -/
def rd (p n : Nat) : SM (List Byte) := fun s => (s, .ok (rdm s.m p n))
/-- Store octets in the caller's memory at `p`. -/
def wr (p : Nat) (bs : List Byte) : SM Unit := fun s => (⟨wrm s.m p bs, s.w⟩, .ok ())
/-- Read `n` octets of the local arrays at `p`. -/
def rdw (p n : Nat) : SM (List Byte) := fun s => (s, .ok (rdm s.w p n))
/-- Store octets in the local arrays at `p`. -/
def wrw (p : Nat) (bs : List Byte) : SM Unit := fun s => (⟨s.m, wrm s.w p bs⟩, .ok ())

section
variable {S : Type} (C : HashClass S)

/-! ## SM2 -/

/-- One pass of the loop of `sign_` (sm2.h 716-751).  `Z` is at 0 of the local arrays, `_k` behind it; `false` =
`goto retry`. -/
def sm2Pass (priv : List Byte) (sigR sigS : Nat) (rnd : List Byte) : SM Bool := do
  wrw C.DS rnd
  let kb ← rdw C.DS 32
  let k := (u256AddWord (Sm2.bnModNSub1 (u256FromBytes kb)) 1).1
  wrw C.DS (u256ToBytes k)
  let kb ← rdw C.DS 32
  let kG ← run (Outcome.ofOption (Sm2.jMulG kb))
  let a ← run (Outcome.ofOption (Sm2.jToA kG))
  let Z ← rdw 0 C.DS
  let e ← run (Outcome.ofOption (mont256FromBytesEx Sm2.fnCtx Z))
  let r := mont256Add Sm2.fnCtx e (Sm2.fnFromFp a.x)
  let kb ← rdw C.DS 32
  let k := mont256FromBytes Sm2.fnCtx kb
  let tmp := mont256Add Sm2.fnCtx r k
  if mont256EqualZero Sm2.fnCtx r || mont256EqualZero Sm2.fnCtx tmp then pure false
  else do
    let da := mont256FromBytes Sm2.fnCtx priv
    let s := mont256Add Sm2.fnCtx (mont256SetOne Sm2.fnCtx) da
    let s ← run (Outcome.ofOption (mont256Inv Sm2.fnCtx s))
    let tmp := mont256Mul Sm2.fnCtx r da
    let k := mont256Sub Sm2.fnCtx k tmp
    let s := mont256Mul Sm2.fnCtx s k
    if mont256EqualZero Sm2.fnCtx s then pure false
    else do
      wr sigR (mont256ToBytes Sm2.fnCtx r)
      wr sigS (mont256ToBytes Sm2.fnCtx s)
      pure true

/-- `goto retry` (sm2.h 714, 731, 745) over the successive answers of the generator; `false` = the answers ran out. -/
def sm2Loop (priv : List Byte) (sigR sigS : Nat) : List (List Byte) → SM Bool
  | [] => pure false
  | rnd :: rest => do
    let b ← sm2Pass C priv sigR sigS rnd
    if b then pure true else sm2Loop priv sigR sigS rest

/-- `SM2PrivateKey::sign_` (sm2.h 692-751). -/
def sm2SignAt (key : Sm2.Priv) (sigR sigS msg msgLen id idLen : Nat) (rnds : List (List Byte)) : SM Bool := do
  let i ← rd id idLen
  let Z ← run (Sm2.computeZ C i key.pub.x key.pub.y)
  wrw 0 (Z.take C.DS)
  let Z ← rdw 0 C.DS
  let t ← rd msg msgLen
  let e ← run (C.stream [Z, t] [])
  wrw 0 (e.take C.DS)
  sm2Loop C key.priv sigR sigS rnds

/-- `SM2PrivateKey::sign` (sm2.h 606-615). -/
def sm2Sign (key : Sm2.Priv) (sig msg msgLen id idLen : Nat) (rnds : List (List Byte)) : SM Bool :=
  sm2SignAt C key sig (sig + 32) msg msgLen id idLen rnds

/-! ## SM9 -/

/-- `sm9_Hn` (sm9_alg.h 9-43) to the local array at `h`: its arguments have been hashed before the store. -/
def hnTo (h : Nat) (Z1 Z2 : List Byte) (tag : Byte) : SM Unit := do
  let d ← run (Sm9.hn C Z1 Z2 tag)
  wrw h d

/-- One pass of the loop of `sign` (sm9.h 485-525).  `w_buf` and `r_buf` are at 0 of the local array, `h_buf` at 32, `l_buf`
at 64; the exponentiation gets everything that can be read from `r_buf` on.  The value stored in `*outl`; `none` =
`goto retry`. -/
def sm9Pass (key : Sm9.SPriv) (sig msg msgLen : Nat) (pc : Sm2.PC) (rnd : List Byte) : SM (Option Nat) := do
  wrw 0 rnd
  let rb ← rdw 0 32
  let r := (u256AddWord (Sm9.bnModNSub1 (u256FromBytes rb)) 1).1
  wrw 0 (u256ToBytes r)
  let rb ← rdw 0 384
  let w ← run (Outcome.ofOption (fp12Pow Sm9.fp key.pub.e rb))
  wrw 0 (Sm9.fp12ToBytes w)
  let t ← rd msg msgLen
  let wb ← rdw 0 384
  hnTo C 32 t wb 2
  let rf := u256ToMont Sm9.fnCtx r
  let hb ← rdw 32 32
  let hf := mont256FromBytes Sm9.fnCtx hb
  let l := mont256Sub Sm9.fnCtx rf hf
  if mont256EqualZero Sm9.fnCtx l then pure none
  else do
    wrw 64 (mont256ToBytes Sm9.fnCtx l)
    let lb ← rdw 64 32
    let P ← run (Outcome.ofOption (Sm9.jMulA lb key.priv))
    let P ← run (Outcome.ofOption (Sm9.jToA P))
    let hb ← rdw 32 32
    wr sig hb
    match pc with
    | .uncompressed => do
      wr (sig + 32) (Sm9.toUncompressed P)
      pure (some (32 + 65))
    | .compressed => do
      wr (sig + 32) (Sm9.toCompressed P)
      pure (some (32 + 33))
    | .mix => do
      wr (sig + 32) (Sm9.toMix P)
      pure (some (32 + 65))

/-- `SM9SignPrivateKey::sign` (sm9.h 469-526): `goto retry` over the successive answers of the generator. -/
def sm9Sign (key : Sm9.SPriv) (sig msg msgLen : Nat) (pc : Sm2.PC) : List (List Byte) → SM (Option Nat)
  | [] => pure none
  | rnd :: rest => do
    let o ← sm9Pass C key sig msg msgLen pc rnd
    match o with
    | some n => pure (some n)
    | none => sm9Sign key sig msg msgLen pc rest

/-- The body of `SM9SignMasterPublicKey::verify` (sm9.h 382-430): `w_buf` and `h_` are at 0 of the local array. -/
def sm9Verify (pub : Sm9.MPub) (sig sigLen msg msgLen id idLen : Nat) (hid : Byte) : SM Bool := do
  if sigLen < 32 then pure false
  else do
    let sb ← rd (sig + 32) (sigLen - 32)
    match Sm9.ecAFromBytes sb (sigLen - 32) with
    | .ub => run .ub
    | .fail => pure false
    | .ok (Sp, size) =>
      if size + 32 ≠ sigLen then pure false
      else do
        let hb ← rd sig sigLen
        let t ← run (Outcome.ofOption (fp12Pow Sm9.fp pub.e hb))
        let i ← rd id idLen
        hnTo C 0 i [hid] 1
        let hb ← rdw 0 32
        let T ← run (Outcome.ofOption (Sm9.j2MulG hb))
        let T := Sm9.j2AddA T pub.P
        let P ← run (Outcome.ofOption (Sm9.j2ToA T))
        let w ← run (Outcome.ofOption (Sm9.pairing Sp P))
        let w := fp12Mul Sm9.fp w t
        wrw 0 (Sm9.fp12ToBytes w)
        let x ← rd msg msgLen
        let wb ← rdw 0 384
        hnTo C 0 x wb 2
        let hb ← rdw 0 32
        let h ← rd sig 32
        pure (hb == h)

/-- `SM9SignMasterPrivateKey::gen_SignPrivateKey` (sm9.h 316-349): `t1_buf` and `t2_buf` are one array of 32 octets. -/
def sm9GenSignPriv (mk : Sm9.MPriv) (id idLen : Nat) (hid : Byte) : SM Sm9.SPriv := do
  let ks := mont256FromBytes Sm9.fnCtx mk.ks
  let i ← rd id idLen
  hnTo C 0 i [hid] 1
  let tb ← rdw 0 32
  let t1 := mont256FromBytes Sm9.fnCtx tb
  let t1 := mont256Add Sm9.fnCtx t1 ks
  if mont256EqualZero Sm9.fnCtx t1 then run .throw
  else do
    let t1 ← run (Outcome.ofOption (mont256Inv Sm9.fnCtx t1))
    let t1 := mont256Mul Sm9.fnCtx ks t1
    wrw 0 (mont256ToBytes Sm9.fnCtx t1)
    let tb ← rdw 0 32
    let t2P1 ← run (Outcome.ofOption (Sm9.jMulG tb))
    let priv ← run (Outcome.ofOption (Sm9.jToA t2P1))
    pure ⟨priv, mk.pub⟩

end
end Verif.SignMem
