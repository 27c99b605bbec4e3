import Verif.Model.KeyObj
import Verif.Model.Sm2X64
import Verif.Model.Sm9X64
/-!
# Key objects and calls that change them in the configuration with 64-bit limbs (sm2.h, sm9.h)

The text of the setters is that of `Verif.Model.KeyObj`, compiled against the 64-bit arithmetic; again they work field by
field on an existing object.
-/
namespace Verif.X64.KeyObj
open Verif Verif.KeyObj

/-! ## SM2 -/

/-- `SM2PublicKey::set_pub` (sm2.h 352-366). -/
def sm2SetPub (o : X64.Sm2.Pub) (x y : List Byte) : X64.Sm2.Pub × Ret :=
  let T : X64.Sm2.A := ⟨X64.Sm2.fpFromBytes x, X64.Sm2.fpFromBytes y⟩
  if !X64.Sm2.ecCheck T then (o, .thrown)
  else
    let o := { o with P := T }
    let o := { o with x := x }
    let o := { o with y := y }
    (o, .done)

/-- The end of `gen_priv` and `set_priv` (sm2.h 562-569, 584-590): `priv_` is set, then the public key. -/
def sm2Store (o : X64.Sm2.Priv) (d : List Byte) : X64.Sm2.Priv × Ret :=
  let o := { o with priv := d }
  match X64.Sm2.jMulG d with
  | none => (o, .ub)
  | some dG =>
    match X64.Sm2.jToA dG with
    | none => (o, .ub)
    | some a =>
      let o := { o with pub := { o.pub with P := a } }
      let o := { o with pub := { o.pub with x := X64.Sm2.fpToBytes a.x } }
      let o := { o with pub := { o.pub with y := X64.Sm2.fpToBytes a.y } }
      (o, .done)

/-- `SM2PrivateKey::set_priv` (sm2.h 572-591). -/
def sm2SetPriv (o : X64.Sm2.Priv) (key : List Byte) : X64.Sm2.Priv × Ret :=
  let d := X64.u256FromBytes key
  let t := X64.Sm2.bnModNSub1 d
  if X64.u256EqualZero d ∨ X64.u256Cmp d t ≠ 0 then (o, .thrown) else sm2Store o key

/-- `SM2PrivateKey::gen_priv` (sm2.h 552-570); `none` is a generator that throws. -/
def sm2GenPriv (o : X64.Sm2.Priv) (rnd : Option (List Byte)) : X64.Sm2.Priv × Ret :=
  match rnd with
  | none => (o, .thrown)
  | some rnd =>
    let d := X64.Sm2.bnModNSub1 (X64.u256FromBytes rnd)
    let d := (X64.u256AddWord d 1).1
    sm2Store o (X64.u256ToBytes d)

/-- The calls of `Verif.KeyObj.PrivCall` on an `SM2PrivateKey` (sm2.h 552-591) and on an `SM9SignMasterPrivateKey` (sm9.h
270-314). -/
def sm2Call (o : X64.Sm2.Priv) : PrivCall → X64.Sm2.Priv × Ret
  | .setPriv key => sm2SetPriv o key
  | .genPriv rnd => sm2GenPriv o rnd

/-! ## SM9 -/

/-- The end of `set_priv` and `gen_priv` of the master key (sm9.h 284-288, 308-313). -/
def sm9Store (o : X64.Sm9.MPriv) (ks : List Byte) : X64.Sm9.MPriv × Ret :=
  let o := { o with ks := ks }
  match X64.Sm9.j2MulG ks with
  | none => (o, .ub)
  | some T =>
    match X64.Sm9.j2ToA T with
    | none => (o, .ub)
    | some P =>
      let o := { o with pub := { o.pub with P := P } }
      match X64.Sm9.pairingP1 P with
      | none => (o, .ub)
      | some e => ({ o with pub := { o.pub with e := e } }, .done)

/-- `SM9SignMasterPrivateKey::set_priv` (sm9.h 270-289). -/
def sm9SetPriv (o : X64.Sm9.MPriv) (key : List Byte) : X64.Sm9.MPriv × Ret :=
  let ks := X64.u256FromBytes key
  let N := X64.u256FromBytes Sm9.sm9CurveN
  if X64.u256EqualZero ks ∨ X64.u256Cmp ks N ≥ 0 then (o, .thrown) else sm9Store o key

/-- `SM9SignMasterPrivateKey::gen_priv` (sm9.h 298-314). -/
def sm9GenPriv (o : X64.Sm9.MPriv) (rnd : Option (List Byte)) : X64.Sm9.MPriv × Ret :=
  match rnd with
  | none => (o, .thrown)
  | some rnd => sm9Store o (X64.Sm9.nonce rnd)

def sm9Call (o : X64.Sm9.MPriv) : PrivCall → X64.Sm9.MPriv × Ret
  | .setPriv key => sm9SetPriv o key
  | .genPriv rnd => sm9GenPriv o rnd

/-- `SM9SignMasterPublicKey::set_pub` (sm9.h 358-371). -/
def sm9SetPub (o : X64.Sm9.MPub) (x y : List Byte) : X64.Sm9.MPub × Ret :=
  let T : X64.Sm9.A2 := ⟨X64.Sm9.fp2FromBytes x, X64.Sm9.fp2FromBytes y⟩
  if !X64.Sm9.ec2Check T then (o, .thrown)
  else
    let o := { o with P := T }
    match X64.Sm9.pairingP1 T with
    | none => (o, .ub)
    | some e => ({ o with e := e }, .done)

/-- `SM9SignPrivateKey::set_priv` (sm9.h 432-448): the private point is stored before the public key is looked at. -/
def sm9SetSignPriv (o : X64.Sm9.SPriv) (privX privY pubX pubY : List Byte) : X64.Sm9.SPriv × Ret :=
  let T : X64.Sm9.A := ⟨X64.Sm9.fpFromBytes privX, X64.Sm9.fpFromBytes privY⟩
  if !X64.Sm9.ecCheck T then (o, .thrown)
  else
    let o := { o with priv := T }
    let p := sm9SetPub o.pub pubX pubY
    ({ o with pub := p.1 }, p.2)

end Verif.X64.KeyObj
