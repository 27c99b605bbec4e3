import Verif.Model.Sm2
import Verif.Model.Sm9
/-!
# Key objects and calls that change them (include/gmlib/sm2/sm2.h, include/gmlib/sm9/sm9.h)

`Model/Sm2.lean` and `Model/Sm9.lean` give the key that a setter computes.  Here the setters work on an existing object,
field by field in the order of the code, so that one sees what is left in the object when the call is ended by an
exception.  A default-constructed object has indeterminate fields: it is an arbitrary value of the structure.
-/
namespace Verif.KeyObj

/-- How a call ended. -/
inductive Ret where
  | done
  | thrown
  | ub
deriving DecidableEq, Repr

/-! ## SM2 -/

/-- `SM2PublicKey::set_pub` (sm2.h 352-366). -/
def sm2SetPub (o : Sm2.Pub) (x y : List Byte) : Sm2.Pub × Ret :=
  let T : Sm2.A := ⟨Sm2.fpFromBytes x, Sm2.fpFromBytes y⟩
  if !Sm2.ecCheck T then (o, .thrown)
  else
    let o := { o with P := T }
    let o := { o with x := x }
    let o := { o with y := y }
    (o, .done)

/-- The end of `gen_priv` and `set_priv` (sm2.h 562-569, 584-590): `priv_` is set, then the public key. -/
def sm2Store (o : Sm2.Priv) (d : List Byte) : Sm2.Priv × Ret :=
  let o := { o with priv := d }
  match Sm2.jMulG d with
  | none => (o, .ub)
  | some dG =>
    match Sm2.jToA dG with
    | none => (o, .ub)
    | some a =>
      let o := { o with pub := { o.pub with P := a } }
      let o := { o with pub := { o.pub with x := Sm2.fpToBytes a.x } }
      let o := { o with pub := { o.pub with y := Sm2.fpToBytes a.y } }
      (o, .done)

/-- `SM2PrivateKey::set_priv` (sm2.h 572-591). -/
def sm2SetPriv (o : Sm2.Priv) (key : List Byte) : Sm2.Priv × Ret :=
  let d := u256FromBytes key
  let t := Sm2.bnModNSub1 d
  if u256EqualZero d ∨ u256Cmp d t ≠ 0 then (o, .thrown) else sm2Store o key

/-- `SM2PrivateKey::gen_priv` (sm2.h 552-570); `none` is a generator that throws. -/
def sm2GenPriv (o : Sm2.Priv) (rnd : Option (List Byte)) : Sm2.Priv × Ret :=
  match rnd with
  | none => (o, .thrown)
  | some rnd =>
    let d := Sm2.bnModNSub1 (u256FromBytes rnd)
    let d := (u256AddWord d 1).1
    sm2Store o (u256ToBytes d)

/-- The calls that change an `SM2PrivateKey`; the constructors (sm2.h 540-550) are these calls on a default-constructed
object. -/
inductive PrivCall where
  | setPriv (key : List Byte)
  | genPriv (rnd : Option (List Byte))

def sm2Call (o : Sm2.Priv) : PrivCall → Sm2.Priv × Ret
  | .setPriv key => sm2SetPriv o key
  | .genPriv rnd => sm2GenPriv o rnd

/-! ## SM9 -/

/-- The end of `set_priv` and `gen_priv` of the master key (sm9.h 284-288, 308-313). -/
def sm9Store (o : Sm9.MPriv) (ks : List Byte) : Sm9.MPriv × Ret :=
  let o := { o with ks := ks }
  match Sm9.j2MulG ks with
  | none => (o, .ub)
  | some T =>
    match Sm9.j2ToA T with
    | none => (o, .ub)
    | some P =>
      let o := { o with pub := { o.pub with P := P } }
      match Sm9.pairingP1 P with
      | none => (o, .ub)
      | some e => ({ o with pub := { o.pub with e := e } }, .done)

/-- `SM9SignMasterPrivateKey::set_priv` (sm9.h 270-289). -/
def sm9SetPriv (o : Sm9.MPriv) (key : List Byte) : Sm9.MPriv × Ret :=
  let ks := u256FromBytes key
  let N := u256FromBytes Sm9.sm9CurveN
  if u256EqualZero ks ∨ u256Cmp ks N ≥ 0 then (o, .thrown) else sm9Store o key

/-- `SM9SignMasterPrivateKey::gen_priv` (sm9.h 298-314). -/
def sm9GenPriv (o : Sm9.MPriv) (rnd : Option (List Byte)) : Sm9.MPriv × Ret :=
  match rnd with
  | none => (o, .thrown)
  | some rnd => sm9Store o (Sm9.nonce rnd)

def sm9Call (o : Sm9.MPriv) : PrivCall → Sm9.MPriv × Ret
  | .setPriv key => sm9SetPriv o key
  | .genPriv rnd => sm9GenPriv o rnd

/-- `SM9SignMasterPublicKey::set_pub` (sm9.h 358-371). -/
def sm9SetPub (o : Sm9.MPub) (x y : List Byte) : Sm9.MPub × Ret :=
  let T : Sm9.A2 := ⟨Sm9.fp2FromBytes x, Sm9.fp2FromBytes y⟩
  if !Sm9.ec2Check T then (o, .thrown)
  else
    let o := { o with P := T }
    match Sm9.pairingP1 T with
    | none => (o, .ub)
    | some e => ({ o with e := e }, .done)

/-- `SM9SignPrivateKey::set_priv` (sm9.h 432-448): the private point is stored before the public key is looked at. -/
def sm9SetSignPriv (o : Sm9.SPriv) (privX privY pubX pubY : List Byte) : Sm9.SPriv × Ret :=
  let T : Sm9.A := ⟨Sm9.fpFromBytes privX, Sm9.fpFromBytes privY⟩
  if !Sm9.ecCheck T then (o, .thrown)
  else
    let o := { o with priv := T }
    let p := sm9SetPub o.pub pubX pubY
    ({ o with pub := p.1 }, p.2)

/-! ## Histories -/

/-- The object after a sequence of calls, and how each of them ended. -/
def run {σ α : Type} (call : σ → α → σ × Ret) : σ → List α → σ × List Ret
  | o, [] => (o, [])
  | o, c :: cs =>
    let r := call o c
    let p := run call r.1 cs
    (p.1, r.2 :: p.2)

end Verif.KeyObj
