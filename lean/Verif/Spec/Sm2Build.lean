import Verif.Model.Sm2X64
/-!
# Specification: what a caller of the SM2 classes observes

The public functions of `SM2PublicKey` and `SM2PrivateKey` as a record, the calls a program can make on a key object and
what each shows, so that two builds of the library can be compared call by call.
-/
namespace Verif.Spec

/-- The public functions of the two classes; the generator's answers are an argument of the functions that draw
random numbers. -/
structure Sm2Api (Pub Priv : Type) where
  setPub : List Byte → List Byte → Outcome Pub
  getPub : Pub → List Byte × List Byte
  verify : Pub → List Byte → List Byte → List Byte → Noexcept Bool
  encrypt : Pub → List Byte → Sm2.PC → List (List Byte) → Outcome (Option (List Byte))
  setPriv : List Byte → Outcome Priv
  genPriv : List Byte → Outcome Priv
  getPriv : Priv → List Byte
  pubOf : Priv → Pub
  sign : Priv → List Byte → List (List Byte) → List Byte → Outcome (Option (List Byte))
  decrypt : Priv → List Byte → Outcome (List Byte)

/-- Calls on a public key. -/
inductive PubCall where
  | getPub
  | verify (sig msg id : List Byte)
  | encrypt (pt : List Byte) (pc : Sm2.PC) (rnds : List (List Byte))

/-- Calls on a private key; it also answers the calls on its public key. -/
inductive PrivCall where
  | onPub (c : PubCall)
  | getPriv
  | sign (msg : List Byte) (rnds : List (List Byte)) (id : List Byte)
  | decrypt (ct : List Byte)

/-- The buffers have the sizes the declarations state: 64 octets of signature, 32 octets per random number. -/
def PubCall.Sized : PubCall → Prop
  | .getPub => True
  | .verify sig _ _ => sig.length = 64
  | .encrypt _ _ rnds => ∀ r ∈ rnds, r.length = 32

@[inherit_doc PubCall.Sized]
def PrivCall.Sized : PrivCall → Prop
  | .onPub c => c.Sized
  | .getPriv => True
  | .sign _ rnds _ => ∀ r ∈ rnds, r.length = 32
  | .decrypt _ => True

/-- What a call shows: octets, a verdict, a produced octet string (`none` while still retrying), a plaintext; each with
the possibility of an exception or of an undefined run. -/
inductive Sm2Obs where
  | octets (a b : List Byte)
  | verdict (v : Noexcept Bool)
  | produced (o : Outcome (Option (List Byte)))
  | plain (o : Outcome (List Byte))
deriving DecidableEq

section
variable {Pub Priv : Type} (B : Sm2Api Pub Priv)

/-- One call on a public key. -/
def Sm2Api.onPub (K : Pub) : PubCall → Sm2Obs
  | .getPub => .octets (B.getPub K).1 (B.getPub K).2
  | .verify sig msg id => .verdict (B.verify K sig msg id)
  | .encrypt pt pc rnds => .produced (B.encrypt K pt pc rnds)

/-- One call on a private key. -/
def Sm2Api.onPriv (K : Priv) : PrivCall → Sm2Obs
  | .onPub c => B.onPub (B.pubOf K) c
  | .getPriv => .octets (B.getPriv K) []
  | .sign msg rnds id => .produced (B.sign K msg rnds id)
  | .decrypt ct => .plain (B.decrypt K ct)

/-- Set a public key, then make the calls; an exception or undefined run of the setter ends the session. -/
def Sm2Api.pubSession (x y : List Byte) (calls : List PubCall) : Outcome (List Sm2Obs) := do
  let K ← B.setPub x y
  .ok (calls.map (B.onPub K))

/-- Set a private key, then make the calls. -/
def Sm2Api.privSession (d : List Byte) (calls : List PrivCall) : Outcome (List Sm2Obs) := do
  let K ← B.setPriv d
  .ok (calls.map (B.onPriv K))

/-- Generate a private key with the generator answering `rnd`, then make the calls. -/
def Sm2Api.genSession (rnd : List Byte) (calls : List PrivCall) : Outcome (List Sm2Obs) := do
  let K ← B.genPriv rnd
  .ok (calls.map (B.onPriv K))

end

/-- The portable build (Model/Sm2.lean) with hash class `C`. -/
def sm2Portable {S : Type} (C : HashClass S) : Sm2Api Sm2.Pub Sm2.Priv where
  setPub := Sm2.setPub
  getPub := Sm2.getPub
  verify := Sm2.verify C
  encrypt := Sm2.encrypt C
  setPriv := Sm2.setPriv
  genPriv := Sm2.genPriv
  getPriv := Sm2.getPriv
  pubOf := Sm2.Priv.pub
  sign := Sm2.sign C
  decrypt := Sm2.decrypt C

/-- The build with 64-bit limbs (Model/Sm2X64.lean) with hash class `C`. -/
def sm2X64 {S : Type} (C : HashClass S) : Sm2Api X64.Sm2.Pub X64.Sm2.Priv where
  setPub := X64.Sm2.setPub
  getPub := X64.Sm2.getPub
  verify := X64.Sm2.verify C
  encrypt := X64.Sm2.encrypt C
  setPriv := X64.Sm2.setPriv
  genPriv := X64.Sm2.genPriv
  getPriv := X64.Sm2.getPriv
  pubOf := X64.Sm2.Priv.pub
  sign := X64.Sm2.sign C
  decrypt := X64.Sm2.decrypt C

end Verif.Spec
