import Verif.Model.GcmHist
import Verif.Spec.Gcm
import Verif.Spec.ModeHist
/-! # Specification: what a history of messages on one GCM object does -/
namespace Verif.Gcm
open Spec.Modes Spec.Gcm

/-- The length of a message, and the message. -/
def GMsg.len (a : GMsg) : Nat := a.ns.sum + a.last.getD 0
def GMsg.text (a : GMsg) : List Byte := rdm a.m a.i a.len

/-- Encrypting the string `X`: SP 800-38D's ciphertext and tag; an abandoned message has the ciphertext of its whole blocks
and no tag (zeros). -/
def encEffect (a : GMsg) (X : List Byte) : Mem × Nat × List Byte :=
  if a.last.isSome then
    (wrm a.m a.o (ciphertext a.E a.iv X), a.o + X.length, Spec.Gcm.tag a.E a.iv a.aad (ciphertext a.E a.iv X))
  else (wrm a.m a.o (ciphertext a.E a.iv (whole 16 X)), a.o + (whole 16 X).length, List.replicate 16 0)

/-- What a user expects: each message is encrypted by itself. -/
def encExpected (as : List GMsg) : List (Mem × Nat × List Byte) := as.map fun a => encEffect a a.text

/-- What the object does: a message is encrypted together with what the previous one left over. -/
def encActual : List Byte → List GMsg → List (Mem × Nat × List Byte)
  | _, [] => []
  | buf, a :: as => encEffect a (buf ++ a.text) :: encActual (tail 16 (buf ++ a.text)) as

/-- The tag computed over a ciphertext whose last block is filled up with bytes of `pad`. -/
def tagWith (E : List Byte → List Byte) (iv aad ct pad : List Byte) : List Byte :=
  xorB (ghash (hashKey E) (pad16 aad ++ (ct ++ pad.take ((16 - ct.length % 16) % 16)) ++ len64 (8 * aad.length) ++
    len64 (8 * ct.length))) (E (J0 E iv))

/-- Decrypting the string `X` when the tag computed for it is `t`: the plaintext is written whether or not the tag is right. -/
def decEffect (a : GMsg) (X t : List Byte) : Mem × Nat × Bool :=
  if a.last.isSome then
    (wrm a.m a.o (ciphertext a.E a.iv X), a.o + (if t = a.tag then X.length else (whole 16 X).length), decide (t ≠ a.tag))
  else (wrm a.m a.o (ciphertext a.E a.iv (whole 16 X)), a.o + (whole 16 X).length, false)

/-- What a user expects: each message is decrypted by itself, and rejected if its tag is not SP 800-38D's. -/
def decExpected (as : List GMsg) : List (Mem × Nat × Bool) :=
  as.map fun a => decEffect a a.text (Spec.Gcm.tag a.E a.iv a.aad a.text)

/-- What the object does: the message has in front what the previous one left over; its last block is padded with the bytes
left behind by the last decryption that was finished, accepted or not. -/
def decActual : List Byte → List Byte → List GMsg → List (Mem × Nat × Bool)
  | _, _, [] => []
  | buf, pad, a :: as =>
    let X := buf ++ a.text
    decEffect a X (tagWith a.E a.iv a.aad X pad) ::
      decActual (tail 16 X) (if a.last.isSome then a.E (J0 a.E a.iv) else pad) as

/-- Keys map blocks to blocks, lengths are within the limit of the encryptor, buffers are where `StreamPlaced` allows them. -/
def GHistOk : List Byte → List GMsg → Prop
  | _, [] => True
  | buf, a :: as => (∀ x, x.length = 16 → (a.E x).length = 16) ∧ a.aad.length ≤ (2 ^ 64 - 1) / 8 ∧
    buf.length + a.len ≤ (2 ^ 64 - 1) / 8 ∧ StreamPlaced true buf.length a.m a.o a.i a.ns (a.last.getD 0) ∧
    GHistOk (tail 16 (buf ++ a.text)) as

end Verif.Gcm
