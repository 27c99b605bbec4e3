import Verif.Model.ModeHist
import Verif.Spec.Modes
import Verif.Spec.StreamCaller
/-! # Specification: what a history of messages on one mode object does -/
namespace Verif
open Spec.Modes

/-- The length of a message. -/
def ModeMsg.len (a : ModeMsg) : Nat := a.ns.sum + a.last.getD 0
/-- The message itself. -/
def ModeMsg.text (a : ModeMsg) : List Byte := rdm a.m a.i a.len

/-- The IV of a message. -/
def Begin.iv : Begin → List Byte
  | .init _ _ iv => iv
  | .reset iv => iv
/-- The key functions in force after the message is begun. -/
def Begin.key : Begin → (List Byte → List Byte) × (List Byte → List Byte) → (List Byte → List Byte) × (List Byte → List Byte)
  | .init E D _, _ => (E, D)
  | .reset _, k => k

/-- The whole blocks of a byte string, and what is left over. -/
def whole (b : Nat) (l : List Byte) : List Byte := l.take (l.length / b * b)
def tail (b : Nat) (l : List Byte) : List Byte := l.drop (l.length / b * b)

/-- The effect of processing the string `X` under IV `iv`, output at `o`: an abandoned message and one refused for not
consisting of whole blocks leave the output of their whole blocks. -/
def effect (E D : List Byte → List Byte) (b : Nat) (n : Name) (iv X : List Byte) (m : Mem) (o : Nat) (last : Option Nat) :
    Mem × Nat × Bool :=
  if last.isSome ∧ (wholeBlocks n = true → tail b X = []) then
    (wrm m o (out E D b iv n (blocks b X)).flatten, o + X.length, false)
  else (wrm m o (out E D b iv n (blocks b (whole b X))).flatten, o + X.length / b * b, last.isSome)

/-- What a user expects: each message is processed by itself. -/
def expected (b : Nat) (n : Name) : (List Byte → List Byte) × (List Byte → List Byte) → List ModeMsg → List (Mem × Nat × Bool)
  | _, [] => []
  | k, a :: as =>
    let k := a.begin.key k
    effect k.1 k.2 b n a.begin.iv a.text a.m a.o a.last :: expected b n k as

/-- The bytes in front of a message: what the previous message left over, unless `reset` dropped it. -/
def Begin.carry : Begin → List Byte → List Byte
  | .init _ _ _, buf => buf
  | .reset _, _ => []

/-- What the object does: a message begun with `init` is processed together with the bytes the previous one left over. -/
def actual (b : Nat) (n : Name) :
    (List Byte → List Byte) × (List Byte → List Byte) → List Byte → List ModeMsg → List (Mem × Nat × Bool)
  | _, _, [] => []
  | k, buf, a :: as =>
    let k := a.begin.key k
    let X := a.begin.carry buf ++ a.text
    effect k.1 k.2 b n a.begin.iv X a.m a.o a.last :: actual b n k (tail b X) as

/-- Keys are length-preserving on blocks, IVs are blocks, buffers are where `StreamPlaced` allows them. -/
def HistOk (ip : Bool) (b : Nat) : List Byte → List ModeMsg → Prop
  | _, [] => True
  | buf, a :: as => a.begin.iv.length = b ∧
    (∀ E D iv, a.begin = .init E D iv → (∀ x, x.length = b → (E x).length = b) ∧ (∀ x, x.length = b → (D x).length = b)) ∧
    StreamPlaced ip (a.begin.carry buf).length a.m a.o a.i a.ns (a.last.getD 0) ∧
    HistOk ip b (tail b (a.begin.carry buf ++ a.text)) as

end Verif
