import Mathlib.Logic.Function.Basic
import Verif.Model.GcmMem
import Verif.Spec.GcmHist
/-!
# Specification: what a program over several GCM objects does to the memory

An object is a message: the octets passed since it was begun, with those the message before it left over in front.
-/
namespace Verif.GcmMem
open Verif Spec.Modes Spec.Gcm Verif.Gcm

/-- Where an object is: between messages, `left` octets of the last one being left over, or inside a message. -/
inductive Phase where
  | idle (left : List Byte)
  | within (E : List Byte → List Byte) (iv aad X : List Byte)

/-- The octets the next message will have in front. -/
def Phase.left : Phase → List Byte
  | .idle l => l
  | .within _ _ _ X => tail 16 X

/-- The memory, each object's phase, the tag each encryptor has and each decryptor expects, the octets with which decryptors
fill up a last block, and the lengths reported so far. -/
structure GSpec where
  mem : Mem
  enc : Nat → Phase
  etag : Nat → Option (List Byte)
  dec : Nat → Phase
  dtag : Nat → Option (List Byte)
  pad : List Byte
  log : List (Nat × Bool)

/-- `n` octets at `i` are read and `l` at `o` written, `b` octets are pending, the message has then `t` octets: inside the
memory, apart or in place, and not longer than the encryptor allows. -/
def Fits (m : Mem) (o i n b l t : Nat) : Prop :=
  i + n ≤ m.length ∧ o + l ≤ m.length ∧ (i + n ≤ o ∨ o + l ≤ i ∨ o + b = i) ∧ t ≤ (2 ^ 64 - 1) / 8

instance (m : Mem) (o i n b l t : Nat) : Decidable (Fits m o i n b l t) :=
  inferInstanceAs (Decidable (_ ∧ _ ∧ (_ ∨ _ ∨ _) ∧ _))

/-- The message an `init` begins. -/
def begun (c : Cls) (m : Mem) (left : List Byte) (q p l a n : Nat) : Option Phase :=
  if q + c.keyLen ≤ m.length ∧ p + l ≤ m.length ∧ a + n ≤ m.length ∧ n ≤ (2 ^ 64 - 1) / 8 then
    some (.within (c.sched (rdm m q c.keyLen)) (rdm m p l) (rdm m a n) left)
  else none

/-- One step; `none` if the caller breaks a rule. -/
def GSpec.call (c : Cls) (s : GSpec) : Call → Option GSpec
  | .store p bs => if p + bs.length ≤ s.mem.length then some { s with mem := wrm s.mem p bs } else none
  | .encInit k q p l a n => (begun c s.mem (s.enc k).left q p l a n).map fun ph =>
      { s with enc := Function.update s.enc k ph, etag := Function.update s.etag k (some (List.replicate 16 0)) }
  | .encUpdate k o i n =>
    match s.enc k with
    | .within E iv aad X =>
      let Y := X ++ rdm s.mem i n
      let d := X.length / 16 * 16
      if Fits s.mem o i n (tail 16 X).length (Y.length / 16 * 16 - d) Y.length then
        some { s with
          mem := wrm s.mem o ((ciphertext E iv (whole 16 Y)).drop d)
          enc := Function.update s.enc k (.within E iv aad Y)
          log := s.log ++ [(Y.length / 16 * 16 - d, false)] }
      else none
    | _ => none
  | .encFinal k o i n =>
    match s.enc k with
    | .within E iv aad X =>
      let Y := X ++ rdm s.mem i n
      let d := X.length / 16 * 16
      if Fits s.mem o i n (tail 16 X).length (Y.length - d) Y.length then
        some { s with
          mem := wrm s.mem o ((ciphertext E iv Y).drop d)
          enc := Function.update s.enc k (.idle (tail 16 Y))
          etag := Function.update s.etag k (some (Spec.Gcm.tag E iv aad (ciphertext E iv Y)))
          log := s.log ++ [(Y.length - d, false)] }
      else none
    | _ => none
  | .getTag k p =>
    match s.etag k with
    | some t => if p + 16 ≤ s.mem.length then some { s with mem := wrm s.mem p t } else none
    | none => none
  | .decInit k q p l a n => (begun c s.mem (s.dec k).left q p l a n).map fun ph =>
      { s with dec := Function.update s.dec k ph }
  | .setTag k p => if p + 16 ≤ s.mem.length then
      some { s with dtag := Function.update s.dtag k (some (rdm s.mem p 16)) } else none
  | .decUpdate k o i n =>
    match s.dec k with
    | .within E iv aad X =>
      let Y := X ++ rdm s.mem i n
      let d := X.length / 16 * 16
      if Fits s.mem o i n (tail 16 X).length (Y.length / 16 * 16 - d) Y.length then
        some { s with
          mem := wrm s.mem o ((ciphertext E iv (whole 16 Y)).drop d)
          dec := Function.update s.dec k (.within E iv aad Y)
          log := s.log ++ [(Y.length / 16 * 16 - d, false)] }
      else none
    | _ => none
  | .decFinal k o i n =>
    match s.dec k, s.dtag k with
    | .within E iv aad X, some t =>
      let Y := X ++ rdm s.mem i n
      let d := X.length / 16 * 16
      if Fits s.mem o i n (tail 16 X).length (Y.length - d) Y.length then
        some { s with
          mem := wrm s.mem o ((ciphertext E iv Y).drop d)
          dec := Function.update s.dec k (.idle (tail 16 Y))
          pad := E (J0 E iv)
          log := s.log ++ [if tagWith E iv aad Y s.pad = t then (Y.length - d, false)
            else (Y.length / 16 * 16 - d, true)] }
      else none
    | _, _ => none

/-- A program. -/
def GSpec.run (c : Cls) : List Call → GSpec → Option GSpec
  | [], s => some s
  | x :: xs, s => (s.call c x).bind (GSpec.run c xs)

end Verif.GcmMem

namespace Verif.GcmMem
open Verif Spec.Modes Spec.Gcm Verif.Gcm

/-! What a user expects: nothing is left over from an earlier message, and the last block is filled up with zeros. -/

/-- The state a step should be made in. -/
def GSpec.alone (s : GSpec) : Call → GSpec
  | .encInit k _ _ _ _ _ => { s with enc := Function.update s.enc k (.idle []) }
  | .decInit k _ _ _ _ _ => { s with dec := Function.update s.dec k (.idle []) }
  | .decFinal _ _ _ _ => { s with pad := List.replicate 16 0 }
  | _ => s

/-- A program as the user expects it to run. -/
def GSpec.ideal (c : Cls) : List Call → GSpec → Option GSpec
  | [], s => some s
  | x :: xs, s => ((s.alone x).call c x).bind (GSpec.ideal c xs)

/-- The caller begins a message only when nothing of the last one is left over, and finishes decryptions at whole blocks. -/
def Tidy (s : GSpec) : Call → Prop
  | .encInit k _ _ _ _ _ => (s.enc k).left = []
  | .decInit k _ _ _ _ _ => (s.dec k).left = []
  | .decFinal k _ _ n => match s.dec k with
    | .within _ _ _ X => (X.length + n) % 16 = 0
    | _ => True
  | _ => True

/-- Every step of a program, as the user expects it to run, is tidy. -/
def TidyRun (c : Cls) : List Call → GSpec → Prop
  | [], _ => True
  | x :: xs, s => Tidy s x ∧ ∀ s', (s.alone x).call c x = some s' → TidyRun c xs s'

end Verif.GcmMem
