import Verif.Model.ModeMem
import Verif.Spec.ModeHist
/-!
# Specification: what a program over several mode objects does to the memory

An object is a message: the octets passed since it was begun.  `update` writes the SP 800-38A output of the blocks that have
become whole, `do_final` the rest.
-/
namespace Verif.ModeMem
open Verif Spec.Modes

/-- Where an object is: between messages, having ended one that was whole blocks or not, or inside a message. -/
inductive Phase where
  | clean
  | ragged
  | within (iv X : List Byte)

/-- Whether octets of the last message are left over. -/
def Phase.left (b : Nat) : Phase → Prop
  | .clean => False
  | .ragged => True
  | .within _ X => tail b X ≠ []

instance (b : Nat) : (p : Phase) → Decidable (p.left b)
  | .clean => isFalse id
  | .ragged => isTrue trivial
  | .within _ X => inferInstanceAs (Decidable (tail b X ≠ []))

/-- The memory, each object's key and phase, and the lengths reported so far. -/
structure MSpec where
  mem : Mem
  key : Nat → Option ((List Byte → List Byte) × (List Byte → List Byte))
  ph : Nat → Phase
  log : List (Nat × Bool)

/-- How many octets of IV a message has: ECB has none. -/
def ivOctets (c : Cls) : Nat := if wholeBlocks c.name = true ∧ c.name ≠ .cbcEnc ∧ c.name ≠ .cbcDec then 0 else c.BS

/-- What SP 800-38A gives for the whole blocks of `X`, and for all of `X`. -/
def doneOut (c : Cls) (s : (List Byte → List Byte) × (List Byte → List Byte)) (iv X : List Byte) : List Byte :=
  (out s.1 s.2 c.BS iv c.name (blocks c.BS (whole c.BS X))).flatten
def allOut (c : Cls) (s : (List Byte → List Byte) × (List Byte → List Byte)) (iv X : List Byte) : List Byte :=
  (out s.1 s.2 c.BS iv c.name (blocks c.BS X)).flatten

/-- `n` octets at `i` are read and `l` at `o` written, `b` octets are pending: both inside the memory, and apart or in place
(but CBC decryption in place only if the cipher takes one block at a time). -/
def Fits (c : Cls) (m : Mem) (o i n b l : Nat) : Prop :=
  i + n ≤ m.length ∧ o + l ≤ m.length ∧ (i + n ≤ o ∨ o + l ≤ i ∨ ((c.name ≠ .cbcDec ∨ c.PAR = 1) ∧ o + b = i))

instance (c : Cls) (m : Mem) (o i n b l : Nat) : Decidable (Fits c m o i n b l) :=
  inferInstanceAs (Decidable (_ ∧ _ ∧ (_ ∨ _ ∨ (_ ∧ _))))

/-- One step; `none` if the caller breaks a rule. -/
def MSpec.call (c : Nat → Cls) (s : MSpec) : Call → Option MSpec
  | .store p bs => if p + bs.length ≤ s.mem.length then some { s with mem := wrm s.mem p bs } else none
  | .init k q p =>
    if q + (c k).keyLen ≤ s.mem.length ∧ p + ivOctets (c k) ≤ s.mem.length ∧ ¬ (s.ph k).left (c k).BS then
      some { s with
        key := Function.update s.key k (some ((c k).sched (rdm s.mem q (c k).keyLen)))
        ph := Function.update s.ph k (.within (rdm s.mem p (ivOctets (c k))) []) }
    else none
  | .reset k p =>
    if p + ivOctets (c k) ≤ s.mem.length then
      some { s with ph := Function.update s.ph k (.within (rdm s.mem p (ivOctets (c k))) []) }
    else none
  | .update k o i n =>
    match s.key k, s.ph k with
    | some f, .within iv X =>
      let b := (c k).BS
      let Y := X ++ rdm s.mem i n
      if Fits (c k) s.mem o i n (tail b X).length (Y.length / b * b - X.length / b * b) then
        some { s with
          mem := wrm s.mem o ((doneOut (c k) f iv Y).drop (X.length / b * b))
          ph := Function.update s.ph k (.within iv Y)
          log := s.log ++ [(Y.length / b * b - X.length / b * b, false)] }
      else none
    | _, _ => none
  | .final k o i n =>
    match s.key k, s.ph k with
    | some f, .within iv X =>
      let b := (c k).BS
      let Y := X ++ rdm s.mem i n
      if Fits (c k) s.mem o i n (tail b X).length (Y.length - X.length / b * b) then
        if wholeBlocks (c k).name = true ∧ tail b Y ≠ [] then
          some { s with
            mem := wrm s.mem o ((doneOut (c k) f iv Y).drop (X.length / b * b))
            ph := Function.update s.ph k .ragged
            log := s.log ++ [(Y.length / b * b - X.length / b * b, true)] }
        else
          some { s with
            mem := wrm s.mem o ((allOut (c k) f iv Y).drop (X.length / b * b))
            ph := Function.update s.ph k (if tail b Y = [] then .clean else .ragged)
            log := s.log ++ [(Y.length - X.length / b * b, false)] }
      else none
    | _, _ => none

/-- A program. -/
def MSpec.run (c : Nat → Cls) : List Call → MSpec → Option MSpec
  | [], s => some s
  | x :: xs, s => (s.call c x).bind (MSpec.run c xs)

end Verif.ModeMem
