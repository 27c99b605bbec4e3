import Verif.Spec.Num
/-!
# Specification: BER/DER identifier and length octets (X.690 8.1.2, 8.1.3, 10.1)
-/
namespace Verif.Spec.Der

/-- Bytes of the smallest big-endian representation of a positive number: `ds` has value `n` and no leading zero. -/
def Minimal (ds : List (BitVec 8)) (n : Nat) : Prop := beVal ds = n ∧ ds ≠ [] ∧ ds.head? ≠ some 0

/-- X.690 8.1.3.4, 8.1.3.5: definite-form length octets for `n`, short form or long form (not necessarily minimal),
with at most `maxOctets` subsequent octets. -/
inductive LenOctets (maxOctets : Nat) : List (BitVec 8) → Nat → Prop
  | short (b : BitVec 8) (h : b.toNat < 128) : LenOctets maxOctets [b] b.toNat
  | long (k : Nat) (ds : List (BitVec 8)) (h1 : 1 ≤ k) (h2 : k ≤ maxOctets) (h3 : ds.length = k) :
      LenOctets maxOctets (BitVec.ofNat 8 (128 + k) :: ds) (beVal ds)

/-- X.690 10.1 (DER): the short form below 128, otherwise the long form with the minimal number of octets. -/
inductive DerLen : List (BitVec 8) → Nat → Prop
  | short (n : Nat) (h : n < 128) : DerLen [BitVec.ofNat 8 n] n
  | long (n : Nat) (ds : List (BitVec 8)) (h : 128 ≤ n) (hm : Minimal ds n) :
      DerLen (BitVec.ofNat 8 (128 + ds.length) :: ds) n

/-- X.690 8.1.2: the identifier octet for a class (0..3), primitive/constructed bit and tag number below 31. -/
def identifier (cls : Fin 4) (constructed : Bool) (tag : Fin 31) : BitVec 8 :=
  BitVec.ofNat 8 (64 * cls + (if constructed then 32 else 0) + tag)

/-- A primitive or constructed universal TLV in DER. -/
def IsTlv (bs : List (BitVec 8)) (constructed : Bool) (tag : Fin 31) (v : List (BitVec 8)) : Prop :=
  ∃ l, DerLen l v.length ∧ bs = identifier 0 constructed tag :: l ++ v

/-- X.690 8.3: contents octets of a non-negative INTEGER in the minimal two's complement form. -/
def IsIntContents (v : List (BitVec 8)) (n : Nat) : Prop :=
  beVal v = n ∧ (∃ a t, v = a :: t ∧ a.toNat < 128 ∧ (a = 0 → ∀ b s, t = b :: s → 128 ≤ b.toNat))

end Verif.Spec.Der
