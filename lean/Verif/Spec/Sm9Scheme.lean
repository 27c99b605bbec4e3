import Verif.Spec.Sm2Scheme
import Verif.Spec.Sm9Curve
import Verif.Model.Sm9
/-!
# Specification: SM9 signatures (GM/T 0044.2, GB/T 38635.2)

`H` is the hash function on octet strings, `v` the octet length of its digests.
-/
namespace Verif.Spec

section
variable (H : List (BitVec 8) → List (BitVec 8)) (v : Nat)

/-- `Ha`: the first 40 = 8·⌈5·log₂(N)/32⌉/8 octets of `H(tag ‖ Z ‖ 1) ‖ H(tag ‖ Z ‖ 2) ‖ ...` with 32-bit counters
(GM/T 0044.2, 5.4.2.2). -/
def sm9Ha (tag : BitVec 8) (Z : List (BitVec 8)) : List (BitVec 8) :=
  ((List.range ((40 + v - 1) / v)).flatMap fun i => H (tag :: (Z ++ toBE 4 (i + 1)))).take 40

/-- `H1` (tag 1) and `H2` (tag 2): `(Ha mod (N - 1)) + 1`. -/
def sm9H (tag : BitVec 8) (Z : List (BitVec 8)) : Nat := beVal (sm9Ha H v tag Z) % (sm9n - 1) + 1

end

section
variable {K : Type} [Field K] [Algebra (ZMod sm9p) K]

/-- The master public key object holds the point `Q` and the pairing value `g`. -/
def Sm9PubIs (w : K) (pub : Sm9.MPub) (Q : Sm9Point2 w) (g : K) : Prop :=
  Sm9IsAffine2 w pub.P Q ∧ All12 (Reduced sm9p) pub.e ∧ fp12Den w pub.e = g

/-- The pairing function of the library, applied to these two points, gives the element `g`. -/
def PairsTo (w : K) (P : Sm9.A) (Q : Sm9.A2) (g : K) : Prop :=
  ∃ r, Sm9.pairing P Q = some r ∧ All12 (Reduced sm9p) r ∧ fp12Den w r = g

/-- Neither of the two inversions in the final exponentiation of the pairing of these two points is one of the cases
`sm9_fp12_inv` gets wrong (C51): the value `f` of the Miller loop, and its power that the hard part inverts. -/
def PairRight (w : K) (P : Sm9.A) (Q : Sm9.A2) : Prop :=
  ∀ f, Sm9.miller P Q = some f → InvRight w f ∧
    ∀ h, All12 (Reduced sm9p) h →
      fp12Den w h = fp12Den w f ^ ((sm9p ^ 6 - 1) * (sm9p ^ 2 + 1) * 0x2400000000215d941) → InvRight w h

end

/-- The octet form of the point in a signature. -/
def sm9EncForm (pc : Sm2.PC) (x y : ZMod sm9p) : List (BitVec 8) :=
  match pc with
  | .uncompressed => 0x04 :: (toBE 32 x.val ++ toBE 32 y.val)
  | .compressed => (if y.val % 2 = 0 then 0x02 else 0x03) :: toBE 32 x.val
  | .mix => (if y.val % 2 = 0 then 0x06 else 0x07) :: (toBE 32 x.val ++ toBE 32 y.val)

end Verif.Spec
