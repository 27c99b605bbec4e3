import Verif.Spec.Sm2Curve
import Verif.Spec.Num
/-! # Specification: octet-string encodings of curve points (GB/T 32918.1, 4.2.9) -/
namespace Verif.Spec

/-- 32 octets of a field element. -/
def fieldOctets (x : ZMod sm2p) : List (BitVec 8) := toBE 32 x.val

/-- Uncompressed form `04 ‖ x ‖ y`. -/
def encUncompressed (x y : ZMod sm2p) : List (BitVec 8) := 0x04 :: (fieldOctets x ++ fieldOctets y)
/-- Compressed form `02/03 ‖ x`, by the parity of `y`. -/
def encCompressed (x y : ZMod sm2p) : List (BitVec 8) :=
  (if y.val % 2 = 0 then 0x02 else 0x03) :: fieldOctets x
/-- Mixed form `06/07 ‖ x ‖ y`. -/
def encMixed (x y : ZMod sm2p) : List (BitVec 8) :=
  (if y.val % 2 = 0 then 0x06 else 0x07) :: (fieldOctets x ++ fieldOctets y)

end Verif.Spec
