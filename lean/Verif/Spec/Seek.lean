import Mathlib.Logic.Function.Iterate
import Verif.Spec.Leak
/-!
# Specification: processing a message from its middle (C95)
-/
namespace Verif.Spec.Leak
open Verif.Spec.Modes

/-- The IV with which a mode, started at block `j`, does what it would have done there: the ciphertext block before for CBC
and CFB (`inp` or `outp`, whichever is the ciphertext), the counter for CTR, the iterated encryption of the IV for OFB. -/
def startIv (E : Bytes → Bytes) (b : Nat) (iv inp outp : Bytes) (j : Nat) : Name → Bytes
  | .ecbEnc | .ecbDec => iv
  | .cbcEnc | .cfbEnc => before b iv outp j
  | .cbcDec | .cfbDec => before b iv inp j
  | .ofb => E^[j] iv
  | .ctr => toBE b ((beVal iv + j) % 256 ^ b)

end Verif.Spec.Leak
